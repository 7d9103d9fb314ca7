import Verif.Props.IoStream
import Verif.Spec.Decimal
import Mathlib.Analysis.Real.Pi.Bounds

/-!
# Property C139: how many digits of floats survive the text format

`operator<<` of vectors, matrices and quaternions writes the elements with the precision of the stream: the nearest number with that many significant digits.
`operator>>` reads the decimal number and rounds it to a float. What is read back depends on the number of digits; the default of streams is 6.
-/

namespace Mathter.Props
open Mathter

variable {fl : ℝ → ℝ} {P p : ℕ}

/-- The text of `x` denotes a nearest decimal number with `P` significant digits, and reading it gives this number, rounded. What `std::ostream` with the precision
`P` and `std::istream` do, in any notation. -/
def PrintsDigits (P : ℕ) (fl : ℝ → ℝ) (io : NumIO ℝ) (x : ℝ) : Prop := ∃ d, NearestDigits 10 P x d ∧ NumReads io x (fl d)

private theorem nearest_of_fl (hfl : RoundsToNearest p fl) (x : ℝ) : NearestDigits 2 p x (fl x) :=
  ⟨isDigits_two.2 (hfl.mem x), fun z hz => hfl.nearest x z (isDigits_two.1 hz)⟩

private theorem reads_exact (hp : 1 ≤ p) (hP : 1 ≤ P) (hpP : 2 ^ p < 10 ^ (P - 1)) (hfl : RoundsToNearest p fl) {io : NumIO ℝ} {x : ℝ} (hx : IsFloat p x)
    (h : PrintsDigits P fl io x) : NumReads io x x := by
  obtain ⟨d, hd, hr⟩ := h
  rwa [digits_round_trip (by norm_num) hp (by norm_num) hP hpP (isDigits_two.2 hx) hd (nearest_of_fl hfl d)] at hr

private theorem reads_near (hp : 1 ≤ p) (hP : 1 ≤ P) (hfl : RoundsToNearest p fl) {io : NumIO ℝ} {x : ℝ} (h : PrintsDigits P fl io x) {ε : ℝ}
    (hε : ε = (1 + (2 : ℝ) ^ (-(p : ℤ))) * (1 + 1 / (2 * 10 ^ (P - 1))) - 1) : ∃ y, NumReads io x y ∧ |y - x| ≤ ε * |x| := by
  obtain ⟨d, hd, hr⟩ := h
  refine ⟨fl d, hr, ?_⟩
  have k1 := (hfl.rounding hp).err d
  have k2 := hd.err (by norm_num) hP
  have k3 : |d - x| ≤ 1 / (2 * 10 ^ (P - 1)) * |x| := by
    rw [div_mul_eq_mul_div, le_div_iff₀ (by positivity)]
    push_cast at k2
    linarith
  have k4 : |d| ≤ |x| + |d - x| := by
    have := abs_add_le x (d - x)
    rwa [add_sub_cancel] at this
  have u0 : (0 : ℝ) ≤ (2 : ℝ) ^ (-(p : ℤ)) := by positivity
  have k5 := mul_le_mul_of_nonneg_left k4 u0
  have k6 := mul_le_mul_of_nonneg_left k3 u0
  have k7 := abs_add_le (fl d - d) (d - x)
  rw [sub_add_sub_cancel] at k7
  rw [hε]
  linarith

/-- C139: vectors of floats of `p` bits are read back exactly if they are printed with `P` digits and `2^p < 10^(P-1)`: 9 digits are enough for single, 17 for double
precision. Missing: the precision that streams have by default, see `C139_default_violated`. -/
theorem C139_vector_partial (hp : 1 ≤ p) (hP : 1 ≤ P) (hpP : 2 ^ p < 10 ^ (P - 1)) (hfl : RoundsToNearest p fl) (io : NumIO ℝ) {n : ℕ} (v old : Fin (n + 1) → ℝ)
    (hv : ∀ i, IsFloat p (v i)) (hio : ∀ i, PrintsDigits P fl io (v i)) (ws rest : List Char) (hws : IsWs ws) :
    parseArray (numElem io) old ⟨ws ++ printArray (numElem io) v ++ rest, true⟩ = .ok (v, ⟨rest, true⟩) :=
  C65_round_trip _ v v old (fun i => C65_scalars _ _ _ (reads_exact hp hP hpP hfl (hv i) (hio i))) ws rest hws

/-- C139 for matrices. -/
theorem C139_matrix_partial (hp : 1 ≤ p) (hP : 1 ≤ P) (hpP : 2 ^ p < 10 ^ (P - 1)) (hfl : RoundsToNearest p fl) (io : NumIO ℝ) (dflt : ℝ) {r c : ℕ}
    (m : Fin (r + 1) → Fin (c + 1) → ℝ) (hm : ∀ i j, IsFloat p (m i j)) (hio : ∀ i j, PrintsDigits P fl io (m i j)) (ws rest : List Char) (hws : IsWs ws) :
    parseMatrix (numElem io) dflt (r + 1) (c + 1) ⟨ws ++ printMatrix (numElem io) dflt m ++ rest, true⟩ = .ok (m, ⟨rest, true⟩) :=
  C66_round_trip _ _ m m (fun i j => C65_scalars _ _ _ (reads_exact hp hP hpP hfl (hm i j) (hio i j))) ws rest hws

/-- C139: with any number of digits, the elements that are read back are near the ones that were printed. -/
theorem C139_vector_near (hp : 1 ≤ p) (hP : 1 ≤ P) (hfl : RoundsToNearest p fl) (io : NumIO ℝ) {n : ℕ} (v old : Fin (n + 1) → ℝ)
    (hio : ∀ i, PrintsDigits P fl io (v i)) (ws rest : List Char) (hws : IsWs ws) :
    ∃ w, parseArray (numElem io) old ⟨ws ++ printArray (numElem io) v ++ rest, true⟩ = .ok (w, ⟨rest, true⟩) ∧
      ∀ i, |w i - v i| ≤ ((1 + (2 : ℝ) ^ (-(p : ℤ))) * (1 + 1 / (2 * 10 ^ (P - 1))) - 1) * |v i| := by
  choose w hw using fun i => reads_near hp hP hfl (hio i) rfl
  exact ⟨w, C65_round_trip _ v w old (fun i => C65_scalars _ _ _ (hw i).1) ws rest hws, fun i => (hw i).2⟩

/-- C139 for matrices with any number of digits. -/
theorem C139_matrix_near (hp : 1 ≤ p) (hP : 1 ≤ P) (hfl : RoundsToNearest p fl) (io : NumIO ℝ) (dflt : ℝ) {r c : ℕ} (m : Fin (r + 1) → Fin (c + 1) → ℝ)
    (hio : ∀ i j, PrintsDigits P fl io (m i j)) (ws rest : List Char) (hws : IsWs ws) :
    ∃ w, parseMatrix (numElem io) dflt (r + 1) (c + 1) ⟨ws ++ printMatrix (numElem io) dflt m ++ rest, true⟩ = .ok (w, ⟨rest, true⟩) ∧
      ∀ i j, |w i j - m i j| ≤ ((1 + (2 : ℝ) ^ (-(p : ℤ))) * (1 + 1 / (2 * 10 ^ (P - 1))) - 1) * |m i j| := by
  choose w hw using fun i j => reads_near hp hP hfl (hio i j) rfl
  exact ⟨w, C66_round_trip _ _ m w (fun i j => C65_scalars _ _ _ (hw i j).1) ws rest hws, fun i j => (hw i j).2⟩

/-- C139: a unit quaternion is printed as angle and axis; the one that is read back is near it. Only the digits of the text are rounded here, not the conversion
between quaternion, angle and axis. -/
theorem C139_quaternion_near (hp : 1 ≤ p) (hP : 1 ≤ P) (hfl : RoundsToNearest p fl) (io : NumIO ℝ) (dflt : ℝ) {l : QLayout} (q : Quat ℝ l) (hq : q.qLength = 1)
    (ha : PrintsDigits P fl io (rad2Deg q.angle)) (hu : ∀ i, PrintsDigits P fl io (q.axis i)) (rest : List Char) {ε : ℝ}
    (hε : ε = (1 + (2 : ℝ) ^ (-(p : ℤ))) * (1 + 1 / (2 * 10 ^ (P - 1))) - 1) :
    ∃ r : Quat ℝ l, parseQuat io dflt l ⟨printQuat io dflt q ++ rest, true⟩ = .ok (r, ⟨rest, true⟩) ∧
      |r.s - q.s| ≤ 3.2 * ε ∧ |r.i - q.i| ≤ 4.2 * ε ∧ |r.j - q.j| ≤ 4.2 * ε ∧ |r.k - q.k| ≤ 4.2 * ε := by
  obtain ⟨a, har, had⟩ := reads_near hp hP hfl ha hε
  choose u hu using fun i => reads_near hp hP hfl (hu i) hε
  obtain ⟨hrec, hlen, a0, a1⟩ := C50_reconstruct q hq
  refine ⟨_, C68_text io dflt q a u har (fun i => (hu i).1) rest, ?_⟩
  have hε0 : 0 ≤ ε := by
    have : (0 : ℝ) ≤ (2 : ℝ) ^ (-(p : ℤ)) := by positivity
    have h2 : (0 : ℝ) ≤ 1 / (2 * 10 ^ (P - 1)) := by positivity
    rw [hε]; nlinarith
  have hpi := Real.pi_pos
  have hpi2 := Real.pi_lt_d2
  -- half the angle
  have hh : |deg2Rad a / 2 - q.angle / 2| ≤ 3.15 * ε := by
    have e : deg2Rad a / 2 - q.angle / 2 = (a - rad2Deg q.angle) * (Real.pi / 360) := by
      rw [deg2Rad, rad2Deg]; field_simp; ring
    have e2 : |rad2Deg q.angle| ≤ 360 := by
      rw [rad2Deg, abs_of_nonneg (by positivity), div_mul_eq_mul_div, div_le_iff₀ hpi]; linarith
    rw [e, abs_mul, abs_of_pos (show 0 < Real.pi / 360 by positivity)]
    have k1 := had.trans (mul_le_mul_of_nonneg_left e2 hε0)
    have k2 := mul_le_mul_of_nonneg_right k1 (show 0 ≤ Real.pi / 360 by positivity)
    have k3 := mul_le_mul_of_nonneg_left hpi2.le hε0
    linarith
  have hc : |Real.cos (deg2Rad a / 2) - Real.cos (q.angle / 2)| ≤ 3.15 * ε := (Real.abs_cos_sub_cos_le _ _).trans hh
  have hs : |Real.sin (deg2Rad a / 2) - Real.sin (q.angle / 2)| ≤ 3.15 * ε := (Real.abs_sin_sub_sin_le _ _).trans hh
  have hax : ∀ i, |q.axis i| ≤ 1 := fun i => by
    rw [Quat.length_fin3, Real.sqrt_eq_one] at hlen
    rw [← sq_le_one_iff_abs_le_one]
    have h0 := sq_nonneg (q.axis 0)
    have h1 := sq_nonneg (q.axis 1)
    have h2 := sq_nonneg (q.axis 2)
    match i with
    | 0 => linarith
    | 1 => linarith
    | 2 => linarith
  have hv : ∀ i, |Real.sin (deg2Rad a / 2) * u i - Real.sin (q.angle / 2) * q.axis i| ≤ 4.2 * ε := fun i => by
    have e : Real.sin (deg2Rad a / 2) * u i - Real.sin (q.angle / 2) * q.axis i =
        Real.sin (deg2Rad a / 2) * (u i - q.axis i) + (Real.sin (deg2Rad a / 2) - Real.sin (q.angle / 2)) * q.axis i := by ring
    rw [e]
    refine (abs_add_le _ _).trans ?_
    rw [abs_mul, abs_mul]
    have k1 := mul_le_mul (Real.abs_sin_le_one (deg2Rad a / 2)) ((hu i).2.trans (mul_le_mul_of_nonneg_left (hax i) hε0)) (abs_nonneg _) zero_le_one
    have k2 := mul_le_mul hs (hax i) (abs_nonneg _) (by positivity)
    linarith
  rw [← hrec]
  simp only [rotationQuatAxisAngle, Quat.s_ofParts, Quat.i_ofParts, Quat.j_ofParts, Quat.k_ofParts]
  exact ⟨hc.trans (by linarith), hv 0, hv 1, hv 2⟩

/-- C139 the other way round: a decimal number with `P` digits that is read and printed with `P` digits is unchanged if `10^P < 2^(p-1)`: 6 digits in single, 15 digits
in double precision. -/
theorem C139_digits_kept (hp : 1 ≤ p) (hP : 1 ≤ P) (hpP : 10 ^ P < 2 ^ (p - 1)) (hfl : RoundsToNearest p fl) {d d' : ℝ} (hd : IsDigits 10 P d)
    (hd' : NearestDigits 10 P (fl d) d') : d' = d :=
  digits_round_trip (by norm_num) hP (by norm_num) hp hpP hd (nearest_of_fl hfl d) hd'

/-- C139 is violated with the default precision of streams: a vector of floats with all elements 16777201 is read back with all elements 16777200, in single and in
every higher precision. -/
theorem C139_default_violated (hp : 24 ≤ p) (hfl : RoundsToNearest p fl) (io : NumIO ℝ) {n : ℕ} (old : Fin (n + 1) → ℝ) (hio : PrintsDigits 6 fl io 16777201)
    (ws rest : List Char) (hws : IsWs ws) :
    IsFloat p 16777201 ∧ parseArray (numElem io) old ⟨ws ++ printArray (numElem io) (fun _ : Fin (n + 1) => (16777201 : ℝ)) ++ rest, true⟩ =
      .ok (fun _ => 16777200, ⟨rest, true⟩) := by
  have h24 : (2 : ℤ) ^ 24 ≤ 2 ^ p := pow_le_pow_right₀ (by norm_num) hp
  refine ⟨⟨16777201, 0, by norm_num, lt_of_lt_of_le (by norm_num) h24⟩, ?_⟩
  obtain ⟨d, hd, hr⟩ := hio
  have hz : IsDigits 10 6 16777200 := ⟨167772, 2, by norm_num, by norm_num⟩
  have hd1 := hd.2 _ hz
  have hde : d = 16777200 := by
    by_contra hne
    have k1 := digits_gap (by norm_num) (by norm_num) hz hd.1 hne
    have k2 := abs_add_le (d - 16777201) 1
    rw [show d - 16777201 + 1 = d - 16777200 by ring] at k2
    norm_num at k1 hd1 k2
    linarith
  have hfx : fl 16777200 = 16777200 := by
    have := hfl.nearest 16777200 16777200 ⟨16777200, 0, by norm_num, lt_of_lt_of_le (by norm_num) h24⟩
    rw [sub_self, abs_zero] at this
    exact sub_eq_zero.1 (abs_nonpos_iff.1 this)
  rw [hde, hfx] at hr
  exact C65_round_trip _ _ (fun _ => 16777200) old (fun i => C65_scalars _ _ _ hr) ws rest hws

/-! ## The hypotheses are met -/

private theorem exists_decimal (P : ℕ) (x : ℝ) : ∃ me : ℤ × ℤ, NearestDigits 10 (P + 1) x (me.1 * (10 : ℝ) ^ me.2) := by
  obtain ⟨y, hy, -⟩ := exists_nearestDigits (β := 10) (p := P + 1) (by norm_num) (by omega) x
  obtain ⟨m, e, rfl, -⟩ := hy.1
  exact ⟨(m, e), by simpa using hy⟩

/-- The significand and the exponent of a nearest decimal number with `P + 1` digits. -/
noncomputable def decimalOf (P : ℕ) (x : ℝ) : ℤ × ℤ := (exists_decimal P x).choose

/-- A text format with `P + 1` significant digits: significand, `e`, exponent. -/
noncomputable def decimalIO (P : ℕ) (fl : ℝ → ℝ) : NumIO ℝ where
  put x := intIO.put (decimalOf P x).1 ++ 'e' :: intIO.put (decimalOf P x).2
  get s :=
    let m := (intIO.get (s.takeWhile (· ≠ 'e'))).1
    let r := intIO.get ((s.dropWhile (· ≠ 'e')).drop 1)
    (fl (m * (10 : ℝ) ^ r.1), r.2.1, r.2.2)

/-- The format prints digits as the theorems require, every real number with any number of digits. -/
theorem decimalIO_prints (P : ℕ) (fl : ℝ → ℝ) (x : ℝ) : PrintsDigits (P + 1) fl (decimalIO P fl) x := by
  refine ⟨_, (exists_decimal P x).choose_spec, ?_⟩
  change NumReads (decimalIO P fl) x (fl ((decimalOf P x).1 * (10 : ℝ) ^ (decimalOf P x).2))
  rcases hme : decimalOf P x with ⟨m, e⟩
  have hm := intIO_reads m
  have he := intIO_reads e
  have hne : ∀ c ∈ intIO.put m, c ≠ 'e' := fun c hc => by
    have hdig : ∀ c ∈ natText m.natAbs, c ≠ 'e' := fun c hc => by
      have := ((natText_spec m.natAbs).2.1 c hc).1
      rintro rfl; revert this; decide
    simp only [intIO] at hc
    split at hc
    · rcases List.mem_cons.1 hc with rfl | h
      · decide
      · exact hdig c h
    · exact hdig c hc
  have hput : (decimalIO P fl).put x = intIO.put m ++ 'e' :: intIO.put e := by simp [decimalIO, hme]
  refine ⟨by rw [hput]; simp, fun c hc => ?_, fun rest hrest => ?_⟩
  · rw [hput] at hc
    rcases List.mem_append.1 hc with h | h
    · exact hm.2.1 c h
    · rcases List.mem_cons.1 h with rfl | h
      · refine ⟨by decide, by decide, by decide, by decide, by decide⟩
      · exact he.2.1 c h
  · rw [hput]
    have t : (intIO.put m ++ 'e' :: intIO.put e ++ rest).takeWhile (fun c => decide (c ≠ 'e')) = intIO.put m := by
      rw [List.append_assoc, List.takeWhile_append_of_pos fun c hc => by simpa using hne c hc]; simp
    have dr : (intIO.put m ++ 'e' :: intIO.put e ++ rest).dropWhile (fun c => decide (c ≠ 'e')) = 'e' :: (intIO.put e ++ rest) := by
      rw [List.append_assoc, List.dropWhile_append_of_pos fun c hc => by simpa using hne c hc]; simp
    have gm := hm.2.2 [] (by simp)
    rw [List.append_nil] at gm
    simp only [decimalIO, t, dr, List.drop_succ_cons, List.drop_zero, gm, he.2.2 rest hrest]

/-- Single precision needs 9 digits, double precision 17; 6 and 15 digits of texts are kept. -/
example : 2 ^ 24 < 10 ^ (9 - 1) ∧ 2 ^ 53 < 10 ^ (17 - 1) ∧ 10 ^ 6 < 2 ^ (24 - 1) ∧ 10 ^ 15 < 2 ^ (53 - 1) := by norm_num

/-- A vector of two floats is read back with nine digits, and is not with six. -/
example (hfl : RoundsToNearest 24 fl) :
    parseArray (numElem (decimalIO 8 fl)) 0 ⟨[] ++ printArray (numElem (decimalIO 8 fl)) ![16777201, 1 / 4] ++ [], true⟩ = .ok (![16777201, 1 / 4], ⟨[], true⟩) ∧
      parseArray (numElem (decimalIO 5 fl)) 0 ⟨[] ++ printArray (numElem (decimalIO 5 fl)) (fun _ : Fin 2 => (16777201 : ℝ)) ++ [], true⟩ =
        .ok ((fun _ : Fin 2 => 16777200), ⟨[], true⟩) := by
  refine ⟨C139_vector_partial (P := 9) (by norm_num) (by norm_num) (by norm_num) hfl _ _ _ (fun i => ?_) (fun i => decimalIO_prints 8 fl _) [] [] (by simp [IsWs]),
    (C139_default_violated (by norm_num) hfl _ _ (decimalIO_prints 5 fl _) [] [] (by simp [IsWs])).2⟩
  fin_cases i
  · exact ⟨16777201, 0, by norm_num, by norm_num⟩
  · exact ⟨1, -2, by norm_num, by norm_num⟩

end Mathter.Props
