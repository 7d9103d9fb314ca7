import Verif.Lemmas.RoundedArea
import Verif.Props.Geometry

/-!
# Property C132: rounding errors of the area and of the centroid of a triangle
-/

namespace Mathter.Props
open Mathter

variable {n : ℕ} {fl : ℝ → ℝ} {u : ℝ}

/-- C132 for triangles that are not needles: if the half perimeter `S` exceeds every side by at least `μ S`, with `μ` large compared with the rounding errors,
then the area is a number, and its relative error is at most `15/μ` times the accumulated rounding error of the lengths. Missing: thin triangles, see
`C132_area_violated`. -/
theorem C132_area_partial (h : Rounding fl u) (c : Cfg) (pk : Bool) {lo hi : ℝ} (hlo : 0 < lo) (hh : lo ≤ hi) (conv : Bool)
    (tb : RTree (batchSize (n + 1) false)) (ts : RTree (n + 1 + 1)) (htb : tb.Valid) (hts : ts.Valid) (tr : GTriangle (n + 1)) {S μ : ℝ} (hμ : 0 < μ)
    (hμ1 : μ ≤ 1)    (hS : S = (norm2 (tr.a - tr.b) + norm2 (tr.a - tr.c) + norm2 (tr.b - tr.c)) / 2) (h0 : norm2 (tr.a - tr.b) + μ * S ≤ S)
    (h1 : norm2 (tr.a - tr.c) + μ * S ≤ S) (h2 : norm2 (tr.b - tr.c) + μ * S ≤ S) (hg : (1 + u) ^ (n + 8) - 1 ≤ μ / 1000) :
    ∃ r, Fl.triangleArea fl (Fl.lengthPrecise c pk fl lo hi conv tb ts) tr = some r ∧
      |r - Real.sqrt (gram (tr.b - tr.a) (tr.c - tr.a)) / 2| ≤
        15 * (((1 + u) ^ (n + 8) - 1) / μ) * (Real.sqrt (gram (tr.b - tr.a) (tr.c - tr.a)) / 2) := by
  have hu := h.u_nonneg
  have hl := Fl.lengthPrecise_err h c pk hlo hh conv tb ts htb hts
  have n0 := norm2_nonneg (tr.a - tr.b)
  have n1 := norm2_nonneg (tr.a - tr.c)
  have n2 := norm2_nonneg (tr.b - tr.c)
  have hA := C61_area 1 1 one_pos le_rfl tr
  rw [GTriangle.area] at hA
  simp only [C14_length_precise 1 1 one_pos le_rfl] at hA
  have hln : ∀ y : Fin (n + 1) → ℝ, length y = norm2 y := fun y => by
    unfold Mathter.length norm2
    rw [lengthSquared_eq_sum]
    simp
  simp only [hln] at hA
  rw [← hA]
  have l0 := Fl.len_sub h hl tr.a tr.b
  have l1 := Fl.len_sub h hl tr.a tr.c
  have l2 := Fl.len_sub h hl tr.b tr.c
  have hp := Fl.half_perimeter h n0 n1 n2 l0 l1 l2
  unfold Fl.triangleArea
  dsimp only
  generalize Fl.lengthPrecise c pk fl lo hi conv tb ts (fun i => fl (tr.a i - tr.b i)) = x0 at *
  generalize Fl.lengthPrecise c pk fl lo hi conv tb ts (fun i => fl (tr.a i - tr.c i)) = x1 at *
  generalize Fl.lengthPrecise c pk fl lo hi conv tb ts (fun i => fl (tr.b i - tr.c i)) = x2 at *
  generalize norm2 (tr.a - tr.b) = L0 at *
  generalize norm2 (tr.a - tr.c) = L1 at *
  generalize norm2 (tr.b - tr.c) = L2 at *
  clear hA hln hl
  have eS : 1 / 2 * (L0 + L1 + L2) = S := by rw [hS]; ring
  rw [eS] at hp ⊢
  generalize fl (1 / 2 * fl (fl (x0 + x1) + x2)) = s at *
  have hS0 : 0 ≤ S := by rw [hS]; linarith
  have g1 : (1 + u) ^ (n + 4 + 1) ≤ (1 + u) ^ (n + 8) := pow_le_pow_right₀ (by linarith) (by omega)
  have g2 : (1 + u) ^ (n + 4 + 1 + 3) = (1 + u) ^ (n + 8) := rfl
  have g3 : 1 + u ≤ (1 + u) ^ (n + 8) := le_self_pow₀ (by linarith) (by omega)
  rw [g2] at hp
  obtain ⟨γ, hγ⟩ : ∃ γ, (1 + u) ^ (n + 8) - 1 = γ := ⟨_, rfl⟩
  rw [hγ] at hp hg ⊢
  have hγ0 : 0 ≤ γ := by linarith
  -- the unit of error
  have hw : u ≤ γ / μ := by
    rw [le_div_iff₀ hμ]; nlinarith
  have hr := Fl.Rounding.weaken h hw
  have hw2 : γ / μ ≤ 1 / 1000 := by rw [div_le_iff₀ hμ]; linarith
  have hw0 : 0 ≤ γ / μ := by positivity
  have hγw : γ ≤ γ / μ := by rw [le_div_iff₀ hμ]; nlinarith
  have rs : Fl.Rel (γ / μ) 1 s S := by
    unfold Fl.Rel
    rw [one_mul, abs_of_nonneg hS0]
    exact hp.trans (mul_le_mul_of_nonneg_right hγw hS0)
  have diff : ∀ {x L : ℝ}, 0 ≤ L → |x - L| ≤ ((1 + u) ^ (n + 4 + 1) - 1) * L → L + μ * S ≤ S → Fl.Rel (γ / μ) 2 (s - x) (S - L) := by
    intro x L hL0 hx hLS
    unfold Fl.Rel
    have hμS := mul_nonneg hμ.le hS0
    have hD : μ * S ≤ S - L := by linarith
    rw [abs_of_nonneg (by linarith : 0 ≤ S - L)]
    have t := abs_sub (s - S) (x - L)
    rw [show s - S - (x - L) = s - x - (S - L) by ring] at t
    have k1 : |x - L| ≤ γ * S := hx.trans (mul_le_mul (by linarith) (by linarith) hL0 hγ0)
    have k2 : 2 * (γ / μ) * (μ * S) ≤ 2 * (γ / μ) * (S - L) := mul_le_mul_of_nonneg_left hD (by positivity)
    rw [show 2 * (γ / μ) * (μ * S) = 2 * (γ * S) by field_simp] at k2
    linarith
  have d0 := mul_nonneg hμ.le hS0
  obtain ⟨q0, qe⟩ := Fl.heron_err hr hw2 hS0 (by linarith : 0 ≤ S - L0) (by linarith : 0 ≤ S - L1) (by linarith : 0 ≤ S - L2) rs (diff n0 l0 h0) (diff n1 l1 h1)
    (diff n2 l2 h2)
  rw [if_neg (not_lt.2 q0)]
  refine ⟨_, rfl, ?_⟩
  unfold Fl.Rel at qe
  rwa [abs_of_nonneg (Real.sqrt_nonneg (S * (S - L0) * (S - L1) * (S - L2)))] at qe

/-- An equilateral triangle in single precision, in three dimensions. -/
example : ∃ (tr : GTriangle 3) (S : ℝ), S = (norm2 (tr.a - tr.b) + norm2 (tr.a - tr.c) + norm2 (tr.b - tr.c)) / 2 ∧ 0 < S ∧
    norm2 (tr.a - tr.b) + 1 / 3 * S ≤ S ∧ norm2 (tr.a - tr.c) + 1 / 3 * S ≤ S ∧ norm2 (tr.b - tr.c) + 1 / 3 * S ≤ S ∧
    (1 + (2 : ℝ) ^ (-(24 : ℤ))) ^ (2 + 8) - 1 ≤ 1 / 3 / 1000 ∧ Rounding (flAway 24) ((2 : ℝ) ^ (-(24 : ℤ))) := by
  have hs : (0 : ℝ) < Real.sqrt 2 := Real.sqrt_pos.2 (by norm_num)
  refine ⟨⟨![1, 0, 0], ![0, 1, 0], ![0, 0, 1]⟩, 3 * Real.sqrt 2 / 2, ?_⟩
  have e0 : norm2 ((![1, 0, 0] : Fin 3 → ℝ) - ![0, 1, 0]) = Real.sqrt 2 := by unfold norm2; congr 1; simp [Fin.sum_univ_three]; norm_num
  have e1 : norm2 ((![1, 0, 0] : Fin 3 → ℝ) - ![0, 0, 1]) = Real.sqrt 2 := by unfold norm2; congr 1; simp [Fin.sum_univ_three]; norm_num
  have e2 : norm2 ((![0, 1, 0] : Fin 3 → ℝ) - ![0, 0, 1]) = Real.sqrt 2 := by unfold norm2; congr 1; simp [Fin.sum_univ_three]; norm_num
  dsimp only
  rw [e0, e1, e2]
  refine ⟨by ring, by positivity, by linarith, by linarith, by linarith, by norm_num, (flAway_roundsToNearest (by norm_num)).rounding (by norm_num)⟩

/-- A triangle with a base of about `2^24` and a height of `1/64`. -/
noncomputable def thinTriangle : GTriangle 2 := ⟨![-16777183, 0], ![3 / 8, 1 / 64], ![977 / 8, 0]⟩

/-- C132 is violated: the area of `thinTriangle`, whose corners are single-precision floats and whose area is more than 131072, is NaN, for every rounding to
nearest and every order of the reductions: the rounded half perimeter is less than the longest side. -/
theorem C132_area_violated (hfl : RoundsToNearest 24 fl) (c : Cfg) (pk : Bool) {lo hi : ℝ} (hlo : lo ≤ 1) (hhi : 2 ^ 25 ≤ hi) (conv : Bool)
    (tb : RTree (batchSize 2 false)) (ts : RTree 3) (htb : tb.Valid) (hts : ts.Valid) :
    (∀ i, IsFloat 24 (thinTriangle.a i) ∧ IsFloat 24 (thinTriangle.b i) ∧ IsFloat 24 (thinTriangle.c i)) ∧
      131072 < Real.sqrt (gram (thinTriangle.b - thinTriangle.a) (thinTriangle.c - thinTriangle.a)) / 2 ∧
      Fl.triangleArea fl (Fl.lengthPrecise (r := 1) c pk fl lo hi conv tb ts) thinTriangle = none := by
  have h := hfl.rounding (by norm_num : 1 ≤ 24)
  have hu1 : (2 : ℝ) ^ (-((24 : ℕ) : ℤ)) < 1 := by norm_num
  have f0 : IsFloat 24 0 := ⟨0, 0, by norm_num, by norm_num⟩
  have fc : IsFloat 24 (1 / 64) := ⟨1, -6, by norm_num, by norm_num⟩
  refine ⟨fun i => ?_, ?_, ?_⟩
  · fin_cases i
    · exact ⟨⟨-16777183, 0, by norm_num [thinTriangle], by norm_num⟩, ⟨3, -3, by norm_num [thinTriangle], by norm_num⟩,
        ⟨977, -3, by norm_num [thinTriangle], by norm_num⟩⟩
    · exact ⟨f0, fc, f0⟩
  · have hgr : gram (thinTriangle.b - thinTriangle.a) (thinTriangle.c - thinTriangle.a) = (134218441 / 512) ^ 2 := by
      simp only [gram, thinTriangle, Fin.sum_univ_two, Pi.sub_apply, Matrix.cons_val_zero, Matrix.cons_val_one]
      norm_num
    rw [hgr, Real.sqrt_sq (by norm_num)]
    norm_num
  · have d0 : (fun i => fl (thinTriangle.a i - thinTriangle.b i)) = ![-16777183, -1 / 64] := by
      funext i
      fin_cases i
      · refine (Fl.round_to_grid (by norm_num) hfl 0 (-16777183) (by norm_num) ?_ ?_).trans (by norm_num)
        · norm_num [thinTriangle, abs_of_neg]
        · norm_num [thinTriangle, abs_of_pos]
      · refine (hfl.fixed ⟨-1, -6, ?_, by norm_num⟩).trans ?_ <;> norm_num [thinTriangle]
    have d1 : (fun i => fl (thinTriangle.a i - thinTriangle.c i)) = ![-16777306, 0] := by
      funext i
      fin_cases i
      · refine (Fl.round_to_grid (by norm_num) hfl 1 (-8388653) (by norm_num) ?_ ?_).trans (by norm_num)
        · norm_num [thinTriangle, abs_of_neg]
        · norm_num [thinTriangle, abs_of_neg]
      · refine (hfl.fixed ⟨0, 0, ?_, by norm_num⟩).trans ?_ <;> norm_num [thinTriangle]
    have d2 : (fun i => fl (thinTriangle.b i - thinTriangle.c i)) = ![-487 / 4, 1 / 64] := by
      funext i
      fin_cases i
      · refine (hfl.fixed ⟨-487, -2, ?_, by norm_num⟩).trans ?_ <;> norm_num [thinTriangle]
      · refine (hfl.fixed ⟨1, -6, ?_, by norm_num⟩).trans ?_ <;> norm_num [thinTriangle]
    have sm : ∀ {y A : ℝ}, 100 ≤ A → |y| ≤ 1 / 64 → fl (fl (y / A) * fl (y / A)) < (2 : ℝ) ^ (-((24 : ℕ) : ℤ) - 1) := by
      intro y A hA hy
      have hA0 : 0 < A := by linarith
      have k0 : |y / A| ≤ 1 / 6400 := by
        rw [abs_div, abs_of_pos hA0, div_le_iff₀ hA0]; linarith
      have k1 : |fl (y / A)| ≤ 1 / 6399 := by
        have e := h.err (y / A)
        have t := abs_sub_abs_le_abs_sub (fl (y / A)) (y / A)
        norm_num at e
        linarith
      have k2 : fl (y / A) * fl (y / A) ≤ (1 / 6399) ^ 2 := by
        rw [← pow_two]; exact sq_le_sq' (by linarith [abs_le.1 k1]) (abs_le.1 k1).2
      have k3 := mul_self_nonneg (fl (y / A))
      have e := h.err (fl (y / A) * fl (y / A))
      rw [abs_of_nonneg k3] at e
      have e2 := (abs_le.1 e).2
      norm_num at e2 k2 ⊢
      linarith
    have e0 : Fl.lengthPrecise (r := 1) c pk fl lo hi conv tb ts ![-16777183, -1 / 64] = 16777183 := by
      refine (Fl.lengthPrecise_absorb (by norm_num) hfl c pk conv tb ts htb hts _ ?_ ?_ ⟨-16777183, 0, ?_, ?_⟩ ?_ ?_ (sm ?_ ?_)).trans ?_ <;>
        norm_num [abs_of_pos] <;> norm_num at hhi <;> linarith
    have e1 : Fl.lengthPrecise (r := 1) c pk fl lo hi conv tb ts ![-16777306, 0] = 16777306 := by
      refine (Fl.lengthPrecise_absorb (by norm_num) hfl c pk conv tb ts htb hts _ ?_ ?_ ⟨-8388653, 1, ?_, ?_⟩ ?_ ?_ (sm ?_ ?_)).trans ?_ <;>
        norm_num [abs_of_pos] <;> norm_num at hhi <;> linarith
    have e2 : Fl.lengthPrecise (r := 1) c pk fl lo hi conv tb ts ![-487 / 4, 1 / 64] = 487 / 4 := by
      refine (Fl.lengthPrecise_absorb (by norm_num) hfl c pk conv tb ts htb hts _ ?_ ?_ ⟨-487, -2, ?_, ?_⟩ ?_ ?_ (sm ?_ ?_)).trans ?_ <;>
        norm_num [abs_of_pos, abs_of_neg] <;> norm_num at hhi <;> linarith
    have s1 : fl (16777183 + 16777306) = 33554488 := by
      refine (Fl.round_to_grid (by norm_num) hfl 2 8388622 (by norm_num) ?_ ?_).trans (by norm_num) <;> norm_num [abs_of_neg]
    have s2 : fl (33554488 + 487 / 4) = 33554608 := by
      refine (Fl.round_to_grid (by norm_num) hfl 2 8388652 (by norm_num) ?_ ?_).trans (by norm_num) <;> norm_num [abs_of_neg]
    have s3 : fl (1 / 2 * 33554608) = 16777304 := by
      refine (hfl.fixed ⟨8388652, 1, ?_, by norm_num⟩).trans ?_ <;> norm_num
    unfold Fl.triangleArea
    dsimp only
    rw [d0, d1, d2, e0, e1, e2, s1, s2, s3, if_pos]
    have p0 := Fl.fl_pos h hu1 (by norm_num : (0 : ℝ) < 16777304 - 16777183)
    have p1 := Fl.fl_neg h hu1 (by norm_num : (16777304 : ℝ) - 16777306 < 0)
    have p2 := Fl.fl_pos h hu1 (by norm_num : (0 : ℝ) < 16777304 - 487 / 4)
    have m1 := Fl.fl_pos h hu1 (mul_pos (by norm_num : (0 : ℝ) < 16777304) p0)
    have m2 := Fl.fl_neg h hu1 (mul_neg_of_pos_of_neg m1 p1)
    exact Fl.fl_neg h hu1 (mul_neg_of_neg_of_pos m2 p2)

/-- Single precision and a reduction from left to right meet the hypotheses. -/
example : RoundsToNearest 24 (flAway 24) ∧ (.node (.node (.leaf 0) (.leaf 1)) (.leaf 2) : RTree 3).Valid ∧
    (.node (.leaf ⟨0, by decide⟩) (.leaf ⟨1, by decide⟩) : RTree (batchSize 2 false)).Valid :=
  ⟨flAway_roundsToNearest (by norm_num), by unfold RTree.Valid; decide, by unfold RTree.Valid; decide⟩

/-- C132: every coordinate of the centroid has an error of at most three roundings of the mean of the magnitudes of the corners' coordinates. -/
theorem C132_centroid (h : Rounding fl u) {n : ℕ} (tr : GTriangle n) (i : Fin n) :
    |Fl.triangleCentroid fl tr i - (tr.a i + tr.b i + tr.c i) / 3| ≤ ((1 + u) ^ 3 - 1) * ((|tr.a i| + |tr.b i| + |tr.c i|) / 3) := by
  have a := ((((Near.exact (u := u) (tr.a i)).add (Near.exact (tr.b i))).round h).add ((Near.exact (tr.c i)).mono h (Nat.zero_le 1))).round h
  have t : Near u 0 (1 / 3 : ℝ) (1 / 3) (1 / 3) := ⟨by simp, by norm_num⟩
  have b := ((a.prod h t).round h).err
  unfold Fl.triangleCentroid
  rw [div_eq_mul_one_div, div_eq_mul_one_div (tr.a i + tr.b i + tr.c i), div_eq_mul_one_div (|tr.a i| + |tr.b i| + |tr.c i|)]
  exact b

/-- Corners with coordinates of different sign. -/
example : ∃ tr : GTriangle 2, (tr.a 0 + tr.b 0 + tr.c 0) / 3 = 1 ∧ (|tr.a 0| + |tr.b 0| + |tr.c 0|) / 3 = 7 / 3 :=
  ⟨⟨![5, 0], ![-2, 1], ![0, 4]⟩, by norm_num, by norm_num [abs_of_nonneg, abs_of_neg]⟩

end Mathter.Props
