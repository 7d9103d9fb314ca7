import Verif.Lemmas.Range
import Verif.Props.VectorReduce
import Mathlib.Data.Fin.VecNotation
import Mathlib.Tactic.FinCases

/-!
# C77, C78: `LengthPrecise` and `NormalizePrecise` neither overflow nor underflow
-/

namespace Mathter.Props
open Mathter
variable {c : Cfg} {dim : ℕ} {pk : Bool} {p : ℕ} {emin : ℤ} {Ω : ℝ} {fl : ℝ → Option ℝ}

private theorem get_lift (v : Vec c ℝ dim pk) (i : Fin dim) : (Rg.lift v).get i = (some (v.get i) : Option ℝ) := rfl

private theorem get_divScalar (conv : Bool) (v : Vec c FR dim pk) (s : ℝ) (hs : s ≠ 0) (i : Fin dim) (x : ℝ) (hx : v.get i = (some x : Option ℝ)) :
    (Rg.divScalar fl conv v (some s)).get i = fl (x / s) := by
  have key : ∀ y : FR, (Rg.divScalar fl conv v y).get i = Rg.divOp fl (v.get i) y := fun y => by
    unfold Rg.divScalar
    rw [Vec.get_doBinary, Vec.get_fill]
  rw [key, hx]
  exact if_neg hs

private theorem scale_spec (conv : Bool) (tm : RTree (batchSize dim false)) (tms : RTree dim) (htm : tm.Valid) (htms : tms.Valid) (v : Vec c ℝ dim pk) :
    (∀ i, |v.get i| ≤ Rg.scaleElements conv tm tms v) ∧ ∃ i, Rg.scaleElements conv tm tms v = |v.get i| := by
  have := C03_max tm tms htm htms (Vec.doUnary conv (fun x => |x|) v : Vec c ℝ dim pk)
  simp only [Vec.get_doUnary] at this
  exact this

private theorem final_arith {u η a A x r : ℝ} (hu0 : 0 ≤ u) (hu1 : u ≤ 1) {N : ℝ} (hlo : a * N ≤ x) (hup : x ≤ A * N) (hx0 : 0 ≤ x) (hr : |r - x| ≤ u * |x| + η) :
    a * (1 - u) * N - η ≤ r ∧ r ≤ A * (1 + u) * N + η := by
  rw [abs_of_nonneg hx0] at hr
  have h1 := (abs_le.1 hr).1
  have h2 := (abs_le.1 hr).2
  have h3 := mul_le_mul_of_nonneg_right hlo (by linarith : 0 ≤ 1 - u)
  have h4 := mul_le_mul_of_nonneg_right hup (by linarith : 0 ≤ 1 + u)
  constructor <;> linarith

/-- The common part: `Length(v / scale)`. -/
private theorem length_scaled (hp : 3 ≤ p) (h : RoundsInRange p emin Ω fl) (conv : Bool) (tb : RTree (batchSize dim false)) (ts : RTree (dim + 1))
    (htb : tb.Valid) (hts : ts.Valid) (hfmt : (dim : ℝ) * ((2 : ℝ) ^ emin / 2) * 4 ^ p ≤ (2 : ℝ) ^ (-(p : ℤ)))
    (hΩ : 2 * (dim : ℝ) * (1 + (2 : ℝ) ^ (-(p : ℤ))) ^ dim ≤ Ω) (v : Vec c ℝ dim pk) (s : ℝ) (hs : 0 < s) (hvs : ∀ i, |v.get i| ≤ s)
    (hlow : ∃ i, 2 * (2 : ℝ) ^ (-(p : ℤ)) * s ≤ |v.get i|) :
    ∃ (L : ℝ) (y : Fin dim → ℝ), (∀ i, (Rg.divScalar fl conv (Rg.lift v) (some s)).get i = (some (y i) : Option ℝ)) ∧ (∀ i, fl (v.get i / s) = some (y i)) ∧
      Rg.length fl conv tb ts (Rg.divScalar fl conv (Rg.lift v) (some s)) = (some L : Option ℝ) ∧ IsRFloat p emin L ∧
      (1 - 6 * (2 : ℝ) ^ (-(p : ℤ))) * (1 - (2 : ℝ) ^ (-(p : ℤ))) ^ dim * Real.sqrt (∑ i, v.get i ^ 2) ≤ L * s ∧
      L * s ≤ (1 + (2 : ℝ) ^ (-(p : ℤ))) ^ (dim + 3) * Real.sqrt (∑ i, v.get i ^ 2) := by
  have hz1 : ∀ i, |v.get i / s| ≤ 1 := fun i => by rw [abs_div, abs_of_pos hs]; exact (div_le_one hs).2 (hvs i)
  obtain ⟨i0, hi0⟩ := hlow
  have hdim : 1 ≤ dim := by have := i0.isLt; omega
  have h1Ω : 1 ≤ Ω := by
    have : (1 : ℝ) ≤ (1 + (2 : ℝ) ^ (-(p : ℤ))) ^ dim := one_le_pow₀ (by have := two_zpow_pos (-(p : ℤ)); linarith)
    have : (1 : ℝ) ≤ dim := by exact_mod_cast hdim
    nlinarith
  have hex : ∀ i, ∃ y, fl (v.get i / s) = some y := fun i => h.finite _ ((hz1 i).trans h1Ω)
  choose y hy using hex
  have hw : ∀ i, (Rg.divScalar fl conv (Rg.lift v) (some s)).get i = (some (y i) : Option ℝ) := fun i => by
    rw [get_divScalar conv _ s hs.ne' i (v.get i) (get_lift v i)]; exact hy i
  obtain ⟨L, hL, fL, lo, up⟩ := Rg.length_range hp h conv tb ts htb hts hfmt hΩ _ (fun i => v.get i / s) y hw hy hz1
    ⟨i0, by rw [abs_div, abs_of_pos hs, le_div_iff₀ hs]; exact hi0⟩
  have e : Real.sqrt (∑ i, (v.get i / s) ^ 2) * s = Real.sqrt (∑ i, v.get i ^ 2) := by
    have : ∑ i, v.get i ^ 2 = (∑ i, (v.get i / s) ^ 2) * s ^ 2 := by
      rw [Finset.sum_mul]
      refine Finset.sum_congr rfl fun i _ => ?_
      rw [div_pow, div_mul_cancel₀ _ (pow_ne_zero 2 hs.ne')]
    rw [this, Real.sqrt_mul (Finset.sum_nonneg fun i _ => sq_nonneg _), Real.sqrt_sq hs.le]
  refine ⟨L, y, hw, hy, hL, fL, ?_, ?_⟩
  · rw [← e, ← mul_assoc]; exact mul_le_mul_of_nonneg_right lo hs.le
  · rw [← e, ← mul_assoc]; exact mul_le_mul_of_nonneg_right up hs.le

private theorem fmt_facts (hp : 3 ≤ p) (hdim : 1 ≤ dim) (hfmt : (dim : ℝ) * ((2 : ℝ) ^ emin / 2) * 4 ^ p ≤ (2 : ℝ) ^ (-(p : ℤ)))
    (hΩ : 2 * (dim : ℝ) * (1 + (2 : ℝ) ^ (-(p : ℤ))) ^ dim ≤ Ω) : (2 : ℝ) ^ ((p : ℤ) - 1 + emin) ≤ 1 ∧ 2 ≤ Ω := by
  have hd : (1 : ℝ) ≤ dim := by exact_mod_cast hdim
  have hη := two_zpow_pos emin
  constructor
  · have e : (2 : ℝ) ^ ((p : ℤ) - 1 + emin) = 2 ^ p * ((2 : ℝ) ^ emin / 2) := by
      rw [zpow_add₀ (by norm_num), zpow_sub_one₀ (by norm_num), zpow_natCast]; ring
    rw [e]
    have h1 : (2 : ℝ) ^ p ≤ 4 ^ p := pow_le_pow_left₀ (by norm_num) (by norm_num) _
    have h2 : (2 : ℝ) ^ (-(p : ℤ)) ≤ 1 := zpow_le_one_of_nonpos₀ (by norm_num) (by omega)
    have h3 : (2 : ℝ) ^ p * ((2 : ℝ) ^ emin / 2) ≤ 4 ^ p * ((2 : ℝ) ^ emin / 2) := mul_le_mul_of_nonneg_right h1 (by linarith)
    have h4 : (1 : ℝ) * (((2 : ℝ) ^ emin / 2) * 4 ^ p) ≤ dim * (((2 : ℝ) ^ emin / 2) * 4 ^ p) := mul_le_mul_of_nonneg_right hd (by positivity)
    linarith
  · have : (1 : ℝ) ≤ (1 + (2 : ℝ) ^ (-(p : ℤ))) ^ dim := one_le_pow₀ (by have := two_zpow_pos (-(p : ℤ)); linarith)
    nlinarith

/-- C77: `LengthPrecise` returns a finite number with a small error whenever the length with its error margin is finite, although the squares of the
elements may overflow or underflow. `hfmt` says that the exponent range of the format is large compared with its precision, `hΩ` that twice the dimension
is in range (both hold for `float` and `double` and all practical dimensions). The absolute error is half of the smallest positive number. -/
theorem C77_lengthPrecise (hp : 3 ≤ p) (h : RoundsInRange p emin Ω fl) (conv : Bool) (tm : RTree (batchSize dim false)) (tms : RTree dim)
    (tb : RTree (batchSize dim false)) (ts : RTree (dim + 1)) (htm : tm.Valid) (htms : tms.Valid) (htb : tb.Valid) (hts : ts.Valid) (hdim : 1 ≤ dim)
    (hfmt : (dim : ℝ) * ((2 : ℝ) ^ emin / 2) * 4 ^ p ≤ (2 : ℝ) ^ (-(p : ℤ))) (hΩ : 2 * (dim : ℝ) * (1 + (2 : ℝ) ^ (-(p : ℤ))) ^ dim ≤ Ω)
    (v : Vec c ℝ dim pk) (hv : ∀ i, IsRFloat p emin (v.get i) ∧ |v.get i| ≤ Ω)
    (hN : (1 + (2 : ℝ) ^ (-(p : ℤ))) ^ (dim + 3) * Real.sqrt (∑ i, v.get i ^ 2) ≤ Ω) :
    ∃ r : ℝ, Rg.lengthPrecise fl ((2 : ℝ) ^ ((p : ℤ) - 1 + emin)) Ω conv tm tms tb ts v = (some r : Option ℝ) ∧
      (1 - 6 * (2 : ℝ) ^ (-(p : ℤ))) * (1 - (2 : ℝ) ^ (-(p : ℤ))) ^ (dim + 1) * Real.sqrt (∑ i, v.get i ^ 2) - (2 : ℝ) ^ emin / 2 ≤ r ∧
      r ≤ (1 + (2 : ℝ) ^ (-(p : ℤ))) ^ (dim + 4) * Real.sqrt (∑ i, v.get i ^ 2) + (2 : ℝ) ^ emin / 2 := by
  obtain ⟨hM, i1, hi1⟩ := scale_spec conv tm tms htm htms v
  obtain ⟨htiny, h2Ω⟩ := fmt_facts hp hdim hfmt hΩ
  have htp := two_zpow_pos ((p : ℤ) - 1 + emin)
  have hu0 := two_zpow_pos (-(p : ℤ))
  have hu8 : (2 : ℝ) ^ (-(p : ℤ)) ≤ 1 / 8 := by
    have : (2 : ℝ) ^ (-(p : ℤ)) ≤ (2 : ℝ) ^ (-3 : ℤ) := zpow_le_zpow_right₀ (by norm_num) (by omega)
    norm_num at this ⊢
    exact this
  unfold Rg.lengthPrecise
  simp only
  have hMΩ : Rg.scaleElements conv tm tms v ≤ Ω := by rw [hi1]; exact (hv i1).2
  generalize hse : (if Rg.scaleElements conv tm tms v < (2 : ℝ) ^ ((p : ℤ) - 1 + emin) then (2 : ℝ) ^ ((p : ℤ) - 1 + emin) else
    if Ω < Rg.scaleElements conv tm tms v then Ω else Rg.scaleElements conv tm tms v) = s
  have hs : 0 < s ∧ Rg.scaleElements conv tm tms v ≤ s ∧ (s = (2 : ℝ) ^ ((p : ℤ) - 1 + emin) ∨ s = Rg.scaleElements conv tm tms v) := by
    rw [← hse]
    split
    · rename_i hlt; exact ⟨htp, hlt.le, Or.inl rfl⟩
    · rename_i hge
      rw [if_neg (by linarith)]
      exact ⟨by linarith, le_refl _, Or.inr rfl⟩
  clear hse
  obtain ⟨hs0, hMs, hcase⟩ := hs
  by_cases hall : ∀ i, v.get i = 0
  · -- the zero vector
    have hN0 : Real.sqrt (∑ i, v.get i ^ 2) = 0 := by simp [hall]
    have hz : fl 0 = some 0 := h.exact RoundsInRange.zero_mem (by rw [abs_zero]; linarith)
    have hw : ∀ i, (Rg.divScalar fl conv (Rg.lift v) (some s)).get i = (some 0 : Option ℝ) := fun i => by
      rw [get_divScalar conv _ s hs0.ne' i (v.get i) (get_lift v i), hall i, zero_div]; exact hz
    obtain ⟨y, ey, -, y0, -, yu⟩ := Rg.sum_range (by omega) h tb ts htb hts
      (Vec.doBinary conv (Rg.op fl (· * ·)) (Rg.divScalar fl conv (Rg.lift v) (some s)) (Rg.divScalar fl conv (Rg.lift v) (some s)) : Vec c FR dim _)
      (fun _ => 0) (fun i => by
        rw [Vec.get_doBinary, hw]
        change fl (0 * 0) = _
        rw [mul_zero, hz]) (fun _ => RoundsInRange.zero_mem) (fun _ => le_refl _) (by simp; linarith)
    simp only [Finset.sum_const_zero, mul_zero] at yu
    have hy : y = 0 := le_antisymm yu y0
    have hl : Rg.length fl conv tb ts (Rg.divScalar fl conv (Rg.lift v) (some s)) = (some 0 : Option ℝ) := by
      change Option.bind (Rg.sum fl tb ts _) _ = _
      rw [ey, hy]
      change fl (Real.sqrt 0) = _
      rw [Real.sqrt_zero, hz]
    refine ⟨0, ?_, ?_⟩
    · rw [hl]
      change fl (0 * s) = _
      rw [zero_mul, hz]
    · rw [hN0]
      have := two_zpow_pos emin
      constructor <;> linarith
  push Not at hall
  obtain ⟨i2, hi2⟩ := hall
  have hlow : ∃ i, 2 * (2 : ℝ) ^ (-(p : ℤ)) * s ≤ |v.get i| := by
    rcases hcase with rfl | rfl
    · refine ⟨i2, le_trans (le_of_eq ?_) (RoundsInRange.le_abs (hv i2).1 hi2)⟩
      rw [show (2 : ℝ) * (2 : ℝ) ^ (-(p : ℤ)) = (2 : ℝ) ^ (-(p : ℤ) + 1) by rw [zpow_add_one₀ (by norm_num)]; ring, ← zpow_add₀ (by norm_num)]
      congr 1; ring
    · exact ⟨i1, by rw [← hi1]; nlinarith⟩
  obtain ⟨L, y, -, -, hL, -, lo, up⟩ := length_scaled hp h conv tb ts htb hts hfmt hΩ v s hs0 (fun i => (hM i).trans hMs) hlow
  have hLs : 0 ≤ L * s := by
    refine le_trans (mul_nonneg (mul_nonneg (by linarith) (pow_nonneg (by linarith) _)) (Real.sqrt_nonneg _)) lo
  obtain ⟨r, hr⟩ := h.finite (L * s) (by rw [abs_of_nonneg hLs]; linarith)
  refine ⟨r, by rw [hL]; exact hr, ?_⟩
  have := final_arith hu0.le (by linarith) lo up hLs (h.err (by omega) hr)
  rw [mul_assoc (1 - 6 * (2 : ℝ) ^ (-(p : ℤ))), ← pow_succ, ← pow_succ] at this
  exact this

/-- Single precision: the squares of the elements overflow, the length does not. -/
example : RoundsInRange 24 (-149) ((2 ^ 24 - 1) * 2 ^ 104) (flRange 24 (-149) ((2 ^ 24 - 1) * 2 ^ 104)) ∧
    (RTree.node (.node (.leaf ⟨0, by decide⟩) (.leaf ⟨2, by decide⟩)) (.node (.leaf ⟨1, by decide⟩) (.leaf ⟨3, by decide⟩)) : RTree (batchSize 3 false)).Valid ∧
    (RTree.node (.node (.leaf 0) (.leaf 1)) (.leaf 2) : RTree 3).Valid ∧
    (RTree.node (.node (.node (.leaf 3) (.leaf 0)) (.leaf 1)) (.leaf 2) : RTree (3 + 1)).Valid ∧
    ((3 : ℕ) : ℝ) * ((2 : ℝ) ^ (-149 : ℤ) / 2) * 4 ^ 24 ≤ (2 : ℝ) ^ (-((24 : ℕ) : ℤ)) ∧
    2 * ((3 : ℕ) : ℝ) * (1 + (2 : ℝ) ^ (-((24 : ℕ) : ℤ))) ^ 3 ≤ (2 ^ 24 - 1) * 2 ^ 104 ∧
    (∀ i, IsRFloat 24 (-149) ((Vec.ofFn ![3 * 2 ^ 100, 4 * 2 ^ 100, 0] : Vec Cfg.sse ℝ 3 false).get i) ∧
      |(Vec.ofFn ![3 * 2 ^ 100, 4 * 2 ^ 100, 0] : Vec Cfg.sse ℝ 3 false).get i| ≤ (2 ^ 24 - 1) * 2 ^ 104) ∧
    (1 + (2 : ℝ) ^ (-((24 : ℕ) : ℤ))) ^ (3 + 3) * Real.sqrt (∑ i, (Vec.ofFn ![3 * 2 ^ 100, 4 * 2 ^ 100, 0] : Vec Cfg.sse ℝ 3 false).get i ^ 2) ≤
      (2 ^ 24 - 1) * 2 ^ 104 ∧ ((3 : ℝ) * 2 ^ 100) ^ 2 > (2 ^ 24 - 1) * 2 ^ 104 := by
  have f : ∀ m : ℤ, |m| < 2 ^ 24 → IsRFloat 24 (-149) (m * 2 ^ 100) := fun m hm =>
    ⟨⟨m, 100, by norm_num, hm⟩, m * 2 ^ 249, by push_cast; norm_num [zpow_neg]; ring⟩
  refine ⟨flRange_roundsInRange (by norm_num) ⟨⟨2 ^ 24 - 1, 104, by norm_num, by norm_num⟩, (2 ^ 24 - 1) * 2 ^ 253, by norm_num [zpow_neg]⟩,
    by unfold RTree.Valid; decide, by unfold RTree.Valid; decide, by unfold RTree.Valid; decide, by norm_num [zpow_neg], by norm_num [zpow_neg], ?_, ?_, by norm_num⟩
  · intro i
    rw [Vec.get_ofFn]
    fin_cases i
    · exact ⟨by simpa using f 3 (by norm_num), by norm_num⟩
    · exact ⟨by simpa using f 4 (by norm_num), by norm_num⟩
    · exact ⟨by simpa using f 0 (by norm_num), by norm_num⟩
  · have : Real.sqrt (∑ i, (Vec.ofFn ![3 * 2 ^ 100, 4 * 2 ^ 100, 0] : Vec Cfg.sse ℝ 3 false).get i ^ 2) = 5 * 2 ^ 100 := by
      rw [Real.sqrt_eq_iff_mul_self_eq (Finset.sum_nonneg fun i _ => sq_nonneg _) (by norm_num), Fin.sum_univ_three]
      simp only [Vec.get_ofFn]
      norm_num [show (![(3802951800684688204490109616128 : ℝ), 5070602400912917605986812821504, 0] 2) = 0 from rfl]
    rw [this]
    norm_num [zpow_neg]

private theorem fl_sign (h : RoundsInRange p emin Ω fl) {x y : ℝ} (hy : fl x = some y) : (0 ≤ x → 0 ≤ y) ∧ (x ≤ 0 → y ≤ 0) := by
  have := h.nearest _ _ hy 0 RoundsInRange.zero_mem
  rw [zero_sub, abs_neg] at this
  constructor
  · intro hx
    by_contra hneg
    push Not at hneg
    rw [abs_of_nonneg hx, abs_of_neg (by linarith)] at this
    linarith
  · intro hx
    by_contra hneg
    push Not at hneg
    rw [abs_of_nonpos hx, abs_of_pos (by linarith)] at this
    linarith

private theorem norm_arith {u η a A x s L N y q w : ℝ} (hu0 : 0 ≤ u) (hu1 : u ≤ 1) (hη : 0 ≤ η) (ha : 0 < a) (hA : 1 ≤ A) (hs : 0 < s) (hsN : s ≤ N)
    (hL : 0 < L) (lo : a * N ≤ L * s) (up : L * s ≤ A * N) (hy : |y - x / s| ≤ u * |x / s| + η) (hq : q = y / L) (hw : |w - q| ≤ u * |q| + η) :
    (1 - u) ^ 2 / A * (|x| / N) - 2 * η ≤ |w| ∧ |w| ≤ (1 + u) ^ 2 / a * (|x| / N) + (1 + (1 + u) / a) * η ∧ |q| ≤ (1 + u) / a * (|x| / N) + η / a := by
  have hN : 0 < N := hs.trans_le hsN
  have hx0 := abs_nonneg x
  rw [abs_div, abs_of_pos hs] at hy
  have hy1 : |y| ≤ (1 + u) * (|x| / s) + η := by
    have := abs_sub_abs_le_abs_sub y (x / s)
    rw [abs_div, abs_of_pos hs] at this
    linarith
  have hy2 : (1 - u) * (|x| / s) - η ≤ |y| := by
    have := abs_sub_abs_le_abs_sub (x / s) y
    rw [abs_div, abs_of_pos hs, abs_sub_comm] at this
    linarith
  have eq : |q| = |y| / L := by rw [hq, abs_div, abs_of_pos hL]
  -- 1 / L between s / (A N) and s / (a N)
  have hq1 : |q| ≤ |y| * (s / (a * N)) := by
    rw [eq, div_le_iff₀ hL, mul_assoc, div_mul_eq_mul_div]
    have : 1 ≤ s * L / (a * N) := by rw [le_div_iff₀ (mul_pos ha hN)]; linarith
    nlinarith [abs_nonneg y]
  have hAN : 0 < A * N := mul_pos (by linarith) hN
  have hq2 : |y| * (s / (A * N)) ≤ |q| := by
    rw [eq, le_div_iff₀ hL, mul_assoc, div_mul_eq_mul_div]
    have : s * L / (A * N) ≤ 1 := by rw [div_le_one hAN]; linarith
    nlinarith [abs_nonneg y]
  have hq3 : |q| ≤ (1 + u) / a * (|x| / N) + η / a := by
    have h1 : |y| * (s / (a * N)) ≤ ((1 + u) * (|x| / s) + η) * (s / (a * N)) := mul_le_mul_of_nonneg_right hy1 (by positivity)
    have h2 : ((1 + u) * (|x| / s) + η) * (s / (a * N)) = (1 + u) / a * (|x| / N) + η / a * (s / N) := by field_simp
    have h3 : s / N ≤ 1 := (div_le_one hN).2 hsN
    have h4 : η / a * (s / N) ≤ η / a := by
      have : 0 ≤ η / a := by positivity
      nlinarith
    linarith
  have hq4 : (1 - u) / A * (|x| / N) - η ≤ |q| := by
    have h1 : ((1 - u) * (|x| / s) - η) * (s / (A * N)) ≤ |y| * (s / (A * N)) := mul_le_mul_of_nonneg_right hy2 (by positivity)
    have h2 : ((1 - u) * (|x| / s) - η) * (s / (A * N)) = (1 - u) / A * (|x| / N) - η * (s / (A * N)) := by field_simp
    have h3 : s / (A * N) ≤ 1 := (div_le_one hAN).2 (by nlinarith)
    have h4 : η * (s / (A * N)) ≤ η := by nlinarith
    linarith
  have hw1 : |w| ≤ (1 + u) * |q| + η := by
    have := abs_sub_abs_le_abs_sub w q
    linarith
  have hw2 : (1 - u) * |q| - η ≤ |w| := by
    have := abs_sub_abs_le_abs_sub q w
    rw [abs_sub_comm] at this
    linarith
  refine ⟨?_, ?_, hq3⟩
  · have h1 : (1 - u) * ((1 - u) / A * (|x| / N) - η) ≤ (1 - u) * |q| := mul_le_mul_of_nonneg_left hq4 (by linarith)
    have h2 : (1 - u) ^ 2 / A * (|x| / N) = (1 - u) * ((1 - u) / A * (|x| / N)) := by ring
    nlinarith
  · have h1 : (1 + u) * |q| ≤ (1 + u) * ((1 + u) / a * (|x| / N) + η / a) := mul_le_mul_of_nonneg_left hq3 (by linarith)
    have h2 : (1 + u) ^ 2 / a * (|x| / N) + (1 + (1 + u) / a) * η = (1 + u) * ((1 + u) / a * (|x| / N) + η / a) + η := by ring
    linarith

/-- C78: `NormalizePrecise` of any non-zero vector of finite numbers, however large or small, is finite, and each element has the sign of and is close to
the element of the exact unit vector `v / ‖v‖`. The absolute errors are a few times half of the smallest positive number. -/
theorem C78_normalizePrecise (hp : 3 ≤ p) (h : RoundsInRange p emin Ω fl) (conv : Bool) (tm : RTree (batchSize dim false)) (tms : RTree dim)
    (tb : RTree (batchSize dim false)) (ts : RTree (dim + 1)) (htm : tm.Valid) (htms : tms.Valid) (htb : tb.Valid) (hts : ts.Valid)
    (hfmt : (dim : ℝ) * ((2 : ℝ) ^ emin / 2) * 4 ^ p ≤ (2 : ℝ) ^ (-(p : ℤ))) (hΩ : 2 * (dim : ℝ) * (1 + (2 : ℝ) ^ (-(p : ℤ))) ^ dim ≤ Ω)
    (hΩ2 : 2 ≤ (1 - 6 * (2 : ℝ) ^ (-(p : ℤ))) * (1 - (2 : ℝ) ^ (-(p : ℤ))) ^ dim * Ω)
    (v degenerate : Vec c ℝ dim pk) (hv0 : ∃ i, v.get i ≠ 0) :
    ∃ w : Fin dim → ℝ, (∀ i, (Rg.normalizePrecise fl conv tm tms tb ts v degenerate).get i = (some (w i) : Option ℝ)) ∧
      ∀ i, 0 ≤ w i * v.get i ∧
        (1 - (2 : ℝ) ^ (-(p : ℤ))) ^ 2 / (1 + (2 : ℝ) ^ (-(p : ℤ))) ^ (dim + 3) * (|v.get i| / Real.sqrt (∑ i, v.get i ^ 2)) - 2 * ((2 : ℝ) ^ emin / 2) ≤ |w i| ∧
        |w i| ≤ (1 + (2 : ℝ) ^ (-(p : ℤ))) ^ 2 / ((1 - 6 * (2 : ℝ) ^ (-(p : ℤ))) * (1 - (2 : ℝ) ^ (-(p : ℤ))) ^ dim) *
          (|v.get i| / Real.sqrt (∑ i, v.get i ^ 2)) +
          (1 + (1 + (2 : ℝ) ^ (-(p : ℤ))) / ((1 - 6 * (2 : ℝ) ^ (-(p : ℤ))) * (1 - (2 : ℝ) ^ (-(p : ℤ))) ^ dim)) * ((2 : ℝ) ^ emin / 2) := by
  obtain ⟨i2, hi2⟩ := hv0
  have hdim : 1 ≤ dim := by have := i2.isLt; omega
  obtain ⟨hM, i1, hi1⟩ := scale_spec conv tm tms htm htms v
  obtain ⟨htiny, h2Ω⟩ := fmt_facts hp hdim hfmt hΩ
  have hu0 := two_zpow_pos (-(p : ℤ))
  have hu8 : (2 : ℝ) ^ (-(p : ℤ)) ≤ 1 / 8 := by
    have : (2 : ℝ) ^ (-(p : ℤ)) ≤ (2 : ℝ) ^ (-3 : ℤ) := zpow_le_zpow_right₀ (by norm_num) (by omega)
    norm_num at this ⊢
    exact this
  have hs0 : 0 < Rg.scaleElements conv tm tms v := lt_of_lt_of_le (abs_pos.2 hi2) (hM i2)
  have hsN : Rg.scaleElements conv tm tms v ≤ Real.sqrt (∑ i, v.get i ^ 2) := by
    rw [hi1]
    exact Real.abs_le_sqrt (Finset.single_le_sum (f := fun i => v.get i ^ 2) (fun i _ => sq_nonneg _) (Finset.mem_univ i1))
  obtain ⟨L, y, hw, hy, hL, -, lo, up⟩ := length_scaled hp h conv tb ts htb hts hfmt hΩ v _ hs0 hM ⟨i1, by rw [← hi1]; nlinarith⟩
  have hη : 0 ≤ (2 : ℝ) ^ emin / 2 := (by have := two_zpow_pos emin; linarith)
  have hη1 : (2 : ℝ) ^ emin / 2 ≤ 1 / 2 := by
    have : (2 : ℝ) ^ emin ≤ (2 : ℝ) ^ ((p : ℤ) - 1 + emin) := zpow_le_zpow_right₀ (by norm_num) (by omega)
    linarith
  have ha : 0 < (1 - 6 * (2 : ℝ) ^ (-(p : ℤ))) * (1 - (2 : ℝ) ^ (-(p : ℤ))) ^ dim := mul_pos (by linarith) (pow_pos (by linarith) _)
  have hA : 1 ≤ (1 + (2 : ℝ) ^ (-(p : ℤ))) ^ (dim + 3) := one_le_pow₀ (by linarith)
  have hN : 0 < Real.sqrt (∑ i, v.get i ^ 2) := hs0.trans_le hsN
  have hL0 : 0 < L := by
    by_contra hneg
    push Not at hneg
    have h1 : 0 < L * Rg.scaleElements conv tm tms v := lt_of_lt_of_le (mul_pos ha hN) lo
    nlinarith
  have key : ∀ i, ∀ q w, q = y i / L → |w - q| ≤ (2 : ℝ) ^ (-(p : ℤ)) * |q| + (2 : ℝ) ^ emin / 2 → _ := fun i q w hq hw =>
    norm_arith (x := v.get i) hu0.le (by linarith) hη ha hA hs0 hsN hL0 lo up (h.err (by omega) (hy i)) hq hw
  have hex : ∀ i, ∃ w, fl (y i / L) = some w := fun i => h.finite _ (by
    have h1 := (key i _ (y i / L) rfl (by rw [sub_self, abs_zero]; positivity)).2.2
    have h2 : |v.get i| / Real.sqrt (∑ i, v.get i ^ 2) ≤ 1 := (div_le_one hN).2 ((hM i).trans hsN)
    have h3 : (1 + (2 : ℝ) ^ (-(p : ℤ))) / ((1 - 6 * (2 : ℝ) ^ (-(p : ℤ))) * (1 - (2 : ℝ) ^ (-(p : ℤ))) ^ dim) *
        (|v.get i| / Real.sqrt (∑ i, v.get i ^ 2)) ≤ (1 + (2 : ℝ) ^ (-(p : ℤ))) / ((1 - 6 * (2 : ℝ) ^ (-(p : ℤ))) * (1 - (2 : ℝ) ^ (-(p : ℤ))) ^ dim) :=
      mul_le_of_le_one_right (by positivity) h2
    refine h1.trans ((add_le_add_left h3 _).trans ?_)
    rw [← add_div, div_le_iff₀ ha]
    linarith)
  choose w hw2 using hex
  refine ⟨w, fun i => ?_, fun i => ?_⟩
  · unfold Rg.normalizePrecise
    simp only
    rw [hL]
    simp only
    rw [if_pos hL0.ne', get_divScalar conv _ L hL0.ne' i (y i) (hw i)]
    exact hw2 i
  · obtain ⟨k1, k2, -⟩ := key i _ (w i) rfl (h.err (by omega) (hw2 i))
    refine ⟨?_, k1, k2⟩
    have s1 := fl_sign h (hy i)
    have s2 := fl_sign h (hw2 i)
    rcases le_total 0 (v.get i) with h0 | h0
    · exact mul_nonneg (s2.1 (div_nonneg (s1.1 (div_nonneg h0 hs0.le)) hL0.le)) h0
    · exact mul_nonneg_of_nonpos_of_nonpos (s2.2 (div_nonpos_of_nonpos_of_nonneg (s1.2 (div_nonpos_of_nonpos_of_nonneg h0 hs0.le)) hL0.le)) h0

private theorem eval_none {n : ℕ} (b : Fin n → FR) (t : RTree n) (i : Fin n) (hi : i ∈ t.leaves) (hb : b i = (none : Option ℝ)) :
    t.eval (Rg.op fl (· + ·)) b = (none : Option ℝ) := by
  induction t with
  | leaf j =>
    rw [RTree.leaves, List.mem_singleton] at hi
    subst hi
    exact hb
  | node l r hl hr =>
    rw [RTree.leaves, List.mem_append] at hi
    change Rg.op fl _ (l.eval _ _) (r.eval _ _) = _
    rcases hi with h | h
    · rw [hl h]; rfl
    · rw [hr h]
      cases l.eval (Rg.op fl (· + ·)) b <;> rfl

/-- C78: `NormalizePrecise` of the zero vector is the given vector. -/
theorem C78_degenerate (conv : Bool) (tm : RTree (batchSize dim false)) (tms : RTree dim) (tb : RTree (batchSize dim false)) (ts : RTree (dim + 1))
    (htm : tm.Valid) (htms : tms.Valid) (htb : tb.Valid) (hts : ts.Valid) (hdim : 1 ≤ dim) (v degenerate : Vec c ℝ dim pk) (hv : ∀ i, v.get i = 0) (i : Fin dim) :
    (Rg.normalizePrecise fl conv tm tms tb ts v degenerate).get i = (some (degenerate.get i) : Option ℝ) := by
  have hd : 0 < dim := hdim
  obtain ⟨-, i1, hi1⟩ := scale_spec conv tm tms htm htms v
  rw [hv, abs_zero] at hi1
  have hw : ∀ i, (Rg.divScalar fl conv (Rg.lift v) (some (Rg.scaleElements conv tm tms v))).get i = (none : Option ℝ) := fun i => by
    unfold Rg.divScalar
    rw [Vec.get_doBinary, Vec.get_fill, hi1]
    change Rg.divOp fl (some _) (some 0) = _
    exact if_pos rfl
  have hl : Rg.length fl conv tb ts (Rg.divScalar fl conv (Rg.lift v) (some (Rg.scaleElements conv tm tms v))) = (none : Option ℝ) := by
    unfold Rg.length Rg.lengthSquared Rg.sum
    have hq : ∀ i, (Vec.doBinary conv (Rg.op fl (· * ·)) (Rg.divScalar fl conv (Rg.lift v) (some (Rg.scaleElements conv tm tms v)))
        (Rg.divScalar fl conv (Rg.lift v) (some (Rg.scaleElements conv tm tms v))) : Vec c FR dim ((pk && pk) && (pk && pk))).get i = (none : Option ℝ) := fun i => by
      rw [Vec.get_doBinary, hw]; rfl
    split
    · rename_i hb
      rw [eval_none _ tb ⟨0, lt_of_lt_of_le hdim (le_batchSize dim false)⟩ (htb.mem_iff.2 (List.mem_finRange _))]
      · rfl
      · unfold Vec.fillMasked
        split
        · exact (Vec.load_of_lt _ hb ⟨0, _⟩ hd).trans (hq _)
        · dsimp only
          rw [if_pos hd]
          exact (Vec.load_of_lt _ hb ⟨0, _⟩ hd).trans (hq _)
    · rw [eval_none _ ts ⟨0, by omega⟩ (hts.mem_iff.2 (List.mem_finRange _))]
      · rfl
      · exact (dif_pos hd).trans (hq _)
  unfold Rg.normalizePrecise
  simp only
  rw [hl]
  simp only
  rw [Vec.get_ofFn]

/-- Single precision: a vector of the smallest positive number; the last condition of C78. -/
example : 2 ≤ (1 - 6 * (2 : ℝ) ^ (-((24 : ℕ) : ℤ))) * (1 - (2 : ℝ) ^ (-((24 : ℕ) : ℤ))) ^ 3 * ((2 ^ 24 - 1) * 2 ^ 104) ∧
    (∃ i, (Vec.ofFn ![0, 2 ^ (-149 : ℤ), 0] : Vec Cfg.sse ℝ 3 false).get i ≠ 0) ∧ ((2 : ℝ) ^ (-149 : ℤ)) ^ 2 < (2 : ℝ) ^ (-149 : ℤ) / 2 :=
  ⟨by norm_num [zpow_neg], ⟨1, by rw [Vec.get_ofFn]; norm_num⟩, by norm_num [zpow_neg]⟩

end Mathter.Props
