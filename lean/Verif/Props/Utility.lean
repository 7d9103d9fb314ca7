import Verif.Model.Utility
import Verif.Model.IoStream
import Mathlib.Analysis.SpecialFunctions.Complex.Arg

/-!
# Properties C69 and C70: utilities
-/

namespace Mathter.Props
open Mathter

/-! ## C69 -/

/-- `x` has not yet reached `last`, going in the direction of `step`. -/
def Before (step last x : ℤ) : Prop := (0 < step ∧ x < last) ∨ (step < 0 ∧ last < x)

/-- The list is first, first + step, ... exactly while the bound is not reached. -/
def IsLoop (first last step : ℤ) (l : List ℤ) : Prop :=
  (∀ k (h : k < l.length), l[k] = first + k * step ∧ Before step last l[k]) ∧ ¬ Before step last (first + l.length * step)

private theorem isLoop_cons {first last step : ℤ} {l : List ℤ} (hb : Before step last first) (h : IsLoop (first + step) last step l) :
    IsLoop first last step (first :: l) := by
  obtain ⟨h1, h2⟩ := h
  constructor
  · intro k hk
    cases k with
    | zero => exact ⟨by simp, hb⟩
    | succ k =>
      obtain ⟨a, b⟩ := h1 k (by simpa using hk)
      refine ⟨?_, b⟩
      rw [List.getElem_cons_succ, a]
      push_cast
      ring
  · rw [List.length_cons]
    push_cast
    rw [show first + ((l.length : ℤ) + 1) * step = first + step + l.length * step by ring]
    exact h2

private theorem isLoop_nil {first last step : ℤ} (hb : ¬ Before step last first) : IsLoop first last step [] :=
  ⟨fun k hk => by simp at hk, by simpa using hb⟩

private theorem plainLoop_spec (step last : ℤ) (hs : 0 < step) (i : ℤ) : ∃ l, plainLoop step last i = some l ∧ IsLoop i last step l := by
  induction i using plainLoop.induct step last with
  | case1 i h1 h2 ih =>
    obtain ⟨l, hl, hL⟩ := ih
    refine ⟨i :: l, ?_, isLoop_cons (Or.inl ⟨hs, h1⟩) hL⟩
    rw [plainLoop, if_pos h1, if_pos h2, hl]; rfl
  | case2 i h1 h2 => exact absurd hs h2
  | case3 i h1 =>
    refine ⟨[], by rw [plainLoop, if_neg h1], isLoop_nil ?_⟩
    rintro (h | h)
    · exact h1 h.2
    · omega

/-- C69: for a positive step the indices are those of the plain loop, whatever the limit. -/
theorem C69_ascending (first last step limit : ℤ) (hs : 0 < step) : ∃ l, forUnrolled step last limit hs.ne' first = some l ∧ IsLoop first last step l := by
  induction first using forUnrolled.induct step last limit hs.ne' with
  | case1 first h1 h2 ih =>
    obtain ⟨l, hl, hL⟩ := ih
    have h2' : first < last := by rw [notReached, if_pos hs, decide_eq_true_eq] at h2; exact h2
    refine ⟨first :: l, ?_, isLoop_cons (Or.inl ⟨hs, h2'⟩) hL⟩
    rw [forUnrolled, if_pos h1, if_pos h2, hl]; rfl
  | case2 first h1 h2 =>
    refine ⟨[], by rw [forUnrolled, if_pos h1, if_neg h2], isLoop_nil ?_⟩
    rw [notReached, if_pos hs, decide_eq_true_eq] at h2
    rintro (h | h)
    · exact h2 h.2
    · omega
  | case3 first h1 =>
    obtain ⟨l, hl, hL⟩ := plainLoop_spec step last hs first
    exact ⟨l, by rw [forUnrolled, if_neg h1, hl], hL⟩

/-- C69, partial, for negative steps: the indices are those of the plain loop provided that the limit is not exceeded. Missing: more
indices than the limit, see `C69_descending_violated`. -/
theorem C69_descending_partial (first last step limit : ℤ) (hs : step < 0) (hlim : (last - first).tdiv step ≤ limit) (h0 : 0 ≤ limit) :
    ∃ l, forUnrolled step last limit hs.ne first = some l ∧ IsLoop first last step l := by
  induction first using forUnrolled.induct step last limit hs.ne with
  | case1 first h1 h2 ih =>
    have h2' : last < first := by rw [notReached, if_neg (by omega), decide_eq_true_eq] at h2; exact h2
    have hle : (last - (first + step)).tdiv step ≤ limit := by
      have e : last - (first + step) = (last - first) - step := by ring
      by_cases hx : last - first ≤ step
      · have hm : (last - first).tdiv step = (last - (first + step)).tdiv step + 1 := by
          have a := Int.neg_tdiv_neg (last - first) step
          have b := Int.neg_tdiv_neg (last - (first + step)) step
          rw [← a, ← b, Int.tdiv_eq_ediv_of_nonneg (by omega), Int.tdiv_eq_ediv_of_nonneg (by omega)]
          rw [show -(last - first) = -(last - (first + step)) + 1 * (-step) by ring, Int.add_mul_ediv_right _ _ (by omega)]
        omega
      · have : (last - (first + step)).tdiv step ≤ 0 := by
          rw [← Int.neg_tdiv_neg]
          rw [Int.neg_tdiv]
          have := Int.tdiv_nonneg (a := last - (first + step)) (b := -step) (by omega) (by omega)
          omega
        omega
    obtain ⟨l, hl, hL⟩ := ih hle
    refine ⟨first :: l, ?_, isLoop_cons (Or.inr ⟨hs, h2'⟩) hL⟩
    rw [forUnrolled, if_pos h1, if_pos h2, hl]; rfl
  | case2 first h1 h2 =>
    refine ⟨[], by rw [forUnrolled, if_pos h1, if_neg h2], isLoop_nil ?_⟩
    rw [notReached, if_neg (by omega), decide_eq_true_eq] at h2
    rintro (h | h)
    · omega
    · exact h2 h.2
  | case3 first h1 => exact absurd hlim h1

/-- C69 is violated: with a negative step and more indices than the limit the function is never called. -/
theorem C69_descending_violated (first last step limit : ℤ) (hs : step < 0) (h : last < first) (hlim : limit < (last - first).tdiv step) :
    forUnrolled step last limit hs.ne first = some [] ∧ ¬ IsLoop first last step [] := by
  constructor
  · rw [forUnrolled, if_neg (by omega), plainLoop, if_neg (by omega)]
  · rintro ⟨-, h2⟩
    exact h2 (Or.inr ⟨hs, by simpa using h⟩)

/-- Ten down to zero with a limit of four. -/
example : (-1 : ℤ) < 0 ∧ (0 : ℤ) < 10 ∧ (4 : ℤ) < (0 - 10 : ℤ).tdiv (-1) := by decide

/-- The description determines the list. -/
theorem C69_unique (first last step : ℤ) (l l' : List ℤ) (h : IsLoop first last step l) (h' : IsLoop first last step l') : l = l' := by
  have key : ∀ l l' : List ℤ, IsLoop first last step l → IsLoop first last step l' → ¬ l.length < l'.length := by
    intro l l' h h' hlt
    obtain ⟨a, b⟩ := h'.1 l.length hlt
    rw [a] at b
    exact h.2 b
  have hlen : l.length = l'.length := le_antisymm (not_lt.1 (key l' l h' h)) (not_lt.1 (key l l' h h'))
  apply List.ext_getElem hlen
  intro k h1 h2
  rw [(h.1 k h1).1, (h'.1 k h2).1]

/-! ## C70 -/

/-- C70: the conversions between degrees and radians are inverses, and half a turn is 180 degrees. -/
theorem C70_degrees (x : ℝ) : deg2Rad (rad2Deg x) = x ∧ rad2Deg (deg2Rad x) = x ∧ rad2Deg Real.pi = 180 ∧ StrictMono rad2Deg := by
  have hp := Real.pi_pos
  refine ⟨?_, ?_, ?_, ?_⟩
  · rw [deg2Rad, rad2Deg]; field_simp
  · rw [deg2Rad, rad2Deg]; field_simp
  · rw [rad2Deg]; field_simp
  · intro a b h
    rw [rad2Deg, rad2Deg]
    have := div_lt_div_of_pos_right h hp
    linarith

/-- C70: `Clamp` gives a value in the range - the argument if it is in the range, otherwise the nearer bound - and is idempotent. -/
theorem C70_clamp {K : Type*} [LinearOrder K] (arg lower upper : K) (h : lower ≤ upper) : ∃ r, scalarClamp arg lower upper = some r ∧
    lower ≤ r ∧ r ≤ upper ∧ (lower ≤ arg → arg ≤ upper → r = arg) ∧ (arg < lower → r = lower) ∧ (upper < arg → r = upper) ∧
    scalarClamp r lower upper = some r := by
  have key : ∀ r, lower ≤ r → r ≤ upper → scalarClamp r lower upper = some r := by
    intro r h1 h2
    rw [scalarClamp, if_neg (not_lt.2 h), if_neg (not_lt.2 h1), if_neg (not_lt.2 h2)]
  by_cases h1 : arg < lower
  · refine ⟨lower, by rw [scalarClamp, if_neg (not_lt.2 h), if_pos h1], le_rfl, h, fun a => absurd h1 (not_lt.2 a), fun _ => rfl,
      fun a => absurd (h1.trans_le h) (not_lt.2 a.le), key _ le_rfl h⟩
  · by_cases h2 : upper < arg
    · exact ⟨upper, by rw [scalarClamp, if_neg (not_lt.2 h), if_neg h1, if_pos h2], h, le_rfl, fun _ a => absurd h2 (not_lt.2 a),
        fun a => absurd a h1, fun _ => rfl, key _ h le_rfl⟩
    · exact ⟨arg, key _ (not_lt.1 h1) (not_lt.1 h2), not_lt.1 h1, not_lt.1 h2, fun _ _ => rfl, fun a => absurd a h1, fun a => absurd a h2,
        key _ (not_lt.1 h1) (not_lt.1 h2)⟩

/-- C70: `Saturate` gives the nearest number between zero and one. -/
theorem C70_saturate (arg : ℝ) : ∃ r, scalarSaturate arg = some r ∧ 0 ≤ r ∧ r ≤ 1 ∧ ∀ y, 0 ≤ y → y ≤ 1 → |arg - r| ≤ |arg - y| := by
  obtain ⟨r, h1, h2, h3, h4, h5, h6, -⟩ := C70_clamp arg 0 1 zero_le_one
  refine ⟨r, h1, h2, h3, fun y hy0 hy1 => ?_⟩
  by_cases a : arg < 0
  · rw [h5 a, abs_of_neg (by linarith), abs_of_neg (by linarith)]
    linarith
  · by_cases b : 1 < arg
    · rw [h6 b, abs_of_pos (by linarith), abs_of_nonneg (by linarith)]
      linarith
    · rw [h4 (not_lt.1 a) (not_lt.1 b), sub_self, abs_zero]
      exact abs_nonneg _

/-- C70: reversed bounds have no defined result. -/
theorem C70_clamp_reversed {K : Type*} [LinearOrder K] (arg lower upper : K) (h : upper < lower) : scalarClamp arg lower upper = none := if_pos h

/-- C70: the scalar `Normalize` gives a number of magnitude one which has the direction of its argument; for zero the result is one or, for
the real zero with a sign, minus one. -/
theorem C70_normalize (neg : Bool) (x : ℝ) (z : ℂ) :
    |scalarNormalize neg x| = 1 ∧ |x| * scalarNormalize neg x = x ∧
    ‖complexNormalize z‖ = 1 ∧ (‖z‖ : ℂ) * complexNormalize z = z ∧ (z ≠ 0 → Complex.arg (complexNormalize z) = Complex.arg z) ∧
    complexNormalize 0 = 1 := by
  have h0 : complexNormalize 0 = 1 := by simp [complexNormalize]
  have hm0 : max |z.re| |z.im| = 0 ↔ z = 0 := by
    constructor
    · intro h
      have h1 : |z.re| ≤ 0 := h ▸ le_max_left _ _
      have h2 : |z.im| ≤ 0 := h ▸ le_max_right _ _
      exact Complex.ext (abs_nonpos_iff.1 h1) (abs_nonpos_iff.1 h2)
    · rintro rfl; simp
  have hz : z ≠ 0 → complexNormalize z = z / (‖z‖ : ℂ) := by
    intro hz
    have hm : max |z.re| |z.im| ≠ 0 := fun h => hz (hm0.1 h)
    have hmp : 0 < max |z.re| |z.im| := lt_of_le_of_ne (le_max_of_le_left (abs_nonneg _)) (Ne.symm hm)
    have hp : 0 < 1 / max |z.re| |z.im| := by positivity
    rw [complexNormalize]
    dsimp only
    rw [if_neg hm, ← Complex.norm_def, norm_mul, Complex.norm_real, Real.norm_of_nonneg hp.le, Complex.ofReal_mul]
    have h1 : ((1 / max |z.re| |z.im| : ℝ) : ℂ) ≠ 0 := Complex.ofReal_ne_zero.2 hp.ne'
    rw [mul_div_mul_right _ _ h1]
  have hn : z ≠ 0 → (‖z‖ : ℂ) ≠ 0 := fun hz => Complex.ofReal_ne_zero.2 (norm_ne_zero_iff.2 hz)
  refine ⟨?_, ?_, ?_, ?_, ?_, h0⟩
  · rw [scalarNormalize]; split_ifs <;> simp
  · rw [scalarNormalize]
    split_ifs with h
    · rcases h with h | ⟨h, _⟩
      · rw [abs_of_neg h]; ring
      · rw [h]; simp
    · have : 0 ≤ x := not_lt.1 fun a => h (Or.inl a)
      rw [abs_of_nonneg this, mul_one]
  · by_cases h : z = 0
    · rw [h, h0, norm_one]
    · rw [hz h, norm_div, Complex.norm_real, Real.norm_of_nonneg (norm_nonneg _), div_self (norm_ne_zero_iff.2 h)]
  · by_cases h : z = 0
    · rw [h]; simp
    · rw [hz h, mul_div_cancel₀ _ (hn h)]
  · intro h
    rw [hz h, div_eq_mul_inv, mul_comm, ← Complex.ofReal_inv, Complex.arg_real_mul _ (inv_pos.2 (norm_pos_iff.2 h))]

end Mathter.Props
