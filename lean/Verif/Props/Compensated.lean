import Verif.Spec.Rounding
import Verif.Model.VectorMath

/-!
# Property C19: compensated sums

`SumCompensated` in rounded arithmetic: `fadd a b = fl (a + b)`, `fsub a b = fl (a - b)` for a rounding function `fl` (see
`Spec/Rounding.lean`; every round-to-nearest of every binary precision qualifies). `fl = id` is exact arithmetic.
-/

namespace Mathter.Props
open Mathter
variable {n : ℕ}

/-- Floating point addition and subtraction with rounding function `fl`. -/
noncomputable def sumCompFl (fl : ℝ → ℝ) (v : Fin n → ℝ) : ℝ × ℝ := sumCompensated (fun a b => fl (a + b)) (fun a b => fl (a - b)) v

/-- C19: in exact arithmetic the result is the sum with a zero compensation. -/
theorem C19_exact (v : Fin n → ℝ) : sumCompFl id v = (∑ i, v i, 0) := by
  have : ∀ (l : List ℝ) (s : ℝ), l.foldl (sumCompStep (fun a b => id (a + b)) (fun a b => id (a - b))) (s, 0) = (s + l.sum, 0) := by
    intro l
    induction l with
    | nil => intro s; simp
    | cons x l ih =>
      intro s
      rw [List.foldl_cons]
      have e : sumCompStep (fun a b => id (a + b)) (fun a b => id (a - b)) (s, 0) x = (s + x, 0) := by
        simp [sumCompStep]
      rw [e, ih, List.sum_cons, add_assoc]
  unfold sumCompFl sumCompensated
  rw [this]
  simp [fast2Sum, List.sum_ofFn]

/-- C19: in exact arithmetic `DotCompensated` is the scalar product with a zero compensation. -/
theorem C19_dot_exact (a b : Fin n → ℝ) :
    dotCompensated (fun x y => id (x + y)) (fun x y => id (x - y)) (fun x y => x * y) a b = (dot a b, 0) := by
  have := C19_exact fun i => a i * b i
  rw [dotCompensated]
  unfold sumCompFl at this
  rw [this]
  simp [dot, vsum, vconj]

/-- State of the loop after some elements: what is known about the exact errors. -/
private structure Inv (fl : ℝ → ℝ) (u : ℝ) (l : List ℝ) (st : ℝ × ℝ) where
  /-- Sum of the rounding errors of the main sum so far. -/
  E : ℝ
  /-- Bound on the sum of their magnitudes. -/
  A : ℝ
  s_fl : fl st.1 = st.1
  c_fl : fl st.2 = st.2
  exact : st.1 + E = l.sum
  sBound : |st.1| ≤ (1 + u) ^ l.length * (l.map abs).sum
  A_nonneg : 0 ≤ A
  E_le : |E| ≤ A
  ABound : A ≤ l.length * (u * ((1 + u) ^ l.length * (l.map abs).sum))
  c_err : |st.2 - E| ≤ ((1 + u) ^ l.length - 1) * A

private theorem inv_step {fl : ℝ → ℝ} {u : ℝ} (h : Rounding fl u) (l : List ℝ) (st : ℝ × ℝ) (x : ℝ) (hx : fl x = x)
    (I : Inv fl u l st) : Nonempty (Inv fl u (l ++ [x]) (sumCompStep (fun a b => fl (a + b)) (fun a b => fl (a - b)) st x)) := by
  obtain ⟨E, A, hs, hc, hex, hsb, hA0, hEA, hAb, hce⟩ := I
  obtain ⟨s, c⟩ := st
  dsimp only at *
  have hu := h.u_nonneg
  have hneg : ∀ y, fl y = y → fl (-y) = -y := fun y hy => by rw [h.odd, hy]
  -- the compensation term is the exact error of the addition
  have hstep : sumCompStep (fun a b => fl (a + b)) (fun a b => fl (a - b)) (s, c) x
      = (fl (s + x), fl (c + (s + x - fl (s + x)))) := by
    unfold sumCompStep
    dsimp only
    have two : ∀ a b, fl a = a → fl b = b → |b| ≤ |a| → fl (fl (a - fl (a + b)) + b) = a + b - fl (a + b) := by
      intro a b ha hb hab
      have e1 : fl (a - fl (a + b)) = a - fl (a + b) := by
        have := h.sub_exact a b ha hb hab
        rw [← neg_sub, h.odd, this]
      rw [e1, show a - fl (a + b) + b = a + b - fl (a + b) by ring]
      exact h.err_exact a b ha hb hab
    split_ifs with hgt
    · rw [two s x hs hx (le_of_lt hgt)]
    · have := two x s hx hs (not_lt.1 hgt)
      rw [add_comm x s] at this
      rw [this]
  rw [hstep]
  set t := fl (s + x) with ht
  set e := s + x - t with he
  have hsum : (((l ++ [x]).map abs).sum : ℝ) = (l.map abs).sum + |x| := by simp
  have hlen : (l ++ [x]).length = l.length + 1 := by simp
  set S := (l.map abs).sum with hS
  have hS0 : 0 ≤ S := by
    apply List.sum_nonneg
    intro y hy
    obtain ⟨z, -, rfl⟩ := List.mem_map.1 hy
    exact abs_nonneg z
  set k := l.length
  have hpow1 : (1 : ℝ) ≤ (1 + u) ^ k := one_le_pow₀ (by linarith)
  have hpow2 : (1 + u) ^ (k + 1) = (1 + u) ^ k * (1 + u) := pow_succ _ _
  -- |s + x| ≤ (1 + u)^k (S + |x|)
  have hsx : |s + x| ≤ (1 + u) ^ k * (S + |x|) := by
    have h1 := abs_add_le s x
    have h2 : |x| ≤ (1 + u) ^ k * |x| := le_mul_of_one_le_left (abs_nonneg x) hpow1
    linarith
  have herr := h.err (s + x)
  rw [← ht] at herr
  have heabs : |e| ≤ u * ((1 + u) ^ k * (S + |x|)) := by
    rw [he, abs_sub_comm]
    exact herr.trans (mul_le_mul_of_nonneg_left hsx hu)
  have hcomp := h.err (c + e)
  have hmono : ∀ a : ℝ, 0 ≤ a → (1 + u) ^ k * a ≤ (1 + u) ^ (k + 1) * a := fun a ha =>
    mul_le_mul_of_nonneg_right (pow_le_pow_right₀ (by linarith) (Nat.le_succ k)) ha
  have hSx0 : 0 ≤ S + |x| := add_nonneg hS0 (abs_nonneg x)
  refine ⟨⟨E + e, A + |e|, h.idem _, h.idem _, ?_, ?_, by positivity, ?_, ?_, ?_⟩⟩
  · simp only [List.sum_append, List.sum_cons, List.sum_nil, add_zero]
    rw [← hex, he]; ring
  · rw [hsum, hlen]
    have h1 : |t| ≤ |s + x| + u * |s + x| := by
      have := abs_sub_abs_le_abs_sub t (s + x)
      linarith
    calc |t| ≤ (1 + u) * |s + x| := by linarith
      _ ≤ (1 + u) * ((1 + u) ^ k * (S + |x|)) := mul_le_mul_of_nonneg_left hsx (by linarith)
      _ = (1 + u) ^ (k + 1) * (S + |x|) := by rw [hpow2]; ring
  · exact (abs_add_le E e).trans (by linarith)
  · rw [hsum, hlen]
    push_cast
    have h1 : (1 + u) ^ k * S ≤ (1 + u) ^ (k + 1) * (S + |x|) := by
      refine (mul_le_mul_of_nonneg_left (by linarith [abs_nonneg x] : S ≤ S + |x|) (by linarith)).trans (hmono _ hSx0)
    have h2 := hmono _ hSx0
    have hk0 : (0 : ℝ) ≤ k := Nat.cast_nonneg k
    have h3 : A ≤ k * (u * ((1 + u) ^ (k + 1) * (S + |x|))) :=
      hAb.trans (mul_le_mul_of_nonneg_left (mul_le_mul_of_nonneg_left h1 hu) hk0)
    have h4 : |e| ≤ u * ((1 + u) ^ (k + 1) * (S + |x|)) := heabs.trans (mul_le_mul_of_nonneg_left h2 hu)
    linarith
  · rw [hlen]
    dsimp only
    have h1 : |fl (c + e) - (E + e)| ≤ |fl (c + e) - (c + e)| + |c - E| := by
      rw [show fl (c + e) - (E + e) = (fl (c + e) - (c + e)) + (c - E) by ring]
      exact abs_add_le _ _
    have h2 : |c + e| ≤ (1 + u) ^ k * A + |e| := by
      have a1 := abs_add_le (c - E) (E + e)
      have a2 := abs_add_le E e
      rw [show c - E + (E + e) = c + e by ring] at a1
      linarith
    have h3 : u * |c + e| ≤ u * ((1 + u) ^ k * A + |e|) := mul_le_mul_of_nonneg_left h2 hu
    have h4 : ((1 + u) ^ (k + 1) - 1) * (A + |e|) = ((1 + u) ^ k - 1) * A + u * ((1 + u) ^ k * A) + ((1 + u) ^ (k + 1) - 1) * |e| := by
      rw [hpow2]; ring
    have h5 : u * |e| ≤ ((1 + u) ^ (k + 1) - 1) * |e| := by
      apply mul_le_mul_of_nonneg_right _ (abs_nonneg e)
      rw [hpow2]
      nlinarith
    rw [h4]
    linarith

private theorem inv_fold {fl : ℝ → ℝ} {u : ℝ} (h : Rounding fl u) (l2 : List ℝ) : ∀ (l1 : List ℝ) (st : ℝ × ℝ), (∀ x ∈ l2, fl x = x) →
    Inv fl u l1 st → Nonempty (Inv fl u (l1 ++ l2) (l2.foldl (sumCompStep (fun a b => fl (a + b)) (fun a b => fl (a - b))) st)) := by
  induction l2 with
  | nil => intro l1 st _ I; simpa using ⟨I⟩
  | cons x l2 ih =>
    intro l1 st hx I
    obtain ⟨I'⟩ := inv_step h l1 st x (hx x (by simp)) I
    have := ih (l1 ++ [x]) _ (fun y hy => hx y (by simp [hy])) I'
    simpa using this

/-- The second-order constant of the error bound. -/
noncomputable def compBound (n : ℕ) (u : ℝ) : ℝ := ((1 + u) ^ n - 1) * (n * (u * (1 + u) ^ n))

/-- C19: the error of `SumCompensated` in rounded arithmetic. The returned sum differs from the exact sum by at most one rounding of
the exact sum plus a term of second order in `u`; and if the accumulated compensation is not larger than the accumulated sum (so
that the final Fast2Sum is exact), the returned pair represents the exact sum up to the second order term alone. -/
theorem C19_error_bound {fl : ℝ → ℝ} {u : ℝ} (h : Rounding fl u) (v : Fin n → ℝ) (hv : ∀ i, fl (v i) = v i) :
    |(sumCompFl fl v).1 - ∑ i, v i| ≤ u * |∑ i, v i| + (1 + u) * (compBound n u * ∑ i, |v i|) ∧
    (let st := (List.ofFn v).foldl (sumCompStep (fun a b => fl (a + b)) (fun a b => fl (a - b))) (0, 0)
     |st.2| ≤ |st.1| → |(sumCompFl fl v).1 + (sumCompFl fl v).2 - ∑ i, v i| ≤ compBound n u * ∑ i, |v i|) := by
  have h0 : fl 0 = 0 := by
    have := h.err 0
    simpa using this
  have I0 : Inv fl u [] (0, 0) := ⟨0, 0, h0, h0, by simp, by simp, le_rfl, by simp, by simp, by simp⟩
  obtain ⟨E, A, hs, hc, hex, -, hA0, -, hAb, hce⟩ := inv_fold h (List.ofFn v) [] (0, 0) (by
    intro x hx
    obtain ⟨i, rfl⟩ := (List.mem_ofFn' v x).1 hx
    exact hv i) I0
  rw [List.nil_append] at hex hAb hce
  have hsum : (List.ofFn v).sum = ∑ i, v i := List.sum_ofFn
  have habs : ((List.ofFn v).map abs).sum = ∑ i, |v i| := by rw [List.map_ofFn, List.sum_ofFn]; rfl
  rw [hsum] at hex
  rw [habs] at hAb
  rw [List.length_ofFn] at hAb hce
  have hu := h.u_nonneg
  set st := (List.ofFn v).foldl (sumCompStep (fun a b => fl (a + b)) (fun a b => fl (a - b))) (0, 0) with hst
  have hres : sumCompFl fl v = fast2Sum (fun a b => fl (a + b)) (fun a b => fl (a - b)) st.1 st.2 := rfl
  have hB : |st.1 + st.2 - ∑ i, v i| ≤ compBound n u * ∑ i, |v i| := by
    have e : st.1 + st.2 - ∑ i, v i = st.2 - E := by rw [← hex]; ring
    rw [e]
    refine hce.trans ?_
    have h1 : (0 : ℝ) ≤ (1 + u) ^ n - 1 := by
      have : (1 : ℝ) ≤ (1 + u) ^ n := one_le_pow₀ (by linarith)
      linarith
    refine (mul_le_mul_of_nonneg_left hAb h1).trans (le_of_eq ?_)
    unfold compBound
    ring
  refine ⟨?_, ?_⟩
  · rw [hres]
    unfold fast2Sum
    dsimp only
    have h1 := h.err (st.1 + st.2)
    have h2 := abs_sub_abs_le_abs_sub (st.1 + st.2) (∑ i, v i)
    have h3 := abs_add_le (fl (st.1 + st.2) - (st.1 + st.2)) (st.1 + st.2 - ∑ i, v i)
    rw [sub_add_sub_cancel] at h3
    have h4 : u * |st.1 + st.2| ≤ u * (|∑ i, v i| + compBound n u * ∑ i, |v i|) := mul_le_mul_of_nonneg_left (by linarith) hu
    linarith
  · intro st' hle
    have e : (sumCompFl fl v).1 + (sumCompFl fl v).2 = st.1 + st.2 := by
      rw [hres]
      unfold fast2Sum
      dsimp only
      rw [h.sub_exact _ _ hs hc hle, show st.2 - (fl (st.1 + st.2) - st.1) = st.1 + st.2 - fl (st.1 + st.2) by ring,
        h.err_exact _ _ hs hc hle]
      ring
    rw [e]
    exact hB

/-- C19: for every binary format (precision `p`, e.g. 24 and 53) and every round-to-nearest, with `u = 2^-p`. -/
theorem C19_binary {p : ℕ} (hp : 1 ≤ p) {fl : ℝ → ℝ} (h : RoundsToNearest p fl) (v : Fin n → ℝ) (hv : ∀ i, IsFloat p (v i)) :
    |(sumCompFl fl v).1 - ∑ i, v i| ≤ (2 : ℝ) ^ (-(p : ℤ)) * |∑ i, v i|
      + (1 + (2 : ℝ) ^ (-(p : ℤ))) * (compBound n ((2 : ℝ) ^ (-(p : ℤ))) * ∑ i, |v i|) :=
  (C19_error_bound (h.rounding hp) v fun i => by
    have := h.nearest (v i) (v i) (hv i)
    rw [sub_self, abs_zero] at this
    exact sub_eq_zero.1 (abs_nonpos_iff.1 this)).1

/-- Such roundings exist, and there are inputs for which the sum is not a float. -/
example : RoundsToNearest 24 (flAway 24) ∧ (∀ i, IsFloat 24 (![1, 2 ^ (-30 : ℤ)] i)) ∧ ∑ i, (![1, 2 ^ (-30 : ℤ)] : Fin 2 → ℝ) i ≠ 1 := by
  refine ⟨flAway_roundsToNearest (by norm_num), ?_, ?_⟩
  · intro i
    fin_cases i
    · exact ⟨1, 0, by simp, by norm_num⟩
    · exact ⟨1, -30, by simp, by norm_num⟩
  · simp [Fin.sum_univ_two]

end Mathter.Props
