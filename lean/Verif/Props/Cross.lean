import Mathlib.LinearAlgebra.Matrix.Determinant.Basic
import Mathlib.LinearAlgebra.Vandermonde
import Verif.Model.VectorMath
import Verif.Props.Determinant
import Verif.Props.Bareiss

/-!
# Property C16: the generalised cross product

The property holds for dimensions 2 to 5. In dimension 6 and above the coefficients are computed by `BareissAlgorithm` (C29), and the
property fails: `C16_violated`. `C16_cross_partial` covers every dimension under the condition under which C29 holds; it is the weakest one
(`C16_exact_partial`).
-/

namespace Mathter.Props
open Mathter
universe u
variable {K : Type u} [CommRing K] {n : ℕ}

/-- Specification of the cross product `c` of `v 0, …, v (n-1)` in dimension `n + 1`: the scalar product with any `w` is the determinant
of the matrix with rows `v 0, …, v (n-1), w`. -/
def IsCross (v : Fin n → Fin (n + 1) → K) (c : Fin (n + 1) → K) : Prop :=
  ∀ w : Fin (n + 1) → K, ∑ i, c i * w i = (Matrix.of (Fin.snoc (α := fun _ => Fin (n + 1) → K) v w)).det

/-- C16: the specification determines the cross product. -/
theorem C16_unique (v : Fin n → Fin (n + 1) → K) (c c' : Fin (n + 1) → K) (h : IsCross v c) (h' : IsCross v c') : c = c' := by
  funext i
  have := (h (Pi.single i 1)).trans (h' (Pi.single i 1)).symm
  simpa [Pi.single_apply] using this

/-- C16: it is orthogonal to each argument. -/
theorem C16_orthogonal (v : Fin n → Fin (n + 1) → K) (c : Fin (n + 1) → K) (h : IsCross v c) (k : Fin n) : ∑ i, c i * v k i = 0 := by
  rw [h (v k)]
  refine Matrix.det_zero_of_row_eq (i := k.castSucc) (j := Fin.last n) (Fin.castSucc_lt_last k).ne ?_
  funext j
  simp

/-- C16: it changes sign with the parity of a permutation of the arguments. -/
theorem C16_alternating (v : Fin n → Fin (n + 1) → K) (c c' : Fin (n + 1) → K) (h : IsCross v c) (i j : Fin n) (hij : i ≠ j)
    (h' : IsCross (fun k => v (Equiv.swap i j k)) c') : ∀ k, c' k = -c k := by
  have : IsCross (fun k => v (Equiv.swap i j k)) (fun k => -c k) := by
    intro w
    have e : (Matrix.of (Fin.snoc (α := fun _ => Fin (n + 1) → K) (fun k => v (Equiv.swap i j k)) w))
        = (Matrix.of (Fin.snoc (α := fun _ => Fin (n + 1) → K) v w)).submatrix (Equiv.swap i.castSucc j.castSucc) id := by
      ext r s
      rw [Matrix.submatrix_apply, Matrix.of_apply, Matrix.of_apply]
      refine Fin.lastCases ?_ (fun r => ?_) r
      · rw [Equiv.swap_apply_of_ne_of_ne (Fin.castSucc_lt_last i).ne' (Fin.castSucc_lt_last j).ne']
        simp
      · rw [← Fin.castSucc_injective n |>.map_swap]
        simp
    rw [e, Matrix.det_permute, Equiv.Perm.sign_swap (by simpa using hij), ← h w]
    simp [Finset.sum_neg_distrib]
  exact fun k => congrFun (C16_unique _ _ _ h' this) k

omit [CommRing K] in
private theorem crossFill_eq (vectors : Fin n → Fin (n + 1) → K) (idx : Fin (n + 1)) (d : Fin n → Fin n → K) (r c : Fin n) :
    crossFill vectors idx d r c = vectors r (idx.succAbove c) := by
  have inner : ∀ (q : ℕ) (g : Fin n → K) (d : Fin n → Fin n → K) (r c : Fin n),
      forUp n 0 (fun i d => fun r c => if r = i ∧ c.val = q then g i else d r c) d r c = if c.val = q then g r else d r c := by
    intro q g d
    have := forUp_inv (n := n) (lo := 0) (body := fun i d => fun r (c : Fin n) => if r = i ∧ c.val = q then g i else d r c) (s := d)
      (fun t y => ∀ r c : Fin n, y r c = if r.val < t ∧ c.val = q then g r else d r c) (Nat.zero_le _)
      (by intro r c; simp) (by
        intro i y _ hy r c
        dsimp only
        rw [hy r c]
        by_cases hr : r = i
        · subst hr; by_cases hc : c.val = q <;> simp [hc]
        · have : r.val ≠ i.val := fun e => hr (Fin.ext e)
          simp only [hr, false_and, if_false]
          congr 1
          apply propext
          omega)
    intro r c
    rw [this r c]
    simp
  have s1 : ∀ r c : Fin n, (forUp idx.val 0 (fun j d => forUp n 0 (fun i d =>
      fun r c => if r = i ∧ c.val = j.val then vectors i ⟨j.val, by omega⟩ else d r c) d) d) r c
        = if c.val < idx.val then vectors r c.castSucc else d r c := by
    have := forUp_inv (n := idx.val) (lo := 0) (body := fun j d => forUp n 0 (fun i d =>
      fun r c => if r = i ∧ c.val = j.val then vectors i ⟨j.val, by omega⟩ else d r c) d) (s := d)
      (fun t y => ∀ r c : Fin n, y r c = if c.val < t then vectors r c.castSucc else d r c) (Nat.zero_le _) (by intro r c; simp) (by
        intro j y _ hy r c
        rw [inner j.val (fun i => vectors i ⟨j.val, by omega⟩) y r c, hy r c]
        by_cases hc : c.val = j.val
        · rw [if_pos hc, if_pos (by omega)]
          congr 1
          exact Fin.ext hc.symm
        · rw [if_neg hc]
          congr 1
          apply propext
          omega)
    exact this
  unfold crossFill
  generalize hd' : (forUp idx.val 0 (fun j d => forUp n 0 (fun i d =>
      fun r c => if r = i ∧ c.val = j.val then vectors i ⟨j.val, by omega⟩ else d r c) d) d) = d' at *
  have s2 := forUp_inv (n := n + 1) (lo := idx.val + 1) (body := fun j d => forUp n 0 (fun i d =>
    fun r c => if r = i ∧ c.val = j.val - 1 then vectors i j else d r c) d) (s := d')
    (fun t y => ∀ r c : Fin n, y r c = if idx.val ≤ c.val ∧ c.val + 1 < t then vectors r c.succ else d' r c) idx.isLt
    (by intro r c; rw [if_neg]; omega) (by
      intro j y hj hy r c
      rw [inner (j.val - 1) (fun i => vectors i j) y r c, hy r c]
      by_cases hc : c.val = j.val - 1
      · rw [if_pos hc, if_pos (by omega)]
        congr 1
        apply Fin.ext
        simp; omega
      · rw [if_neg hc]
        congr 1
        apply propext
        omega)
  rw [s2 r c, s1 r c]
  by_cases h : c.val < idx.val
  · rw [if_neg (by omega), if_pos h, Fin.succAbove_of_castSucc_lt _ _ (by simpa [Fin.lt_def] using h)]
  · rw [if_pos (by omega), Fin.succAbove_of_le_castSucc _ _ (by simpa [Fin.le_def] using h)]

/-- Entries of `CrossND`: signed determinants of the input with one coordinate removed. -/
private theorem crossND_entry (detFn : (Fin n → Fin n → K) → K) (d0 : Fin n → Fin n → K) (r0 : Fin (n + 1) → K)
    (v : Fin n → Fin (n + 1) → K) (i : Fin (n + 1)) :
    crossND detFn d0 r0 v i = (-1) ^ (n + i.val) * detFn fun r c => v r (i.succAbove c) := by
  have hfill : ∀ idx d, crossFill v idx d = fun r c => v r (idx.succAbove c) := fun idx d => by
    funext r c; exact crossFill_eq v idx d r c
  have hsign : (2 * ((n + 1 : ℤ) % 2) - 1) = (-1) ^ n := by
    rcases Nat.even_or_odd' n with ⟨k, rfl | rfl⟩
    · rw [pow_mul]; push_cast; simp [Int.add_emod]
    · rw [pow_succ, pow_mul]; push_cast; simp; omega
  have := forUp_inv (n := n + 1) (lo := 0) (body := fun idx (s : (Fin n → Fin n → K) × (Fin (n + 1) → K) × ℤ) =>
    let d := crossFill v idx s.1
    (d, fun i => if i = idx then (s.2.2 : K) * detFn d else s.2.1 i, s.2.2 * -1)) (s := (d0, r0, 2 * ((n + 1 : ℤ) % 2) - 1))
    (fun t s => s.2.2 = (-1) ^ (n + t) ∧ ∀ i : Fin (n + 1), i.val < t → s.2.1 i = (-1) ^ (n + i.val) * detFn fun r c => v r (i.succAbove c))
    (Nat.zero_le _) ⟨by simpa using hsign, by intro i h; omega⟩ (by
      rintro idx ⟨d, r, s⟩ - ⟨hs, hr⟩
      dsimp only at hs hr ⊢
      refine ⟨by rw [hs, ← add_assoc, pow_succ], ?_⟩
      intro i hi
      rw [hfill]
      split
      · rename_i e; subst e; rw [hs]; push_cast; rfl
      · rename_i e
        apply hr
        have : i.val ≠ idx.val := fun h => e (Fin.ext h)
        omega)
  exact this.2 i i.isLt

omit [CommRing K] in
private theorem snoc_minor (v : Fin n → Fin (n + 1) → K) (w : Fin (n + 1) → K) (f : Fin n → Fin (n + 1)) :
    (Matrix.of (Fin.snoc (α := fun _ => Fin (n + 1) → K) v w)).submatrix Fin.castSucc f = Matrix.of fun r c => v r (f c) := by
  ext r c; simp

/-- `CrossND` is correct whenever the determinant function is correct on the minors it is applied to. -/
private theorem crossND_isCross (detFn : (Fin n → Fin n → K) → K) (d0 : Fin n → Fin n → K) (r0 : Fin (n + 1) → K)
    (v : Fin n → Fin (n + 1) → K) (h : ∀ i : Fin (n + 1), (detFn fun r c => v r (i.succAbove c)) = Matrix.det (Matrix.of fun r c => v r (i.succAbove c))) :
    IsCross v (crossND detFn d0 r0 v) := by
  intro w
  rw [Matrix.det_succ_row _ (Fin.last n)]
  apply Finset.sum_congr rfl
  intro j _
  rw [crossND_entry, h]
  rw [Fin.succAbove_last, snoc_minor]
  simp only [Matrix.of_apply, Fin.snoc_last, Fin.val_last]
  ring

private theorem list_vec_eq {V : Type u} {k : ℕ} (v : Fin k → V) (rest : List V) (i : ℕ) (h : i < k) :
    (List.ofFn v ++ rest)[i]'(by simp; omega) = v ⟨i, h⟩ := by
  rw [List.getElem_append_left (by simpa using h)]
  simp

private theorem cross_nd [DecidableEq K] (div : K → K → K) (d0 : Fin (n + 3) → Fin (n + 3) → K) (r0 : Fin (n + 4) → K)
    (v : Fin (n + 3) → Fin (n + 4) → K) (rest : List (Fin (n + 4) → K)) :
    cross div d0 r0 (List.ofFn v ++ rest) = some (crossND (fun m => determinant div .col (Matrix.of m)) d0 r0 v) := by
  have hl : n + 3 ≤ (List.ofFn v ++ rest).length := by rw [List.length_append, List.length_ofFn]; omega
  have : (fun i : Fin (n + 3) => (List.ofFn v ++ rest)[i.val]'(by omega)) = v := by
    funext i; exact list_vec_eq v rest i.val i.isLt
  rw [cross, dif_pos hl, this]

/-- C16, dimensions 2, 3, 4 and 5: `Cross` returns the cross product of its first `Dim - 1` arguments. -/
theorem C16_cross_2_to_5 [DecidableEq K] (div : K → K → K) (hn : n ≤ 3) (d0 : Fin (n + 1) → Fin (n + 1) → K) (r0 : Fin (n + 2) → K)
    (v : Fin (n + 1) → Fin (n + 2) → K) (rest : List (Fin (n + 2) → K)) :
    ∃ r, cross div d0 r0 (List.ofFn v ++ rest) = some r ∧ IsCross v r := by
  match n, hn with
  | 0, _ =>
    refine ⟨![-v 0 1, v 0 0], rfl, ?_⟩
    intro w
    rw [Matrix.det_fin_two]
    simp [Fin.sum_univ_two, Fin.snoc]
    ring
  | 1, _ =>
    refine ⟨sw (v 0) ![1, 2, 0] * sw (v 1) ![2, 0, 1] + -sw (v 0) ![2, 0, 1] * sw (v 1) ![1, 2, 0], rfl, ?_⟩
    intro w
    rw [Matrix.det_fin_three]
    simp [Fin.sum_univ_three, Fin.snoc, sw]
    ring
  | 2, _ =>
    refine ⟨_, cross_nd div d0 r0 v rest, ?_⟩
    exact crossND_isCross _ _ _ _ fun i => (C28_determinant div .col).2.1 _
  | 3, _ =>
    refine ⟨_, cross_nd div d0 r0 v rest, ?_⟩
    exact crossND_isCross _ _ _ _ fun i => (C28_determinant div .col).2.2 _

/-- C16: too few arguments raise the exception, in every dimension. -/
theorem C16_too_few [DecidableEq K] (div : K → K → K) (d0 : Fin (n + 1) → Fin (n + 1) → K) (r0 : Fin (n + 2) → K)
    (args : List (Fin (n + 2) → K)) : cross div d0 r0 args = none ↔ args.length < n + 1 := by
  match n, args with
  | 0, [] => simp [cross]
  | 0, _ :: _ => simp [cross]
  | 1, [] => simp [cross]
  | 1, [_] => simp [cross]
  | 1, _ :: _ :: _ => simp [cross]
  | n + 2, args => simp [cross]; omega

/-- C16, partial, dimensions from 6: the result is the cross product exactly if each `(Dim-1) × (Dim-1)` minor is zero or its matrix has nonzero leading
principal minors of order up to `Dim - 3`. -/
theorem C16_exact_partial {K : Type u} [Field K] [DecidableEq K] (d0 : Fin (n + 5) → Fin (n + 5) → K) (r0 : Fin (n + 6) → K)
    (v : Fin (n + 5) → Fin (n + 6) → K) (rest : List (Fin (n + 6) → K)) :
    ∃ r, cross (· / ·) d0 r0 (List.ofFn v ++ rest) = some r ∧
      (IsCross v r ↔ ∀ i : Fin (n + 6), (Matrix.of fun r c => v r (i.succAbove c)).det = 0 ∨
        ∀ s (h : s + 1 ≤ n + 4), (leading (Matrix.of fun r c => v r (i.succAbove c)) s (by omega)).det ≠ 0) := by
  have hex := fun i : Fin (n + 6) => C29_exact_partial (· / ·) (fun a _ hb => mul_div_cancel_right₀ a hb) (Matrix.of fun r c => v r (i.succAbove c))
  refine ⟨_, cross_nd _ d0 r0 v rest, fun hc i => ?_, fun hv => ?_⟩
  · rw [← hex]
    have h := congrFun (C16_unique v _ _ hc (crossND_isCross (fun m => (Matrix.of m).det) d0 r0 v fun i => rfl)) i
    rw [crossND_entry, crossND_entry] at h
    exact mul_left_cancel₀ (pow_ne_zero _ (neg_ne_zero.2 one_ne_zero)) h
  · exact crossND_isCross _ _ _ _ fun i => (hex i).2 (hv i)

/-- C16, partial, any dimension: the result is the cross product provided each `(Dim-1) × (Dim-1)` minor matrix has nonzero leading
principal minors of order up to `Dim - 3`, or determinant zero. Missing: other inputs, in dimension 6 and above. -/
theorem C16_cross_partial {K : Type u} [Field K] [DecidableEq K] (d0 : Fin (n + 5) → Fin (n + 5) → K) (r0 : Fin (n + 6) → K)
    (v : Fin (n + 5) → Fin (n + 6) → K) (rest : List (Fin (n + 6) → K))
    (hv : ∀ i : Fin (n + 6), (Matrix.of fun r c => v r (i.succAbove c)).det = 0 ∨
      ∀ s (h : s + 1 ≤ n + 4), (leading (Matrix.of fun r c => v r (i.succAbove c)) s (by omega)).det ≠ 0) :
    ∃ r, cross (· / ·) d0 r0 (List.ofFn v ++ rest) = some r ∧ IsCross v r := by
  obtain ⟨r, h1, h2⟩ := C16_exact_partial d0 r0 v rest
  exact ⟨r, h1, h2.2 hv⟩

/-- The hypothesis is met by the powers of 1, …, 6. -/
example : ∀ (i : Fin 6) s (h : s + 1 ≤ 4),
    (leading (Matrix.of fun (r c : Fin 5) => ((i.succAbove c).val + 1 : ℚ) ^ r.val) s (by omega)).det ≠ 0 := by
  intro i s h
  have e : leading (Matrix.of fun (r c : Fin 5) => ((i.succAbove c).val + 1 : ℚ) ^ r.val) s (by omega)
      = (Matrix.vandermonde fun c : Fin s => ((i.succAbove (Fin.castLE (by omega : s ≤ 5) c)).val + 1 : ℚ)).transpose := by
    ext r c; rfl
  rw [e, Matrix.det_transpose, Matrix.det_vandermonde_ne_zero_iff]
  intro a b hab
  have h1 : (i.succAbove (Fin.castLE (by omega : s ≤ 5) a)).val = (i.succAbove (Fin.castLE (by omega : s ≤ 5) b)).val := by
    have := add_right_cancel hab
    exact_mod_cast this
  exact Fin.castLE_injective _ (Fin.succAbove_right_injective (Fin.ext h1))

/-- C16 is violated in every dimension from 6: for the basis vectors with the first two exchanged, `Cross` returns a vector whose last
coordinate is `0` where the cross product has `-1`. -/
theorem C16_violated [Nontrivial K] [DecidableEq K] (div : K → K → K) (d0 : Fin (n + 5) → Fin (n + 5) → K) (r0 : Fin (n + 6) → K) :
    ∃ (v : Fin (n + 5) → Fin (n + 6) → K) (r : Fin (n + 6) → K), cross div d0 r0 (List.ofFn v) = some r ∧ ¬IsCross v r := by
  obtain ⟨m, hm, hd⟩ := C29_violated (R := K) div .col n
  let v : Fin (n + 5) → Fin (n + 6) → K := fun i => Fin.snoc (α := fun _ => K) (m i) 0
  refine ⟨v, _, by rw [← cross_nd div d0 r0 v [], List.append_nil], ?_⟩
  intro hc
  have h1 := hc (Pi.single (Fin.last _) 1)
  have hsub : ∀ r c, v r ((Fin.last (n + 5)).succAbove c) = m r c := by
    intro r c; simp [v]
  rw [Matrix.det_succ_row _ (Fin.last _)] at h1
  simp only [Fin.succAbove_last, snoc_minor] at h1
  have h2 : (Matrix.of fun r c => v r (Fin.succAbove (Fin.last (n + 5)) c)) = m := by ext r c; exact hsub r c
  simp only [Pi.single_apply, mul_ite, mul_one, mul_zero, Finset.sum_ite_eq', Finset.mem_univ, if_true, crossND_entry, h2,
    Matrix.of_apply, Fin.snoc_last, ite_mul, zero_mul, hm, hd] at h1
  simp at h1

/-- A non-trivial 3D value, and one in 4D. -/
example : cross (K := ℤ) (n := 1) Int.tdiv 0 0 [![1, 2, 3], ![4, 5, 6]] = some ![-3, 6, -3] := by decide

end Mathter.Props
