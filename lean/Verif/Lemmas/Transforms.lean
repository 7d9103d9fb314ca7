import Mathlib.Tactic.Ring
import Mathlib.Tactic.FieldSimp
import Mathlib.Tactic.LinearCombination
import Verif.Model.Transforms
import Verif.Spec.Transform

/-! # Helper lemmas for the transform builders -/

namespace Mathter
universe u
variable {K : Type u}

/-- The element that maps input `j` to output `i`; 0 outside of the matrix. -/
def ent [Zero K] (o : Order) {r c : ℕ} (m : Matrix (Fin r) (Fin c) K) (i j : ℕ) : K :=
  match o with
  | .precede => if h : i < r ∧ j < c then m ⟨i, h.1⟩ ⟨j, h.2⟩ else 0
  | .follow => if h : j < r ∧ i < c then m ⟨j, h.1⟩ ⟨i, h.2⟩ else 0

/-- Whether there is such an element. -/
def inR (o : Order) (r c i j : ℕ) : Prop :=
  match o with
  | .precede => i < r ∧ j < c
  | .follow => j < r ∧ i < c

instance (o : Order) (r c i j : ℕ) : Decidable (inR o r c i j) := by unfold inR; cases o <;> infer_instance

theorem inR_t (o : Order) (n : ℕ) (k : TKind) (i j : ℕ) : inR o (tRows o n k) (tCols o n k) i j ↔ i < k.outs n ∧ j < k.ins n := by
  cases o <;> simp only [inR, tRows, tCols] <;> omega

section
variable [Zero K] {r c : ℕ} (o : Order)

theorem ent_setAt_diag (i : ℕ) (x : K) (m : Matrix (Fin r) (Fin c) K) (a b : ℕ) :
    ent o (setAt i i x m) a b = if (a = i ∧ b = i) ∧ inR o r c a b then x else ent o m a b := by
  cases o <;> simp only [ent, inR, setAt, Matrix.of_apply] <;> split_ifs <;> first | rfl | (exfalso; omega)

theorem ent_elemF (i j : ℕ) (x : K) (m : Matrix (Fin r) (Fin c) K) (a b : ℕ) :
    ent o (elemF o i j x m) a b = if (a = j ∧ b = i) ∧ inR o r c a b then x else ent o m a b := by
  cases o <;> simp only [ent, inR, elemF, setAt, Matrix.of_apply] <;> split_ifs <;> first | rfl | (exfalso; omega)

theorem ent_zeroMat (a b : ℕ) : ent o (zeroMat (K := K) r c) a b = 0 := by
  cases o <;> simp [ent, zeroMat]

theorem identityMat_apply [One K] (a : Fin r) (b : Fin c) : identityMat (K := K) r c a b = if a.val = b.val then 1 else 0 := by
  have := forUp_inv (n := min r c) (lo := 0) (body := fun i m => setAt (K := K) (r := r) (c := c) i.val i.val 1 m) (s := zeroMat r c)
    (fun k m => ∀ (a : Fin r) (b : Fin c), m a b = if a.val = b.val ∧ a.val < k then 1 else 0) (Nat.zero_le _)
    (by intro a b; simp [zeroMat])
    (by
      intro i m _ ih a b
      simp only [setAt, Matrix.of_apply, ih]
      split_ifs <;> first | rfl | (exfalso; omega))
  rw [identityMat, this]
  have := a.isLt
  have := b.isLt
  split_ifs <;> first | rfl | (exfalso; omega)

theorem identityMat_eq_one [One K] {n : ℕ} : identityMat (K := K) n n = 1 := by
  ext a b
  rw [identityMat_apply, Matrix.one_apply]
  simp only [Fin.ext_iff]

theorem ent_identityMat [One K] (a b : ℕ) : ent o (identityMat (K := K) r c) a b = if a = b ∧ inR o r c a b then 1 else 0 := by
  by_cases h : inR o r c a b
  · by_cases e : a = b
    · rw [if_pos ⟨e, h⟩]
      subst e
      cases o <;> simp only [inR] at h <;> rw [ent] <;> simp only [h, and_self, dite_true, identityMat_apply, if_true]
    · rw [if_neg (fun h' => e h'.1)]
      cases o <;> simp only [inR] at h <;> rw [ent] <;> simp only [h, and_self, dite_true, identityMat_apply]
      · rw [if_neg (fun h' => e h'.symm)]
      · rw [if_neg e]
  · rw [if_neg (fun h' => h h'.2)]
    cases o <;> simp only [inR] at h <;> rw [ent] <;> simp only [h, dite_false]

/-- Inserting a square block at the origin. -/
theorem ent_insert_fromPrecede {n : ℕ} (sub : Matrix (Fin n) (Fin n) K) (m : Matrix (Fin r) (Fin c) K) (a b : ℕ) (h : inR o r c a b) :
    ent o (insertAt 0 0 (fromPrecede o sub) m) a b = if h : a < n ∧ b < n then sub ⟨a, h.1⟩ ⟨b, h.2⟩ else ent o m a b := by
  cases o <;> simp only [inR] at h <;> simp only [ent, dif_pos h, insertAt, Matrix.of_apply, fromPrecede] <;>
    split_ifs <;> first | rfl | (exfalso; omega)

end

/-- A transform matrix with linear part `A`, translation `t` and a trivial last row maps `v` to `A v + t`. -/
theorem applyT_eq [Field K] {o : Order} {n : ℕ} {k : TKind} {m : Matrix (Fin (tRows o n k)) (Fin (tCols o n k)) K}
    (A : Matrix (Fin n) (Fin n) K) (t : Fin n → K) (hA : ∀ i j : Fin n, ent o m i j = A i j)
    (ht : k ≠ .linear → ∀ i : Fin n, ent o m i n = t i) (hl : k = .linear → t = 0)
    (hlast : k = .homogeneous → (∀ j : Fin n, ent o m n j = 0) ∧ ent o m n n = 1) (v : Fin n → K) :
    applyT o k m v = some (A.mulVec v + t) := by
  have hsum : ∀ i, (A.mulVec v + t) i = ∑ j, A i j * v j + t i := fun i => rfl
  cases o <;> cases k
  · rw [hl rfl, add_zero]
    refine congrArg some (funext fun i => ?_)
    rw [TKind.extend, Matrix.vecMul, Matrix.mulVec, dotProduct, dotProduct]
    refine Finset.sum_congr rfl fun j _ => ?_
    have := hA i j
    rw [ent] at this
    simp only [i.isLt, j.isLt, and_self, dite_true] at this
    rw [← this, mul_comm]
  · refine congrArg some (funext fun i => ?_)
    rw [TKind.extend, hsum, Matrix.vecMul, dotProduct, Fin.sum_univ_castSucc]
    congr 1
    · refine Finset.sum_congr rfl fun j _ => ?_
      have := hA i j
      rw [ent] at this
      simp only [i.isLt, j.isLt.trans (Nat.lt_succ_self n), and_self, dite_true] at this
      rw [← this, mul_comm, Fin.snoc_castSucc]; rfl
    · have := ht (by simp) i
      rw [ent] at this
      simp only [i.isLt, Nat.lt_succ_self n, and_self, dite_true] at this
      rw [← this, Fin.snoc_last, one_mul]; rfl
  · have hw : Matrix.vecMul (TKind.extend .homogeneous v) m = Fin.snoc (α := fun _ => K) (A.mulVec v + t) 1 := by
      funext i
      rw [TKind.extend, Matrix.vecMul, dotProduct, Fin.sum_univ_castSucc]
      simp only [Fin.snoc_castSucc, Fin.snoc_last, one_mul]
      refine Fin.lastCases ?_ (fun i => ?_) i
      · rw [Fin.snoc_last]
        have h1 : ∀ j : Fin n, m j.castSucc (Fin.last n) = 0 := by
          intro j
          have := (hlast rfl).1 j
          rw [ent] at this
          simp only [j.isLt.trans (Nat.lt_succ_self n), Nat.lt_succ_self n, and_self, dite_true] at this; exact this
        have h2 : m (Fin.last n) (Fin.last n) = 1 := by
          have := (hlast rfl).2
          rw [ent] at this
          simp only [Nat.lt_succ_self n, and_self, dite_true] at this; exact this
        simp only [h1, h2, mul_zero, Finset.sum_const_zero, zero_add]
      · rw [Fin.snoc_castSucc, hsum]
        congr 1
        · refine Finset.sum_congr rfl fun j _ => ?_
          have := hA i j
          rw [ent] at this
          simp only [i.isLt.trans (Nat.lt_succ_self n), j.isLt.trans (Nat.lt_succ_self n), and_self, dite_true] at this
          rw [← this, mul_comm]; rfl
        · have := ht (by simp) i
          rw [ent] at this
          simp only [i.isLt.trans (Nat.lt_succ_self n), Nat.lt_succ_self n, and_self, dite_true] at this
          rw [← this]; rfl
    rw [applyT, hw]
    simp only [TKind.finish, Fin.snoc_last, one_ne_zero, if_false, Fin.snoc_castSucc, div_one]
  · rw [hl rfl, add_zero]
    refine congrArg some (funext fun i => ?_)
    rw [TKind.extend, Matrix.mulVec, Matrix.mulVec, dotProduct, dotProduct]
    refine Finset.sum_congr rfl fun j _ => ?_
    have := hA i j
    rw [ent] at this
    simp only [i.isLt, j.isLt, and_self, dite_true] at this
    rw [← this]
  · refine congrArg some (funext fun i => ?_)
    rw [TKind.extend, hsum, Matrix.mulVec, dotProduct, Fin.sum_univ_castSucc]
    congr 1
    · refine Finset.sum_congr rfl fun j _ => ?_
      have := hA i j
      rw [ent] at this
      simp only [i.isLt, j.isLt.trans (Nat.lt_succ_self n), and_self, dite_true] at this
      rw [← this, Fin.snoc_castSucc]; rfl
    · have := ht (by simp) i
      rw [ent] at this
      simp only [i.isLt, Nat.lt_succ_self n, and_self, dite_true] at this
      rw [← this, Fin.snoc_last, mul_one]; rfl
  · have hw : m.mulVec (TKind.extend .homogeneous v) = Fin.snoc (α := fun _ => K) (A.mulVec v + t) 1 := by
      funext i
      rw [TKind.extend, Matrix.mulVec, dotProduct, Fin.sum_univ_castSucc]
      simp only [Fin.snoc_castSucc, Fin.snoc_last, mul_one]
      refine Fin.lastCases ?_ (fun i => ?_) i
      · rw [Fin.snoc_last]
        have h1 : ∀ j : Fin n, m (Fin.last n) j.castSucc = 0 := by
          intro j
          have := (hlast rfl).1 j
          rw [ent] at this
          simp only [j.isLt.trans (Nat.lt_succ_self n), Nat.lt_succ_self n, and_self, dite_true] at this; exact this
        have h2 : m (Fin.last n) (Fin.last n) = 1 := by
          have := (hlast rfl).2
          rw [ent] at this
          simp only [Nat.lt_succ_self n, and_self, dite_true] at this; exact this
        simp only [h1, h2, zero_mul, Finset.sum_const_zero, zero_add]
      · rw [Fin.snoc_castSucc, hsum]
        congr 1
        · refine Finset.sum_congr rfl fun j _ => ?_
          have := hA i j
          rw [ent] at this
          simp only [i.isLt.trans (Nat.lt_succ_self n), j.isLt.trans (Nat.lt_succ_self n), and_self, dite_true] at this
          rw [← this]; rfl
        · have := ht (by simp) i
          rw [ent] at this
          simp only [i.isLt.trans (Nat.lt_succ_self n), Nat.lt_succ_self n, and_self, dite_true] at this
          rw [← this]; rfl
    rw [applyT, hw]
    simp only [TKind.finish, Fin.snoc_last, one_ne_zero, if_false, Fin.snoc_castSucc, div_one]

/-- The same for a matrix that is the identity outside of the block `A`. -/
theorem applyT_block [Field K] {o : Order} {n : ℕ} {k : TKind} {m : Matrix (Fin (tRows o n k)) (Fin (tCols o n k)) K}
    (A : Matrix (Fin n) (Fin n) K) (hA : ∀ i j : Fin n, ent o m i j = A i j)
    (hR : ∀ a b, inR o (tRows o n k) (tCols o n k) a b → n ≤ a ∨ n ≤ b → ent o m a b = if a = b then 1 else 0) (v : Fin n → K) :
    applyT o k m v = some (A.mulVec v) := by
  have := applyT_eq (m := m) A 0 hA
    (by
      intro hk i
      rw [hR _ _ ((inR_t ..).2 ?_) (Or.inr le_rfl), if_neg (by omega)]; rfl
      cases k <;> simp only [TKind.outs, TKind.ins] <;> first | exact absurd rfl hk | omega)
    (fun _ => rfl)
    (by
      rintro rfl
      constructor
      · intro j
        rw [hR _ _ ((inR_t ..).2 (by simp only [TKind.outs, TKind.ins]; omega)) (Or.inl le_rfl), if_neg (by omega)]
      · rw [hR _ _ ((inR_t ..).2 (by simp only [TKind.outs, TKind.ins]; omega)) (Or.inl le_rfl), if_pos rfl]) v
  rw [this, add_zero]

/-- Elements of the linear part are present in every kind. -/
theorem inR_lin {o : Order} {n : ℕ} {k : TKind} (i j : Fin n) : inR o (tRows o n k) (tCols o n k) i j := by
  rw [inR_t]
  cases k <;> simp only [TKind.outs, TKind.ins] <;> omega

end Mathter

namespace Mathter
universe u
variable {K : Type u}

theorem ent_setAt_p [Zero K] {r c : ℕ} (i j : ℕ) (x : K) (m : Matrix (Fin r) (Fin c) K) (a b : ℕ) :
    ent .precede (setAt i j x m) a b = if (a = i ∧ b = j) ∧ inR .precede r c a b then x else ent .precede m a b := by
  simp only [ent, inR, setAt, Matrix.of_apply] <;> split_ifs <;> first | rfl | (exfalso; omega)

theorem ent_setAt_f [Zero K] {r c : ℕ} (i j : ℕ) (x : K) (m : Matrix (Fin r) (Fin c) K) (a b : ℕ) :
    ent .follow (setAt i j x m) a b = if (a = j ∧ b = i) ∧ inR .follow r c a b then x else ent .follow m a b := by
  simp only [ent, inR, setAt, Matrix.of_apply] <;> split_ifs <;> first | rfl | (exfalso; omega)

open Classical in
/-- Applying a homogeneous matrix, by elements. -/
theorem applyT_hom [Field K] (o : Order) {n : ℕ} (m : Matrix (Fin (tRows o n .homogeneous)) (Fin (tCols o n .homogeneous)) K) (v : Fin n → K) :
    applyT o .homogeneous m v =
      if (∑ j : Fin n, ent o m n j * v j + ent o m n n) = 0 then none
      else some fun i : Fin n => (∑ j : Fin n, ent o m i j * v j + ent o m i n) / (∑ j : Fin n, ent o m n j * v j + ent o m n n) := by
  have key : ∀ (h : Fin (n + 1) → K), (∀ i, h i = ∑ j : Fin n, ent o m i j * v j + ent o m i n) →
      TKind.finish .homogeneous h = if (∑ j : Fin n, ent o m n j * v j + ent o m n n) = 0 then none
      else some fun i : Fin n => (∑ j : Fin n, ent o m i j * v j + ent o m i n) / (∑ j : Fin n, ent o m n j * v j + ent o m n n) :=
    fun h hh => by
      have h1 := hh (Fin.last n)
      rw [Fin.val_last] at h1
      have h2 : ∀ i : Fin n, h i.castSucc = ∑ j : Fin n, ent o m i j * v j + ent o m i n := fun i => hh i.castSucc
      simp only [TKind.finish, h1, h2]
  cases o
  · refine key _ fun i => ?_
    rw [TKind.extend, Matrix.vecMul, dotProduct, Fin.sum_univ_castSucc, Fin.snoc_last, one_mul]
    congr 1
    · refine Finset.sum_congr rfl fun j _ => ?_
      rw [Fin.snoc_castSucc, ent]
      simp only [i.isLt, j.isLt.trans (Nat.lt_succ_self n), and_self, dite_true]
      rw [mul_comm]; rfl
    · rw [ent]
      simp only [i.isLt, Nat.lt_succ_self n, and_self, dite_true]; rfl
  · refine key _ fun i => ?_
    rw [TKind.extend, Matrix.mulVec, dotProduct, Fin.sum_univ_castSucc, Fin.snoc_last, mul_one]
    congr 1
    · refine Finset.sum_congr rfl fun j _ => ?_
      rw [Fin.snoc_castSucc, ent]
      simp only [i.isLt, j.isLt.trans (Nat.lt_succ_self n), and_self, dite_true]; rfl
    · rw [ent]
      simp only [i.isLt, Nat.lt_succ_self n, and_self, dite_true]; rfl

end Mathter
