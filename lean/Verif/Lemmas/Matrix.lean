import Mathlib.LinearAlgebra.Matrix.Notation
import Verif.Lemmas.Vector
import Verif.Props.VectorArith
import Verif.Props.VectorReduce
import Verif.Model.Matrix

/-! Helper lemmas about the storage-level matrix model. -/

namespace Mathter
universe u
variable {K : Type u}

/-- Sum of the first `m` terms. -/
def psum [AddCommMonoid K] {n : ℕ} (f : Fin n → K) (m : ℕ) : K := ∑ i : Fin n, if i.val < m then f i else 0

theorem psum_zero [AddCommMonoid K] {n : ℕ} (f : Fin n → K) : psum f 0 = 0 := by simp [psum]

theorem psum_succ [AddCommMonoid K] {n : ℕ} (f : Fin n → K) (i : Fin n) : psum f (i.val + 1) = psum f i.val + f i := by
  unfold psum
  rw [← Finset.sum_ite_eq' Finset.univ i f |>.trans (if_pos (Finset.mem_univ i)), ← Finset.sum_add_distrib]
  apply Finset.sum_congr rfl
  intro x _
  by_cases h : x = i
  · subst h; simp
  · have : x.val ≠ i.val := fun e => h (Fin.ext e)
    simp only [h, if_false, add_zero]
    congr 1
    apply propext
    omega

theorem psum_all [AddCommMonoid K] {n : ℕ} (f : Fin n → K) : psum f n = ∑ i, f i := by simp [psum]

/-- Loop accumulating a sum from `0`. -/
theorem forUp_sum [AddCommMonoid K] {n : ℕ} (f : Fin n → K) (x : K) : forUp n 0 (fun i acc => acc + f i) x = x + ∑ i, f i := by
  have := forUp_inv (n := n) (lo := 0) (body := fun i acc => acc + f i) (s := x) (fun m acc => acc = x + psum f m)
    (Nat.zero_le _) (by simp [psum_zero]) (by intro i s _ h; simp only [h, psum_succ, add_assoc])
  rw [this, psum_all]

namespace Vec
variable {c : Cfg} {n : ℕ} {p p' : Bool}

@[simp] theorem get_asPacked [Zero K] (v : Vec c K n p) (i : Fin n) : (v.asPacked p').get i = v.get i := by
  unfold asPacked
  split
  · rename_i h; subst h; rfl
  · simp

/-- The loop `for (j) v[j] = f(j)` sets every element. -/
theorem get_setLoop (f : Fin n → K) (v0 : Vec c K n p) (i : Fin n) :
    (forUp n 0 (fun j v => v.set j (f j)) v0).get i = f i := by
  have := forUp_inv (n := n) (lo := 0) (body := fun j (v : Vec c K n p) => v.set j (f j)) (s := v0)
    (fun m v => ∀ i : Fin n, i.val < m → v.get i = f i) (Nat.zero_le _) (by intro i h; omega) (by
      intro i s _ h j hj
      rw [get_set]
      split
      · rename_i e; rw [e]
      · rename_i e
        apply h
        have : j.val ≠ i.val := fun e' => e (Fin.ext e')
        omega)
  exact this i i.isLt

end Vec

namespace Mat
variable {c : Cfg} {r k n : ℕ} {o : Order} {L L' : Layout} {p p1 p2 : Bool}

theorem get_set (m : Mat c K r n o L p) (i i' : Fin r) (j j' : Fin n) (x : K) :
    (m.set i j x).get i' j' = if i' = i ∧ j' = j then x else m.get i' j' := by
  cases L
  · simp only [get, set]
    by_cases h : i' = i
    · simp [h, Vec.get_set]
    · simp [h]
  · simp only [get, set]
    by_cases h : j' = j
    · simp [h, Vec.get_set]
    · simp [h]

/-- The inner loop `for (j < n) m(row, j) = f(j)`. -/
theorem get_rowLoop (f : Fin n → K) (i : Fin r) (m0 : Mat c K r n o L p) (i' : Fin r) (j' : Fin n) :
    (forUp n 0 (fun j m => m.set i j (f j)) m0).get i' j' = if i' = i then f j' else m0.get i' j' := by
  have := forUp_inv (n := n) (lo := 0) (body := fun j (m : Mat c K r n o L p) => m.set i j (f j)) (s := m0)
    (fun q m => ∀ (i' : Fin r) (j' : Fin n), m.get i' j' = if i' = i ∧ j'.val < q then f j' else m0.get i' j')
    (Nat.zero_le _) (by intro i' j'; simp) (by
      intro j s _ h i' j'
      rw [get_set, h]
      by_cases hi : i' = i
      · by_cases hj : j' = j
        · subst hj; simp [hi]
        · have : j'.val ≠ j.val := fun e => hj (Fin.ext e)
          simp only [hi, hj, true_and, and_false, if_false]
          congr 1
          apply propext
          omega
      · simp [hi])
  rw [this i' j']
  simp

/-- The inner loop `for (i < r) m(i, col) = f(i)`. -/
theorem get_colLoop (f : Fin r → K) (j : Fin n) (m0 : Mat c K r n o L p) (i' : Fin r) (j' : Fin n) :
    (forUp r 0 (fun i m => m.set i j (f i)) m0).get i' j' = if j' = j then f i' else m0.get i' j' := by
  have := forUp_inv (n := r) (lo := 0) (body := fun i (m : Mat c K r n o L p) => m.set i j (f i)) (s := m0)
    (fun q m => ∀ (i' : Fin r) (j' : Fin n), m.get i' j' = if j' = j ∧ i'.val < q then f i' else m0.get i' j')
    (Nat.zero_le _) (by intro i' j'; simp) (by
      intro i s _ h i' j'
      rw [get_set, h]
      by_cases hj : j' = j
      · by_cases hi : i' = i
        · subst hi; simp [hj]
        · have : i'.val ≠ i.val := fun e => hi (Fin.ext e)
          simp only [hi, hj, true_and, false_and, if_false]
          congr 1
          apply propext
          omega
      · simp [hj])
  rw [this i' j']
  simp

/-- An outer loop which sets row `i` at step `i` sets all rows. -/
theorem get_outerRows (f : Fin r → Fin n → K) (body : Fin r → Mat c K r n o L p → Mat c K r n o L p)
    (hb : ∀ i m i' j', (body i m).get i' j' = if i' = i then f i j' else m.get i' j') (m0 : Mat c K r n o L p) (i : Fin r) (j : Fin n) :
    (forUp r 0 body m0).get i j = f i j := by
  have := forUp_inv (n := r) (lo := 0) (body := body) (s := m0)
    (fun q m => ∀ (i' : Fin r) (j' : Fin n), i'.val < q → m.get i' j' = f i' j')
    (Nat.zero_le _) (by intro i' j' h; omega) (by
      intro i s _ h i' j' hi'
      rw [hb]
      split
      · rename_i e; rw [e]
      · rename_i e
        apply h
        have : i'.val ≠ i.val := fun e' => e (Fin.ext e')
        omega)
  exact this i j i.isLt

theorem get_outerCols (f : Fin r → Fin n → K) (body : Fin n → Mat c K r n o L p → Mat c K r n o L p)
    (hb : ∀ j m i' j', (body j m).get i' j' = if j' = j then f i' j else m.get i' j') (m0 : Mat c K r n o L p) (i : Fin r) (j : Fin n) :
    (forUp n 0 body m0).get i j = f i j := by
  have := forUp_inv (n := n) (lo := 0) (body := body) (s := m0)
    (fun q m => ∀ (i' : Fin r) (j' : Fin n), j'.val < q → m.get i' j' = f i' j')
    (Nat.zero_le _) (by intro i' j' h; omega) (by
      intro i s _ h i' j' hi'
      rw [hb]
      split
      · rename_i e; rw [e]
      · rename_i e
        apply h
        have : j'.val ≠ i.val := fun e' => e (Fin.ext e')
        omega)
  exact this i j j.isLt

@[simp] theorem get_fillLoop (f : Fin r → Fin n → K) (m0 : Mat c K r n o L p) (i : Fin r) (j : Fin n) :
    (fillLoop f m0).get i j = f i j := by
  unfold fillLoop
  apply get_outerRows f
  intro i m i' j'
  rw [get_rowLoop]

@[simp] theorem get_row (junk : Vec c K n p) (m : Mat c K r n o L p) (i : Fin r) (j : Fin n) :
    (m.row junk i).get j = m.get i j := by
  cases L
  · rfl
  · exact Vec.get_setLoop _ _ _

@[simp] theorem get_col (junk : Vec c K r p) (m : Mat c K r n o L p) (j : Fin n) (i : Fin r) :
    (m.col junk j).get i = m.get i j := by
  cases L
  · exact Vec.get_setLoop _ _ _
  · rfl

theorem get_setRow (m : Mat c K r n o L p) (i : Fin r) (v : Vec c K n p) (i' : Fin r) (j' : Fin n) :
    (m.setRow i v).get i' j' = if i' = i then v.get j' else m.get i' j' := by
  cases L
  · simp only [setRow, get]
    split <;> rfl
  · exact get_rowLoop (fun j => v.get j) i m i' j'

theorem get_setCol (m : Mat c K r n o L p) (j : Fin n) (v : Vec c K r p) (i' : Fin r) (j' : Fin n) :
    (m.setCol j v).get i' j' = if j' = j then v.get i' else m.get i' j' := by
  cases L
  · exact get_colLoop (fun i => v.get i) j m i' j'
  · simp only [setCol, get]
    split <;> rfl

theorem stripeLoopMat (g : Fin (stripeCount L r n) → Vec c K (stripeDim L r n) p) (m0 : Mat c K r n o L p)
    (s : Fin (stripeCount L r n)) :
    (forUp (stripeCount L r n) 0 (fun s (m : Mat c K r n o L p) => ⟨fun s' => if s' = s then g s else m.stripes s'⟩) m0).stripes s
      = g s := by
  have := forUp_inv (n := stripeCount L r n) (lo := 0)
    (body := fun s (m : Mat c K r n o L p) => (⟨fun s' => if s' = s then g s else m.stripes s'⟩ : Mat c K r n o L p)) (s := m0)
    (fun q m => ∀ s : Fin (stripeCount L r n), s.val < q → m.stripes s = g s) (Nat.zero_le _) (by intro s h; omega) (by
      intro i m _ h s hs
      dsimp only
      split
      · rename_i e; rw [e]
      · rename_i e
        apply h
        have : s.val ≠ i.val := fun e' => e (Fin.ext e')
        omega)
  exact this s s.isLt

theorem get_of_stripes {K' : Type*} {c' : Cfg} {p' : Bool} {o' : Order} (f : K → K') (m : Mat c K r n o L p) (m' : Mat c' K' r n o' L p')
    (h : ∀ s i, (m'.stripes s).get i = f ((m.stripes s).get i)) (i : Fin r) (j : Fin n) : m'.get i j = f (m.get i j) := by
  cases L
  · exact h i j
  · exact h j i

theorem get_mapStripes (func : ∀ {d : ℕ}, Vec c K d p → Vec c K d p2) (f : K → K)
    (hf : ∀ {d : ℕ} (v : Vec c K d p) (i : Fin d), (func v).get i = f (v.get i))
    (m0 : Mat c K r n o L p2) (a : Mat c K r n o L p) (i : Fin r) (j : Fin n) :
    (mapStripes func m0 a).get i j = f (a.get i j) := by
  apply get_of_stripes f a
  intro s t
  unfold mapStripes
  rw [stripeLoopMat (fun s => func (a.stripes s)), hf]

@[simp] theorem get_convert [Zero K] (m0 : Mat c K r n o L' p2) (rhs : Mat c K r n o L p) (i : Fin r) (j : Fin n) :
    (convert m0 rhs).get i j = rhs.get i j := by
  unfold convert
  split
  · rename_i h
    subst h
    apply get_of_stripes id rhs
    intro s t
    rw [stripeLoopMat (fun s => Vec.convert id (rhs.stripes s))]
    simp
  · simp

@[simp] theorem get_convertOrder [Zero K] (m0 : Mat c K n r o.flip L' p2) (rhs : Mat c K r n o L p) (i : Fin n) (j : Fin r) :
    (convertOrder m0 rhs).get i j = rhs.get j i := by
  cases L' <;> cases L
  · simp [convertOrder]
  · simp only [convertOrder, get]
    rw [stripeLoopMat (L := .row) (fun s => Vec.convert id (rhs.stripes s))]
    simp
  · simp only [convertOrder, get]
    rw [stripeLoopMat (L := .col) (fun s => Vec.convert id (rhs.stripes s))]
    simp
  · simp [convertOrder]

end Mat
end Mathter
