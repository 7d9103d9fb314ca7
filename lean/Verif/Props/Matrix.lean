import Mathlib.LinearAlgebra.Matrix.Notation
import Mathlib.LinearAlgebra.Matrix.ConjTranspose
import Mathlib.LinearAlgebra.Matrix.Trace
import Verif.Lemmas.Matrix

/-!
# Properties C20–C27, C32: matrices at storage level

`Mat.view m` is the mathematical matrix of the visible elements; all statements are about it.
-/

namespace Mathter.Props
open Mathter
universe u
variable {K : Type u} {c : Cfg} {r k n l : ℕ} {o : Order} {L L' L2 : Layout} {p p' p1 p2 p3 : Bool}

/-- Specification: the mathematical matrix of the elements `m(i, j)`. -/
def view (m : Mat c K r n o L p) : Matrix (Fin r) (Fin n) K := fun i j => m.get i j

/-- Specification: the mathematical vector of the elements `v[i]`. -/
def vview (v : Vec c K n p) : Fin n → K := fun i => v.get i

/-! ## C20 -/

/-- C20: write-then-read, any layout and packing. -/
theorem C20_set_get (m : Mat c K r n o L p) (i i' : Fin r) (j j' : Fin n) (x : K) :
    (m.set i j x).get i' j' = if i' = i ∧ j' = j then x else m.get i' j' := Mat.get_set m i i' j j' x

private theorem assignElems_spec (hn : 0 < n) : ∀ (xs : List K) (i j : ℕ) (m : Mat c K r n o L p), j < n → i * n + j + xs.length ≤ r * n →
    ∃ m', Mat.assignElems i j m xs = some m' ∧ ∀ (i' : Fin r) (j' : Fin n),
      m'.get i' j' = if h : i * n + j ≤ i'.val * n + j'.val ∧ i'.val * n + j'.val - (i * n + j) < xs.length
        then xs[i'.val * n + j'.val - (i * n + j)] else m.get i' j' := by
  intro xs
  induction xs with
  | nil => intro i j m _ _; exact ⟨m, rfl, fun i' j' => by simp⟩
  | cons x xs ih =>
    intro i j m hj hlen
    simp only [List.length_cons] at hlen
    have hi : i < r := by
      by_contra h
      have : r * n ≤ i * n := Nat.mul_le_mul_right _ (by omega)
      omega
    have hnext : (if j ≠ n - 1 then i else i + 1) * n + (j + 1) % n = i * n + j + 1 := by
      split
      · rw [Nat.mod_eq_of_lt (by omega)]; omega
      · have : j + 1 = n := by omega
        rw [this, Nat.mod_self, Nat.add_mul]; omega
    obtain ⟨m', h1, h2⟩ := ih (if j ≠ n - 1 then i else i + 1) ((j + 1) % n) (m.set ⟨i, hi⟩ ⟨j, hj⟩ x) (Nat.mod_lt _ hn)
      (by rw [hnext]; omega)
    refine ⟨m', ?_, ?_⟩
    · rw [Mat.assignElems, dif_pos ⟨hi, hj⟩]; exact h1
    · intro i' j'
      rw [h2 i' j']
      simp only [hnext]
      by_cases he : i'.val * n + j'.val = i * n + j
      · have hdiv : i'.val = i := by
          have h1 := congrArg (· / n) he
          simp only [Nat.mul_comm _ n, Nat.mul_add_div hn, Nat.div_eq_of_lt j'.isLt, Nat.div_eq_of_lt hj] at h1
          omega
        have hj' : j'.val = j := by rw [hdiv] at he; omega
        rw [dif_neg (by omega), dif_pos (by rw [he]; simp), Mat.get_set, if_pos ⟨Fin.ext hdiv, Fin.ext hj'⟩]
        simp [he]
      · by_cases hlt : i * n + j + 1 ≤ i'.val * n + j'.val ∧ i'.val * n + j'.val - (i * n + j + 1) < xs.length
        · rw [dif_pos hlt, dif_pos (by simp only [List.length_cons]; omega)]
          have : i'.val * n + j'.val - (i * n + j) = (i'.val * n + j'.val - (i * n + j + 1)) + 1 := by omega
          simp only [this, List.getElem_cons_succ]
        · rw [dif_neg hlt, dif_neg (by simp only [List.length_cons]; omega), Mat.get_set, if_neg]
          rintro ⟨rfl, rfl⟩
          exact he rfl

/-- C20: the element-list constructor with `Rows * Columns` arguments is defined and puts the arguments in reading order, in
every layout. -/
theorem C20_element_list (hn : 0 < n) (m0 : Mat c K r n o L p) (xs : List K) (hlen : xs.length = r * n) :
    ∃ m, Mat.assignElems 0 0 m0 xs = some m ∧ ∀ (i : Fin r) (j : Fin n), xs[i.val * n + j.val]? = some (m.get i j) := by
  obtain ⟨m, h1, h2⟩ := assignElems_spec (o := o) (L := L) (p := p) (c := c) hn xs 0 0 m0 hn (by omega)
  refine ⟨m, h1, fun i j => ?_⟩
  have hlt : i.val * n + j.val < xs.length := by
    rw [hlen]
    calc i.val * n + j.val < i.val * n + n := by omega
      _ = (i.val + 1) * n := by ring
      _ ≤ r * n := Nat.mul_le_mul_right _ i.isLt
  rw [h2 i j, dif_pos (by simpa using hlt)]
  simp [List.getElem?_eq_getElem hlt]

/-- C20: a row matrix made from a vector has the vector's elements, and converting back returns them. -/
theorem C20_row_matrix_of_vec [Zero K] (m0 : Mat c K 1 n o L p) (v : Vec c K n p2) (junk : Vec c K n p) (j : Fin n) :
    (Mat.ofVecRow m0 v).get 0 j = v.get j ∧ (Mat.toVecRow junk (Mat.ofVecRow m0 v) : Vec c K n p').get j = v.get j := by
  have h : ∀ j, (Mat.ofVecRow m0 v).get 0 j = v.get j := by
    intro j
    cases L
    · simp [Mat.ofVecRow, Mat.get]
    · simp only [Mat.ofVecRow]
      split
      · rename_i h1
        subst h1
        have : j = 0 := Subsingleton.elim _ _
        subst this
        simp [Mat.get]
      · have := forUp_inv (n := n) (lo := 0)
          (body := fun s (m : Mat c K 1 n o .col p) =>
            (⟨fun s' => if s' = s then (m.stripes s').set 0 (v.get s) else m.stripes s'⟩ : Mat c K 1 n o .col p)) (s := m0)
          (fun q m => ∀ s : Fin n, s.val < q → (m.stripes s).get 0 = v.get s) (Nat.zero_le _) (by intro s h; omega) (by
            intro i m _ h s hs
            dsimp only
            split
            · rename_i e; rw [e, Vec.get_set, if_pos rfl]
            · rename_i e
              apply h
              have : s.val ≠ i.val := fun e' => e (Fin.ext e')
              omega)
        exact this j j.isLt
  exact ⟨h j, by simp [Mat.toVecRow, h]⟩

example : ([1, 2, 3, 4, 5, 6] : List ℤ).length = 2 * 3 := rfl

/-! ## C21 -/

/-- C21: converting to another layout or packing keeps every element. -/
theorem C21_convert [Zero K] (m0 : Mat c K r n o L' p2) (m : Mat c K r n o L p) : view (Mat.convert m0 m) = view m := by
  ext i j; simp [view]

/-- C21: converting to the opposite order transposes. -/
theorem C21_convert_order [Zero K] (m0 : Mat c K n r o.flip L' p2) (m : Mat c K r n o L p) :
    view (Mat.convertOrder m0 m) = (view m).transpose := by
  ext i j; simp [view]

/-- C21: converting to the opposite order and back restores the elements, through any layouts and packings. -/
theorem C21_order_roundtrip [Zero K] (m0 : Mat c K n r o.flip L' p2) (m1 : Mat c K r n o.flip.flip L2 p3)
    (m : Mat c K r n o L p) : view (Mat.convertOrder m1 (Mat.convertOrder m0 m)) = view m := by
  ext i j; simp [view]

/-- C21: comparison across layouts and across orders is equality of the represented matrices. -/
theorem C21_eq [BEq K] [LawfulBEq K] (a : Mat c K r n o L p1) (b : Mat c K r n o L' p2) (b' : Mat c K n r o.flip L' p2) :
    (Mat.eq a b = true ↔ view a = view b) ∧ (Mat.eqFlip a b' = true ↔ view a = (view b').transpose) := by
  have key : ∀ (q : Fin r → Fin n → Bool), (forUp r 0 (fun i e => forUp n 0 (fun j e => e && q i j) e) true = true ↔
      ∀ i j, q i j = true) := by
    intro q
    have hin : ∀ (i : Fin r) (e : Bool), forUp n 0 (fun j e => e && q i j) e = true ↔ e = true ∧ ∀ j, q i j = true := by
      intro i e
      have := forUp_inv (n := n) (lo := 0) (body := fun j (e : Bool) => e && q i j) (s := e)
        (fun m s => s = true ↔ e = true ∧ ∀ j : Fin n, j.val < m → q i j = true) (Nat.zero_le _) (by simp) (by
          intro j s _ h
          simp only [Bool.and_eq_true, h]
          constructor
          · rintro ⟨⟨h1, h2⟩, h3⟩
            refine ⟨h1, fun j' hj' => ?_⟩
            by_cases e : j' = j
            · rw [e]; exact h3
            · have : j'.val ≠ j.val := fun e' => e (Fin.ext e')
              exact h2 j' (by omega)
          · rintro ⟨h1, h2⟩
            exact ⟨⟨h1, fun j' hj' => h2 j' (by omega)⟩, h2 j (by omega)⟩)
      rw [this]
      exact ⟨fun h => ⟨h.1, fun j => h.2 j j.isLt⟩, fun h => ⟨h.1, fun j _ => h.2 j⟩⟩
    have := forUp_inv (n := r) (lo := 0) (body := fun i (e : Bool) => forUp n 0 (fun j e => e && q i j) e) (s := true)
      (fun m s => s = true ↔ ∀ i : Fin r, i.val < m → ∀ j, q i j = true) (Nat.zero_le _) (by simp) (by
        intro i s _ h
        rw [hin, h]
        constructor
        · rintro ⟨h2, h3⟩ i' hi'
          by_cases e : i' = i
          · rw [e]; exact h3
          · have : i'.val ≠ i.val := fun e' => e (Fin.ext e')
            exact h2 i' (by omega)
        · intro h2
          exact ⟨fun i' hi' => h2 i' (by omega), h2 i (by omega)⟩)
    rw [this]
    exact ⟨fun h i => h i i.isLt, fun h i _ => h i⟩
  constructor
  · unfold Mat.eq
    rw [key (fun i j => a.get i j == b.get i j)]
    simp only [beq_iff_eq]
    exact ⟨fun h => by ext i j; exact h i j, fun h i j => congrFun (congrFun h i) j⟩
  · unfold Mat.eqFlip
    rw [key (fun i j => a.get i j == b'.get j i)]
    simp only [beq_iff_eq]
    exact ⟨fun h => by ext i j; exact h i j, fun h i j => congrFun (congrFun h i) j⟩

/-! ## C22 -/

/-- C22: row and column getters. -/
theorem C22_row_col_get (jr : Vec c K n p) (jc : Vec c K r p) (m : Mat c K r n o L p) (i : Fin r) (j : Fin n) :
    (m.row jr i).get j = m.get i j ∧ (m.col jc j).get i = m.get i j := by simp

/-- C22: the row setter replaces exactly that row. -/
theorem C22_row_set (m : Mat c K r n o L p) (i i' : Fin r) (v : Vec c K n p) (j : Fin n) :
    (m.setRow i v).get i' j = if i' = i then v.get j else m.get i' j := Mat.get_setRow m i v i' j

/-- C22: the column setter replaces exactly that column. -/
theorem C22_col_set (m : Mat c K r n o L p) (j j' : Fin n) (v : Vec c K r p) (i : Fin r) :
    (m.setCol j v).get i j' = if j' = j then v.get i else m.get i j' := Mat.get_setCol m j v i j'

/-- C22: `Extract` is defined exactly for blocks inside the matrix and returns the block. -/
theorem C22_extract {er ec : ℕ} (m0 : Mat c K er ec o L p) (m : Mat c K r n o L p) (wr wc : ℕ) :
    ((Mat.extract m0 m wr wc).isSome = true ↔ er + wr ≤ r ∧ ec + wc ≤ n) ∧
    ∀ s, Mat.extract m0 m wr wc = some s → ∀ (i : Fin er) (j : Fin ec) (i' : Fin r) (j' : Fin n),
      i'.val = i.val + wr → j'.val = j.val + wc → s.get i j = m.get i' j' := by
  unfold Mat.extract
  by_cases h : er + wr ≤ r ∧ ec + wc ≤ n
  · rw [dif_pos h]
    refine ⟨by simp [h], ?_⟩
    intro s hs i j i' j' hi hj
    injection hs with hs
    rw [← hs]
    have := Mat.get_fillLoop (c := c) (o := o) (L := L) (p := p)
      (fun (i : Fin er) (j : Fin ec) => m.get ⟨i.val + wr, by omega⟩ ⟨j.val + wc, by omega⟩) m0 i j
    unfold Mat.fillLoop at this
    rw [this]
    congr 1 <;> apply Fin.ext <;> simp_all
  · rw [dif_neg h]
    exact ⟨by simp [h], fun s hs => by cases hs⟩

/-- C22: `Insert` is defined exactly for blocks inside the matrix, overwrites the block and nothing else. -/
theorem C22_insert {ir ic : ℕ} (m : Mat c K r n o L p) (wr wc : ℕ) (sub : Mat c K ir ic o L p) :
    ((Mat.insert m wr wc sub).isSome = true ↔ ir + wr ≤ r ∧ ic + wc ≤ n) ∧
    ∀ m', Mat.insert m wr wc sub = some m' → ∀ (i' : Fin r) (j' : Fin n),
      (∀ (i : Fin ir) (j : Fin ic), i'.val = i.val + wr → j'.val = j.val + wc → m'.get i' j' = sub.get i j) ∧
      (¬(wr ≤ i'.val ∧ i'.val < wr + ir ∧ wc ≤ j'.val ∧ j'.val < wc + ic) → m'.get i' j' = m.get i' j') := by
  unfold Mat.insert
  by_cases h : ir + wr ≤ r ∧ ic + wc ≤ n
  · rw [dif_pos h]
    refine ⟨by simp [h], ?_⟩
    intro m' hm'
    injection hm' with hm'
    -- inner loop
    have inner : ∀ (i : Fin ir) (m : Mat c K r n o L p) (i' : Fin r) (j' : Fin n),
        (forUp ic 0 (fun j m => m.set ⟨i.val + wr, by omega⟩ ⟨j.val + wc, by omega⟩ (sub.get i j)) m).get i' j' =
        if h : i'.val = i.val + wr ∧ wc ≤ j'.val ∧ j'.val - wc < ic then sub.get i ⟨j'.val - wc, h.2.2⟩ else m.get i' j' := by
      intro i m i' j'
      have := forUp_inv (n := ic) (lo := 0)
        (body := fun j (m : Mat c K r n o L p) => m.set ⟨i.val + wr, by omega⟩ ⟨j.val + wc, by omega⟩ (sub.get i j)) (s := m)
        (fun q s => ∀ (i' : Fin r) (j' : Fin n), s.get i' j' =
          if h : i'.val = i.val + wr ∧ wc ≤ j'.val ∧ j'.val - wc < ic ∧ j'.val - wc < q then sub.get i ⟨j'.val - wc, h.2.2.1⟩
          else m.get i' j') (Nat.zero_le _) (by intro i' j'; simp) (by
          intro j s _ hh i' j'
          rw [Mat.get_set, hh]
          by_cases e : i' = ⟨i.val + wr, by omega⟩ ∧ j' = ⟨j.val + wc, by omega⟩
          · rw [if_pos e]
            obtain ⟨rfl, rfl⟩ := e
            rw [dif_pos (by simp)]
            simp
          · rw [if_neg e]
            have e' : ¬(i'.val = i.val + wr ∧ j'.val = j.val + wc) := fun e' => e ⟨Fin.ext e'.1, Fin.ext e'.2⟩
            by_cases e2 : i'.val = i.val + wr ∧ wc ≤ j'.val ∧ j'.val - wc < ic ∧ j'.val - wc < j.val
            · rw [dif_pos e2, dif_pos ⟨e2.1, e2.2.1, e2.2.2.1, by omega⟩]
            · rw [dif_neg e2, dif_neg]
              rintro ⟨a, b, d, e⟩
              apply e2
              refine ⟨a, b, d, ?_⟩
              have : ¬ (j'.val = j.val + wc) := fun e'' => e' ⟨a, e''⟩
              omega)
      rw [this i' j']
      by_cases e : i'.val = i.val + wr ∧ wc ≤ j'.val ∧ j'.val - wc < ic
      · rw [dif_pos e, dif_pos ⟨e.1, e.2.1, e.2.2, e.2.2⟩]
      · rw [dif_neg e, dif_neg (fun e2 => e ⟨e2.1, e2.2.1, e2.2.2.1⟩)]
    have outer := forUp_inv (n := ir) (lo := 0)
      (body := fun i (m : Mat c K r n o L p) => forUp ic 0 (fun j m =>
        m.set ⟨i.val + wr, by omega⟩ ⟨j.val + wc, by omega⟩ (sub.get i j)) m) (s := m)
      (fun q s => ∀ (i' : Fin r) (j' : Fin n), s.get i' j' =
          if h : wr ≤ i'.val ∧ i'.val - wr < ir ∧ i'.val - wr < q ∧ wc ≤ j'.val ∧ j'.val - wc < ic then
            sub.get ⟨i'.val - wr, h.2.1⟩ ⟨j'.val - wc, h.2.2.2.2⟩
          else m.get i' j') (Nat.zero_le _) (by intro i' j'; simp) (by
          intro i s _ hh i' j'
          rw [inner, hh]
          by_cases e : i'.val = i.val + wr ∧ wc ≤ j'.val ∧ j'.val - wc < ic
          · rw [dif_pos e, dif_pos ⟨by omega, by omega, by omega, e.2.1, e.2.2⟩]
            congr 1
            apply Fin.ext
            simp [e.1]
          · rw [dif_neg e]
            by_cases e2 : wr ≤ i'.val ∧ i'.val - wr < ir ∧ i'.val - wr < i.val ∧ wc ≤ j'.val ∧ j'.val - wc < ic
            · rw [dif_pos e2, dif_pos ⟨e2.1, e2.2.1, by omega, e2.2.2.2⟩]
            · rw [dif_neg e2, dif_neg]
              rintro ⟨a, b, d, e3, e4⟩
              apply e2
              refine ⟨a, b, ?_, e3, e4⟩
              have : ¬ (i'.val = i.val + wr) := fun e'' => e ⟨e'', e3, e4⟩
              omega)
    rw [hm'] at outer
    intro i' j'
    constructor
    · intro i j hi hj
      rw [outer i' j', dif_pos ⟨by omega, by omega, by omega, by omega, by omega⟩]
      congr 1 <;> apply Fin.ext <;> simp [hi, hj]
    · intro hout
      rw [outer i' j', dif_neg]
      intro e
      exact hout ⟨e.1, by omega, e.2.2.2.1, by omega⟩
  · rw [dif_neg h]
    exact ⟨by simp [h], fun s hs => by cases hs⟩

/-- C22: `Extract` after `Insert` at the same place returns the inserted block. -/
theorem C22_extract_insert {ir ic : ℕ} (m : Mat c K r n o L p) (m0 : Mat c K ir ic o L p) (wr wc : ℕ) (sub : Mat c K ir ic o L p)
    (hfit : ir + wr ≤ r ∧ ic + wc ≤ n) :
    ∃ m' s, Mat.insert m wr wc sub = some m' ∧ Mat.extract m0 m' wr wc = some s ∧ view s = view sub := by
  obtain ⟨m', hm'⟩ := Option.isSome_iff_exists.1 ((C22_insert m wr wc sub).1.2 hfit)
  obtain ⟨s, hs⟩ := Option.isSome_iff_exists.1 ((C22_extract m0 m' wr wc).1.2 hfit)
  refine ⟨m', s, hm', hs, ?_⟩
  ext i j
  have h1 := (C22_extract m0 m' wr wc).2 s hs i j ⟨i.val + wr, by omega⟩ ⟨j.val + wc, by omega⟩ rfl rfl
  have h2 := ((C22_insert m wr wc sub).2 m' hm' ⟨i.val + wr, by omega⟩ ⟨j.val + wc, by omega⟩).1 i j rfl rfl
  exact h1.trans h2

/-- C22: inserting a block extracted from the same place changes nothing. -/
theorem C22_insert_extract {ir ic : ℕ} (m : Mat c K r n o L p) (m0 : Mat c K ir ic o L p) (wr wc : ℕ)
    (hfit : ir + wr ≤ r ∧ ic + wc ≤ n) :
    ∃ s m', Mat.extract m0 m wr wc = some s ∧ Mat.insert m wr wc s = some m' ∧ view m' = view m := by
  obtain ⟨s, hs⟩ := Option.isSome_iff_exists.1 ((C22_extract m0 m wr wc).1.2 hfit)
  obtain ⟨m', hm'⟩ := Option.isSome_iff_exists.1 ((C22_insert m wr wc s).1.2 hfit)
  refine ⟨s, m', hs, hm', ?_⟩
  ext i' j'
  have hi := (C22_insert m wr wc s).2 m' hm' i' j'
  by_cases hin : wr ≤ i'.val ∧ i'.val < wr + ir ∧ wc ≤ j'.val ∧ j'.val < wc + ic
  · have h1 := hi.1 ⟨i'.val - wr, by omega⟩ ⟨j'.val - wc, by omega⟩ (by simp; omega) (by simp; omega)
    have h2 := (C22_extract m0 m wr wc).2 s hs ⟨i'.val - wr, by omega⟩ ⟨j'.val - wc, by omega⟩ i' j'
      (by simp; omega) (by simp; omega)
    exact h1.trans h2
  · exact hi.2 hin

example : (2 + 1 ≤ 4 ∧ 2 + 2 ≤ 4) := by decide

/-! ## C23 -/

private theorem psum_one [AddCommMonoid K] [NeZero k] (f : Fin k → K) : psum f 1 = f 0 := by
  have := psum_succ f (0 : Fin k)
  simpa [psum_zero] using this

theorem mulRR_get [CommSemiring K] [NeZero k] (conv : Bool) (m0 : Mat c K r n o .row (p1 && p2))
    (a : Mat c K r k o .row p1) (b : Mat c K k n o .row p2) (i : Fin r) (j : Fin n) :
    (Mat.mulRR conv m0 a b).get i j = ∑ q, a.get i q * b.get q j := by
  unfold Mat.mulRR
  apply Mat.get_outerRows (fun i j => ∑ q, a.get i q * b.get q j)
  intro i m i' j'
  have hk : 1 ≤ k := Nat.one_le_iff_ne_zero.2 (NeZero.ne k)
  have := forUp_inv (n := k) (lo := 1)
    (body := fun run (m : Mat c K r n o .row (p1 && p2)) => m.setRow i (Vec.asPacked _ (Vec.fma conv
      (Vec.fill (a.get i run) : Vec c K n (p1 && p2)) (b.stripes run) (m.stripes i))))
    (s := m.setRow i (Vec.asPacked _ (Vec.scalarOp conv (· * ·) (a.get i 0) (b.stripes 0))))
    (fun q s => ∀ (i' : Fin r) (j' : Fin n), s.get i' j' =
      if i' = i then psum (fun q => a.get i q * b.get q j') q else m.get i' j') hk
    (by
      intro i' j'
      rw [Mat.get_setRow, psum_one]
      simp [C01_scalar_vec, Mat.get])
    (by
      intro run s _ h i' j'
      rw [Mat.get_setRow]
      split
      · rename_i e
        subst e
        have hs : (s.stripes i').get j' = psum (fun q => a.get i' q * b.get q j') run.val := by
          have := h i' j'
          simpa [Mat.get] using this
        rw [psum_succ, ← hs]
        simp [C01_fma, Mat.get, add_comm]
      · rename_i e
        rw [h, if_neg e])
  rw [this i' j']
  simp only [psum_all]

theorem mulC_get [CommSemiring K] [NeZero k] (conv : Bool) (m0 : Mat c K r n o .col (p1 && p2))
    (a : Mat c K r k o .col p1) (b : Mat c K k n o L p2) (i : Fin r) (j : Fin n) :
    (Mat.mulC conv m0 a b).get i j = ∑ q, a.get i q * b.get q j := by
  unfold Mat.mulC
  apply Mat.get_outerCols (fun i j => ∑ q, a.get i q * b.get q j)
  intro j m i' j'
  have hk : 1 ≤ k := Nat.one_le_iff_ne_zero.2 (NeZero.ne k)
  have := forUp_inv (n := k) (lo := 1)
    (body := fun run (m : Mat c K r n o .col (p1 && p2)) => m.setCol j (Vec.asPacked _ (Vec.fma conv (a.stripes run)
      (Vec.fill (b.get run j) : Vec c K r (p1 && p2)) (m.stripes j))))
    (s := m.setCol j (Vec.asPacked _ (Vec.opScalar conv (· * ·) (a.stripes 0) (b.get 0 j))))
    (fun q s => ∀ (i' : Fin r) (j' : Fin n), s.get i' j' =
      if j' = j then psum (fun q => a.get i' q * b.get q j) q else m.get i' j') hk
    (by
      intro i' j'
      rw [Mat.get_setCol, psum_one]
      simp [C01_vec_scalar, Mat.get])
    (by
      intro run s _ h i' j'
      rw [Mat.get_setCol]
      split
      · rename_i e
        subst e
        have hs : (s.stripes j').get i' = psum (fun q => a.get i' q * b.get q j') run.val := by
          have := h i' j'
          simpa [Mat.get] using this
        rw [psum_succ, ← hs]
        simp [C01_fma, Mat.get, add_comm]
      · rename_i e
        rw [h, if_neg e])
  rw [this i' j']
  simp only [psum_all]

/-- C23: for every layout pair, packing, configuration, reduction order and uninitialised memory, the product of two matrices is
the mathematical product. -/
theorem C23_mul [CommSemiring K] [NeZero k] (conv : Bool) (tb : RTree (batchSize k false)) (ts : RTree k) (htb : tb.Valid)
    (hts : ts.Valid) (m0 : Mat c K r n o L (p1 && p2)) (a : Mat c K r k o L p1) (b : Mat c K k n o L' p2) :
    view (Mat.mul conv tb ts m0 a b) = view a * view b := by
  ext i j
  rw [Matrix.mul_apply]
  cases L
  · cases L'
    · exact mulRR_get conv m0 a b i j
    · simp only [view, Mat.mul, Mat.mulRC, Mat.get_fillLoop, C03_sum tb ts htb hts]
      simp [Vec.mul, Mat.get]
  · exact mulC_get conv m0 a b i j

/-- C23: hence the product is associative across layouts, and independent of how the operands are stored. -/
theorem C23_assoc [CommSemiring K] [NeZero k] [NeZero n] (conv : Bool) (tbk : RTree (batchSize k false)) (tsk : RTree k)
    (tbn : RTree (batchSize n false)) (tsn : RTree n) (htbk : tbk.Valid) (htsk : tsk.Valid) (htbn : tbn.Valid) (htsn : tsn.Valid)
    (a : Mat c K r k o L p1) (b : Mat c K k n o L' p2) (d : Mat c K n l o L2 p3)
    (m1 : Mat c K r n o L (p1 && p2)) (m2 : Mat c K r l o L ((p1 && p2) && p3)) (m3 : Mat c K k l o L' (p2 && p3))
    (m4 : Mat c K r l o L (p1 && (p2 && p3))) :
    view (Mat.mul conv tbn tsn m2 (Mat.mul conv tbk tsk m1 a b) d) = view (Mat.mul conv tbk tsk m4 a (Mat.mul conv tbn tsn m3 b d)) := by
  rw [C23_mul _ _ _ htbn htsn, C23_mul _ _ _ htbk htsk, C23_mul _ _ _ htbk htsk, C23_mul _ _ _ htbn htsn, Matrix.mul_assoc]

theorem C23_storage_independent [CommSemiring K] [NeZero k] {c' : Cfg} {Lx Ly : Layout} {px py : Bool} {o' : Order} (conv conv' : Bool)
    (tb tb' : RTree (batchSize k false)) (ts ts' : RTree k) (htb : tb.Valid) (hts : ts.Valid) (htb' : tb'.Valid) (hts' : ts'.Valid)
    (m0 : Mat c K r n o L (p1 && p2)) (m0' : Mat c' K r n o' Lx (px && py)) (a : Mat c K r k o L p1) (b : Mat c K k n o L' p2)
    (a' : Mat c' K r k o' Lx px) (b' : Mat c' K k n o' Ly py) (ha : view a = view a') (hb : view b = view b') :
    view (Mat.mul conv tb ts m0 a b) = view (Mat.mul conv' tb' ts' m0' a' b') := by
  rw [C23_mul _ _ _ htb hts, C23_mul _ _ _ htb' hts', ha, hb]

/-- C23: `a *= b` replaces `a` by the product (also when `b` is `a`). -/
theorem C23_mul_assign [CommSemiring K] [NeZero k] (conv : Bool) (tb : RTree (batchSize k false)) (ts : RTree k) (htb : tb.Valid)
    (hts : ts.Valid) (m0 : Mat c K k k o L (p1 && p2)) (m1 a : Mat c K k k o L p1) (b : Mat c K k k o L' p2) :
    view (Mat.mulAssign conv tb ts m0 m1 a b) = view a * view b := by
  unfold Mat.mulAssign
  rw [C21_convert, C23_mul _ _ _ htb hts]

/-- Non-vacuity: valid reduction orders exist in every dimension (here 3 padded to 4), and dimension 3 is `NeZero`. -/
example : (RTree.node (.leaf 0) (.node (.leaf 1) (.leaf 2)) : RTree 3).Valid ∧ NeZero 3 :=
  ⟨by unfold RTree.Valid; decide, inferInstance⟩

/-! ## C24 -/

theorem vecMulR_get [CommSemiring K] [NeZero k] (conv : Bool) (v : Vec c K k p1) (m : Mat c K k n .follow .row p2) (j : Fin n) :
    (Mat.vecMulR conv v m).get j = ∑ q, v.get q * m.get q j := by
  unfold Mat.vecMulR
  have hk : 1 ≤ k := Nat.one_le_iff_ne_zero.2 (NeZero.ne k)
  have := forUp_inv (n := k) (lo := 1)
    (body := fun run (w : Vec c K n (p2 && p2)) => Vec.asPacked _ (Vec.fma conv (Vec.fill (v.get run) : Vec c K n (p2 && p2))
      (m.stripes run) w))
    (s := Vec.scalarOp conv (· * ·) (v.get 0) (m.stripes 0))
    (fun q w => ∀ j, w.get j = psum (fun q => v.get q * m.get q j) q) hk
    (by intro j; rw [psum_one]; simp [C01_scalar_vec, Mat.get])
    (by
      intro run s _ h j
      rw [psum_succ, ← h j]
      simp [C01_fma, Mat.get, add_comm])
  rw [this j, psum_all]

/-- C24: vector × matrix (follow-vector order). -/
theorem C24_vec_mul [CommSemiring K] [NeZero k] (conv : Bool) (tb : RTree (batchSize k false)) (ts : RTree k) (htb : tb.Valid)
    (hts : ts.Valid) (v0 : Vec c K n (p1 && p2)) (v : Vec c K k p1) (m : Mat c K k n .follow L p2) :
    Mat.vecMul conv tb ts v0 v m = Matrix.vecMul (vview v) (view m) := by
  funext j
  simp only [Matrix.vecMul, dotProduct, vview, view]
  cases L
  · exact vecMulR_get conv v m j
  · simp only [Mat.vecMul, Mat.vecMulC, Vec.get_setLoop, C03_sum tb ts htb hts]
    simp [Vec.mul, Mat.get]

/-- C24: matrix × vector (precede-vector order). -/
theorem C24_mul_vec [CommSemiring K] [NeZero k] (conv : Bool) (tb : RTree (batchSize k false)) (ts : RTree k) (htb : tb.Valid)
    (hts : ts.Valid) (v0 : Vec c K n (p2 && p1)) (m0 : Mat c K k n .follow L.flip p1) (m : Mat c K n k .precede L p1)
    (v : Vec c K k p2) : Mat.mulVec conv tb ts v0 m0 m v = Matrix.mulVec (view m) (vview v) := by
  unfold Mat.mulVec
  rw [C24_vec_mul conv tb ts htb hts]
  have : view (Mat.flipLayoutAndOrder (o := .precede) m0 m) = (view m).transpose := C21_convert_order (o := .precede) m0 m
  rw [this, Matrix.vecMul_transpose]

/-- C24: applying a product is applying the factors one after the other: follow-vector order applies the left factor first. -/
theorem C24_vec_mul_mul [CommSemiring K] [NeZero k] [NeZero n] (conv : Bool) (tbk : RTree (batchSize k false)) (tsk : RTree k)
    (tbn : RTree (batchSize n false)) (tsn : RTree n) (htbk : tbk.Valid) (htsk : tsk.Valid) (htbn : tbn.Valid) (htsn : tsn.Valid)
    (v : Vec c K k p) (a : Mat c K k n .follow L p1) (b : Mat c K n l .follow L' p2) (m0 : Mat c K k l .follow L (p1 && p2))
    (v0 : Vec c K l (p && (p1 && p2))) (v1 : Vec c K n (p && p1)) (w : Vec c K n p') (v2 : Vec c K l (p' && p2))
    (hw : vview w = Mat.vecMul conv tbk tsk v1 v a) :
    Mat.vecMul conv tbk tsk v0 v (Mat.mul conv tbn tsn m0 a b) = Mat.vecMul conv tbn tsn v2 w b := by
  rw [C24_vec_mul _ _ _ htbk htsk, C23_mul _ _ _ htbn htsn, C24_vec_mul _ _ _ htbn htsn, hw, C24_vec_mul _ _ _ htbk htsk,
    Matrix.vecMul_vecMul]

/-- C24: precede-vector order applies the right factor first. -/
theorem C24_mul_mul_vec [CommSemiring K] [NeZero k] [NeZero n] (conv : Bool) (tbk : RTree (batchSize k false)) (tsk : RTree k)
    (tbn : RTree (batchSize n false)) (tsn : RTree n) (htbk : tbk.Valid) (htsk : tsk.Valid) (htbn : tbn.Valid) (htsn : tsn.Valid)
    (v : Vec c K k p) (a : Mat c K l n .precede L p1) (b : Mat c K n k .precede L' p2) (m0 : Mat c K l k .precede L (p1 && p2))
    (v0 : Vec c K l (p && (p1 && p2))) (f0 : Mat c K k l .follow L.flip (p1 && p2)) (v1 : Vec c K n (p && p2))
    (f1 : Mat c K k n .follow L'.flip p2) (w : Vec c K n p') (v2 : Vec c K l (p' && p1)) (f2 : Mat c K n l .follow L.flip p1)
    (hw : vview w = Mat.mulVec conv tbk tsk v1 f1 b v) :
    Mat.mulVec conv tbk tsk v0 f0 (Mat.mul conv tbn tsn m0 a b) v = Mat.mulVec conv tbn tsn v2 f2 a w := by
  rw [C24_mul_vec _ _ _ htbk htsk, C23_mul _ _ _ htbn htsn, C24_mul_vec _ _ _ htbn htsn, hw, C24_mul_vec _ _ _ htbk htsk,
    Matrix.mulVec_mulVec]

/-- C21/C24: converting a matrix to the other order keeps its action: `v * M = M' * v`. -/
theorem C21_order_preserves_transform [CommSemiring K] [NeZero k] (conv : Bool) (tb : RTree (batchSize k false)) (ts : RTree k)
    (htb : tb.Valid) (hts : ts.Valid) (v0 : Vec c K n (p && p1)) (v1 : Vec c K n (p && p2)) (f0 : Mat c K k n .follow L'.flip p2)
    (m0 : Mat c K n k .precede L' p2) (v : Vec c K k p) (m : Mat c K k n .follow L p1) :
    Mat.mulVec conv tb ts v1 f0 (Mat.convertOrder (o := .follow) m0 m) v = Mat.vecMul conv tb ts v0 v m := by
  rw [C24_mul_vec _ _ _ htb hts, C24_vec_mul _ _ _ htb hts]
  have : view (Mat.convertOrder (o := .follow) m0 m) = (view m).transpose := C21_convert_order m0 m
  rw [this, Matrix.mulVec_transpose]

/-! ## C25 -/

/-- Specification: `(v, 1)`. -/
def append1 [One K] (v : Fin k → K) : Fin (k + 1) → K := Fin.snoc (α := fun _ => K) v 1

private theorem vview_homogenize [Zero K] [One K] (v : Vec c K k p) : vview (Vec.homogenize v : Vec c K (k + 1) p2) = append1 (vview v) := by
  funext i
  refine Fin.lastCases ?_ (fun i => ?_) i
  · simp [vview, append1, C11_homogenize v]
  · simp [vview, append1, (C11_homogenize (p := p2) v).1 i]

/-- C25: a shorter vector times a square matrix: append 1, multiply, divide by the last coordinate; undefined exactly when that
coordinate is 0. -/
theorem C25_homogeneous [Field K] [DecidableEq K] (hk : 0 < k) (conv : Bool) (tb : RTree (batchSize (k + 1) false)) (ts : RTree (k + 1))
    (htb : tb.Valid) (hts : ts.Valid) (v0 : Vec c K (k + 1) (p1 && p2)) (q : Bool) (v : Vec c K k p1)
    (m : Mat c K (k + 1) (k + 1) .follow L p2) :
    let h := Matrix.vecMul (append1 (vview v)) (view m)
    ((Mat.vecMulHomog conv tb ts v0 q v m).isSome = true ↔ h (Fin.last k) ≠ 0) ∧
    ∀ w, Mat.vecMulHomog conv tb ts v0 q v m = some w → ∀ i : Fin k, w.get i = h i.castSucc / h (Fin.last k) := by
  dsimp only
  unfold Mat.vecMulHomog
  dsimp only
  rw [C24_vec_mul _ _ _ htb hts, vview_homogenize]
  have := C11_dehomogenize (p := q) (Vec.ofFn (Matrix.vecMul (append1 (vview v)) (view m)) : Vec c K (k + 1) q) hk
  simpa using this

/-- C25: the same for matrix × shorter vector. -/
theorem C25_homogeneous_precede [Field K] [DecidableEq K] (hk : 0 < k) (conv : Bool) (tb : RTree (batchSize (k + 1) false))
    (ts : RTree (k + 1)) (htb : tb.Valid) (hts : ts.Valid) (v0 : Vec c K (k + 1) (p2 && p1))
    (m0 : Mat c K (k + 1) (k + 1) .follow L.flip p1) (q : Bool) (m : Mat c K (k + 1) (k + 1) .precede L p1) (v : Vec c K k p2) :
    let h := Matrix.mulVec (view m) (append1 (vview v))
    ((Mat.mulVecHomog conv tb ts v0 m0 q m v).isSome = true ↔ h (Fin.last k) ≠ 0) ∧
    ∀ w, Mat.mulVecHomog conv tb ts v0 m0 q m v = some w → ∀ i : Fin k, w.get i = h i.castSucc / h (Fin.last k) := by
  dsimp only
  unfold Mat.mulVecHomog
  dsimp only
  rw [C24_mul_vec _ _ _ htb hts, vview_homogenize]
  have := C11_dehomogenize (p := q) (Vec.ofFn (Matrix.mulVec (view m) (append1 (vview v))) : Vec c K (k + 1) q) hk
  simpa using this

/-- C25: affine application is linear part plus translation. -/
theorem C25_affine [CommSemiring K] (conv : Bool) (tb : RTree (batchSize (k + 1) false)) (ts : RTree (k + 1))
    (htb : tb.Valid) (hts : ts.Valid) (v0 : Vec c K k (p1 && p2)) (v : Vec c K k p1) (m : Mat c K (k + 1) k .follow L p2) (j : Fin k) :
    Mat.vecMulAffine conv tb ts v0 v m j = (∑ i : Fin k, v.get i * m.get i.castSucc j) + m.get (Fin.last k) j := by
  unfold Mat.vecMulAffine
  rw [C24_vec_mul _ _ _ htb hts, vview_homogenize]
  simp [Matrix.vecMul, dotProduct, Fin.sum_univ_castSucc, append1, view, vview]

theorem C25_affine_precede [CommSemiring K] (conv : Bool) (tb : RTree (batchSize (k + 1) false)) (ts : RTree (k + 1))
    (htb : tb.Valid) (hts : ts.Valid) (v0 : Vec c K k (p2 && p1)) (m0 : Mat c K (k + 1) k .follow L.flip p1)
    (m : Mat c K k (k + 1) .precede L p1) (v : Vec c K k p2) (i : Fin k) :
    Mat.mulVecAffine conv tb ts v0 m0 m v i = (∑ j : Fin k, m.get i j.castSucc * v.get j) + m.get i (Fin.last k) := by
  unfold Mat.mulVecAffine
  rw [C24_mul_vec _ _ _ htb hts, vview_homogenize]
  simp [Matrix.mulVec, dotProduct, Fin.sum_univ_castSucc, append1, view, vview]

/-! ## C26 -/

private theorem elementwise_get (func : ∀ {d : ℕ}, Vec c K d p1 → Vec c K d p2 → Vec c K d (p1 && p2)) (f : K → K → K)
    (hf : ∀ {d : ℕ} (v : Vec c K d p1) (w : Vec c K d p2) (i : Fin d), (func v w).get i = f (v.get i) (w.get i))
    (jr : Vec c K n p2) (jc : Vec c K r p2) (m0 : Mat c K r n o L (p1 && p2)) (a : Mat c K r n o L p1) (b : Mat c K r n o L' p2)
    (i : Fin r) (j : Fin n) : (Mat.elementwise func jr jc m0 a b).get i j = f (a.get i j) (b.get i j) := by
  cases L
  · unfold Mat.elementwise
    dsimp only
    apply Mat.get_outerRows (fun i j => f (a.get i j) (b.get i j))
    intro i m i' j'
    rw [Mat.get_setRow, hf]
    simp [Mat.get]
  · unfold Mat.elementwise
    dsimp only
    apply Mat.get_outerCols (fun i j => f (a.get i j) (b.get i j))
    intro j m i' j'
    rw [Mat.get_setCol, hf]
    simp [Mat.get]

/-- C26: sum, difference and Hadamard product act element by element, for every layout pair. -/
theorem C26_add [AddMonoid K] (conv : Bool) (jr : Vec c K n p2) (jc : Vec c K r p2) (m0 : Mat c K r n o L (p1 && p2))
    (a : Mat c K r n o L p1) (b : Mat c K r n o L' p2) : view (Mat.add conv jr jc m0 a b) = view a + view b := by
  ext i j
  exact elementwise_get _ (· + ·) (fun v w i => C01_add conv v w i) jr jc m0 a b i j

theorem C26_sub [AddGroup K] (conv : Bool) (jr : Vec c K n p2) (jc : Vec c K r p2) (m0 : Mat c K r n o L (p1 && p2))
    (a : Mat c K r n o L p1) (b : Mat c K r n o L' p2) : view (Mat.sub conv jr jc m0 a b) = view a - view b := by
  ext i j
  exact elementwise_get _ (· - ·) (fun v w i => C01_sub conv v w i) jr jc m0 a b i j

theorem C26_hadamard [MulZeroClass K] (conv : Bool) (jr : Vec c K n p2) (jc : Vec c K r p2) (m0 : Mat c K r n o L (p1 && p2))
    (a : Mat c K r n o L p1) (b : Mat c K r n o L' p2) (i : Fin r) (j : Fin n) :
    view (Mat.hadamard conv jr jc m0 a b) i j = view a i j * view b i j :=
  elementwise_get _ (· * ·) (fun v w i => C01_mul conv v w i) jr jc m0 a b i j

/-- A loop over `Option` states is defined iff every step is. -/
private theorem forUp_option {σ : Type*} {N : ℕ} (g : Fin N → σ → Option σ) (ok : Fin N → Prop)
    (hok : ∀ s x, (g s x).isSome = true ↔ ok s) (x0 : σ) :
    (forUp N 0 (fun s (m : Option σ) => m.bind (g s)) (some x0)).isSome = true ↔ ∀ s, ok s := by
  have := forUp_inv (n := N) (lo := 0) (body := fun s (m : Option σ) => m.bind (g s)) (s := some x0)
    (fun q m => m.isSome = true ↔ ∀ s : Fin N, s.val < q → ok s) (Nat.zero_le _) (by simp) (by
      intro s m _ h
      cases m with
      | none =>
        simp only [Option.isSome_none, Bool.false_eq_true, false_iff] at h
        simp only [Option.bind_none, Option.isSome_none, Bool.false_eq_true, false_iff]
        exact fun hh => h fun s' hs' => hh s' (by omega)
      | some x =>
        simp only [Option.isSome_some, true_iff] at h
        simp only [Option.bind_some, hok]
        constructor
        · intro h1 s' hs'
          by_cases e : s' = s
          · rw [e]; exact h1
          · have : s'.val ≠ s.val := fun e' => e (Fin.ext e')
            exact h s' (by omega)
        · intro h1; exact h1 s (by omega))
  rw [this]
  exact ⟨fun h s => h s s.isLt, fun h s _ => h s⟩

private theorem forUp_option_rel {σ : Type*} {N : ℕ} (g : Fin N → σ → Option σ) (x0 x : σ) (P : ℕ → σ → Prop) (h0 : P 0 x0)
    (hs : ∀ (s : Fin N) y z, P s.val y → g s y = some z → P (s.val + 1) z)
    (hx : forUp N 0 (fun s (m : Option σ) => m.bind (g s)) (some x0) = some x) : P N x := by
  have := forUp_inv (n := N) (lo := 0) (body := fun s (m : Option σ) => m.bind (g s)) (s := some x0)
    (fun q m => ∀ y, m = some y → P q y) (Nat.zero_le _) (by rintro y ⟨⟩; exact h0) (by
      intro s m _ h z hz
      cases m with
      | none => cases hz
      | some y => exact hs s y z (h y rfl) hz)
  exact this x hx

/-- C26: the elementwise quotient is defined exactly when no element of the divisor is zero (padding lanes do not matter) and is
the elementwise quotient. -/
theorem C26_div [DecidableEq K] [Zero K] [Div K] (conv : Bool) (jr : Vec c K n p2) (jc : Vec c K r p2) (m0 : Mat c K r n o L (p1 && p2))
    (a : Mat c K r n o L p1) (b : Mat c K r n o L' p2) :
    ((Mat.div conv jr jc m0 a b).isSome = true ↔ ∀ i j, view b i j ≠ 0) ∧
    ∀ q, Mat.div conv jr jc m0 a b = some q → ∀ i j, view q i j = view a i j / view b i j := by
  cases L
  · unfold Mat.div Mat.elementwiseOpt
    dsimp only
    constructor
    · rw [forUp_option (fun s (m : Mat c K r n o .row (p1 && p2)) =>
        (Vec.div conv (a.stripes s) (b.row jr s)).map fun v => m.setRow s v) (fun i => ∀ j, view b i j ≠ 0)]
      intro s x
      rw [Option.isSome_map, C02_div_defined_iff]
      simp [view]
    · intro q hq
      have := forUp_option_rel (fun s (m : Mat c K r n o .row (p1 && p2)) =>
        (Vec.div conv (a.stripes s) (b.row jr s)).map fun v => m.setRow s v) m0 q
        (fun t m => ∀ (i : Fin r) (j : Fin n), i.val < t → m.get i j = a.get i j / b.get i j) (by intro i j h; omega)
        (by
          intro s y z hy hz i j hi
          rw [Option.map_eq_some_iff] at hz
          obtain ⟨v, hv, rfl⟩ := hz
          rw [Mat.get_setRow]
          split
          · rename_i e
            rw [(C02_div_value conv _ _ _ hv).1 j, e]
            simp [Mat.get]
          · rename_i e
            have : i.val ≠ s.val := fun e' => e (Fin.ext e')
            exact hy i j (by omega)) hq
      exact fun i j => this i j i.isLt
  · unfold Mat.div Mat.elementwiseOpt
    dsimp only
    constructor
    · rw [forUp_option (fun s (m : Mat c K r n o .col (p1 && p2)) =>
        (Vec.div conv (a.stripes s) (b.col jc s)).map fun v => m.setCol s v) (fun j => ∀ i, view b i j ≠ 0)]
      · exact ⟨fun h i j => h j i, fun h j i => h i j⟩
      intro s x
      rw [Option.isSome_map, C02_div_defined_iff]
      simp [view]
    · intro q hq
      have := forUp_option_rel (fun s (m : Mat c K r n o .col (p1 && p2)) =>
        (Vec.div conv (a.stripes s) (b.col jc s)).map fun v => m.setCol s v) m0 q
        (fun t m => ∀ (i : Fin r) (j : Fin n), j.val < t → m.get i j = a.get i j / b.get i j) (by intro i j h; omega)
        (by
          intro s y z hy hz i j hi
          rw [Option.map_eq_some_iff] at hz
          obtain ⟨v, hv, rfl⟩ := hz
          rw [Mat.get_setCol]
          split
          · rename_i e
            rw [(C02_div_value conv _ _ _ hv).1 i, e]
            simp [Mat.get]
          · rename_i e
            have : j.val ≠ s.val := fun e' => e (Fin.ext e')
            exact hy i j (by omega)) hq
      exact fun i j => this i j j.isLt

/-- C26: matrix ∘ scalar and scalar ∘ matrix, for any operation. -/
theorem C26_scalar [Zero K] (conv : Bool) (f : K → K → K) (m0 m1 : Mat c K r n o L (p && p)) (a : Mat c K r n o L p) (x : K)
    (i : Fin r) (j : Fin n) :
    view (Mat.opScalar conv f m0 a x) i j = f (view a i j) x ∧ view (Mat.scalarOp conv f m1 x a) i j = f x (view a i j) :=
  ⟨Mat.get_mapStripes _ (fun y => f y x) (fun v i => C01_vec_scalar conv f v x i) m0 a i j,
    Mat.get_mapStripes _ (fun y => f x y) (fun v i => C01_scalar_vec conv f v x i) m1 a i j⟩

/-- C26: unary minus. -/
theorem C26_neg [Ring K] (conv : Bool) (m0 : Mat c K r n o L (p && p)) (a : Mat c K r n o L p) : view (Mat.neg conv m0 a) = -view a := by
  ext i j
  exact Mat.get_mapStripes _ (fun y => -y) (fun v i => C01_neg conv v i) m0 a i j

private theorem mapStripesOpt_spec (func : ∀ {d : ℕ}, Vec c K d p → Option (Vec c K d p2)) (f : K → K) (okv : K → Prop)
    (hok : ∀ {d : ℕ} (v : Vec c K d p), 0 < d → ((func v).isSome = true ↔ ∀ i, okv (v.get i)))
    (hf : ∀ {d : ℕ} (v : Vec c K d p) (w : Vec c K d p2), 0 < d → func v = some w → ∀ i, w.get i = f (v.get i))
    (hr : 0 < r) (hn : 0 < n) (m0 : Mat c K r n o L p2) (a : Mat c K r n o L p) :
    ((Mat.mapStripesOpt func m0 a).isSome = true ↔ ∀ i j, okv (a.get i j)) ∧
    ∀ q, Mat.mapStripesOpt func m0 a = some q → ∀ i j, q.get i j = f (a.get i j) := by
  have hd : 0 < stripeDim L r n := by cases L <;> assumption
  unfold Mat.mapStripesOpt
  constructor
  · rw [forUp_option (fun s (m : Mat c K r n o L p2) => (func (a.stripes s)).map fun v =>
      (⟨fun s' => if s' = s then v else m.stripes s'⟩ : Mat c K r n o L p2)) (fun s => ∀ i, okv ((a.stripes s).get i))]
    · cases L
      · exact Iff.rfl
      · exact ⟨fun h i j => h j i, fun h j i => h i j⟩
    · intro s x
      rw [Option.isSome_map, hok _ hd]
  · intro q hq
    have := forUp_option_rel (fun s (m : Mat c K r n o L p2) => (func (a.stripes s)).map fun v =>
      (⟨fun s' => if s' = s then v else m.stripes s'⟩ : Mat c K r n o L p2)) m0 q
      (fun t m => ∀ (s : Fin (stripeCount L r n)), s.val < t → ∀ i, (m.stripes s).get i = f ((a.stripes s).get i)) (by intro i h; omega)
      (by
        intro s y z hy hz s' hs' i
        rw [Option.map_eq_some_iff] at hz
        obtain ⟨v, hv, rfl⟩ := hz
        dsimp only
        split
        · rename_i e
          rw [hf _ v hd hv i, e]
        · rename_i e
          have : s'.val ≠ s.val := fun e' => e (Fin.ext e')
          exact hy s' (by omega) i) hq
    exact Mat.get_of_stripes f a q (fun s i => this s s.isLt i)

/-- C26: division by a scalar, and of a scalar. -/
theorem C26_div_scalar [DecidableEq K] [Zero K] [Div K] (hr : 0 < r) (hn : 0 < n) (conv : Bool) (m0 : Mat c K r n o L (p && p))
    (a : Mat c K r n o L p) (x : K) :
    ((Mat.divScalar conv m0 a x).isSome = true ↔ x ≠ 0) ∧
    ∀ q, Mat.divScalar conv m0 a x = some q → ∀ i j, view q i j = view a i j / x := by
  have := mapStripesOpt_spec (c := c) (o := o) (L := L) (r := r) (n := n) (p := p) (p2 := p && p)
    (fun v => Vec.divScalar conv v x) (fun y => y / x) (fun _ => x ≠ 0)
    (fun {d} v hd => by rw [(C02_div_scalar conv v x hd).1]; exact ⟨fun h _ => h, fun h => h ⟨0, hd⟩⟩)
    (fun {d} v w hd hw i => (C02_div_scalar conv v x hd).2 w hw i) hr hn m0 a
  refine ⟨?_, this.2⟩
  unfold Mat.divScalar
  rw [this.1]
  exact ⟨fun h => h ⟨0, hr⟩ ⟨0, hn⟩, fun h _ _ => h⟩

theorem C26_scalar_div [DecidableEq K] [Zero K] [Div K] (hr : 0 < r) (hn : 0 < n) (conv : Bool) (m0 : Mat c K r n o L (p && p))
    (x : K) (a : Mat c K r n o L p) :
    ((Mat.scalarDiv conv m0 x a).isSome = true ↔ ∀ i j, view a i j ≠ 0) ∧
    ∀ q, Mat.scalarDiv conv m0 x a = some q → ∀ i j, view q i j = x / view a i j :=
  mapStripesOpt_spec (c := c) (o := o) (L := L) (r := r) (n := n) (p := p) (p2 := p && p)
    (fun v => Vec.scalarDiv conv x v) (fun y => x / y) (fun y => y ≠ 0)
    (fun v _ => (C02_scalar_div conv x v).1) (fun v w _ hw i => (C02_scalar_div conv x v).2 w hw i) hr hn m0 a

/-! ## C27 -/

theorem C27_transpose (m0 : Mat c K n r o L p) (m : Mat c K r n o L p) : view (Mat.transpose m0 m) = (view m).transpose := by
  ext j i
  unfold Mat.transpose
  have := Mat.get_outerCols (c := c) (o := o) (L := L) (p := p) (fun (j : Fin n) (i : Fin r) => m.get i j)
    (fun i t => forUp n 0 (fun j t => t.set j i (m.get i j)) t)
    (by intro i t j' i'; exact Mat.get_colLoop (fun j => m.get i j) i t j' i') m0 j i
  exact this

theorem C27_conj [Zero K] [Star K] (conv : Bool) (m0 : Mat c K r n o L p) (m : Mat c K r n o L p) :
    view (Mat.conj conv m0 m) = (view m).map star := by
  ext i j
  exact Mat.get_mapStripes _ star (fun v i => by simp [Vec.conj]) m0 m i j

theorem C27_conj_transpose [Zero K] [Star K] (conv : Bool) (m0 m1 : Mat c K n r o L p) (m : Mat c K r n o L p) :
    view (Mat.conjTranspose conv m0 m1 m) = (view m).conjTranspose := by
  unfold Mat.conjTranspose
  rw [C27_conj, C27_transpose]
  rfl

/-- C27: involutions. -/
theorem C27_involutive [Zero K] [InvolutiveStar K] (conv : Bool) (m0 m1 : Mat c K n r o L p) (m2 m3 : Mat c K r n o L p)
    (m : Mat c K r n o L p) :
    view (Mat.transpose m2 (Mat.transpose m0 m)) = view m ∧
    view (Mat.conjTranspose conv m2 m3 (Mat.conjTranspose conv m0 m1 m)) = view m := by
  rw [C27_transpose, C27_transpose, C27_conj_transpose, C27_conj_transpose]
  exact ⟨Matrix.transpose_transpose _, Matrix.conjTranspose_conjTranspose _⟩

/-- C27: both reverse products. -/
theorem C27_reverse [CommSemiring K] [StarRing K] [NeZero k] (conv : Bool) (tb : RTree (batchSize k false)) (ts : RTree k)
    (htb : tb.Valid) (hts : ts.Valid) (a : Mat c K r k o L p1) (b : Mat c K k n o L p2) (m0 : Mat c K r n o L (p1 && p2))
    (m1 m2 : Mat c K n r o L (p1 && p2)) (m3 m4 : Mat c K n k o L p2) (m5 m6 : Mat c K k r o L p1) (m7 : Mat c K n r o L (p2 && p1)) :
    view (Mat.transpose m1 (Mat.mul conv tb ts m0 a b)) = view (Mat.mul conv tb ts m7 (Mat.transpose m3 b) (Mat.transpose m5 a)) ∧
    view (Mat.conjTranspose conv m1 m2 (Mat.mul conv tb ts m0 a b)) =
      view (Mat.mul conv tb ts m7 (Mat.conjTranspose conv m3 m4 b) (Mat.conjTranspose conv m5 m6 a)) := by
  simp only [C27_transpose, C27_conj_transpose, C23_mul _ _ _ htb hts]
  exact ⟨Matrix.transpose_mul _ _, Matrix.conjTranspose_mul _ _⟩

/-! ## C32 (reductions; norms are in `Props/MatrixNorm.lean`) -/

theorem C32_trace [AddCommMonoid K] (tb : RTree (batchSize n false)) (ts : RTree n) (htb : tb.Valid) (hts : ts.Valid)
    (v0 : Vec c K n p) (m : Mat c K n n o L p) : Mat.trace tb ts v0 m = (view m).trace := by
  unfold Mat.trace
  rw [C03_sum tb ts htb hts]
  simp [Vec.get_setLoop, Matrix.trace, view]

/-- C32: the trace is invariant under transposition and cyclic. -/
theorem C32_trace_cyclic [CommSemiring K] [NeZero k] [NeZero n] (conv : Bool) (tbk : RTree (batchSize k false)) (tsk : RTree k)
    (tbn : RTree (batchSize n false)) (tsn : RTree n) (htbk : tbk.Valid) (htsk : tsk.Valid) (htbn : tbn.Valid) (htsn : tsn.Valid)
    (a : Mat c K n k o L p1) (b : Mat c K k n o L' p2) (m0 : Mat c K n n o L (p1 && p2)) (m1 : Mat c K k k o L' (p2 && p1))
    (v0 : Vec c K n (p1 && p2)) (v1 : Vec c K k (p2 && p1)) :
    Mat.trace tbn tsn v0 (Mat.mul conv tbk tsk m0 a b) = Mat.trace tbk tsk v1 (Mat.mul conv tbn tsn m1 b a) := by
  rw [C32_trace _ _ htbn htsn, C32_trace _ _ htbk htsk, C23_mul _ _ _ htbk htsk, C23_mul _ _ _ htbn htsn, Matrix.trace_mul_comm]

theorem C32_trace_transpose [AddCommMonoid K] (tb : RTree (batchSize n false)) (ts : RTree n) (htb : tb.Valid) (hts : ts.Valid)
    (v0 v1 : Vec c K n p) (m0 m : Mat c K n n o L p) : Mat.trace tb ts v0 (Mat.transpose m0 m) = Mat.trace tb ts v1 m := by
  rw [C32_trace _ _ htb hts, C32_trace _ _ htb hts, C27_transpose, Matrix.trace_transpose]

/-- C32: `Sum` ranges over exactly the elements. -/
theorem C32_sum [AddCommMonoid K] (tb : RTree (batchSize (stripeDim L r n) false)) (ts : RTree (stripeDim L r n)) (htb : tb.Valid)
    (hts : ts.Valid) (m : Mat c K r n o L p) : Mat.sum tb ts m = ∑ i, ∑ j, view m i j := by
  unfold Mat.sum
  rw [forUp_sum]
  simp only [C03_sum tb ts htb hts, zero_add]
  cases L
  · rfl
  · exact Finset.sum_comm

private theorem forUp_min {N : ℕ} [LinearOrder K] [NeZero N] (g : Fin N → K) :
    (∀ s, forUp N 1 (fun s acc => min acc (g s)) (g 0) ≤ g s) ∧ ∃ s, forUp N 1 (fun s acc => min acc (g s)) (g 0) = g s := by
  have hN : 1 ≤ N := Nat.one_le_iff_ne_zero.2 (NeZero.ne N)
  have := forUp_inv (n := N) (lo := 1) (body := fun s acc => min acc (g s)) (s := g 0)
    (fun q m => (∀ s : Fin N, s.val < q → m ≤ g s) ∧ ∃ s, m = g s) hN
    ⟨fun s hs => by have : s = 0 := Fin.ext (by have : ((0 : Fin N) : ℕ) = 0 := rfl; omega); rw [this], 0, rfl⟩ (by
      rintro s m _ ⟨h1, s0, h2⟩
      constructor
      · intro s' hs'
        by_cases e : s' = s
        · rw [e]; exact min_le_right _ _
        · have : s'.val ≠ s.val := fun e' => e (Fin.ext e')
          exact (min_le_left _ _).trans (h1 s' (by omega))
      · rcases min_choice m (g s) with h | h
        · exact ⟨s0, h.trans h2⟩
        · exact ⟨s, h⟩)
  exact ⟨fun s => this.1 s s.isLt, this.2⟩

private theorem forUp_max {N : ℕ} [LinearOrder K] [NeZero N] (g : Fin N → K) :
    (∀ s, g s ≤ forUp N 1 (fun s acc => max acc (g s)) (g 0)) ∧ ∃ s, forUp N 1 (fun s acc => max acc (g s)) (g 0) = g s := by
  have hN : 1 ≤ N := Nat.one_le_iff_ne_zero.2 (NeZero.ne N)
  have := forUp_inv (n := N) (lo := 1) (body := fun s acc => max acc (g s)) (s := g 0)
    (fun q m => (∀ s : Fin N, s.val < q → g s ≤ m) ∧ ∃ s, m = g s) hN
    ⟨fun s hs => by have : s = 0 := Fin.ext (by have : ((0 : Fin N) : ℕ) = 0 := rfl; omega); rw [this], 0, rfl⟩ (by
      rintro s m _ ⟨h1, s0, h2⟩
      constructor
      · intro s' hs'
        by_cases e : s' = s
        · rw [e]; exact le_max_right _ _
        · have : s'.val ≠ s.val := fun e' => e (Fin.ext e')
          exact (h1 s' (by omega)).trans (le_max_left _ _)
      · rcases max_choice m (g s) with h | h
        · exact ⟨s0, h.trans h2⟩
        · exact ⟨s, h⟩)
  exact ⟨fun s => this.1 s s.isLt, this.2⟩

/-- C32: `Min`/`Max` are attained bounds over the elements. -/
theorem C32_min [LinearOrder K] [NeZero (stripeCount L r n)] (tb : RTree (batchSize (stripeDim L r n) false)) (ts : RTree (stripeDim L r n))
    (htb : tb.Valid) (hts : ts.Valid) (m : Mat c K r n o L p) :
    (∀ i j, Mat.minElem tb ts m ≤ view m i j) ∧ ∃ i j, Mat.minElem tb ts m = view m i j := by
  obtain ⟨h1, s, h2⟩ := forUp_min (fun s => Vec.minElem tb ts (m.stripes s))
  have h3 := fun s => C03_min tb ts htb hts (m.stripes s)
  have hle : ∀ s t, Mat.minElem tb ts m ≤ (m.stripes s).get t := fun s t => (h1 s).trans ((h3 s).1 t)
  obtain ⟨t, ht⟩ := (h3 s).2
  have hex : Mat.minElem tb ts m = (m.stripes s).get t := h2.trans ht
  clear h1 h2 h3 ht
  cases L
  · exact ⟨hle, s, t, hex⟩
  · exact ⟨fun i j => hle j i, t, s, hex⟩

theorem C32_max [LinearOrder K] [NeZero (stripeCount L r n)] (tb : RTree (batchSize (stripeDim L r n) false)) (ts : RTree (stripeDim L r n))
    (htb : tb.Valid) (hts : ts.Valid) (m : Mat c K r n o L p) :
    (∀ i j, view m i j ≤ Mat.maxElem tb ts m) ∧ ∃ i j, Mat.maxElem tb ts m = view m i j := by
  obtain ⟨h1, s, h2⟩ := forUp_max (fun s => Vec.maxElem tb ts (m.stripes s))
  have h3 := fun s => C03_max tb ts htb hts (m.stripes s)
  have hle : ∀ s t, (m.stripes s).get t ≤ Mat.maxElem tb ts m := fun s t => ((h3 s).1 t).trans (h1 s)
  obtain ⟨t, ht⟩ := (h3 s).2
  have hex : Mat.maxElem tb ts m = (m.stripes s).get t := h2.trans ht
  clear h1 h2 h3 ht
  cases L
  · exact ⟨hle, s, t, hex⟩
  · exact ⟨fun i j => hle j i, t, s, hex⟩

/-- C32: `NormSquared` is the sum of (the real parts of) `m(i,j) * conj(m(i,j))`. -/
theorem C32_norm_squared [NonUnitalNonAssocSemiring K] [Star K] (re : K → K) (conv : Bool)
    (tb : RTree (batchSize (stripeDim L r n) false)) (ts : RTree (stripeDim L r n)) (htb : tb.Valid) (hts : ts.Valid)
    (jr : Vec c K n p) (jc : Vec c K r p) (m0 : Mat c K r n o L p) (m1 m2 : Mat c K r n o L (p && p)) (m : Mat c K r n o L p) :
    Mat.normSquared re conv tb ts jr jc m0 m1 m2 m = ∑ i, ∑ j, re (view m i j * star (view m i j)) := by
  unfold Mat.normSquared
  rw [C32_sum tb ts htb hts]
  refine Finset.sum_congr rfl fun i _ => Finset.sum_congr rfl fun j _ => ?_
  have h1 := Mat.get_mapStripes (c := c) (o := o) (L := L) (p := p && p) (p2 := p && p) (fun v => Vec.doUnary conv re v) re
    (fun v i => by simp) m2 (Mat.hadamard conv jr jc m1 m (Mat.conj conv m0 m)) i j
  have h2 := C26_hadamard conv jr jc m1 m (Mat.conj conv m0 m) i j
  have h3 := congrFun (congrFun (C27_conj conv m0 m) i) j
  unfold view at *
  rw [h1, h2, h3]
  rfl

example : (RTree.node (.node (.leaf 3) (.leaf 1)) (.node (.leaf 2) (.leaf 0)) : RTree 4).Valid ∧ NeZero (stripeCount .row 2 3) :=
  ⟨by unfold RTree.Valid; decide, inferInstanceAs (NeZero 2)⟩

end Mathter.Props
