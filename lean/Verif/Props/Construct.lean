import Verif.Model.Construct
import Verif.Lemmas.Matrix
import Verif.Lemmas.Quaternion
import Verif.Props.Swizzle

/-!
# C79, C80, C81: random filling, default construction, concatenation, literals, row and column matrices as vectors
-/

namespace Mathter.Props
open Mathter
universe u
variable {σ α K : Type u} {c : Cfg} {dim r n : ℕ} {o : Order} {L : Layout} {p : Bool}

/-! ## C79 -/

/-- The state of the generator after `k` numbers. -/
def genState (gen : σ → α × σ) (e : σ) : ℕ → σ
  | 0 => e
  | k + 1 => (gen (genState gen e k)).2

/-- The number with index `k` that the generator gives, starting at the state `e`. -/
def genNumber (gen : σ → α × σ) (e : σ) (k : ℕ) : α := (gen (genState gen e k)).1

/-- C79: a random vector contains the first `dim` numbers of the generator in order, whatever the vector contained before, and takes no others. -/
theorem C79_vector (cast : α → K) (gen : σ → α × σ) (v0 : Vec c K dim p) (e : σ) :
    (∀ i : Fin dim, (randomVec cast gen v0 e).1.get i = cast (genNumber gen e i)) ∧ (randomVec cast gen v0 e).2 = genState gen e dim := by
  have := forUp_inv (n := dim) (lo := 0) (body := fun i (st : Vec c K dim p × σ) => (st.1.set i (cast (gen st.2).1), (gen st.2).2)) (s := (v0, e))
    (fun q st => (∀ i : Fin dim, i.val < q → st.1.get i = cast (genNumber gen e i)) ∧ st.2 = genState gen e q) (Nat.zero_le _)
    ⟨fun i h => absurd h (by omega), rfl⟩ (by
      intro i st _ ⟨h1, h2⟩
      refine ⟨fun j hj => ?_, by dsimp only; rw [h2]; rfl⟩
      dsimp only
      rw [Vec.get_set]
      split
      · rename_i hji
        rw [hji, h2]; rfl
      · rename_i hji
        have : j.val ≠ i.val := fun h => hji (Fin.ext h)
        exact h1 j (by omega))
  exact ⟨fun i => this.1 i i.isLt, this.2⟩

/-- C79: a random matrix contains the first `rows * columns` numbers of the generator in reading order, whatever the layout, the order, the
packing and the previous content, and takes no others. -/
theorem C79_matrix (cast : α → K) (gen : σ → α × σ) (m0 : Mat c K r n o L p) (e : σ) :
    (∀ (i : Fin r) (j : Fin n), (randomMat cast gen m0 e).1.get i j = cast (genNumber gen e (i.val * n + j.val))) ∧
      (randomMat cast gen m0 e).2 = genState gen e (r * n) := by
  have inner : ∀ (i : Fin r) (st : Mat c K r n o L p × σ) (k : ℕ), st.2 = genState gen e k →
      (∀ (i' : Fin r) (j : Fin n), (forUp n 0 (fun j (st : Mat c K r n o L p × σ) => (st.1.set i j (cast (gen st.2).1), (gen st.2).2)) st).1.get i' j =
        if i' = i then cast (genNumber gen e (k + j.val)) else st.1.get i' j) ∧
      (forUp n 0 (fun j (st : Mat c K r n o L p × σ) => (st.1.set i j (cast (gen st.2).1), (gen st.2).2)) st).2 = genState gen e (k + n) := by
    intro i st k hk
    have := forUp_inv (n := n) (lo := 0) (body := fun j (st : Mat c K r n o L p × σ) => (st.1.set i j (cast (gen st.2).1), (gen st.2).2)) (s := st)
      (fun q s => (∀ (i' : Fin r) (j : Fin n), s.1.get i' j = if i' = i ∧ j.val < q then cast (genNumber gen e (k + j.val)) else st.1.get i' j) ∧
        s.2 = genState gen e (k + q)) (Nat.zero_le _)
      ⟨fun i' j => by rw [if_neg (by omega)], hk⟩ (by
        intro j s _ ⟨h1, h2⟩
        refine ⟨fun i' j' => ?_, by dsimp only; rw [h2]; rfl⟩
        dsimp only
        rw [Mat.get_set]
        by_cases h : i' = i ∧ j' = j
        · rw [if_pos h, if_pos ⟨h.1, by rw [h.2]; omega⟩, h2, h.2]; rfl
        · rw [if_neg h, h1]
          by_cases hi : i' = i
          · have : j'.val ≠ j.val := fun hj => h ⟨hi, Fin.ext hj⟩
            simp only [hi, true_and]
            congr 1
            apply propext
            omega
          · simp [hi])
    refine ⟨fun i' j => ?_, this.2⟩
    rw [this.1 i' j]
    simp
  have := forUp_inv (n := r) (lo := 0)
    (body := fun i (st : Mat c K r n o L p × σ) => forUp n 0 (fun j (st : Mat c K r n o L p × σ) => (st.1.set i j (cast (gen st.2).1), (gen st.2).2)) st) (s := (m0, e))
    (fun q st => (∀ (i : Fin r) (j : Fin n), i.val < q → st.1.get i j = cast (genNumber gen e (i.val * n + j.val))) ∧ st.2 = genState gen e (q * n)) (Nat.zero_le _)
    ⟨fun i j h => absurd h (by omega), by rw [Nat.zero_mul]; rfl⟩ (by
      intro i st _ ⟨h1, h2⟩
      obtain ⟨a, b⟩ := inner i st _ h2
      refine ⟨fun i' j hi => ?_, by rw [b, Nat.add_mul, Nat.one_mul]⟩
      rw [a]
      split
      · rename_i h; rw [h]
      · rename_i h
        have : i'.val ≠ i.val := fun e => h (Fin.ext e)
        exact h1 i' j (by omega))
  exact ⟨fun i j => this.1 i j i.isLt, this.2⟩

/-- C79: a random quaternion takes four numbers, for the scalar part and the three imaginary parts in this order, whatever the layout. -/
theorem C79_quaternion [CommRing K] (l : QLayout) (cast : α → K) (gen : σ → α × σ) (e : σ) :
    (randomQuat l cast gen e).1.s = cast (genNumber gen e 0) ∧ (randomQuat l cast gen e).1.i = cast (genNumber gen e 1) ∧
    (randomQuat l cast gen e).1.j = cast (genNumber gen e 2) ∧ (randomQuat l cast gen e).1.k = cast (genNumber gen e 3) ∧
    (randomQuat l cast gen e).2 = genState gen e 4 := by
  refine ⟨?_, ?_, ?_, ?_, rfl⟩ <;> simp [randomQuat, Quat.s_eq, Quat.i_eq, Quat.j_eq, Quat.k_eq, Quat.mk4] <;> rfl

/-- A counter as generator: the numbers differ. -/
example : genNumber (fun e : ℕ => (2 * e, e + 1)) 5 0 = 10 ∧ genNumber (fun e : ℕ => (2 * e, e + 1)) 5 3 = 16 := ⟨rfl, rfl⟩

/-! ## C80 -/

/-- C80: with `MATHTER_NULL_INITIALIZE` every element of a default-constructed vector is null, with `MATHTER_INVALID_INITIALIZE` the invalid
value, and with `MATHTER_DONT_INITIALIZE` what was in the memory; the padding is zero in all cases. -/
theorem C80_vector [Zero K] (mode : InitMode) (t : ScalarInit K) (mem : Vec c K dim p) :
    (∀ i, (Vec.default mode t mem).get i = match mode with | .null => t.null | .invalid => t.invalid | .dont => mem.get i) ∧
    ∀ l : Fin (storageSize c dim p), dim ≤ l.val → (Vec.default mode t mem).lanes l = 0 := by
  refine ⟨fun i => ?_, fun l hl => if_neg (by omega)⟩
  have h : (Vec.default mode t mem).get i = (match mode with | .null => (Vec.fill t.null : Vec c K dim p) | .invalid => Vec.fill t.invalid | .dont => mem).get i :=
    if_pos i.isLt
  rw [h]
  cases mode <;> simp

/-- C80: the same for matrices in every layout. -/
theorem C80_matrix [Zero K] (mode : InitMode) (t : ScalarInit K) (mem : Mat c K r n o L p) (i : Fin r) (j : Fin n) :
    (Mat.default mode t mem).get i j = match mode with | .null => t.null | .invalid => t.invalid | .dont => mem.get i j := by
  cases L
  · exact (C80_vector mode t (mem.stripes i)).1 j
  · exact (C80_vector mode t (mem.stripes j)).1 i

/-- C80: the invalid value is a signaling NaN if the type has one, else a quiet NaN, else infinity, else the highest value; and null for types without
`numeric_limits`. A complex number has it in both parts. -/
theorem C80_invalid (t : ScalarInit K) :
    (t.specialized = false → t.invalid = t.null) ∧
    (t.specialized = true → ∀ x, t.signalingNaN = some x → t.invalid = x) ∧
    (t.specialized = true → t.signalingNaN = none → ∀ x, t.quietNaN = some x → t.invalid = x) ∧
    (t.specialized = true → t.signalingNaN = none → t.quietNaN = none → ∀ x, t.infinity = some x → t.invalid = x) ∧
    (t.specialized = true → t.signalingNaN = none → t.quietNaN = none → t.infinity = none → t.invalid = t.max) ∧
    t.invalidComplex.1 = t.invalid ∧ t.invalidComplex.2 = t.invalid := by
  refine ⟨?_, ?_, ?_, ?_, ?_, rfl, rfl⟩ <;> intros <;> simp [ScalarInit.invalid, *]

/-- C80: without any of the macros, debug builds initialise to the invalid value and release builds do not initialise; of several macros
null comes first. -/
theorem C80_mode (null invalid dont ndebug : Bool) :
    (initMode false false false false = .invalid ∧ initMode false false false true = .dont) ∧
    initMode true invalid dont ndebug = .null ∧ initMode false true dont ndebug = .invalid ∧ initMode false false true ndebug = .dont := by
  cases null <;> cases invalid <;> cases dont <;> cases ndebug <;> decide

/-- Single precision numbers and 32-bit integers as examples of the two kinds of scalar types. -/
example : (⟨true, some "sNaN", some "NaN", some "inf", "max", "0"⟩ : ScalarInit String).invalid = "sNaN" ∧
    (⟨true, none, none, none, 2147483647, 0⟩ : ScalarInit ℤ).invalid = 2147483647 := ⟨rfl, rfl⟩

/-! ## C81 -/

/-- The elements of an operand. -/
def operandElems : Operand K → List K
  | .scalar x => [x]
  | .seq _ _ f => List.ofFn f

/-- An operand counts as packed if it is a packed vector or swizzle. -/
def operandPacked : Operand K → Prop
  | .scalar _ => False
  | .seq p _ _ => p = true

private theorem bar_spec [Zero K] (init : ∀ d p, Fin (storageSize c d p) → K) (a b : Operand K) :
    ∃ x, Operand.bar c init a b = some x ∧ operandElems x = operandElems a ++ operandElems b ∧ (operandPacked x ↔ operandPacked a ∧ operandPacked b) := by
  have hd : ([a.part, b.part].map Part.dim).sum = a.size + b.size := by cases a <;> cases b <;> rfl
  obtain ⟨v, hv, he, -⟩ := C10_concat (init (a.size + b.size) (a.packing && b.packing)) [a.part, b.part] hd
  refine ⟨.seq (a.packing && b.packing) (a.size + b.size) v.get, by rw [Operand.bar, hv]; rfl, ?_, ?_⟩
  · change List.ofFn v.get = _
    rw [he]
    cases a <;> cases b <;> simp [operandElems, Operand.part, Part.elem, Part.dim]
  · change (a.packing && b.packing) = true ↔ _
    rw [Bool.and_eq_true]
    cases a <;> cases b <;> simp [operandPacked, Operand.packing]

/-- C81: `a | b` is always defined, has the elements of `a` followed by those of `b`, and is packed exactly if both are packed vectors or swizzles. -/
theorem C81_concat [Zero K] (init : ∀ d p, Fin (storageSize c d p) → K) (a b : Operand K) :
    ∃ x, Operand.bar c init a b = some x ∧ operandElems x = operandElems a ++ operandElems b ∧ (operandPacked x ↔ operandPacked a ∧ operandPacked b) :=
  bar_spec init a b

/-- C81: `(a | b) | d` and `a | (b | d)` are the same vector of the same type. -/
theorem C81_assoc [Zero K] (init : ∀ d p, Fin (storageSize c d p) → K) (a b d : Operand K) :
    ∃ x, (Operand.bar c init a b).bind (fun y => Operand.bar c init y d) = some x ∧ (Operand.bar c init b d).bind (Operand.bar c init a) = some x := by
  obtain ⟨y, hy, ey, py⟩ := bar_spec init a b
  obtain ⟨z, hz, ez, pz⟩ := bar_spec init b d
  obtain ⟨x, hx, ex, px⟩ := bar_spec init y d
  obtain ⟨w, hw, ew, pw⟩ := bar_spec init a z
  refine ⟨x, by rw [hy, Option.bind_some, hx], ?_⟩
  rw [hz, Option.bind_some, hw]
  have h1 : operandElems w = operandElems x := by rw [ew, ex, ey, ez, List.append_assoc]
  have h2 : operandPacked w ↔ operandPacked x := by rw [pw, px, py, pz, and_assoc]
  have seqOf : ∀ (s t q : Operand K), Operand.bar c init s t = some q → ∃ pk m f, q = .seq pk m f := by
    intro s t q hq
    rw [Operand.bar, Option.map_eq_some_iff] at hq
    obtain ⟨v, -, hv⟩ := hq
    exact ⟨_, _, _, hv.symm⟩
  obtain ⟨pw', nw, fw, rfl⟩ := seqOf _ _ _ hw
  obtain ⟨px', nx, fx, rfl⟩ := seqOf _ _ _ hx
  have hn : nw = nx := by
    have := congrArg List.length h1
    simpa [operandElems] using this
  subst hn
  have hf : fw = fx := List.ofFn_injective h1
  have hp : pw' = px' := Bool.eq_iff_iff.2 h2
  rw [hf, hp]

/-- C81: the literals are the multiples of Hamilton's units: `a_i * b_j` is `(a*b)_k` and so on around the circle, the opposite order is negative and the
squares are negative real numbers. -/
theorem C81_literals [CommRing K] (a b : K) :
    Quat.mul (litI a) (litJ b) = litK (a * b) ∧ Quat.mul (litJ a) (litK b) = litI (a * b) ∧ Quat.mul (litK a) (litI b) = litJ (a * b) ∧
    Quat.mul (litJ b) (litI a) = litK (-(a * b)) ∧ Quat.mul (litK b) (litJ a) = litI (-(a * b)) ∧ Quat.mul (litI b) (litK a) = litJ (-(a * b)) ∧
    Quat.mul (litI a) (litI b) = Quat.mk4 _ (-(a * b)) 0 0 0 ∧ Quat.mul (litJ a) (litJ b) = Quat.mk4 _ (-(a * b)) 0 0 0 ∧
    Quat.mul (litK a) (litK b) = Quat.mk4 _ (-(a * b)) 0 0 0 := by
  refine ⟨?_, ?_, ?_, ?_, ?_, ?_, ?_, ?_, ?_⟩ <;> apply Quat.toH_inj <;> apply Quaternion.ext <;>
    simp [litI, litJ, litK, Quat.toH_mul, Quat.s_eq, Quat.i_eq, Quat.j_eq, Quat.k_eq, mul_comm]

/-- C81: `s + x_i + y_j + z_k` has the parts `s, x, y, z`. -/
theorem C81_literal_sum [CommRing K] (s x y z : K) :
    Quat.add (Quat.add (Quat.add (Quat.mk4 .scalarFirst s 0 0 0) (litI x)) (litJ y)) (litK z) = Quat.mk4 _ s x y z := by
  apply Quat.toH_inj
  apply Quaternion.ext <;> simp [litI, litJ, litK, Quat.toH_add, Quat.s_eq, Quat.i_eq, Quat.j_eq, Quat.k_eq]

/-! ## C20: row and column matrices as vectors -/

/-- C20: `m(idx)` of a row matrix is the element in column `idx`, of a column matrix the one in row `idx`, and asserts exactly for other indices. -/
theorem C20_index (idx : ℕ) :
    (∀ m : Mat c K 1 n o L p, 1 ≤ n → m.getIdx idx = if h : idx < n then some (m.get 0 ⟨idx, h⟩) else none) ∧
    (∀ m : Mat c K r 1 o L p, 1 ≤ r → m.getIdx idx = if h : idx < r then some (m.get ⟨idx, h⟩ 0) else none) := by
  constructor
  · intro m hn
    simp only [Mat.getIdx, if_true, max_eq_right hn]
    by_cases h : idx < n
    · rw [if_pos h, dif_pos ⟨by omega, h⟩, dif_pos h]; rfl
    · rw [if_neg h, dif_neg h]
  · intro m hr
    simp only [Mat.getIdx, max_eq_left hr]
    by_cases h : idx < r
    · by_cases h1 : r = 1
      · subst h1
        have : idx = 0 := by omega
        subst this
        simp
      · simp only [if_neg h1]
        rw [if_pos h, dif_pos ⟨h, by omega⟩, dif_pos h]; rfl
    · rw [if_neg h, dif_neg h]

/-- C20: a column matrix made from a vector has the vector's elements, and converting back returns them. -/
theorem C20_col_matrix_of_vec [Zero K] (m0 : Mat c K r 1 o L p) (v : Vec c K r p) (junk : Vec c K r p) (i : Fin r) :
    (Mat.ofVecCol m0 v).get i 0 = v.get i ∧ (Mat.toVecCol junk (Mat.ofVecCol m0 v) : Vec c K r p).get i = v.get i := by
  have h : ∀ i, (Mat.ofVecCol m0 v).get i 0 = v.get i := by
    intro i
    cases L
    · have := forUp_inv (n := r) (lo := 0)
        (body := fun s (m : Mat c K r 1 o .row p) =>
          (⟨fun s' => if s' = s then (m.stripes s').set 0 (v.get s) else m.stripes s'⟩ : Mat c K r 1 o .row p)) (s := m0)
        (fun q m => ∀ s : Fin r, s.val < q → (m.stripes s).get 0 = v.get s) (Nat.zero_le _) (by intro s h; omega) (by
          intro i m _ h s hs
          dsimp only
          split
          · rename_i e; rw [e, Vec.get_set, if_pos rfl]
          · rename_i e
            apply h
            have : s.val ≠ i.val := fun e' => e (Fin.ext e')
            omega)
      exact this i i.isLt
    · simp [Mat.ofVecCol, Mat.get]
  exact ⟨h i, by simp [Mat.toVecCol, h]⟩

/-- A 1x3 and a 3x1 matrix. -/
example : (Mat.getIdx (⟨fun _ => Vec.ofFn ![1, 2, 3]⟩ : Mat Cfg.sse ℤ 1 3 .follow .row false) 2 = some 3) ∧
    (Mat.getIdx (⟨fun _ => Vec.ofFn ![1, 2, 3]⟩ : Mat Cfg.sse ℤ 3 1 .follow .col false) 2 = some 3) := by decide

end Mathter.Props
