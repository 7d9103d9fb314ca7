import Verif.Model.CommonType
import Mathlib.Data.List.Perm.Basic
import Mathlib.Order.Lattice.Nat

/-!
# C91: the common type of several operands
-/

namespace Mathter.Props
open Mathter ScTy

/-- Position of a type in the order in which sums of mixed operands are formed: the narrow integers count as `int`, unsigned is above signed of the same
width, floating point above the integers. -/
def tyRank : RealTy → ℕ
  | .i8 => 0 | .u8 => 0 | .i16 => 0 | .u16 => 0 | .i32 => 0
  | .u32 => 1 | .i64 => 2 | .u64 => 3 | .f32 => 4 | .f64 => 5 | .f80 => 6

/-- Not narrower than `int`. -/
def notNarrow : RealTy → Prop
  | .i8 => False | .u8 => False | .i16 => False | .u16 => False | _ => True

private theorem usual_spec (s t : RealTy) : notNarrow (usual (promote s) (promote t)) ∧ tyRank (usual (promote s) (promote t)) = max (tyRank s) (tyRank t) := by
  cases s <;> cases t <;> exact ⟨trivial, rfl⟩

private theorem rank_inj {s t : RealTy} (hs : notNarrow s) (ht : notNarrow t) (h : tyRank s = tyRank t) : s = t := by
  cases s <;> cases t <;> first | rfl | exact hs.elim | exact ht.elim | cases h

private theorem fold_real (l : List RealTy) (a : RealTy) : ∃ t, typeFold (some (.real a)) (l.map .real) = some (some (.real t)) ∧
    tyRank t = l.foldr (fun s m => max (tyRank s) m) (tyRank a) ∧ (notNarrow a ∨ l ≠ [] → notNarrow t) := by
  induction l generalizing a with
  | nil => exact ⟨a, rfl, rfl, fun h => h.resolve_right (by simp)⟩
  | cons b l ih =>
    obtain ⟨h1, h2⟩ := usual_spec a b
    obtain ⟨t, e, r, n⟩ := ih (usual (promote a) (promote b))
    refine ⟨t, e, ?_, fun _ => n (Or.inl h1)⟩
    rw [r, h2]
    clear * -
    induction l with
    | nil => simp [max_comm]
    | cons c l ih => rw [List.foldr_cons, ih, List.foldr_cons, List.foldr_cons, List.foldr_cons, max_left_comm]

private theorem valid_real (l : List RealTy) (h : l ≠ []) : validFold (l.map .real) = true := by
  induction l with
  | nil => exact absurd rfl h
  | cons a l ih =>
    cases l with
    | nil => rfl
    | cons b l => exact Bool.and_eq_true_iff.2 ⟨rfl, ih (by simp)⟩

private theorem inst_real (l : List RealTy) : instantiable (l.map .real) = true := by
  induction l with
  | nil => rfl
  | cons a l ih =>
    obtain ⟨t, e, -, -⟩ := fold_real l a
    rw [List.map_cons, instantiable, e, ih]
    rfl

/-- C91: two or more real types always have a common type, the largest in the order of `tyRank`: it is not below any of the types, and on the same level as
one of them. -/
theorem C91_real_partial (l : List RealTy) (h : 2 ≤ l.length) :
    ∃ t, common (l.map .real) = .type (.real t) ∧ notNarrow t ∧ (∀ s ∈ l, tyRank s ≤ tyRank t) ∧ ∃ s ∈ l, tyRank s = tyRank t := by
  obtain _ | ⟨a, l⟩ := l
  · simp at h
  obtain ⟨t, e, r, n⟩ := fold_real l a
  have hl : l ≠ [] := by rintro rfl; simp at h
  refine ⟨t, ?_, n (Or.inr hl), ?_⟩
  · have h1 := inst_real (a :: l)
    have h2 := valid_real (a :: l) (by simp)
    rw [List.map_cons] at h1 h2 ⊢
    rw [common, if_pos h1, if_pos h2, e]
  · rw [r]
    clear * -
    induction l with
    | nil => simp
    | cons b l ih =>
      obtain ⟨h1, s, hs, h2⟩ := ih
      rw [List.foldr_cons]
      constructor
      · intro u hu
        rcases List.mem_cons.1 hu with rfl | hu
        · exact (h1 u (by simp)).trans (le_max_right _ _)
        · rcases List.mem_cons.1 hu with rfl | hu
          · exact le_max_left _ _
          · exact (h1 u (by simp [hu])).trans (le_max_right _ _)
      · rcases le_total (tyRank b) (l.foldr (fun s m => max (tyRank s) m) (tyRank a)) with hb | hb
        · rw [max_eq_right hb]
          refine ⟨s, ?_, h2⟩
          rcases List.mem_cons.1 hs with rfl | hs <;> simp [*]
        · rw [max_eq_left hb]
          exact ⟨b, by simp, rfl⟩

/-- C91: for real types the order of the arguments does not matter. -/
theorem C91_perm_partial (l l' : List RealTy) (h : 2 ≤ l.length) (hp : l.Perm l') : common (l.map .real) = common (l'.map .real) := by
  obtain ⟨t, e, n, b, s, hs, r⟩ := C91_real_partial l h
  obtain ⟨t', e', n', b', s', hs', r'⟩ := C91_real_partial l' (by rw [← hp.length_eq]; exact h)
  rw [e, e', rank_inj n n' (le_antisymm (r ▸ b' s (hp.mem_iff.1 hs)) (r' ▸ b s' (hp.mem_iff.2 hs')))]

private theorem plus_same {t : RealTy} {a b : ScTy} (ha : a = .complex t ∨ a = .real t) (hb : b = .complex t ∨ b = .real t) (ht : promote t = t ∧ usual t t = t) :
    plus a b = some (if a = .complex t ∨ b = .complex t then .complex t else .real t) := by
  rcases ha with rfl | rfl <;> rcases hb with rfl | rfl <;> simp [plus, ht.1, ht.2]

private theorem fold_complex {t : RealTy} (ht : promote t = t ∧ usual t t = t) (l : List ScTy) (hl : ∀ s ∈ l, s = .complex t ∨ s = .real t) (a : ScTy)
    (ha : a = .complex t ∨ a = .real t) :
    typeFold (some a) l = some (some (if a = .complex t ∨ .complex t ∈ l then .complex t else .real t)) := by
  induction l generalizing a with
  | nil => rcases ha with rfl | rfl <;> simp [typeFold]
  | cons b l ih =>
    have hb := hl b (by simp)
    rw [typeFold, plus_same ha hb ht, ih (fun s hs => hl s (by simp [hs])) _ (by split <;> simp)]
    rcases ha with rfl | rfl <;> rcases hb with rfl | rfl <;> simp

private theorem valid_complex {t : RealTy} (ht : promote t = t ∧ usual t t = t) (l : List ScTy) (hl : ∀ s ∈ l, s = .complex t ∨ s = .real t) (h : l ≠ []) :
    validFold l = true ∧ instantiable l = true := by
  induction l with
  | nil => exact absurd rfl h
  | cons a l ih =>
    have hl' : ∀ s ∈ l, s = .complex t ∨ s = .real t := fun s hs => hl s (by simp [hs])
    have hi : instantiable (a :: l) = ((typeFold (some a) l).isSome && instantiable l) := rfl
    rw [hi, fold_complex ht l hl' a (hl a (by simp))]
    cases l with
    | nil => exact ⟨rfl, rfl⟩
    | cons b l =>
      obtain ⟨h1, h2⟩ := ih hl' (by simp)
      refine ⟨?_, by rw [h2]; rfl⟩
      rw [validFold, plus_same (hl a (by simp)) (hl b (by simp)) ht, h1]
      rfl

/-- C91: a mixture of `T` and `std::complex<T>` of one floating-point type has the common type `std::complex<T>`, in any order. -/
theorem C91_complex_partial (t : RealTy) (ht : t = .f32 ∨ t = .f64 ∨ t = .f80) (l : List ScTy) (hl : ∀ s ∈ l, s = .complex t ∨ s = .real t)
    (hc : ScTy.complex t ∈ l) : common l = .type (.complex t) := by
  have ht' : promote t = t ∧ usual t t = t := by rcases ht with rfl | rfl | rfl <;> exact ⟨rfl, rfl⟩
  obtain _ | ⟨a, l⟩ := l
  · simp at hc
  obtain ⟨h1, h2⟩ := valid_complex ht' (a :: l) hl (by simp)
  rw [common, if_pos h2, if_pos h1, fold_complex ht' l (fun s hs => hl s (by simp [hs])) a (hl a (by simp)),
    if_pos (by rcases List.mem_cons.1 hc with h | h <;> simp [h])]

/-- C91: the general claim is false: `float`, `double`, `complex<double>` have a common type, but in the order `double`, `float`, `complex<double>` they are
rejected although the sum of such operands is a `complex<double>`. -/
theorem C91_order_violated : ∃ l l' : List ScTy, l.Perm l' ∧ common l = .type (.complex .f64) ∧ common l' = .rejected ∧
    typeFold (some (.real .f64)) [.real .f32, .complex .f64] = some (some (.complex .f64)) ∧ l' = [.real .f64, .real .f32, .complex .f64] :=
  ⟨[.real .f32, .real .f64, .complex .f64], _, List.Perm.swap _ _ _, rfl, rfl, rfl, rfl⟩

/-- C91: `complex<float>`, `float`, `double` cannot be added, and yet are accepted, with the common type `void`. -/
theorem C91_void_violated : plus (.complex .f32) (.real .f64) = none ∧ common [.complex .f32, .real .f32, .real .f64] = .void := ⟨rfl, rfl⟩

/-- C91: a rejection may also be an error that stops the compilation instead of removing the candidate. -/
theorem C91_error_violated : common [.real .f64, .real .f32, .complex .f64, .complex .f64] = .error ∧
    common [.real .f32, .complex .f64] = .rejected := ⟨rfl, rfl⟩

/-- The hypotheses can be met. -/
example : 2 ≤ [RealTy.i8, .u32, .f32].length ∧ [RealTy.i8, .u32, .f32].Perm [.u32, .i8, .f32] := ⟨by simp, List.Perm.swap _ _ _⟩

example : (∀ s ∈ [ScTy.real .f64, .complex .f64], s = .complex .f64 ∨ s = .real .f64) ∧ ScTy.complex .f64 ∈ [ScTy.real .f64, .complex .f64] := by simp

end Mathter.Props
