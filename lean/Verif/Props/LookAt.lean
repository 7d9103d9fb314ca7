import Mathlib.LinearAlgebra.LinearIndependent.Lemmas
import Mathlib.LinearAlgebra.FiniteDimensional.Defs
import Mathlib.LinearAlgebra.Matrix.Nondegenerate
import Mathlib.LinearAlgebra.Matrix.NonsingularInverse
import Verif.Lemmas.Transforms
import Verif.Props.Cross
import Verif.Props.GramSchmidt

/-!
# Property C58: the look-at view transform

The property holds in dimensions 2 to 5. From dimension 6 on, the side axis is computed by the cross product that C16 shows to be wrong
for some inputs; `C58_look_at_partial` covers those dimensions under the condition of `C16_cross_partial`.
-/

namespace Mathter.Props
open Mathter
universe u

/-- The sign of an optionally flipped axis. -/
def flipSign (b : Bool) : ℝ := if b then -1 else 1

/-- Specification of a view transform `m`: a rotation or reflection `R` (orthonormal rows) applied to `v - eye`. The vector from the target
to the eye is mapped to the last axis; base vector `i` is mapped into the space of the axes `1, …, i + 1` and the last one, with a positive
coordinate `i + 1`; the first axis points to where base vectors, look axis and the axis form a positive basis. Signs are those of unflipped
axes. -/
def IsView {n : ℕ} (o : Order) (k : TKind) (eye target : Fin (n + 2) → ℝ) (bases : Fin n → Fin (n + 2) → ℝ) (flip : Fin (n + 2) → Bool)
    (m : Matrix (Fin (tRows o (n + 2) k)) (Fin (tCols o (n + 2) k)) ℝ) : Prop :=
  ∃ R : Matrix (Fin (n + 2)) (Fin (n + 2)) ℝ, R * R.transpose = 1 ∧ (∀ v, applyT o k m v = some (R.mulVec (v - eye))) ∧
    R.mulVec (eye - target) = Pi.single (Fin.last (n + 1)) (flipSign (flip (Fin.last (n + 1))) * length (eye - target)) ∧
    (∀ i : Fin n, (R.mulVec (bases i)) 0 = 0 ∧ 0 < flipSign (flip i.succ.castSucc) * (R.mulVec (bases i)) i.succ.castSucc ∧
      ∀ j : Fin n, i < j → (R.mulVec (bases i)) j.succ.castSucc = 0) ∧
    ∀ w, 0 < (Matrix.of (Fin.snoc (α := fun _ => Fin (n + 2) → ℝ) (Fin.snoc (α := fun _ => Fin (n + 2) → ℝ) bases (eye - target)) w)).det →
      0 < flipSign (flip 0) * (R.mulVec w) 0

private theorem flipSign_mul_self (b : Bool) : flipSign b * flipSign b = 1 := by cases b <;> simp [flipSign]

private theorem dotR {n : ℕ} (a b : Fin n → ℝ) : dot a b = ∑ i, a i * b i := by
  rw [dot_eq_sum]; rfl

private theorem getD_lt {V : Type*} (l : List V) {i : ℕ} (d : V) (h : i < l.length) : l.getD i d = l[i] := by simp [h]

/-- The side axis is nonzero exactly for independent vectors. -/
private theorem side_ne_zero {n : ℕ} (v : Fin n → Fin (n + 1) → ℝ) (hv : LinearIndependent ℝ v) (side : Fin (n + 1) → ℝ)
    (hs : IsCross v side) : side ≠ 0 := by
  rintro rfl
  have hlt : Submodule.span ℝ (Set.range v) ≠ ⊤ := by
    intro h
    have h1 := finrank_span_eq_card hv
    rw [h, finrank_top] at h1
    simp at h1
  obtain ⟨w, -, hw⟩ := SetLike.exists_of_lt (lt_top_iff_ne_top.2 hlt)
  have hli : LinearIndependent ℝ (Fin.snoc (α := fun _ => Fin (n + 1) → ℝ) v w) := linearIndependent_finSnoc.2 ⟨hv, hw⟩
  have hu := (Matrix.linearIndependent_rows_iff_isUnit (A := Matrix.of (Fin.snoc (α := fun _ => Fin (n + 1) → ℝ) v w))).1 hli
  rw [Matrix.isUnit_iff_isUnit_det, ← hs w] at hu
  simp at hu

private theorem side_zero {n : ℕ} (v : Fin n → Fin (n + 1) → ℝ) (hv : ¬LinearIndependent ℝ v) (side : Fin (n + 1) → ℝ)
    (hs : IsCross v side) : side = 0 := by
  apply C16_unique v side 0 hs
  intro w
  have hli : ¬LinearIndependent ℝ (Fin.snoc (α := fun _ => Fin (n + 1) → ℝ) v w) := fun h => hv (linearIndependent_finSnoc.1 h).1
  have hu : ¬IsUnit (Matrix.of (Fin.snoc (α := fun _ => Fin (n + 1) → ℝ) v w)).det := fun h =>
    hli (Matrix.linearIndependent_rows_iff_isUnit.2 ((Matrix.isUnit_iff_isUnit_det _).2 h))
  rw [isUnit_iff_ne_zero, not_not] at hu
  rw [hu]
  simp

private theorem li_of_eq {V : Type*} [AddCommGroup V] [Module ℝ V] {n : ℕ} (l : List V) (f : Fin n → V) (h : l = List.ofFn f)
    (hf : LinearIndependent ℝ f) : LinearIndependent ℝ fun i : Fin l.length => l[i] := by
  subst h
  have e : (fun i : Fin (List.ofFn f).length => (List.ofFn f)[i]) = f ∘ Fin.cast (List.length_ofFn) := by
    funext i; simp; rfl
  rw [e]
  exact hf.comp _ (Fin.cast_injective _)

/-- The orthogonalised axes: side, look, then the bases. -/
private theorem axes_spec {n : ℕ} (look side : Fin (n + 2) → ℝ) (bases : Fin n → Fin (n + 2) → ℝ)
    (hli : LinearIndependent ℝ (Fin.snoc (α := fun _ => Fin (n + 2) → ℝ) bases look))
    (hs : IsCross (Fin.snoc (α := fun _ => Fin (n + 2) → ℝ) bases look) side) :
    ∃ us : Fin n → Fin (n + 2) → ℝ, gramSchmidt (side :: look :: List.ofFn bases) = some (side :: look :: List.ofFn us) ∧
      side ≠ 0 ∧ look ≠ 0 ∧ (∀ i, us i ≠ 0) ∧ dot side look = 0 ∧ (∀ i, dot side (us i) = 0) ∧ (∀ i, dot look (us i) = 0) ∧
      (∀ i j, i ≠ j → dot (us i) (us j) = 0) ∧ (∀ i, dot (bases i) side = 0) ∧ (∀ i, dot (bases i) (us i) = dot (us i) (us i)) ∧
      ∀ i j, i < j → dot (bases i) (us j) = 0 := by
  have hside := side_ne_zero _ hli side hs
  have horth : ∀ i, dot (bases i) side = 0 := by
    intro i
    have := C16_orthogonal _ _ hs i.castSucc
    rw [Fin.snoc_castSucc] at this
    rw [dotR, ← this]
    exact Finset.sum_congr rfl fun _ _ => mul_comm _ _
  have horthl : dot look side = 0 := by
    have := C16_orthogonal _ _ hs (Fin.last n)
    rw [Fin.snoc_last] at this
    rw [dotR, ← this]
    exact Finset.sum_congr rfl fun _ _ => mul_comm _ _
  have hli2 : LinearIndependent ℝ (Fin.cons (α := fun _ => Fin (n + 2) → ℝ) look bases) :=
    linearIndependent_finCons.2 (linearIndependent_finSnoc.1 hli)
  have hselfpos : ∀ x : Fin (n + 2) → ℝ, x ≠ 0 → dot x x ≠ 0 := by
    intro x hx h
    rw [dot_self] at h
    apply hx
    have : length x ^ 2 = 0 := by exact_mod_cast h
    exact (length_eq_zero x).1 (by simpa using this)
  have hnot : side ∉ Submodule.span ℝ (Set.range (Fin.cons (α := fun _ => Fin (n + 2) → ℝ) look bases)) := by
    intro h
    have hmem : side ∈ spanL (look :: List.ofFn bases) := by
      refine Submodule.span_mono ?_ h
      rintro _ ⟨i, rfl⟩
      refine Fin.cases ?_ (fun i => ?_) i
      · simp
      · simp
    exact hselfpos side hside (dot_span_zero _ side (by
      intro x hx
      rcases List.mem_cons.1 hx with rfl | hx
      · exact horthl
      · obtain ⟨i, rfl⟩ := List.mem_ofFn.1 hx
        exact horth i) side hmem)
  have hli3 : LinearIndependent ℝ (Fin.cons (α := fun _ => Fin (n + 2) → ℝ) side (Fin.cons (α := fun _ => Fin (n + 2) → ℝ) look bases)) :=
    linearIndependent_finCons.2 ⟨hli2, hnot⟩
  obtain ⟨l, h1, h2, h3, h4, -, h6⟩ := C17_gram_schmidt (side :: look :: List.ofFn bases) (li_of_eq _ _ (by simp [List.ofFn_cons]) hli3)
  have hlen : l.length = n + 2 := by rw [h2]; simp
  match l, hlen with
  | u0 :: u1 :: rest, hlen =>
    have hrl : rest.length = n := by simpa using hlen
    have e0 : u0 = side := by
      have := h6 0
      simpa [spanL, sub_eq_zero, eq_comm] using this
    subst e0
    rw [List.pairwise_cons, List.pairwise_cons] at h4
    obtain ⟨ho0, ho1, hor⟩ := h4
    have e1 : u1 = look := by
      have hm : look - u1 ∈ spanL [u0] := by simpa using h6 1
      have ha : dot (look - u1) (look - u1) = 0 := by
        refine dot_span_zero [u0] (look - u1) (fun x hx => ?_) _ hm
        rw [List.mem_singleton.1 hx]
        refine dot_comm_zero _ _ ?_
        rw [dot_sub_left, horthl, dot_comm_zero _ _ (ho0 u1 (by simp)), sub_zero]
      by_contra hne
      exact hselfpos _ (sub_ne_zero.2 (Ne.symm hne)) ha
    subst e1
    have hrest : List.ofFn (fun i : Fin n => rest.getD i.val 0) = rest := by
      apply List.ext_getElem
      · simp [hrl]
      · intro i h1 h2
        simp [h2]
    have hget : ∀ i : Fin n, rest.getD i.val 0 ∈ rest := fun i => by
      rw [getD_lt _ _ (by omega)]; exact List.getElem_mem _
    have hpair : ∀ i j : Fin n, i < j → dot (rest.getD i.val 0) (rest.getD j.val 0) = 0 := by
      intro i j hij
      rw [getD_lt _ _ (by omega), getD_lt _ _ (by omega)]
      exact List.pairwise_iff_getElem.1 hor _ _ (by omega) (by omega) hij
    have hpair' : ∀ i j : Fin n, i ≠ j → dot (rest.getD i.val 0) (rest.getD j.val 0) = 0 := by
      intro i j hij
      rcases lt_or_gt_of_ne hij with h | h
      · exact hpair i j h
      · exact dot_comm_zero _ _ (hpair j i h)
    have hlater : ∀ i j : Fin n, i ≤ j → dot (bases i - rest.getD i.val 0) (rest.getD j.val 0) = 0 := by
      intro i j hij
      have hm : bases i - rest.getD i.val 0 ∈ spanL (u0 :: u1 :: rest.take i.val) := by
        have := h6 (i.val + 2)
        have e : (u0 :: u1 :: List.ofFn bases).getD (i.val + 2) 0 = bases i := by
          rw [getD_lt _ _ (by simp)]
          simp
        rw [e] at this
        simpa using this
      refine dot_span_zero _ _ (fun x hx => ?_) _ hm
      rcases List.mem_cons.1 hx with rfl | hx
      · exact ho0 _ (List.mem_cons_of_mem _ (hget j))
      · rcases List.mem_cons.1 hx with rfl | hx
        · exact ho1 _ (hget j)
        · obtain ⟨q, hq, rfl⟩ := List.getElem_of_mem hx
          rw [List.length_take] at hq
          have := hpair ⟨q, by omega⟩ j (by rw [Fin.lt_def]; show q < j.val; have : i.val ≤ j.val := hij; omega)
          rw [List.getElem_take, ← getD_lt (d := 0)]
          exact this
    refine ⟨fun i => rest.getD i.val 0, by rw [hrest]; exact h1, hside, h3 _ (by simp), fun i => h3 _ (by simp [-List.getD_eq_getElem?_getD, hget i]),
      ho0 _ (by simp), fun i => ho0 _ (List.mem_cons_of_mem _ (hget i)), fun i => ho1 _ (hget i), hpair', horth, fun i => ?_, fun i j hij => ?_⟩
    · have := hlater i i le_rfl
      rw [dot_sub_left, sub_eq_zero] at this
      exact this
    · have := hlater i j hij.le
      rw [dot_sub_left, hpair i j hij, sub_zero] at this
      exact this

/-- The columns of the rotation. -/
private noncomputable def viewCol {n : ℕ} (look side : Fin (n + 2) → ℝ) (us : Fin n → Fin (n + 2) → ℝ) (flip : Fin (n + 2) → Bool) :
    Fin (n + 2) → Fin (n + 2) → ℝ := fun j =>
  let u := Fin.snoc (α := fun _ => Fin (n + 2) → ℝ) (Fin.cons (α := fun _ => Fin (n + 2) → ℝ) side us) look j
  fun i => flipSign (flip j) / length u * u i

private theorem lookColumns_spec {n : ℕ} (d0 : Fin (n + 1) → Fin (n + 1) → ℝ) (r0 : Fin (n + 2) → ℝ) (eye target : Fin (n + 2) → ℝ)
    (bases : Fin n → Fin (n + 2) → ℝ) (flip : Fin (n + 2) → Bool) (side : Fin (n + 2) → ℝ) (us : Fin n → Fin (n + 2) → ℝ)
    (hc : open Classical in cross (· / ·) d0 r0 (List.ofFn (Fin.snoc (α := fun _ => Fin (n + 2) → ℝ) bases (eye - target))) = some side)
    (hg : gramSchmidt (side :: (eye - target) :: List.ofFn bases) = some (side :: (eye - target) :: List.ofFn us))
    (h0 : side ≠ 0) (h1 : eye - target ≠ 0) (h2 : ∀ i, us i ≠ 0) :
    lookColumns d0 r0 eye target bases flip = some (List.ofFn (viewCol (eye - target) side us flip)) := by
  have e1 : List.ofFn bases ++ [eye - target] = List.ofFn (Fin.snoc (α := fun _ => Fin (n + 2) → ℝ) bases (eye - target)) := by
    rw [List.ofFn_succ', List.concat_eq_append, Fin.snoc_last]
    simp
  have e2 : (List.ofFn bases ++ [eye - target]).rotate n = (eye - target) :: List.ofFn bases := by
    have := List.rotate_append_length_eq (List.ofFn bases) [eye - target]
    rw [List.length_ofFn] at this
    rw [this]; rfl
  have hN : ∀ u : Fin (n + 2) → ℝ, u ≠ 0 → normalizePrecise1 u = fun i => u i / length u := by
    intro u hu
    rw [normalizePrecise1, normalizePrecise_ne_zero u _ hu]
    rfl
  unfold lookColumns
  simp only [e2]
  rw [e1, hc, Option.bind_some, hg, Option.bind_some]
  refine congrArg some ?_
  rw [List.map_cons, List.map_cons, List.take_succ_cons, List.take_zero, List.drop_succ_cons, List.drop_zero, List.rotate_cons_succ, List.rotate_zero]
  apply List.ext_getElem
  · simp
  · intro j hj hj'
    have hj2 : j < n + 2 := by rw [List.length_ofFn] at hj'; exact hj'
    rw [List.getElem_map, List.getElem_ofFn, List.getElem_zipIdx]
    simp only [zero_add, hj2, dite_true]
    have hu : ∀ x y : Fin (n + 2) → ℝ, x ≠ 0 → x = y →
        (if flip ⟨j, hj2⟩ then -normalizePrecise1 x else normalizePrecise1 x) = fun i => flipSign (flip ⟨j, hj2⟩) / length y * y i := by
      rintro x _ hx rfl
      rw [hN x hx]
      funext i
      cases flip ⟨j, hj2⟩ <;> simp [flipSign] <;> ring
    rcases Nat.eq_zero_or_pos j with rfl | hpos
    · simp only [List.singleton_append, List.getElem_cons_zero]
      exact hu _ _ h0 rfl
    · obtain ⟨j, rfl⟩ : ∃ q, j = q + 1 := ⟨j - 1, by omega⟩
      simp only [List.singleton_append, List.getElem_cons_succ]
      by_cases hjn : j < n
      · simp only [List.getElem_append, List.length_map, List.length_ofFn, hjn, dite_true, List.getElem_map, List.getElem_ofFn]
        refine hu _ _ (h2 _) ?_
        have : (⟨j + 1, hj2⟩ : Fin (n + 2)) = Fin.castSucc (Fin.succ ⟨j, hjn⟩) := rfl
        rw [this, Fin.snoc_castSucc, Fin.cons_succ]
      · have hjn' : j = n := by omega
        subst hjn'
        simp only [List.getElem_append, List.length_map, List.length_ofFn, lt_irrefl, dite_false, Nat.sub_self, List.getElem_cons_zero]
        refine hu _ _ h1 ?_
        have : (⟨j + 1, hj2⟩ : Fin (j + 2)) = Fin.last (j + 1) := rfl
        rw [this, Fin.snoc_last]

/-- A matrix made of `identityMat`, a block and a translation. -/
private theorem lookMat_apply {n : ℕ} (o : Order) (k : TKind) (hk : k ≠ .linear) (rot : Matrix (Fin n) (Fin n) ℝ) (t : Fin n → ℝ) (v : Fin n → ℝ) :
    applyT o k (match o with
      | .follow => insertAt n 0 (Matrix.of fun (_ : Fin 1) j => t j) (insertAt 0 0 (fromFollow .follow rot)
          (identityMat (tRows .follow n k) (tCols .follow n k)))
      | .precede => insertAt 0 n (Matrix.of fun i (_ : Fin 1) => t i) (insertAt 0 0 (fromFollow .precede rot)
          (identityMat (tRows .precede n k) (tCols .precede n k)))) v = some (rot.transpose.mulVec v + t) := by
  have hins : k.ins n = n + 1 := by cases k <;> simp_all
  have houts : n ≤ k.outs n := by cases k <;> simp
  cases o
  · have he : ∀ a b, a < k.outs n → b < n + 1 → ent .follow (insertAt n 0 (Matrix.of fun (_ : Fin 1) j => t j) (insertAt 0 0
        (fromFollow .follow rot) (identityMat (K := ℝ) (tRows .follow n k) (tCols .follow n k)))) a b =
        if h : a < n then (if hb : b < n then rot ⟨b, hb⟩ ⟨a, h⟩ else t ⟨a, h⟩) else if a = b then 1 else 0 := by
      intro a b ha hb
      have hR : b < tRows .follow n k ∧ a < tCols .follow n k := ⟨by show b < k.ins n; omega, ha⟩
      simp only [ent, dif_pos hR, insertAt, Matrix.of_apply, fromFollow, identityMat_apply]
      split_ifs <;> first | rfl | (exfalso; omega)
    refine applyT_eq _ _ (fun i j => ?_) (fun _ i => ?_) (fun h => absurd h hk) (fun h => ?_) v
    · rw [he _ _ (by omega) (by omega), dif_pos i.isLt, dif_pos j.isLt]; rfl
    · rw [he _ _ (by omega) (by omega), dif_pos i.isLt, dif_neg (by omega)]
    · subst h
      refine ⟨fun j => ?_, ?_⟩
      · rw [he _ _ (by simp) (by omega), dif_neg (by omega), if_neg (by omega)]
      · rw [he _ _ (by simp) (by omega), dif_neg (by omega), if_pos rfl]
  · have he : ∀ a b, a < k.outs n → b < n + 1 → ent .precede (insertAt 0 n (Matrix.of fun i (_ : Fin 1) => t i) (insertAt 0 0
        (fromFollow .precede rot) (identityMat (K := ℝ) (tRows .precede n k) (tCols .precede n k)))) a b =
        if h : a < n then (if hb : b < n then rot ⟨b, hb⟩ ⟨a, h⟩ else t ⟨a, h⟩) else if a = b then 1 else 0 := by
      intro a b ha hb
      have hR : a < tRows .precede n k ∧ b < tCols .precede n k := ⟨ha, by show b < k.ins n; omega⟩
      simp only [ent, dif_pos hR, insertAt, Matrix.of_apply, fromFollow, identityMat_apply]
      split_ifs <;> first | rfl | (exfalso; omega)
    refine applyT_eq _ _ (fun i j => ?_) (fun _ i => ?_) (fun h => absurd h hk) (fun h => ?_) v
    · rw [he _ _ (by omega) (by omega), dif_pos i.isLt, dif_pos j.isLt]; rfl
    · rw [he _ _ (by omega) (by omega), dif_pos i.isLt, dif_neg (by omega)]
    · subst h
      refine ⟨fun j => ?_, ?_⟩
      · rw [he _ _ (by simp) (by omega), dif_neg (by omega), if_neg (by omega)]
      · rw [he _ _ (by simp) (by omega), dif_neg (by omega), if_pos rfl]

open Classical in
private theorem lookAt_spec {n : ℕ} (o : Order) (k : TKind) (hk : k ≠ .linear) (d0 : Fin (n + 1) → Fin (n + 1) → ℝ) (r0 : Fin (n + 2) → ℝ)
    (eye target : Fin (n + 2) → ℝ) (bases : Fin n → Fin (n + 2) → ℝ) (flip : Fin (n + 2) → Bool)
    (hli : LinearIndependent ℝ (Fin.snoc (α := fun _ => Fin (n + 2) → ℝ) bases (eye - target)))
    (hc : ∃ side, cross (· / ·) d0 r0 (List.ofFn (Fin.snoc (α := fun _ => Fin (n + 2) → ℝ) bases (eye - target))) = some side ∧
      IsCross (Fin.snoc (α := fun _ => Fin (n + 2) → ℝ) bases (eye - target)) side) :
    ∃ m, lookAt o (tRows o (n + 2) k) (tCols o (n + 2) k) d0 r0 eye target bases flip = some m ∧ IsView o k eye target bases flip m := by
  obtain ⟨side, hc, hs⟩ := hc
  obtain ⟨us, hg, h0, h1, h2, sl, su, lu, uu, bs, bu, blt⟩ := axes_spec (eye - target) side bases hli hs
  have hcol := lookColumns_spec d0 r0 eye target bases flip side us hc hg h0 h1 h2
  generalize hlook : eye - target = look at *
  have hrot : (Matrix.of fun i j : Fin (n + 2) => ((List.ofFn (viewCol look side us flip)).getD j.val 0) i) =
      (Matrix.of (viewCol look side us flip)).transpose := by
    ext i j
    rw [Matrix.of_apply, getD_lt _ _ (by rw [List.length_ofFn]; exact j.isLt), List.getElem_ofFn]; rfl
  obtain ⟨u, hu⟩ : ∃ u, u = Fin.snoc (α := fun _ => Fin (n + 2) → ℝ) (Fin.cons (α := fun _ => Fin (n + 2) → ℝ) side us) look := ⟨_, rfl⟩
  have ul : u (Fin.last (n + 1)) = look := by rw [hu, Fin.snoc_last]
  have u0 : u 0 = side := by
    rw [hu, show (0 : Fin (n + 2)) = Fin.castSucc 0 from rfl, Fin.snoc_castSucc, Fin.cons_zero]
  have us' : ∀ i : Fin n, u i.succ.castSucc = us i := fun i => by rw [hu, Fin.snoc_castSucc, Fin.cons_succ]
  have hcases : ∀ P : Fin (n + 2) → Prop, P 0 → (∀ i : Fin n, P i.succ.castSucc) → P (Fin.last (n + 1)) → ∀ j, P j := by
    intro P p0 ps pl j
    refine Fin.lastCases pl (fun j => ?_) j
    exact Fin.cases p0 ps j
  have une : ∀ j, u j ≠ 0 := hcases _ (by rwa [u0]) (fun i => by rw [us']; exact h2 i) (by rwa [ul])
  have upos : ∀ j, 0 < length (u j) := fun j => lt_of_le_of_ne (length_nonneg _) fun h => une j ((length_eq_zero _).1 h.symm)
  have uself : ∀ j, dot (u j) (u j) = length (u j) * length (u j) := fun j => by rw [dot_self, pow_two]; rfl
  have uorth : ∀ i j, i ≠ j → dot (u i) (u j) = 0 := by
    refine hcases _ (hcases _ (fun h => absurd rfl h) (fun j _ => ?_) (fun _ => ?_)) (fun i => hcases _ (fun _ => ?_) (fun j h => ?_) (fun _ => ?_))
      (hcases _ (fun _ => ?_) (fun j _ => ?_) (fun h => absurd rfl h))
    · rw [u0, us']; exact su j
    · rw [u0, ul]; exact sl
    · rw [u0, us']; exact dot_comm_zero _ _ (su i)
    · rw [us', us']; exact uu i j fun e => h (by rw [e])
    · rw [us', ul]; exact dot_comm_zero _ _ (lu i)
    · rw [u0, ul]; exact dot_comm_zero _ _ sl
    · rw [us', ul]; exact lu j
  have hview : ∀ j i, viewCol look side us flip j i = flipSign (flip j) / length (u j) * u j i := fun j i => by rw [hu]; rfl
  have hmul : ∀ w j, ((Matrix.of (viewCol look side us flip)).mulVec w) j = flipSign (flip j) / length (u j) * dot w (u j) := by
    intro w j
    rw [Matrix.mulVec, dotProduct, dotR, Finset.mul_sum]
    refine Finset.sum_congr rfl fun i _ => ?_
    rw [Matrix.of_apply, hview]
    ring
  refine ⟨match o with
      | .follow => insertAt (n + 2) 0 (Matrix.of fun (_ : Fin 1) j => Matrix.vecMul (-eye) (Matrix.of (viewCol look side us flip)).transpose j)
          (insertAt 0 0 (fromFollow .follow (Matrix.of (viewCol look side us flip)).transpose)
          (identityMat (tRows .follow (n + 2) k) (tCols .follow (n + 2) k)))
      | .precede => insertAt 0 (n + 2) (Matrix.of fun i (_ : Fin 1) => Matrix.vecMul (-eye) (Matrix.of (viewCol look side us flip)).transpose i)
          (insertAt 0 0 (fromFollow .precede (Matrix.of (viewCol look side us flip)).transpose)
          (identityMat (tRows .precede (n + 2) k) (tCols .precede (n + 2) k))), ?_, Matrix.of (viewCol look side us flip), ?_, ?_, ?_, ?_, ?_⟩
  · rw [lookAt, hcol, Option.bind_some]
    cases o <;> simp only [hrot]
  · ext i j
    have e : ((Matrix.of (viewCol look side us flip)) * (Matrix.of (viewCol look side us flip)).transpose) i j =
        ((Matrix.of (viewCol look side us flip)).mulVec (viewCol look side us flip j)) i := rfl
    have e2 : dot (viewCol look side us flip j) (u i) = flipSign (flip j) / length (u j) * dot (u j) (u i) := by
      rw [dotR, dotR, Finset.mul_sum]
      refine Finset.sum_congr rfl fun q _ => ?_
      rw [hview]; ring
    rw [e, hmul, e2]
    by_cases hij : i = j
    · subst hij
      rw [uself, Matrix.one_apply_eq]
      have := (upos i).ne'
      have hf := flipSign_mul_self (flip i)
      field_simp
      rw [pow_two]; exact hf
    · rw [uorth j i (Ne.symm hij), Matrix.one_apply_ne hij, mul_zero, mul_zero]
  · intro v
    rw [lookMat_apply o k hk]
    rw [Matrix.transpose_transpose, Matrix.vecMul_transpose, ← Matrix.mulVec_add, sub_eq_add_neg]
  · funext j
    rw [hmul]
    by_cases hj : j = Fin.last (n + 1)
    · subst hj
      rw [hlook, Pi.single_eq_same, ← ul, uself]
      have := (upos (Fin.last (n + 1))).ne'
      field_simp
    · rw [hlook, Pi.single_eq_of_ne hj, ← ul, uorth _ _ (Ne.symm hj), mul_zero]
  · intro i
    refine ⟨?_, ?_, fun j hij => ?_⟩
    · rw [hmul, u0, bs, mul_zero]
    · rw [hmul, us', bu, ← us', uself]
      have := upos i.succ.castSucc
      rw [← mul_assoc, ← mul_div_assoc, flipSign_mul_self]
      positivity
    · rw [hmul, us', blt i j hij, mul_zero]
  · intro w hw
    rw [hlook, ← hs w] at hw
    rw [hmul, ← mul_assoc, ← mul_div_assoc, flipSign_mul_self, u0, dotR]
    have := upos 0
    rw [u0] at this
    refine mul_pos (by positivity) (hw.trans_eq ?_)
    exact Finset.sum_congr rfl fun _ _ => mul_comm _ _

open Classical in
/-- C58, dimensions 2 to 5: for an eye different from the target and base vectors independent of each other and of the look direction, the
result is the view transform, for affine and homogeneous matrices of either order and every choice of flips. -/
theorem C58_look_at {n : ℕ} (hn : n ≤ 3) (o : Order) (k : TKind) (hk : k ≠ .linear) (d0 : Fin (n + 1) → Fin (n + 1) → ℝ)
    (r0 : Fin (n + 2) → ℝ) (eye target : Fin (n + 2) → ℝ) (bases : Fin n → Fin (n + 2) → ℝ) (flip : Fin (n + 2) → Bool)
    (hli : LinearIndependent ℝ (Fin.snoc (α := fun _ => Fin (n + 2) → ℝ) bases (eye - target))) :
    ∃ m, lookAt o (tRows o (n + 2) k) (tCols o (n + 2) k) d0 r0 eye target bases flip = some m ∧ IsView o k eye target bases flip m := by
  refine lookAt_spec o k hk d0 r0 eye target bases flip hli ?_
  obtain ⟨r, h1, h2⟩ := C16_cross_2_to_5 (· / ·) hn d0 r0 (Fin.snoc (α := fun _ => Fin (n + 2) → ℝ) bases (eye - target)) []
  exact ⟨r, by rwa [List.append_nil] at h1, h2⟩

/-- C58, partial, dimension 6 and above: the same under the condition under which `Cross` is proved correct. Missing: inputs for which a
leading minor vanishes, where `Cross` is wrong (C16_violated). -/
theorem C58_look_at_partial {n : ℕ} (o : Order) (k : TKind) (hk : k ≠ .linear) (d0 : Fin (n + 5) → Fin (n + 5) → ℝ)
    (r0 : Fin (n + 6) → ℝ) (eye target : Fin (n + 6) → ℝ) (bases : Fin (n + 4) → Fin (n + 6) → ℝ) (flip : Fin (n + 6) → Bool)
    (hli : LinearIndependent ℝ (Fin.snoc (α := fun _ => Fin (n + 6) → ℝ) bases (eye - target)))
    (hv : ∀ i : Fin (n + 6), (Matrix.of fun r c => Fin.snoc (α := fun _ => Fin (n + 6) → ℝ) bases (eye - target) r (i.succAbove c)).det = 0 ∨
      ∀ s (h : s + 1 ≤ n + 4),
        (leading (Matrix.of fun r c => Fin.snoc (α := fun _ => Fin (n + 6) → ℝ) bases (eye - target) r (i.succAbove c)) s (by omega)).det ≠ 0) :
    ∃ m, lookAt o (tRows o (n + 6) k) (tCols o (n + 6) k) d0 r0 eye target bases flip = some m ∧ IsView o k eye target bases flip m := by
  classical
  refine lookAt_spec o k hk d0 r0 eye target bases flip hli ?_
  obtain ⟨r, h1, h2⟩ := C16_cross_partial d0 r0 (Fin.snoc (α := fun _ => Fin (n + 6) → ℝ) bases (eye - target)) [] hv
  refine ⟨r, ?_, h2⟩
  rw [List.append_nil] at h1
  convert h1

/-- C58: what happens otherwise (eye and target coincide, or a dependent "up" vector): a division by zero, dimensions 2 to 5. -/
theorem C58_degenerate {n : ℕ} (hn : n ≤ 3) (o : Order) (r c : ℕ) (d0 : Fin (n + 1) → Fin (n + 1) → ℝ)
    (r0 : Fin (n + 2) → ℝ) (eye target : Fin (n + 2) → ℝ) (bases : Fin n → Fin (n + 2) → ℝ) (flip : Fin (n + 2) → Bool)
    (hli : ¬LinearIndependent ℝ (Fin.snoc (α := fun _ => Fin (n + 2) → ℝ) bases (eye - target))) :
    lookAt o r c d0 r0 eye target bases flip = none := by
  classical
  obtain ⟨side, h1, h2⟩ := C16_cross_2_to_5 (· / ·) hn d0 r0 (Fin.snoc (α := fun _ => Fin (n + 2) → ℝ) bases (eye - target)) []
  have h0 := side_zero _ hli side h2
  subst h0
  rw [List.append_nil] at h1
  have e1 : List.ofFn bases ++ [eye - target] = List.ofFn (Fin.snoc (α := fun _ => Fin (n + 2) → ℝ) bases (eye - target)) := by
    rw [List.ofFn_succ', List.concat_eq_append, Fin.snoc_last]
    simp
  have e2 : (List.ofFn bases ++ [eye - target]).rotate n = (eye - target) :: List.ofFn bases := by
    have := List.rotate_append_length_eq (List.ofFn bases) [eye - target]
    rw [List.length_ofFn] at this
    rw [this]; rfl
  have hg : gramSchmidt ((0 : Fin (n + 2) → ℝ) :: (eye - target) :: List.ofFn bases) = none :=
    (C17_dependent_prefix [] 0 (eye - target) (List.ofFn bases) (by have : IsEmpty (Fin ([] : List (Fin (n + 2) → ℝ)).length) := Fin.isEmpty; exact linearIndependent_empty_type) (Submodule.zero_mem _)).2
  have hcol : lookColumns d0 r0 eye target bases flip = none := by
    unfold lookColumns
    simp only [e2]
    have h1' : (open Classical in cross (· / ·) d0 r0 (List.ofFn bases ++ [eye - target])) = some 0 := by rw [e1]; convert h1
    rw [h1', Option.bind_some, hg]; rfl
  rw [lookAt, hcol]; rfl

/-- C58: what the specification says about points: the eye is mapped to the origin, the target to the last axis at its distance from the
eye (on the negative side unless flipped), and distances are preserved. -/
theorem C58_points {n : ℕ} (o : Order) (k : TKind) (eye target : Fin (n + 2) → ℝ) (bases : Fin n → Fin (n + 2) → ℝ)
    (flip : Fin (n + 2) → Bool) (m : Matrix (Fin (tRows o (n + 2) k)) (Fin (tCols o (n + 2) k)) ℝ) (h : IsView o k eye target bases flip m) :
    applyT o k m eye = some 0 ∧
    applyT o k m target = some (Pi.single (Fin.last (n + 1)) ((if flip (Fin.last (n + 1)) then 1 else -1) * length (eye - target))) ∧
    ∀ v w, ∃ v' w', applyT o k m v = some v' ∧ applyT o k m w = some w' ∧ length (v' - w') = length (v - w) := by
  obtain ⟨R, hR, hap, hl, -, -⟩ := h
  refine ⟨by rw [hap, sub_self, Matrix.mulVec_zero], ?_, fun v w => ⟨_, _, hap v, hap w, ?_⟩⟩
  · rw [hap, show target - eye = -(eye - target) by abel, Matrix.mulVec_neg, hl, ← Pi.single_neg]
    congr 2
    cases flip (Fin.last (n + 1)) <;> simp [flipSign]
  · rw [← Matrix.mulVec_sub, show v - eye - (w - eye) = v - w by abel]
    have e : ∀ x : Fin (n + 2) → ℝ, length x ^ 2 = dotProduct x x := by
      intro x
      have := dot_self x
      rw [dotR] at this
      exact this.symm
    have h2 : length (R.mulVec (v - w)) ^ 2 = length (v - w) ^ 2 := by
      rw [e, e, Matrix.dotProduct_mulVec, Matrix.vecMul_mulVec, mul_eq_one_comm.1 hR, Matrix.vecMul_one]
    rw [sq_eq_sq₀ (length_nonneg _) (length_nonneg _)] at h2
    exact h2

/-- C58, the two-dimensional overload. The camera looks down -Y unless `positiveYForward`. -/
theorem C58_2D (o : Order) (k : TKind) (hk : k ≠ .linear) (d0 : Fin 1 → Fin 1 → ℝ) (r0 eye target : Fin 2 → ℝ) (fwd flipX : Bool)
    (h : eye ≠ target) :
    ∃ m, lookAt2D o (tRows o 2 k) (tCols o 2 k) d0 r0 eye target fwd flipX = some m ∧
      IsView (n := 0) o k eye target (fun i => i.elim0) ![flipX, fwd] m ∧ applyT o k m eye = some 0 ∧
      applyT o k m target = some ![0, (if fwd then 1 else -1) * length (eye - target)] := by
  have hli : LinearIndependent ℝ (Fin.snoc (α := fun _ => Fin 2 → ℝ) (fun i : Fin 0 => i.elim0) (eye - target)) := by
    rw [linearIndependent_finSnoc]
    refine ⟨linearIndependent_empty_type, ?_⟩
    simpa [sub_eq_zero] using h
  obtain ⟨m, hm, hv⟩ := C58_look_at (n := 0) (by omega) o k hk d0 r0 eye target (fun i => i.elim0) ![flipX, fwd] hli
  obtain ⟨h1, h2, -⟩ := C58_points o k eye target _ _ m hv
  refine ⟨m, hm, hv, h1, h2.trans (congrArg some ?_)⟩
  funext i
  fin_cases i
  · exact Pi.single_eq_of_ne (by decide) _
  · exact Pi.single_eq_same _ _

/-- C58, the three-dimensional overload. The camera looks down -Z unless `positiveZForward`; `up` has no X coordinate in camera space and a
positive Y coordinate, unless Y is flipped. -/
theorem C58_3D (o : Order) (k : TKind) (hk : k ≠ .linear) (d0 : Fin 2 → Fin 2 → ℝ) (r0 eye target up : Fin 3 → ℝ) (fwd flipX flipY : Bool)
    (h : LinearIndependent ℝ ![up, eye - target]) :
    ∃ m, lookAt3D o (tRows o 3 k) (tCols o 3 k) d0 r0 eye target up fwd flipX flipY = some m ∧
      IsView (n := 1) o k eye target ![up] ![flipX, flipY, fwd] m ∧ applyT o k m eye = some 0 ∧
      applyT o k m target = some ![0, 0, (if fwd then 1 else -1) * length (eye - target)] ∧
      ∃ y z, applyT o k m (eye + up) = some ![0, y, z] ∧ 0 < flipSign flipY * y := by
  have hli : LinearIndependent ℝ (Fin.snoc (α := fun _ => Fin 3 → ℝ) ![up] (eye - target)) := by
    have e : (Fin.snoc (α := fun _ => Fin 3 → ℝ) ![up] (eye - target) : Fin 2 → Fin 3 → ℝ) = ![up, eye - target] := by
      funext i; fin_cases i <;> rfl
    rw [e]; exact h
  obtain ⟨m, hm, hv⟩ := C58_look_at (n := 1) (by omega) o k hk d0 r0 eye target ![up] ![flipX, flipY, fwd] hli
  obtain ⟨h1, h2, -⟩ := C58_points o k eye target _ _ m hv
  refine ⟨m, hm, hv, h1, h2.trans (congrArg some ?_), ?_⟩
  · funext i
    fin_cases i
    · exact Pi.single_eq_of_ne (by decide) _
    · exact Pi.single_eq_of_ne (by decide) _
    · exact Pi.single_eq_same _ _
  · obtain ⟨R, -, hap, -, hb, -⟩ := hv
    obtain ⟨hb1, hb2, -⟩ := hb 0
    refine ⟨R.mulVec up 1, R.mulVec up 2, ?_, hb2⟩
    rw [hap, add_sub_cancel_left]
    refine congrArg some (funext fun i => ?_)
    fin_cases i
    · exact hb1
    · rfl
    · rfl

/-- Non-parallel vectors. -/
example : LinearIndependent ℝ ![![(0 : ℝ), 0, 1], ![1, 2, 3] - ![4, 4, 4]] := by
  rw [LinearIndependent.pair_iff]
  intro s t h
  have h0 := congrFun h 0
  have h2 := congrFun h 2
  simp [Matrix.vecHead, Matrix.vecTail] at h0 h2
  norm_num at h0
  subst h0
  exact ⟨by simpa using h2, rfl⟩

end Mathter.Props
