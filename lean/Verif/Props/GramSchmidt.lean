import Mathlib.LinearAlgebra.LinearIndependent.Basic
import Verif.Props.VectorMath

/-!
# Property C17: Gram–Schmidt orthogonalisation
-/

namespace Mathter.Props
open Mathter
universe u
variable {𝕜 : Type u} [RCLike 𝕜] {n : ℕ}

/-- The space spanned by the vectors of a list. -/
def spanL (l : List (Fin n → 𝕜)) : Submodule 𝕜 (Fin n → 𝕜) := Submodule.span 𝕜 {x | x ∈ l}

private theorem spanL_append_singleton (l : List (Fin n → 𝕜)) (v : Fin n → 𝕜) : spanL (l ++ [v]) = spanL l ⊔ Submodule.span 𝕜 {v} := by
  unfold spanL
  rw [← Submodule.span_union]
  congr 1
  ext x
  simp [or_comm]

theorem dot_add_left (a b c : Fin n → 𝕜) : dot (a + b) c = dot a c + dot b c := by
  simp only [dot_eq_sum, Pi.add_apply, add_mul, Finset.sum_add_distrib]

theorem dot_sub_left (a b c : Fin n → 𝕜) : dot (a - b) c = dot a c - dot b c := by
  simp only [dot_eq_sum, Pi.sub_apply, sub_mul, Finset.sum_sub_distrib]

theorem dot_smul_left (s : 𝕜) (a c : Fin n → 𝕜) : dot (fun i => s * a i) c = s * dot a c := by
  simp only [dot_eq_sum, mul_assoc, Finset.mul_sum]

theorem dot_comm_zero (a b : Fin n → 𝕜) (h : dot a b = 0) : dot b a = 0 := by
  rw [C13_dot_conj, h, map_zero]

theorem dot_span_zero (l : List (Fin n → 𝕜)) (u : Fin n → 𝕜) (h : ∀ x ∈ l, dot x u = 0) (y : Fin n → 𝕜) (hy : y ∈ spanL l) :
    dot y u = 0 := by
  induction hy using Submodule.span_induction with
  | mem x hx => exact h x hx
  | zero => simp [dot_eq_sum]
  | add a b _ _ ha hb => rw [dot_add_left, ha, hb, add_zero]
  | smul s a _ ha =>
    have := dot_smul_left s a u
    rw [ha, mul_zero] at this
    exact this

private theorem gsProj_spec (u v : Fin (n + 1) → 𝕜) (hu : u ≠ 0) :
    ∃ c : 𝕜, gsProj u v = some (fun i => c * u i) ∧ dot (v - fun i => c * u i) u = 0 := by
  have hl : length u ≠ 0 := fun h => hu ((length_eq_zero u).1 h)
  have hlk : ((length u : ℝ) : 𝕜) ≠ 0 := by exact_mod_cast hl
  have hd : ∀ w : Fin (n + 1) → 𝕜, dot w (normalizePrecise1 u) = dot w u / ((length u : ℝ) : 𝕜) := by
    intro w
    rw [normalizePrecise1, normalizePrecise_ne_zero u _ hu]
    simp only [dot_eq_sum, divReal, Finset.sum_div]
    apply Finset.sum_congr rfl
    intro i _
    simp [mul_div_assoc]
  have hself : dot u u ≠ 0 := by
    rw [dot_self]
    push_cast
    exact pow_ne_zero 2 hlk
  refine ⟨dot v (normalizePrecise1 u) / dot u (normalizePrecise1 u), ?_, ?_⟩
  · unfold gsProj
    rw [if_neg]
    rw [hd]
    exact div_ne_zero hself hlk
  · rw [dot_sub_left, dot_smul_left, hd, hd]
    field_simp
    ring

private theorem gsInner_spec (us : List (Fin (n + 1) → 𝕜)) (h0 : ∀ u ∈ us, u ≠ 0) (ho : us.Pairwise fun a b => dot a b = 0) :
    ∀ v, ∃ r, gsInner us v = some r ∧ v - r ∈ spanL us ∧ ∀ u ∈ us, dot r u = 0 := by
  induction us with
  | nil =>
    intro v
    exact ⟨v, rfl, by simp, by simp⟩
  | cons u us ih =>
    intro v
    rw [List.pairwise_cons] at ho
    obtain ⟨c, hc, hcu⟩ := gsProj_spec u v (h0 u (by simp))
    obtain ⟨r, hr, hspan, hort⟩ := ih (fun x hx => h0 x (by simp [hx])) ho.2 (v - fun i => c * u i)
    refine ⟨r, by rw [gsInner, hc]; exact hr, ?_, ?_⟩
    · have hmono : spanL us ≤ spanL (u :: us) := Submodule.span_mono fun x hx => by simp at hx ⊢; exact Or.inr hx
      have hu : (fun i => c * u i) ∈ spanL (u :: us) := Submodule.smul_mem _ c (Submodule.subset_span (by simp))
      have := Submodule.add_mem _ (hmono hspan) hu
      convert this using 1
      abel
    · intro x hx
      rcases List.mem_cons.1 hx with rfl | hx
      · have h1 := dot_span_zero us x (fun y hy => dot_comm_zero _ _ (ho.1 y hy)) _ hspan
        rw [dot_sub_left, hcu, zero_sub, neg_eq_zero] at h1
        exact h1
      · exact hort x hx

/-- Every vector is outside the span of its predecessors. -/
private def Indep : List (Fin n → 𝕜) → List (Fin n → 𝕜) → Prop
  | _, [] => True
  | out, v :: vs => v ∉ spanL out ∧ Indep (out ++ [v]) vs

private theorem indep_congr (vs : List (Fin n → 𝕜)) : ∀ out out', spanL out = spanL out' → Indep out vs → Indep out' vs := by
  induction vs with
  | nil => intros; trivial
  | cons v vs ih =>
    rintro out out' h ⟨h1, h2⟩
    refine ⟨by rwa [← h], ih _ _ ?_ h2⟩
    rw [spanL_append_singleton, spanL_append_singleton, h]

private theorem gsLoop_spec (vs : List (Fin (n + 1) → 𝕜)) : ∀ out : List (Fin (n + 1) → 𝕜), (∀ u ∈ out, u ≠ 0) →
    (out.Pairwise fun a b => dot a b = 0) → Indep out vs →
    ∃ us, gsLoop vs out = some (out ++ us) ∧ us.length = vs.length ∧ (∀ u ∈ out ++ us, u ≠ 0) ∧
      ((out ++ us).Pairwise fun a b => dot a b = 0) ∧ (∀ k, spanL (out ++ us.take k) = spanL (out ++ vs.take k)) ∧
      ∀ k, vs.getD k 0 - us.getD k 0 ∈ spanL (out ++ us.take k) := by
  induction vs with
  | nil =>
    intro out h0 ho _
    exact ⟨[], by simp [gsLoop], rfl, by simpa using h0, by simpa using ho, by simp, by simp⟩
  | cons v vs ih =>
    intro out h0 ho hi
    obtain ⟨r, hr, hspan, hort⟩ := gsInner_spec out h0 ho v
    have hr0 : r ≠ 0 := by
      rintro rfl
      rw [sub_zero] at hspan
      exact hi.1 hspan
    have hsp : spanL (out ++ [r]) = spanL (out ++ [v]) := by
      rw [spanL_append_singleton, spanL_append_singleton]
      apply le_antisymm
      · refine sup_le le_sup_left ?_
        rw [Submodule.span_singleton_le_iff_mem]
        have : r = v - (v - r) := by abel
        rw [this]
        exact Submodule.sub_mem _ (Submodule.mem_sup_right (Submodule.mem_span_singleton_self v)) (Submodule.mem_sup_left hspan)
      · refine sup_le le_sup_left ?_
        rw [Submodule.span_singleton_le_iff_mem]
        have : v = r + (v - r) := by abel
        rw [this]
        exact Submodule.add_mem _ (Submodule.mem_sup_right (Submodule.mem_span_singleton_self r)) (Submodule.mem_sup_left hspan)
    obtain ⟨us, h1, h2, h3, h4, h5, h6⟩ := ih (out ++ [r]) (by
        intro u hu
        rcases List.mem_append.1 hu with hu | hu
        · exact h0 u hu
        · rw [List.mem_singleton.1 hu]; exact hr0)
      (by
        rw [List.pairwise_append]
        refine ⟨ho, List.pairwise_singleton _ _, ?_⟩
        intro a ha b hb
        rw [List.mem_singleton.1 hb]
        exact dot_comm_zero _ _ (hort a ha))
      (indep_congr _ _ _ hsp.symm hi.2)
    refine ⟨r :: us, ?_, by simp [h2], by simpa using h3, by simpa using h4, ?_, ?_⟩
    · rw [gsLoop, hr]
      simpa using h1
    · intro k
      cases k with
      | zero => simp
      | succ k =>
        have := h5 k
        simp only [List.append_assoc, List.singleton_append] at this
        simp only [List.take_succ_cons]
        rw [this]
        have key : ∀ l : List (Fin (n + 1) → 𝕜), ∀ x, spanL (out ++ x :: l) = spanL (out ++ [x]) ⊔ spanL l := by
          intro l x
          unfold spanL
          rw [← Submodule.span_union]
          congr 1
          ext y
          simp [or_assoc]
        rw [key _ r, key _ v, hsp]
    · intro k
      cases k with
      | zero => simpa using hspan
      | succ k => simpa using h6 k

private theorem indep_of_li (vs : List (Fin n → 𝕜)) : ∀ out : List (Fin n → 𝕜),
    (LinearIndependent 𝕜 fun i : Fin (out ++ vs).length => (out ++ vs)[i]) → Indep out vs := by
  induction vs with
  | nil => intros; trivial
  | cons v vs ih =>
    intro out h
    refine ⟨?_, ih _ ?_⟩
    · intro hv
      have hlt : out.length < (out ++ v :: vs).length := by simp
      have hnot := h.notMem_span_image (s := {i | i.val < out.length}) (x := ⟨out.length, hlt⟩) (by simp)
      apply hnot
      have e1 : (out ++ v :: vs)[(⟨out.length, hlt⟩ : Fin (out ++ v :: vs).length)] = v := by simp
      rw [e1]
      refine Submodule.span_mono ?_ hv
      intro x hx
      obtain ⟨i, hi, rfl⟩ := List.getElem_of_mem hx
      refine ⟨⟨i, by simp; omega⟩, hi, ?_⟩
      simp [hi]
    · have e : out ++ [v] ++ vs = out ++ v :: vs := by simp
      have conv : ∀ l l' : List (Fin n → 𝕜), l = l' → (LinearIndependent 𝕜 fun i : Fin l'.length => l'[i]) →
          LinearIndependent 𝕜 fun i : Fin l.length => l[i] := by
        rintro l _ rfl h; exact h
      exact conv _ _ e h

/-- C17: for linearly independent inputs (any number, any dimension, real or complex) the procedure never divides by zero, writes as many
vectors as it reads, the outputs are nonzero and pairwise orthogonal, for every `k` the first `k` outputs span the same space as the
first `k` inputs, and output `k` differs from input `k` by a combination of the outputs before it. -/
theorem C17_gram_schmidt (vs : List (Fin (n + 1) → 𝕜)) (h : LinearIndependent 𝕜 fun i : Fin vs.length => vs[i]) :
    ∃ us, gramSchmidt vs = some us ∧ us.length = vs.length ∧ (∀ u ∈ us, u ≠ 0) ∧ (us.Pairwise fun a b => dot a b = 0) ∧
      (∀ k, spanL (us.take k) = spanL (vs.take k)) ∧ ∀ k, vs.getD k 0 - us.getD k 0 ∈ spanL (us.take k) := by
  obtain ⟨us, h1, h2, h3, h4, h5, h6⟩ := gsLoop_spec vs [] (by simp) List.Pairwise.nil (indep_of_li vs [] (by simpa using h))
  exact ⟨us, by rw [gramSchmidt]; simpa using h1, h2, by simpa using h3, by simpa using h4, by simpa using h5, by simpa using h6⟩

/-- Linearly independent, non-orthogonal inputs exist. -/
example : LinearIndependent ℝ fun i : Fin [![(1 : ℝ), 1], ![0, 2]].length => [![(1 : ℝ), 1], ![0, 2]][i] := by
  have : (fun i : Fin [![(1 : ℝ), 1], ![0, 2]].length => [![(1 : ℝ), 1], ![0, 2]][i]) = ![![(1 : ℝ), 1], ![0, 2]] := by
    funext i; fin_cases i <;> rfl
  rw [this, LinearIndependent.pair_iff]
  intro s t h
  have h0 := congrFun h 0
  have h1 := congrFun h 1
  simp at h0 h1
  exact ⟨h0, by simpa [h0] using h1⟩

private theorem gsInner_zero (us : List (Fin (n + 1) → 𝕜)) (h : (0 : Fin (n + 1) → 𝕜) ∈ us) : ∀ v, gsInner us v = none := by
  induction us with
  | nil => simp at h
  | cons u us ih =>
    intro v
    rw [gsInner]
    by_cases hu : u = 0
    · have : gsProj u v = none := by
        unfold gsProj
        rw [if_pos]
        rw [hu]; simp [dot_eq_sum]
      rw [this]; rfl
    · have := ih (by simpa [eq_comm, hu] using h)
      cases gsProj u v with
      | none => rfl
      | some p => exact this _

/-- C17: what happens without independence: as soon as some proper prefix of the input is linearly dependent (a vector of it lies in the
span of its predecessors, all of which are independent), a zero vector is written and the next step divides by zero. -/
theorem C17_dependent_prefix (vs : List (Fin (n + 1) → 𝕜)) (v w : Fin (n + 1) → 𝕜) (rest : List (Fin (n + 1) → 𝕜))
    (h : LinearIndependent 𝕜 fun i : Fin vs.length => vs[i]) (hv : v ∈ spanL vs) :
    (∃ us, gramSchmidt (vs ++ [v]) = some (us ++ [0])) ∧ gramSchmidt (vs ++ v :: w :: rest) = none := by
  have happ : ∀ (a b out : List (Fin (n + 1) → 𝕜)), gsLoop (a ++ b) out = (gsLoop a out).bind fun o => gsLoop b o := by
    intro a
    induction a with
    | nil => intro b out; rfl
    | cons x a ih =>
      intro b out
      rw [List.cons_append, gsLoop, gsLoop]
      cases gsInner out x with
      | none => rfl
      | some p => exact ih _ _
  obtain ⟨us, h1, -, h3, h4, h5, -⟩ := C17_gram_schmidt vs h
  obtain ⟨r, hr, hspan, hort⟩ := gsInner_spec us h3 h4 v
  have hsp : spanL us = spanL vs := by
    have := h5 (max us.length vs.length)
    rwa [List.take_of_length_le (le_max_left _ _), List.take_of_length_le (le_max_right _ _)] at this
  have hr0 : r = 0 := by
    have hru : r ∈ spanL us := by
      have : r = v - (v - r) := by abel
      rw [this]
      exact Submodule.sub_mem _ (by rw [hsp]; exact hv) hspan
    have : dot r r = 0 := dot_span_zero us r (fun x hx => dot_comm_zero _ _ (hort x hx)) r hru
    rw [dot_self] at this
    have h2 : length r ^ 2 = 0 := by exact_mod_cast this
    exact (length_eq_zero r).1 (by simpa using h2)
  have h1' : gsLoop vs [] = some us := h1
  subst hr0
  constructor
  · refine ⟨us, ?_⟩
    rw [gramSchmidt, happ, h1', Option.bind_some, gsLoop, hr]
    rfl
  · rw [gramSchmidt, happ, h1', Option.bind_some, gsLoop, hr, Option.bind_some, gsLoop, gsInner_zero _ (by simp)]
    rfl

end Mathter.Props
