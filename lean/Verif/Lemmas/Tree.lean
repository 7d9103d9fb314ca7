import Verif.Model.VectorReduce
import Mathlib.Data.Real.Basic
import Mathlib.Algebra.BigOperators.Fin
import Mathlib.Algebra.Order.BigOperators.Group.Finset
import Mathlib.Tactic.Linarith
import Mathlib.Tactic.Ring

/-!
# Reduction trees over lanes of which some are zero
-/

namespace Mathter.Red
variable {dim n : ℕ}

/-- How many of the lanes `l` are not zero. -/
noncomputable def nz (b : Fin n → ℝ) (l : List (Fin n)) : ℕ := l.countP fun i => b i ≠ 0

theorem sum_zero (b : Fin n → ℝ) (l : List (Fin n)) (h : nz b l = 0) : (l.map b).sum = 0 ∧ (l.map fun i => |b i|).sum = 0 := by
  induction l with
  | nil => simp
  | cons i l ih =>
    unfold nz at h ih
    rw [List.countP_cons] at h
    have hi : b i = 0 := by
      by_contra hc
      rw [if_pos (by simpa using hc)] at h
      omega
    have := ih (by omega)
    simp [hi, this.1, this.2]

theorem abs_sum (b : Fin n → ℝ) (l : List (Fin n)) : |(l.map b).sum| ≤ (l.map fun i => |b i|).sum := by
  induction l with
  | nil => simp
  | cons i l ih =>
    simp only [List.map_cons, List.sum_cons]
    exact (abs_add_le _ _).trans (by linarith)

theorem nz_node (b : Fin n → ℝ) (l r : RTree n) : nz b (RTree.node l r).leaves = nz b l.leaves + nz b r.leaves := by
  unfold nz; rw [RTree.leaves, List.countP_append]

theorem nz_leaf (b : Fin n → ℝ) (i : Fin n) (h0 : nz b (RTree.leaf i).leaves = 0) : b i = 0 := by
  by_contra hc
  have : nz b [i] = 1 := by
    unfold nz
    rw [List.countP_singleton, if_pos (by simpa using hc)]
  rw [RTree.leaves] at h0
  omega

theorem nz_leaf_le (b : Fin n → ℝ) (i : Fin n) : nz b (RTree.leaf i).leaves - 1 = 0 := by
  have : nz b (RTree.leaf i).leaves ≤ 1 := List.countP_le_length
  omega

theorem sum_padded (hd : dim ≤ n) (b : Fin n → ℝ) (x : Fin dim → ℝ) (hbx : ∀ l, b l = if h : l.val < dim then x ⟨l.val, h⟩ else 0) (t : RTree n)
    (ht : t.Valid) (f : ℝ → ℝ) (hf : f 0 = 0) : (t.leaves.map fun i => f (b i)).sum = ∑ i, f (x i) := by
  rw [(ht.map _).sum_eq, ← List.ofFn_eq_map, List.sum_ofFn]
  have e : ∀ l, f (b l) = if h : l.val < dim then f (x ⟨l.val, h⟩) else 0 := fun l => by
    rw [hbx]; split
    · rfl
    · exact hf
  simp only [e]
  rw [← Finset.sum_filter_add_sum_filter_not Finset.univ fun l : Fin n => l.val < dim]
  rw [Finset.sum_eq_zero (s := Finset.univ.filter fun l : Fin n => ¬l.val < dim) (fun l hl => dif_neg (by simpa using hl)), add_zero]
  symm
  apply Finset.sum_bij (fun (i : Fin dim) _ => i.castLE hd)
  · intro i _; simp
  · intro i _ j _ hij; simpa [Fin.ext_iff] using hij
  · intro l hl
    simp only [Finset.mem_filter, Finset.mem_univ, true_and] at hl
    exact ⟨⟨l.val, hl⟩, by simp, rfl⟩
  · intro i _
    simp

theorem nz_padded (b : Fin n → ℝ) (x : Fin dim → ℝ) (hbx : ∀ l, b l = if h : l.val < dim then x ⟨l.val, h⟩ else 0) (t : RTree n)
    (ht : t.Valid) : nz b t.leaves ≤ dim := by
  unfold nz
  rw [ht.countP_eq]
  have : (List.finRange n).countP (fun i => decide (b i ≠ 0)) ≤ (List.finRange n).countP (fun i => decide (i.val < dim)) := by
    apply List.countP_mono_left
    intro i _ hi
    simp only [decide_eq_true_eq] at hi ⊢
    by_contra hc
    exact hi (by rw [hbx, dif_neg hc])
  refine this.trans ?_
  have e : (List.finRange n).countP (fun i => decide (i.val < dim)) = ((List.finRange n).map Fin.val).countP (fun i => decide (i < dim)) := by
    rw [List.countP_map]; rfl
  rw [e, List.map_coe_finRange_eq_range, List.countP_eq_length_filter]
  have : ((List.range n).filter fun i => decide (i < dim)).Nodup := (List.nodup_range).filter _
  have hs : ((List.range n).filter fun i => decide (i < dim)) ⊆ List.range dim := fun i hi => by
    simp only [List.mem_filter, decide_eq_true_eq] at hi
    exact List.mem_range.2 hi.2
  have := (this.subperm hs).length_le
  rwa [List.length_range] at this

/-- The error of a rounded sum of two approximate terms. -/
theorem add_err {u gl gr g Al Ar el er sl sr e : ℝ} (hu : 0 ≤ u) (hl : |el - sl| ≤ gl * Al) (hr : |er - sr| ≤ gr * Ar) (hsl : |sl| ≤ Al) (hsr : |sr| ≤ Ar)
    (h1 : (1 + u) * gl + u ≤ g) (h2 : (1 + u) * gr + u ≤ g) (he : |e - (el + er)| ≤ u * |el + er|) : |e - (sl + sr)| ≤ g * (Al + Ar) := by
  have a1 : |el + er| ≤ |el - sl| + |er - sr| + (Al + Ar) := by
    have := abs_add_le (el - sl + (er - sr)) (sl + sr)
    have h3 := abs_add_le (el - sl) (er - sr)
    have h4 := abs_add_le sl sr
    rw [show el - sl + (er - sr) + (sl + sr) = el + er by ring] at this
    linarith
  have a2 : |e - (sl + sr)| ≤ |e - (el + er)| + (|el - sl| + |er - sr|) := by
    have := abs_add_le (e - (el + er)) (el - sl + (er - sr))
    have h3 := abs_add_le (el - sl) (er - sr)
    rw [show e - (el + er) + (el - sl + (er - sr)) = e - (sl + sr) by ring] at this
    linarith
  have hAl : 0 ≤ Al := (abs_nonneg _).trans hsl
  have hAr : 0 ≤ Ar := (abs_nonneg _).trans hsr
  have a3 : u * |el + er| ≤ u * (gl * Al + gr * Ar + (Al + Ar)) := mul_le_mul_of_nonneg_left (by linarith) hu
  have a4 : ((1 + u) * gl + u) * Al ≤ g * Al := mul_le_mul_of_nonneg_right h1 hAl
  have a5 : ((1 + u) * gr + u) * Ar ≤ g * Ar := mul_le_mul_of_nonneg_right h2 hAr
  nlinarith

end Mathter.Red
