import Mathlib.Tactic.IntervalCases
import Mathlib.Data.List.OfFn
import Verif.Lemmas.Vector

/-! Helper lemmas about swizzles. -/

namespace Mathter
universe u
variable {K : Type u}

theorem firstOcc_some {v : ℕ} {l : List ℕ} {j : ℕ} (h : firstOcc v l = some j) : l[j]? = some v := by
  induction l generalizing j with
  | nil => cases h
  | cons x xs ih =>
    rw [firstOcc] at h
    split at h
    · cases h; simp_all
    · rw [Option.map_eq_some_iff] at h
      obtain ⟨j', hj', rfl⟩ := h
      simpa using ih hj'

theorem firstOcc_none {v : ℕ} {l : List ℕ} (h : firstOcc v l = none) : v ∉ l := by
  induction l with
  | nil => simp
  | cons x xs ih =>
    rw [firstOcc] at h
    split at h
    · cases h
    · rename_i hne
      rw [Option.map_eq_none_iff] at h
      simp only [List.mem_cons, not_or]
      exact ⟨hne, ih h⟩

variable {dim k : ℕ}

theorem firstOcc_idx_some {idx : Fin k → Fin dim} {l j : ℕ} (h : firstOcc l (idxTable idx) = some j) :
    ∃ hj : j < k, (idx ⟨j, hj⟩).val = l := by
  have := firstOcc_some h
  unfold idxTable at this
  rw [List.getElem?_ofFn] at this
  split at this
  · rename_i hj; exact ⟨hj, Option.some.inj this⟩
  · cases this

theorem blendGen_iff {idx : Fin k → Fin dim} {l : ℕ} : blendGen idx l = true ↔ ∃ t, (idx t).val = l := by
  unfold blendGen
  constructor
  · intro h
    obtain ⟨j, hj⟩ := Option.isSome_iff_exists.1 h
    obtain ⟨hj', e⟩ := firstOcc_idx_some hj
    exact ⟨_, e⟩
  · rintro ⟨t, ht⟩
    cases hf : firstOcc l (idxTable idx) with
    | some j => rfl
    | none =>
      exfalso
      apply firstOcc_none hf
      unfold idxTable
      rw [List.mem_ofFn']
      exact ⟨t, ht⟩

theorem delinGen_named {idx : Fin k → Fin dim} (t : Fin k) :
    ∃ h : delinGen idx (idx t).val < k, idx ⟨delinGen idx (idx t).val, h⟩ = idx t := by
  have hb : blendGen idx (idx t).val = true := blendGen_iff.2 ⟨t, rfl⟩
  unfold blendGen at hb
  obtain ⟨j, hj⟩ := Option.isSome_iff_exists.1 hb
  obtain ⟨hj', e⟩ := firstOcc_idx_some hj
  have : delinGen idx (idx t).val = j := by unfold delinGen; rw [hj]; rfl
  refine ⟨by rw [this]; exact hj', ?_⟩
  apply Fin.ext
  simp only [this]
  exact e

namespace Swz
variable {c : Cfg} {p p2 : Bool}

theorem linearize_of_lt [Zero K] (junk : ℕ → K) (src : Vec c K dim p) (idx : Fin k → Fin dim) (t : Fin k) :
    linearize junk src idx ⟨t.val, Nat.lt_of_lt_of_le t.isLt (le_storageSize c k p)⟩ = src.get (idx t) := by
  unfold linearize
  split
  · have hl : linGen idx t.val = (idx t).val := by simp [linGen]
    have : linGen idx t.val < storageSize c dim p := by
      rw [hl]; exact Nat.lt_of_lt_of_le (idx t).isLt (le_storageSize c dim p)
    simp only [t.isLt, if_true, this, dif_pos]
    unfold Vec.get
    congr 1
    exact Fin.ext hl
  · simp

theorem storage_mono (h : k ≤ dim) (hd : dim ≤ 4) (hp : isBatched c dim p = true) :
    storageSize c k p ≤ storageSize c dim p := by
  rw [storageSize_of_batched hp]
  have : storageSize c k p ≤ batchSize k p := by
    unfold storageSize; split
    · exact le_rfl
    · exact le_batchSize _ _
  have hb : batchSize k p ≤ batchSize dim false := by
    have hk : k ≤ 4 := h.trans hd
    cases p <;> interval_cases dim <;> interval_cases k <;> decide
  exact this.trans hb

theorem storage_eq_of_not_batched (h : k ≤ dim) (hd : dim ≤ 4) (hp : isBatched c dim p = false) :
    storageSize c k p = k := by
  unfold storageSize
  split
  · rename_i hk
    unfold isBatched at hk hp
    cases p
    · have hk4 : k ≤ 4 := h.trans hd
      interval_cases k <;> interval_cases dim <;> simp_all [batchSize]
    · simp at hk
  · rfl

/-- The scalar loop of `Delinearize`: defined while the table lasts; a lane keeps the last value written to it. -/
theorem delinLoop_spec {n : ℕ} (hn : dim ≤ n) (idx : Fin k → Fin dim) :
    ∀ (xs : List K) (i : ℕ) (a : Fin n → K), i + xs.length ≤ k →
      ∃ a', delinLoop idx i a xs = some a' ∧
        (∀ (l : Fin n), (∀ t : Fin k, i ≤ t.val → t.val < i + xs.length → (idx t).val ≠ l.val) → a' l = a l) ∧
        (∀ (l : Fin n) (x : K), (∀ (t : Fin k) (h1 : i ≤ t.val) (h2 : t.val < i + xs.length), (idx t).val = l.val →
            xs[t.val - i]? = some x) → (∃ t : Fin k, i ≤ t.val ∧ t.val < i + xs.length ∧ (idx t).val = l.val) → a' l = x) := by
  intro xs
  induction xs with
  | nil =>
    intro i a _
    refine ⟨a, rfl, fun _ _ => rfl, ?_⟩
    rintro l x _ ⟨t, h1, h2, _⟩
    simp at h2; omega
  | cons y ys ih =>
    intro i a hlen
    simp only [List.length_cons] at hlen
    have hi : i < k := by omega
    have hw : (idx ⟨i, hi⟩).val < n := Nat.lt_of_lt_of_le (idx _).isLt hn
    obtain ⟨a', ha', hfr, hval⟩ := ih (i + 1) (fun l => if l.val = (idx ⟨i, hi⟩).val then y else a l) (by omega)
    refine ⟨a', ?_, ?_, ?_⟩
    · rw [delinLoop, dif_pos hi, writeLane, if_pos hw]
      exact ha'
    · intro l hl
      rw [hfr l]
      · rw [if_neg]
        intro e
        exact hl ⟨i, hi⟩ (le_refl _) (by simp) e.symm
      · intro t h1 h2
        exact hl t (by omega) (by simp only [List.length_cons]; omega)
    · intro l x hx hex
      by_cases hlater : ∃ t : Fin k, i + 1 ≤ t.val ∧ t.val < i + 1 + ys.length ∧ (idx t).val = l.val
      · apply hval l x _ hlater
        intro t h1 h2 e
        have := hx t (by omega) (by simp only [List.length_cons]; omega) e
        have hsub : t.val - i = (t.val - (i + 1)) + 1 := by omega
        rw [hsub, List.getElem?_cons_succ] at this
        exact this
      · rw [hfr l]
        · obtain ⟨t, h1, h2, e⟩ := hex
          simp only [List.length_cons] at h2
          have hti : t.val = i := by
            by_contra hne
            exact hlater ⟨t, by omega, by omega, e⟩
          have := hx t h1 (by simp only [List.length_cons]; omega) e
          rw [hti, Nat.sub_self, List.getElem?_cons_zero] at this
          have hte : t = ⟨i, hi⟩ := Fin.ext hti
          subst hte
          rw [if_pos e.symm]
          exact Option.some.inj this
        · intro t h1 h2 e
          exact hlater ⟨t, h1, h2, e⟩

/-- `Delinearize` followed by `Blend`, when the right hand side assigns equal values to repeated letters. -/
theorem delin_blend (junk : ℕ → K) (dst : Vec c K dim p) (idx : Fin k → Fin dim) (hk : k ≤ dim) (hd : dim ≤ 4)
    (target : Fin (storageSize c k p) → K) (w : Fin k → K)
    (htarget : ∀ t : Fin k, target ⟨t.val, Nat.lt_of_lt_of_le t.isLt (le_storageSize c k p)⟩ = w t)
    (hcons : ∀ s t, idx s = idx t → w s = w t) :
    ∃ fresh, delinearize (c := c) (p := p) junk idx target = some fresh ∧
      (∀ t, (⟨blend idx dst.lanes fresh⟩ : Vec c K dim p).get (idx t) = w t) ∧
      (∀ j, (∀ t, idx t ≠ j) → (⟨blend idx dst.lanes fresh⟩ : Vec c K dim p).get j = dst.get j) ∧
      (∀ l : Fin (storageSize c dim p), dim ≤ l.val → blend idx dst.lanes fresh l = dst.lanes l) := by
  have hframe : ∀ (fresh : Fin (storageSize c dim p) → K) (l : Fin (storageSize c dim p)),
      (∀ t, (idx t).val ≠ l.val) → blend idx dst.lanes fresh l = dst.lanes l := by
    intro fresh l hl
    unfold blend
    rw [if_neg]
    intro hb
    obtain ⟨t, ht⟩ := blendGen_iff.1 hb
    exact hl t ht
  have hf2 : ∀ (fresh : Fin (storageSize c dim p) → K), (∀ j, (∀ t, idx t ≠ j) →
      (⟨blend idx dst.lanes fresh⟩ : Vec c K dim p).get j = dst.get j) ∧
      (∀ l : Fin (storageSize c dim p), dim ≤ l.val → blend idx dst.lanes fresh l = dst.lanes l) := by
    intro fresh
    constructor
    · intro j hj
      exact hframe fresh _ (fun t e => hj t (Fin.ext e))
    · intro l hl
      apply hframe
      intro t e
      have := (idx t).isLt
      omega
  have hnamed : ∀ (fresh : Fin (storageSize c dim p) → K) (t : Fin k),
      (⟨blend idx dst.lanes fresh⟩ : Vec c K dim p).get (idx t) =
        fresh ⟨(idx t).val, Nat.lt_of_lt_of_le (idx t).isLt (le_storageSize c dim p)⟩ := by
    intro fresh t
    unfold Vec.get blend
    exact if_pos (blendGen_iff.2 ⟨t, rfl⟩)
  unfold delinearize
  by_cases hs : simdPath c dim k p = true
  · have hbat : isBatched c dim p = true := by
      unfold simdPath at hs; simp at hs; exact hs.1
    rw [if_pos hs, if_pos (storage_mono hk hd hbat)]
    refine ⟨_, rfl, ?_, hf2 _⟩
    intro t
    rw [hnamed]
    obtain ⟨h, e⟩ := delinGen_named (idx := idx) t
    have h' : delinGen idx (idx t).val < storageSize c k p := Nat.lt_of_lt_of_le h (le_storageSize c k p)
    simp only [h', dif_pos]
    rw [← hcons _ _ e]
    exact htarget ⟨_, h⟩
  · have hbat : isBatched c dim p = false := by
      unfold simdPath at hs
      simp only [Bool.and_eq_true, decide_eq_true_eq, not_and] at hs
      by_contra hb
      exact hs (by simpa using hb) hk
    have hsz := storage_eq_of_not_batched hk hd hbat
    rw [if_neg hs]
    obtain ⟨a', ha', _, hval⟩ := delinLoop_spec (K := K) (le_storageSize c dim p) idx (List.ofFn target) 0
      (fun l => junk l.val) (by simp [hsz])
    refine ⟨a', ha', ?_, hf2 _⟩
    intro t
    rw [hnamed]
    apply hval
    · intro s h1 h2 e
      rw [List.getElem?_ofFn, dif_pos (by simpa using h2)]
      congr 1
      rw [← hcons s t (Fin.ext e)]
      exact htarget s
    · exact ⟨t, Nat.zero_le _, by simp [hsz], rfl⟩

end Swz
end Mathter
