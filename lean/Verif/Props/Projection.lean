import Mathlib.Tactic.Linarith
import Mathlib.Tactic.Positivity
import Verif.Lemmas.Transforms

/-! # Orthographic and perspective projections (C56, C57) -/

namespace Mathter.Props
open Mathter
universe u
variable {K : Type u}

/-! ## C56 -/

/-- C56: a volume without extent along some axis leads to a division by zero. -/
theorem C56_rejects [Field K] {n : ℕ} (o : Order) (r c : ℕ) (minB maxB : Fin (n + 1) → K) (near far : K) :
    orthographic o r c minB maxB near far = none ↔ ∃ i, minB i = maxB i := by
  rw [orthographic]
  by_cases h : ∃ i, maxB i - minB i = 0
  · refine iff_of_true (if_pos h) ?_
    obtain ⟨i, hi⟩ := h
    exact ⟨i, (sub_eq_zero.1 hi).symm⟩
  · refine iff_of_false ?_ ?_
    · simp only [h, if_false, reduceCtorEq, not_false_iff]
    · rintro ⟨i, hi⟩
      exact h ⟨i, by rw [hi, sub_self]⟩

/-- C56: each axis of the box is mapped affinely to −1…1, the last one to near…far; for every order, affine or homogeneous. -/
theorem C56_map [Field K] [CharZero K] {n : ℕ} (o : Order) (k : TKind) (hk : k ≠ .linear) (minB maxB : Fin (n + 1) → K) (near far : K)
    (h : ∀ i, minB i ≠ maxB i) :
    ∃ m, orthographic o (tRows o (n + 1) k) (tCols o (n + 1) k) minB maxB near far = some m ∧
      ∀ v, applyT o k m v = some fun i =>
        let t := (v i - minB i) / (maxB i - minB i)
        if i = Fin.last n then near + (far - near) * t else -1 + 2 * t := by
  have hne : ∀ i, maxB i - minB i ≠ 0 := fun i => sub_ne_zero.2 (h i).symm
  refine ⟨_, if_neg (by rintro ⟨i, hi⟩; exact hne i hi), fun v => ?_⟩
  set scale := Function.update (fun i => 2 / (maxB i - minB i)) (Fin.last n)
    (2 / (maxB (Fin.last n) - minB (Fin.last n)) * (1 / 2 * (far - near))) with hscale
  set offset := Function.update (fun i => -(maxB i + minB i) / 2 * scale i) (Fin.last n)
    (-(maxB (Fin.last n) + minB (Fin.last n)) / 2 * scale (Fin.last n) + (far + near) / 2) with hoffset
  have hin : ∀ a b, a < k.outs (n + 1) → b < k.ins (n + 1) → inR o (tRows o (n + 1) k) (tCols o (n + 1) k) a b :=
    fun a b h1 h2 => (inR_t ..).2 ⟨h1, h2⟩
  have he := forUp_inv (n := n + 1) (lo := 0) (body := fun i m =>
      elemF o (n + 1) i.val (offset i) (setAt (K := K) (r := tRows o (n + 1) k) (c := tCols o (n + 1) k) i.val i.val (scale i) m))
    (s := identityMat _ _)
    (fun q m => ∀ a b, inR o (tRows o (n + 1) k) (tCols o (n + 1) k) a b → ent o m a b =
      if h : a < n + 1 then
        (if a < q then (if b = n + 1 then offset ⟨a, h⟩ else if b = a then scale ⟨a, h⟩ else 0) else if a = b then 1 else 0)
      else if a = b then 1 else 0) (Nat.zero_le _)
    (by
      intro a b hR
      rw [ent_identityMat]
      simp only [hR, and_true, Nat.not_lt_zero, if_false]
      split_ifs <;> rfl)
    (by
      intro i m _ ih a b hR
      rw [ent_elemF, ent_setAt_diag]
      simp only [hR, and_true]
      rw [ih a b hR]
      by_cases ha : a = i.val
      · subst ha
        simp only [true_and, i.isLt, dite_true, Nat.lt_succ_self, if_true, lt_irrefl, if_false]
        split_ifs <;> first | rfl | (exfalso; omega)
      · simp only [ha, false_and, if_false]
        have : a < i.val + 1 ↔ a < i.val := by omega
        simp only [this])
  refine (applyT_eq (Matrix.diagonal scale) offset ?_ ?_ ?_ ?_ v).trans ?_
  · intro i j
    rw [he _ _ (inR_lin i j), dif_pos i.isLt, if_pos i.isLt, if_neg (by omega), Matrix.diagonal_apply]
    simp only [Fin.ext_iff, eq_comm]
  · intro _ i
    rw [he _ _ (hin _ _ (by cases k <;> first | exact i.isLt | exact i.isLt.trans (Nat.lt_succ_self _)) (by cases k <;> simp_all)),
      dif_pos i.isLt, if_pos i.isLt, if_pos rfl]
  · intro e; exact absurd e hk
  · rintro rfl
    constructor
    · intro j
      rw [he _ _ (hin _ _ (by simp) (by simp)), dif_neg (by omega), if_neg (by omega)]
    · rw [he _ _ (hin _ _ (by simp) (by simp)), dif_neg (by omega), if_pos rfl]
  · congr 1
    funext i
    rw [Pi.add_apply, Matrix.mulVec_diagonal]
    have := hne i
    by_cases e : i = Fin.last n
    · subst e
      rw [if_pos rfl, hoffset, Function.update_self, hscale, Function.update_self]
      field_simp
      ring
    · rw [if_neg e, hoffset, Function.update_of_ne e, hscale, Function.update_of_ne e]
      field_simp
      ring

/-- C56: the corners of the box. -/
theorem C56_corners [Field K] [CharZero K] {n : ℕ} (o : Order) (k : TKind) (hk : k ≠ .linear) (minB maxB : Fin (n + 1) → K) (near far : K)
    (h : ∀ i, minB i ≠ maxB i) :
    ∃ m, orthographic o (tRows o (n + 1) k) (tCols o (n + 1) k) minB maxB near far = some m ∧
      applyT o k m minB = some (fun i => if i = Fin.last n then near else -1) ∧
      applyT o k m maxB = some (fun i => if i = Fin.last n then far else 1) := by
  obtain ⟨m, hm, hv⟩ := C56_map o k hk minB maxB near far h
  refine ⟨m, hm, ?_, ?_⟩
  · rw [hv]
    simp
  · rw [hv]
    congr 1
    funext i
    have := sub_ne_zero.2 (h i).symm
    simp only [div_self this]
    split_ifs
    · ring
    · norm_num

/-- C56: a position is inside the box exactly when its image is inside −1…1 and near…far. -/
theorem C56_inside {n : ℕ} (o : Order) (k : TKind) (hk : k ≠ .linear) (minB maxB : Fin (n + 1) → ℝ) (near far : ℝ)
    (h : ∀ i, minB i < maxB i) (hnf : near < far) :
    ∃ m, orthographic o (tRows o (n + 1) k) (tCols o (n + 1) k) minB maxB near far = some m ∧
      ∀ v, ∃ w, applyT o k m v = some w ∧
        ((∀ i, minB i ≤ v i ∧ v i ≤ maxB i) ↔
          (∀ i, i ≠ Fin.last n → -1 ≤ w i ∧ w i ≤ 1) ∧ near ≤ w (Fin.last n) ∧ w (Fin.last n) ≤ far) := by
  obtain ⟨m, hm, hv⟩ := C56_map o k hk minB maxB near far fun i => (h i).ne
  refine ⟨m, hm, fun v => ⟨_, hv v, ?_⟩⟩
  have hp : ∀ i, 0 < maxB i - minB i := fun i => sub_pos.2 (h i)
  have key : ∀ i, (minB i ≤ v i ∧ v i ≤ maxB i) ↔ (0 ≤ (v i - minB i) / (maxB i - minB i) ∧ (v i - minB i) / (maxB i - minB i) ≤ 1) := by
    intro i
    rw [le_div_iff₀ (hp i), div_le_one (hp i)]
    constructor <;> rintro ⟨h1, h2⟩ <;> constructor <;> linarith
  simp only [key]
  constructor
  · intro hh
    refine ⟨fun i hi => ?_, ?_, ?_⟩
    · rw [if_neg hi]
      have := hh i
      constructor <;> linarith
    · simp only [if_true]
      have := hh (Fin.last n)
      nlinarith
    · simp only [if_true]
      have := hh (Fin.last n)
      nlinarith
  · rintro ⟨h1, h2, h3⟩ i
    by_cases e : i = Fin.last n
    · subst e
      simp only [if_true] at h2 h3
      have hd : 0 < far - near := sub_pos.2 hnf
      constructor
      · exact nonneg_of_mul_nonneg_right (a := far - near) (by linarith) hd
      · by_contra hc
        push Not at hc
        have := mul_lt_mul_of_pos_left hc hd
        linarith
    · have := h1 i e
      rw [if_neg e] at this
      constructor <;> linarith

/-- A box off the origin. -/
example : ∀ i, (![2, -1, 5] : Fin 3 → ℝ) i < ![3, 4, 50] i := by
  intro i; fin_cases i <;> norm_num

/-! ## C57 -/

/-- Both planes on the same side of the last axis, the near plane closer: what the code asserts. -/
def ValidPlanes (near far : ℝ) : Prop := (near < 0 ∧ far < near) ∨ (0 < near ∧ near < far)

/-- C57: what the builder accepts: valid planes, a nonzero tangent of half the field of view, nonzero ratios. -/
theorem C57_rejects {n : ℕ} (o : Order) (r c : ℕ) (fov : ℝ) (ratios : Fin (n + 1) → ℝ) (near far pn pf : ℝ) :
    perspective o r c fov ratios near far pn pf = none ↔ ¬ValidPlanes near far ∨ Real.tan (|fov| / 2) = 0 ∨ ∃ i, ratios i = 0 := by
  have e : (1 : ℝ) / 2 * |fov| = |fov| / 2 := by ring
  rw [perspective]
  by_cases h1 : ValidPlanes near far
  · have h1' : (near < 0 ∧ far < near) ∨ (0 < near ∧ near < far) := h1
    by_cases h2 : Real.tan (|fov| / 2) = 0 ∨ ∃ i, ratios i = 0
    · simp only [h1', e, h2, if_true, true_iff, or_true]
    · simp only [h1', e, h2, h1, if_false, if_true, not_true, reduceCtorEq, or_false]
  · have h1' : ¬((near < 0 ∧ far < near) ∨ (0 < near ∧ near < far)) := h1
    simp only [h1', if_false, h1, not_false_iff, true_or]

private theorem persp_ent {n : ℕ} (o : Order) (fov : ℝ) (ratios : Fin (n + 1) → ℝ) (near far pn pf : ℝ) (hp : ValidPlanes near far)
    (hw : Real.tan (|fov| / 2) ≠ 0) (hr : ∀ i, ratios i ≠ 0) :
    ∃ m, perspective o (n + 3) (n + 3) fov ratios near far pn pf = some m ∧ ∀ a b, a < n + 3 → b < n + 3 → ent o m a b =
      if a = n + 2 ∧ b = n + 1 then (if near < 0 then -1 else 1)
      else if a = n + 1 ∧ b = n + 2 then (if near < 0 then -1 else 1) * far * near * (pn - pf) / (far - near)
      else if a = n + 1 ∧ b = n + 1 then (if near < 0 then -1 else 1) * (pf * far - pn * near) / (far - near)
      else if h : a < n + 1 then (if a = b then ratios 0 / ratios ⟨a, h⟩ / Real.tan (|fov| / 2) else 0) else 0 := by
  have e : (1 : ℝ) / 2 * |fov| = |fov| / 2 := by ring
  have hdiag : ∀ a b, a < n + 3 → b < n + 3 → ent o (forUp (n + 1) 0 (fun i m => setAt i.val i.val
      (ratios 0 / ratios i / Real.tan (|fov| / 2)) m) (zeroMat (n + 3) (n + 3))) a b =
      if h : a < n + 1 then (if a = b then ratios 0 / ratios ⟨a, h⟩ / Real.tan (|fov| / 2) else 0) else 0 := by
    intro a b ha hb
    have hR : inR o (n + 3) (n + 3) a b := by cases o <;> simp only [inR] <;> omega
    have := forUp_inv (n := n + 1) (lo := 0) (body := fun i m => setAt i.val i.val
        (ratios 0 / ratios i / Real.tan (|fov| / 2)) m) (s := zeroMat (n + 3) (n + 3))
      (fun q m => ent o m a b = if h : a < n + 1 then (if a = b ∧ a < q then ratios 0 / ratios ⟨a, h⟩ / Real.tan (|fov| / 2) else 0) else 0)
      (Nat.zero_le _) (by rw [ent_zeroMat]; simp)
      (by
        intro i m _ ih
        rw [ent_setAt_diag, ih]
        by_cases ha : a = i.val
        · subst ha
          simp only [true_and, hR, and_true, i.isLt, dite_true, Nat.lt_succ_self, lt_irrefl, and_false, if_false, eq_comm]
        · have : a < i.val + 1 ↔ a < i.val := by omega
          simp only [ha, false_and, if_false, this])
    rw [this]
    by_cases h : a < n + 1
    · simp only [h, dite_true, and_true]
    · simp only [h, dite_false]
  have hnot : ¬(Real.tan (|fov| / 2) = 0 ∨ ∃ i, ratios i = 0) := by
    rintro (h | ⟨i, h⟩)
    · exact hw h
    · exact hr i h
  have hp' : (near < 0 ∧ far < near) ∨ (0 < near ∧ near < far) := hp
  have hnone : perspective o (n + 3) (n + 3) fov ratios near far pn pf ≠ none := by
    rw [Ne, C57_rejects]
    rintro (h | h)
    · exact h hp
    · exact hnot h
  obtain ⟨m, hm⟩ := Option.ne_none_iff_exists'.1 hnone
  refine ⟨m, hm, fun a b ha hb => ?_⟩
  have hR : inR o (n + 3) (n + 3) a b := by cases o <;> simp only [inR] <;> omega
  rw [perspective] at hm
  simp only [hp', if_true, e, hnot, if_false, Option.some.injEq] at hm
  rw [← hm]
  cases o
  · rw [ent_setAt_f, ent_setAt_f, ent_setAt_f, hdiag a b ha hb]
    simp only [hR, and_true, show n + 3 - 2 = n + 1 by omega, show n + 3 - 1 = n + 2 by omega]
    split_ifs <;> first | rfl | (exfalso; omega)
  · rw [ent_setAt_p, ent_setAt_p, ent_setAt_p, hdiag a b ha hb]
    simp only [hR, and_true, show n + 3 - 2 = n + 1 by omega, show n + 3 - 1 = n + 2 by omega]

private theorem persp_cast {n : ℕ} (o : Order) : tRows o (n + 2) .homogeneous = n + 3 ∧ tCols o (n + 2) .homogeneous = n + 3 := by
  cases o <;> exact ⟨rfl, rfl⟩

/-- What the projection does to a position `v` in front of the eye: lateral coordinates are divided by the distance `|z|`, and the depth is
`((f F - n N) z + F N (n - f)) / ((F - N) z)`. C57, without the inversion of axes that the documentation promises. -/
theorem C57_projection_partial {n : ℕ} (o : Order) (fov : ℝ) (ratios : Fin (n + 1) → ℝ) (near far pn pf : ℝ) (hp : ValidPlanes near far)
    (hw : Real.tan (|fov| / 2) ≠ 0) (hr : ∀ i, ratios i ≠ 0) :
    ∃ m, perspective o (tRows o (n + 2) .homogeneous) (tCols o (n + 2) .homogeneous) fov ratios near far pn pf = some m ∧
      (∀ v, applyT o .homogeneous m v = none ↔ v (Fin.last (n + 1)) = 0) ∧
      ∀ v : Fin (n + 2) → ℝ, 0 < v (Fin.last (n + 1)) * near → ∃ w, applyT o .homogeneous m v = some w ∧
        (∀ i : Fin (n + 1), w i.castSucc = ratios 0 / ratios i * (v i.castSucc / |v (Fin.last (n + 1))|) / Real.tan (|fov| / 2)) ∧
        w (Fin.last (n + 1)) =
          ((pf * far - pn * near) * v (Fin.last (n + 1)) + far * near * (pn - pf)) / ((far - near) * v (Fin.last (n + 1))) := by
  have hex : ∃ m : Matrix (Fin (tRows o (n + 2) .homogeneous)) (Fin (tCols o (n + 2) .homogeneous)) ℝ,
      perspective o (tRows o (n + 2) .homogeneous) (tCols o (n + 2) .homogeneous) fov ratios near far pn pf = some m ∧
      ∀ a b, a < n + 3 → b < n + 3 → ent o m a b =
      if a = n + 2 ∧ b = n + 1 then (if near < 0 then -1 else 1)
      else if a = n + 1 ∧ b = n + 2 then (if near < 0 then -1 else 1) * far * near * (pn - pf) / (far - near)
      else if a = n + 1 ∧ b = n + 1 then (if near < 0 then -1 else 1) * (pf * far - pn * near) / (far - near)
      else if h : a < n + 1 then (if a = b then ratios 0 / ratios ⟨a, h⟩ / Real.tan (|fov| / 2) else 0) else 0 := by
    obtain ⟨m, hm, he⟩ := persp_ent o fov ratios near far pn pf hp hw hr
    cases o <;> exact ⟨m, hm, he⟩
  obtain ⟨m, hm, he⟩ := hex
  have hC : (if near < 0 then (-1 : ℝ) else 1) ≠ 0 := by split_ifs <;> norm_num
  generalize hCd : (if near < 0 then (-1 : ℝ) else 1) = C at he hC
  -- the last output
  have hlast : ∀ v : Fin (n + 2) → ℝ, ∑ j : Fin (n + 2), ent o m (n + 2) j * v j + ent o m (n + 2) (n + 2) =
      C * v (Fin.last (n + 1)) := by
    intro v
    rw [Fin.sum_univ_castSucc, he _ _ (by omega) (by omega), Finset.sum_eq_zero, he _ _ (by simp) (by simp)]
    · simp
    · intro j _
      rw [he _ _ (by simp) (by simp; omega)]
      simp; omega
  have hlat : ∀ (v : Fin (n + 2) → ℝ) (i : Fin (n + 1)), ∑ j : Fin (n + 2), ent o m i j * v j + ent o m i (n + 2) =
      ratios 0 / ratios i / Real.tan (|fov| / 2) * v i.castSucc := by
    intro v i
    rw [Finset.sum_eq_single i.castSucc]
    · rw [he _ _ (by omega) (by simp; omega), he _ _ (by omega) (by omega)]
      have h1 : i.val ≠ n + 1 := by omega
      have h2 : i.val ≠ n + 2 := by omega
      simp [h1, h2, i.isLt]
    · intro j _ hj
      rw [he _ _ (by omega) (by omega)]
      have h1 : i.val ≠ n + 1 := by omega
      have h2 : i.val ≠ n + 2 := by omega
      have h3 : i.val ≠ j.val := fun e => hj (Fin.ext e.symm)
      simp [h1, h2, h3]
    · simp
  have hdep : ∀ v : Fin (n + 2) → ℝ, ∑ j : Fin (n + 2), ent o m (n + 1) j * v j + ent o m (n + 1) (n + 2) =
      C * ((pf * far - pn * near) * v (Fin.last (n + 1)) + far * near * (pn - pf)) / (far - near) := by
    intro v
    rw [Finset.sum_eq_single (Fin.last (n + 1))]
    · rw [he _ _ (by omega) (by simp), he _ _ (by omega) (by omega)]
      simp
      ring
    · intro j _ hj
      rw [he _ _ (by omega) (by omega)]
      have h1 : j.val ≠ n + 1 := fun e => hj (Fin.ext e)
      have h2 : j.val ≠ n + 2 := by omega
      simp [h1, h2]
    · simp
  refine ⟨m, hm, fun v => ?_, fun v hv => ?_⟩
  · rw [applyT_hom, hlast]
    split_ifs with h
    · simp only [true_iff]
      exact (mul_eq_zero.1 h).resolve_left hC
    · simp only [reduceCtorEq, false_iff]
      intro h0
      exact h (by rw [h0, mul_zero])
  · have hz : v (Fin.last (n + 1)) ≠ 0 := fun e => by rw [e, zero_mul] at hv; exact lt_irrefl _ hv
    have habs : C * v (Fin.last (n + 1)) = |v (Fin.last (n + 1))| := by
      rw [← hCd]
      split_ifs with hn
      · have : v (Fin.last (n + 1)) < 0 := by nlinarith
        rw [abs_of_neg this]; ring
      · have hn' : 0 < near := lt_of_le_of_ne (not_lt.1 hn) (fun e => by rw [← e, mul_zero] at hv; exact lt_irrefl _ hv)
        have : 0 < v (Fin.last (n + 1)) := by nlinarith
        rw [abs_of_pos this]; ring
    have hd : far - near ≠ 0 := by
      rcases hp with ⟨_, h⟩ | ⟨_, h⟩
      · exact (sub_neg.2 h).ne
      · exact (sub_pos.2 h).ne'
    rw [applyT_hom, hlast, if_neg (mul_ne_zero hC hz)]
    refine ⟨_, rfl, fun i => ?_, ?_⟩
    · simp only [Fin.val_castSucc]
      rw [hlat v i, habs]
      have := abs_ne_zero.2 hz
      have := hr i
      field_simp
    · simp only [Fin.val_last]
      rw [hdep v]
      field_simp

/-- Planes on the negative side. -/
example : ValidPlanes (-1) (-10) ∧ Real.tan (|Real.pi / 2| / 2) ≠ 0 ∧ (∀ i, (![1, 9 / 16] : Fin 2 → ℝ) i ≠ 0) ∧
    0 < (![3, 4, -5] : Fin 3 → ℝ) (Fin.last 2) * -1 := by
  refine ⟨Or.inl (by norm_num), ?_, ?_, ?_⟩
  · rw [abs_of_pos (by positivity), show Real.pi / 2 / 2 = Real.pi / 4 by ring, Real.tan_pi_div_four]; norm_num
  · intro i; fin_cases i <;> norm_num
  · norm_num [Fin.last]

/-- C57: the near plane is mapped to the projected near plane, the far plane to the projected far plane. -/
theorem C57_planes_partial {n : ℕ} (o : Order) (fov : ℝ) (ratios : Fin (n + 1) → ℝ) (near far pn pf : ℝ) (hp : ValidPlanes near far)
    (hw : Real.tan (|fov| / 2) ≠ 0) (hr : ∀ i, ratios i ≠ 0) :
    ∃ m, perspective o (tRows o (n + 2) .homogeneous) (tCols o (n + 2) .homogeneous) fov ratios near far pn pf = some m ∧
      (∀ v : Fin (n + 2) → ℝ, v (Fin.last (n + 1)) = near → ∃ w, applyT o .homogeneous m v = some w ∧ w (Fin.last (n + 1)) = pn) ∧
      (∀ v : Fin (n + 2) → ℝ, v (Fin.last (n + 1)) = far → ∃ w, applyT o .homogeneous m v = some w ∧ w (Fin.last (n + 1)) = pf) ∧
      (pn < pf → ∀ v : Fin (n + 2) → ℝ, |near| ≤ |v (Fin.last (n + 1))| → |v (Fin.last (n + 1))| ≤ |far| → 0 < v (Fin.last (n + 1)) * near →
        ∃ w, applyT o .homogeneous m v = some w ∧ pn ≤ w (Fin.last (n + 1)) ∧ w (Fin.last (n + 1)) ≤ pf) := by
  obtain ⟨m, hm, -, hv⟩ := C57_projection_partial o fov ratios near far pn pf hp hw hr
  have hd : far - near ≠ 0 := by
    rcases hp with ⟨_, h⟩ | ⟨_, h⟩
    · exact (sub_neg.2 h).ne
    · exact (sub_pos.2 h).ne'
  have hn0 : near ≠ 0 := by rcases hp with ⟨h, _⟩ | ⟨h, _⟩ <;> [exact h.ne; exact h.ne']
  have hf0 : far ≠ 0 := by rcases hp with ⟨h, h'⟩ | ⟨h, h'⟩ <;> [exact (h'.trans h).ne; exact (h.trans h').ne']
  refine ⟨m, hm, fun v e => ?_, fun v e => ?_, fun hlt v h1 h2 h3 => ?_⟩
  · obtain ⟨w, hw, -, hz⟩ := hv v (by rw [e]; exact mul_self_pos.2 hn0)
    refine ⟨w, hw, ?_⟩
    rw [hz, e]
    field_simp
    ring
  · obtain ⟨w, hw, -, hz⟩ := hv v (by rw [e]; rcases hp with ⟨h, h'⟩ | ⟨h, h'⟩ <;> nlinarith)
    refine ⟨w, hw, ?_⟩
    rw [hz, e]
    field_simp
    ring
  · obtain ⟨w, hw, -, hz⟩ := hv v h3
    refine ⟨w, hw, ?_⟩
    generalize v (Fin.last (n + 1)) = z at *
    have e1 : w (Fin.last (n + 1)) - pn = (pf - pn) * (far * (z - near)) / ((far - near) * z) := by
      have hz0 : z ≠ 0 := fun e => by rw [e, zero_mul] at h3; exact lt_irrefl _ h3
      rw [hz]; field_simp; ring
    have e2 : pf - w (Fin.last (n + 1)) = (pf - pn) * (near * (far - z)) / ((far - near) * z) := by
      have hz0 : z ≠ 0 := fun e => by rw [e, zero_mul] at h3; exact lt_irrefl _ h3
      rw [hz]; field_simp; ring
    have hpos : 0 < pf - pn := sub_pos.2 hlt
    rcases hp with ⟨ha, hb⟩ | ⟨ha, hb⟩
    · have hz0 : z < 0 := by nlinarith
      rw [abs_of_neg ha, abs_of_neg hz0] at h1
      rw [abs_of_neg hz0, abs_of_neg (hb.trans ha)] at h2
      have d : 0 < (far - near) * z := mul_pos_of_neg_of_neg (by linarith) hz0
      have n1 : 0 ≤ far * (z - near) := mul_nonneg_of_nonpos_of_nonpos (by linarith) (by linarith)
      have n2 : 0 ≤ near * (far - z) := mul_nonneg_of_nonpos_of_nonpos (by linarith) (by linarith)
      have q1 := div_nonneg (mul_nonneg hpos.le n1) d.le
      have q2 := div_nonneg (mul_nonneg hpos.le n2) d.le
      constructor <;> linarith
    · have hz0 : 0 < z := by nlinarith
      rw [abs_of_pos ha, abs_of_pos hz0] at h1
      rw [abs_of_pos hz0, abs_of_pos (ha.trans hb)] at h2
      have d : 0 < (far - near) * z := mul_pos (by linarith) hz0
      have n1 : 0 ≤ far * (z - near) := mul_nonneg (by linarith) (by linarith)
      have n2 : 0 ≤ near * (far - z) := mul_nonneg (by linarith) (by linarith)
      have q1 := div_nonneg (mul_nonneg hpos.le n1) d.le
      have q2 := div_nonneg (mul_nonneg hpos.le n2) d.le
      constructor <;> linarith

/-- C57: points on one line of sight share their image, and the edge of the field of view on the first axis is mapped to ±1. -/
theorem C57_line_of_sight_partial {n : ℕ} (o : Order) (fov : ℝ) (ratios : Fin (n + 1) → ℝ) (near far pn pf : ℝ) (hp : ValidPlanes near far)
    (hw : Real.tan (|fov| / 2) ≠ 0) (hr : ∀ i, ratios i ≠ 0) :
    ∃ m, perspective o (tRows o (n + 2) .homogeneous) (tCols o (n + 2) .homogeneous) fov ratios near far pn pf = some m ∧
      ∀ v : Fin (n + 2) → ℝ, 0 < v (Fin.last (n + 1)) * near → ∃ w, applyT o .homogeneous m v = some w ∧
        (∀ t : ℝ, 0 < t → ∃ w', applyT o .homogeneous m (t • v) = some w' ∧ ∀ i : Fin (n + 1), w' i.castSucc = w i.castSucc) ∧
        ∀ s : ℝ, v 0 = s * Real.tan (|fov| / 2) * |v (Fin.last (n + 1))| → w 0 = s := by
  obtain ⟨m, hm, -, hv⟩ := C57_projection_partial o fov ratios near far pn pf hp hw hr
  refine ⟨m, hm, fun v hz => ?_⟩
  obtain ⟨w, hw1, hl, -⟩ := hv v hz
  have hz0 : v (Fin.last (n + 1)) ≠ 0 := fun e => by rw [e, zero_mul] at hz; exact lt_irrefl _ hz
  refine ⟨w, hw1, fun t ht => ?_, fun s hs => ?_⟩
  · obtain ⟨w', hw', hl', -⟩ := hv (t • v) (by rw [Pi.smul_apply, smul_eq_mul, mul_assoc]; exact mul_pos ht hz)
    refine ⟨w', hw', fun i => ?_⟩
    rw [hl', hl, Pi.smul_apply, Pi.smul_apply, smul_eq_mul, smul_eq_mul, abs_mul, abs_of_pos ht, mul_div_mul_left _ _ ht.ne']
  · have h0 := hl 0
    rw [Fin.castSucc_zero] at h0
    rw [h0, hs, div_self (hr 0)]
    have := abs_ne_zero.2 hz0
    field_simp

/-- C57: with a positive first ratio, an axis is inverted exactly when its ratio is negative (field of view up to half a turn). The
documentation promises this without the condition on the first ratio. -/
theorem C57_inversion_partial {n : ℕ} (o : Order) (fov : ℝ) (ratios : Fin (n + 1) → ℝ) (near far pn pf : ℝ) (hp : ValidPlanes near far)
    (hf0 : fov ≠ 0) (hf : |fov| < Real.pi) (hr : ∀ i, ratios i ≠ 0) (h0 : 0 < ratios 0) :
    ∃ m, perspective o (tRows o (n + 2) .homogeneous) (tCols o (n + 2) .homogeneous) fov ratios near far pn pf = some m ∧
      ∀ v : Fin (n + 2) → ℝ, 0 < v (Fin.last (n + 1)) * near → ∃ w, applyT o .homogeneous m v = some w ∧
        ∀ i : Fin (n + 1), 0 < v i.castSucc → (0 < w i.castSucc ↔ 0 < ratios i) ∧ (w i.castSucc < 0 ↔ ratios i < 0) := by
  have ht : 0 < Real.tan (|fov| / 2) := Real.tan_pos_of_pos_of_lt_pi_div_two (by have := abs_pos.2 hf0; linarith) (by linarith)
  obtain ⟨m, hm, -, hv⟩ := C57_projection_partial o fov ratios near far pn pf hp ht.ne' hr
  refine ⟨m, hm, fun v hz => ?_⟩
  obtain ⟨w, hw, hl, -⟩ := hv v hz
  have hz0 : v (Fin.last (n + 1)) ≠ 0 := fun e => by rw [e, zero_mul] at hz; exact lt_irrefl _ hz
  refine ⟨w, hw, fun i hi => ?_⟩
  have hq : 0 < ratios 0 * (v i.castSucc / |v (Fin.last (n + 1))|) / Real.tan (|fov| / 2) := by
    have := abs_pos.2 hz0
    positivity
  have e : w i.castSucc = ratios 0 * (v i.castSucc / |v (Fin.last (n + 1))|) / Real.tan (|fov| / 2) / ratios i := by
    rw [hl]; ring
  rw [e]
  generalize ratios 0 * (v i.castSucc / |v (Fin.last (n + 1))|) / Real.tan (|fov| / 2) = q at *
  rcases lt_or_gt_of_ne (hr i) with h | h
  · have := div_neg_of_pos_of_neg hq h
    constructor <;> constructor <;> intro <;> linarith
  · have := div_pos hq h
    constructor <;> constructor <;> intro <;> linarith

/-- C57 is violated: with a negative first ratio the first axis is not inverted, but every axis with a positive ratio is. -/
theorem C57_inversion_violated {n : ℕ} (o : Order) (fov : ℝ) (ratios : Fin (n + 1) → ℝ) (near far pn pf : ℝ) (hp : ValidPlanes near far)
    (hf0 : fov ≠ 0) (hf : |fov| < Real.pi) (hr : ∀ i, ratios i ≠ 0) (h0 : ratios 0 < 0) :
    ∃ m, perspective o (tRows o (n + 2) .homogeneous) (tCols o (n + 2) .homogeneous) fov ratios near far pn pf = some m ∧
      ∀ v : Fin (n + 2) → ℝ, 0 < v (Fin.last (n + 1)) * near → ∃ w, applyT o .homogeneous m v = some w ∧
        (0 < v 0 → 0 < w 0) ∧ ∀ i : Fin (n + 1), 0 < v i.castSucc → 0 < ratios i → w i.castSucc < 0 := by
  have ht : 0 < Real.tan (|fov| / 2) := Real.tan_pos_of_pos_of_lt_pi_div_two (by have := abs_pos.2 hf0; linarith) (by linarith)
  obtain ⟨m, hm, -, hv⟩ := C57_projection_partial o fov ratios near far pn pf hp ht.ne' hr
  refine ⟨m, hm, fun v hz => ?_⟩
  obtain ⟨w, hw, hl, -⟩ := hv v hz
  have hz0 : v (Fin.last (n + 1)) ≠ 0 := fun e => by rw [e, zero_mul] at hz; exact lt_irrefl _ hz
  have hza := abs_pos.2 hz0
  refine ⟨w, hw, fun hi => ?_, fun i hi hri => ?_⟩
  · have := hl 0
    rw [Fin.castSucc_zero] at this
    rw [this, div_self (hr 0)]
    positivity
  · rw [hl]
    have h1 : 0 < v i.castSucc / |v (Fin.last (n + 1))| := by positivity
    exact div_neg_of_neg_of_pos (mul_neg_of_neg_of_pos (div_neg_of_neg_of_pos h0 hri) h1) ht

/-- C57 is violated by the two-dimensional overload: the sign of the field of view has no effect. -/
theorem C57_2D_violated (o : Order) (r c : ℕ) (fov near far pn pf : ℝ) :
    perspective2D o r c (-fov) near far pn pf = perspective2D o r c fov near far pn pf := by
  have key : ∀ a : ℝ, a ≠ 0 → perspective (n := 0) o r c |fov| ![a] near far pn pf = perspective (n := 0) o r c |fov| ![1] near far pn pf := by
    intro a ha
    have h1 : ∀ i : Fin 1, (![a] : Fin 1 → ℝ) i = a := fun i => by fin_cases i; rfl
    have h2 : ∀ i : Fin 1, (![(1 : ℝ)] : Fin 1 → ℝ) i = 1 := fun i => by fin_cases i; rfl
    simp only [perspective, h1, h2, ha, div_self, one_ne_zero, exists_const, ne_eq, not_false_iff]
  rw [perspective2D, perspective2D, abs_neg]
  rw [key (if -fov < 0 then -1 else 1) (by split_ifs <;> norm_num), key (if fov < 0 then -1 else 1) (by split_ifs <;> norm_num)]

/-- C57 is violated by the three-dimensional overload: a negative field of view inverts Y instead of X, it is the same as a negative
aspect ratio. -/
theorem C57_3D_violated (o : Order) (r c : ℕ) (fov aspect near far pn pf : ℝ) (hf : 0 < fov) :
    perspective3D o r c (-fov) aspect near far pn pf = perspective3D o r c fov (-aspect) near far pn pf := by
  rw [perspective3D, perspective3D]
  by_cases ha : aspect = 0
  · rw [if_pos ha, if_pos (by rw [ha, neg_zero])]
  · rw [if_neg ha, if_neg (neg_ne_zero.2 ha)]
    simp only [abs_neg, if_pos (neg_lt_zero.2 hf), if_neg (not_lt.2 hf.le)]
    have ha' : 1 / aspect ≠ 0 := one_div_ne_zero ha
    have hex : ∀ x y : ℝ, x ≠ 0 → y ≠ 0 → ((∃ i : Fin 2, (![x, y] : Fin 2 → ℝ) i = 0) ↔ False) := by
      intro x y hx hy
      refine ⟨fun ⟨i, hi⟩ => ?_, False.elim⟩
      fin_cases i
      · exact hx hi
      · exact hy hi
    have h1 := hex (-1) (1 / aspect) (by norm_num) ha'
    have h2 := hex 1 (1 / -aspect) (by norm_num) (one_div_ne_zero (neg_ne_zero.2 ha))
    have h3 : ∀ i : Fin 2, (![-1, 1 / aspect] : Fin 2 → ℝ) 0 / (![-1, 1 / aspect] : Fin 2 → ℝ) i =
        (![1, 1 / -aspect] : Fin 2 → ℝ) 0 / (![1, 1 / -aspect] : Fin 2 → ℝ) i := by
      intro i; fin_cases i <;> simp
    unfold perspective
    simp only [h1, h2, h3]

/-- The 3D overload with a positive field of view: X is not inverted, Y by a negative aspect ratio, and the edges of the picture are
reached at the field of view and at the field of view divided by the aspect ratio. -/
theorem C57_3D_partial (o : Order) (fov aspect near far pn pf : ℝ) (hp : ValidPlanes near far) (hf : 0 < fov) (hf' : fov < Real.pi)
    (ha : aspect ≠ 0) :
    ∃ m, perspective3D o (tRows o 3 .homogeneous) (tCols o 3 .homogeneous) fov aspect near far pn pf = some m ∧
      ∀ v : Fin 3 → ℝ, 0 < v 2 * near → ∃ w, applyT o .homogeneous m v = some w ∧
        w 0 = v 0 / (|v 2| * Real.tan (fov / 2)) ∧ w 1 = aspect * v 1 / (|v 2| * Real.tan (fov / 2)) := by
  have ht : 0 < Real.tan (fov / 2) := Real.tan_pos_of_pos_of_lt_pi_div_two (by linarith) (by linarith)
  have hr : ∀ i : Fin 2, (![1, 1 / aspect] : Fin 2 → ℝ) i ≠ 0 := by
    intro i; fin_cases i
    · simp
    · simpa using ha
  have habs : |(|fov|)| = fov := by rw [abs_abs, abs_of_pos hf]
  obtain ⟨m, hm, -, hv⟩ := C57_projection_partial (n := 1) o |fov| ![1, 1 / aspect] near far pn pf hp (by rw [habs]; exact ht.ne') hr
  refine ⟨m, ?_, fun v hz => ?_⟩
  · rw [perspective3D, if_neg ha]
    simp only [if_neg (not_lt.2 hf.le)]
    exact hm
  · obtain ⟨w, hw, hl, -⟩ := hv v hz
    refine ⟨w, hw, (hl 0).trans ?_, (hl 1).trans ?_⟩
    · rw [habs]
      show 1 / 1 * (v 0 / |v 2|) / Real.tan (fov / 2) = _
      rw [div_one, one_mul, div_div]
    · rw [habs]
      show 1 / (1 / aspect) * (v 1 / |v 2|) / Real.tan (fov / 2) = _
      rw [one_div_one_div, ← mul_div_assoc, div_div]

end Mathter.Props
