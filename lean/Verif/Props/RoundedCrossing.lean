import Verif.Props.RoundedSegment

/-!
# Property C138: paths of segments through a plane

`Intersect(Hyperplane, LineSegment)` includes the start and excludes the end of the segment, so that in exact arithmetic a path of segments from one side of a
plane to the other is reported to intersect it. With rounding, a path may pass through the plane unnoticed next to a corner.
-/

namespace Mathter.Props
open Mathter

variable {n : ℕ} {fl : ℝ → ℝ} {u : ℝ}

/-- In exact arithmetic a segment that starts on one side of the plane or on the plane and ends on the other side is reported. -/
private theorem segment_hit (p : GPlane (n + 1)) (hp : length p.normal = 1) (s : GSegment (n + 1))
    (h : (∑ i, p.normal i * s.point1 i ≤ p.scalar ∧ p.scalar < ∑ i, p.normal i * s.point2 i) ∨
      (p.scalar ≤ ∑ i, p.normal i * s.point1 i ∧ ∑ i, p.normal i * s.point2 i < p.scalar)) :
    ∃ x, intersectPlaneSegment p s = some x := by
  have hs : s.point1 ≠ s.point2 := fun e => by rw [e] at h; rcases h with h | h <;> linarith [h.1, h.2]
  set a := ∑ i, p.normal i * s.point1 i with ha
  set b := ∑ i, p.normal i * s.point2 i with hb
  have hab : b - a ≠ 0 := by rcases h with h | h <;> intro e <;> linarith [h.1, h.2]
  have hi : ∀ t, s.interpol t ∈ planePoints p ↔ a + t * (b - a) = p.scalar := fun t => by
    have e : ∑ i, p.normal i * s.interpol t i = a + t * (b - a) := by
      rw [ha, hb, ← Finset.sum_sub_distrib, Finset.mul_sum, ← Finset.sum_add_distrib]
      exact Finset.sum_congr rfl fun i _ => by simp [GSegment.interpol]; ring
    show ∑ i, p.normal i * s.interpol t i = p.scalar ↔ _
    rw [e]
  have t0 : 0 ≤ (p.scalar - a) / (b - a) ∧ (p.scalar - a) / (b - a) < 1 := by
    rcases h with h | h
    · have : 0 < b - a := by linarith [h.1, h.2]
      exact ⟨div_nonneg (by linarith [h.1]) this.le, (div_lt_one this).2 (by linarith [h.2])⟩
    · have : b - a < 0 := by linarith [h.1, h.2]
      exact ⟨div_nonneg_of_nonpos (by linarith [h.1]) this.le, (div_lt_one_of_neg this).2 (by linarith [h.2])⟩
  refine ⟨s.interpol ((p.scalar - a) / (b - a)), (C62_segment_partial p s hp hs _).2 ?_⟩
  ext y
  constructor
  · rintro ⟨hy, t, -, -, rfl⟩
    rw [hi] at hy
    have : t = (p.scalar - a) / (b - a) := by rw [eq_div_iff hab]; linarith
    rw [this]; rfl
  · rintro rfl
    exact ⟨(hi _).2 (by rw [div_mul_cancel₀ _ hab]; ring), _, t0.1, t0.2, rfl⟩

/-- C138 (exact arithmetic): a path of any number of segments from one side of a plane to the other is reported to intersect it. Missing: floats, see
`C138_missed_violated`. -/
theorem C138_path_exact_partial (p : GPlane (n + 1)) (hp : length p.normal = 1) (m : ℕ) (path : ℕ → Fin (n + 1) → ℝ)
    (h : (∑ i, p.normal i * path 0 i ≤ p.scalar ∧ p.scalar < ∑ i, p.normal i * path m i) ∨
      (p.scalar ≤ ∑ i, p.normal i * path 0 i ∧ ∑ i, p.normal i * path m i < p.scalar)) :
    ∃ k < m, ∃ x, intersectPlaneSegment p ⟨path k, path (k + 1)⟩ = some x := by
  induction m with
  | zero => rcases h with h | h <;> linarith [h.1, h.2]
  | succ m ih =>
    rcases h with h | h
    · by_cases hm : p.scalar < ∑ i, p.normal i * path m i
      · obtain ⟨k, hk, hx⟩ := ih (Or.inl ⟨h.1, hm⟩)
        exact ⟨k, by omega, hx⟩
      · exact ⟨m, by omega, segment_hit p hp ⟨path m, path (m + 1)⟩ (Or.inl ⟨not_lt.1 hm, h.2⟩)⟩
    · by_cases hm : ∑ i, p.normal i * path m i < p.scalar
      · obtain ⟨k, hk, hx⟩ := ih (Or.inr ⟨h.1, hm⟩)
        exact ⟨k, by omega, hx⟩
      · exact ⟨m, by omega, segment_hit p hp ⟨path m, path (m + 1)⟩ (Or.inr ⟨not_lt.1 hm, h.2⟩)⟩

private theorem norm2_div (w : Fin n → ℝ) (hw : w ≠ 0) : norm2 (fun i => w i / norm2 w) = 1 := by
  have hL := Fl.norm2_pos hw
  rw [show (fun i => w i / norm2 w) = fun i => (norm2 w)⁻¹ * w i from funext fun i => by rw [div_eq_inv_mul], norm2_smul, abs_of_pos (inv_pos.2 hL),
    inv_mul_cancel₀ hL.ne']

/-- The point at a parameter of the computed line, and the point at the same parameter of the exact line. -/
private theorem point_err {γ t : ℝ} (hg : γ ≤ 1 / 1000) {w b d x : Fin n → ℝ} (hw : w ≠ 0) (hd : norm2 (fun i => d i - w i / norm2 w) ≤ 2 * γ)
    (hx : ∀ e, |x e - (b e + t * d e)| ≤ γ * (|b e| + |t| * |d e|)) :
    norm2 d ≤ 1.002 ∧ norm2 (fun i => x i - (b i + t * (w i / norm2 w))) ≤ γ * (norm2 b + 3.1 * |t|) := by
  have hγ0 : 0 ≤ γ := by have := (norm2_nonneg _).trans hd; linarith
  have nd := (abs_le.1 ((norm2_sub_le d fun i => w i / norm2 w).trans hd)).2
  rw [norm2_div w hw] at nd
  have n1 : norm2 d ≤ 1.002 := by linarith
  refine ⟨n1, ?_⟩
  have hr : norm2 (fun e => x e - (b e + t * d e)) ≤ γ * (norm2 b + |t| * norm2 d) := by
    have k1 : norm2 (fun e => γ * (|b e| + |t| * |d e|)) ≤ γ * (norm2 b + |t| * norm2 d) := by
      rw [norm2_smul, abs_of_nonneg hγ0]
      refine mul_le_mul_of_nonneg_left ((norm2_add_le _ _).trans (le_of_eq ?_)) hγ0
      rw [norm2_abs, norm2_smul, abs_abs, norm2_abs]
    exact (norm2_le_of_abs hx).trans k1
  have e : (fun i => x i - (b i + t * (w i / norm2 w))) = fun i => (x i - (b i + t * d i)) + t * (d i - w i / norm2 w) := by funext i; ring
  rw [e]
  refine (norm2_add_le _ _).trans ?_
  rw [norm2_smul]
  have k1 := mul_le_mul_of_nonneg_left hd (abs_nonneg t)
  have k2 := mul_le_mul_of_nonneg_left n1 (abs_nonneg t)
  have k3 := mul_le_mul_of_nonneg_left (add_le_add_right k2 (norm2 b)) hγ0
  have k4 := mul_nonneg hγ0 (abs_nonneg t)
  linarith

/-- C138: a reported point is near a point of the segment and satisfies the equation of the plane, up to rounding errors relative to the coordinates of the
ends and the offset of the plane. Missing: that the point is reported, see `C138_missed_violated`. -/
theorem C138_reported_partial (h : Rounding fl u) {γ : ℝ} (hγ : γ = (1 + u) ^ (n + 4) - 1) (hg : γ ≤ 1 / 1000) {madd : ℝ → ℝ → ℝ → ℝ} (hma : Fl.IsMulAdd fl madd)
    {dot : (Fin n → ℝ) → (Fin n → ℝ) → ℝ} (hdot : Fl.IsDot u n dot) {norm : (Fin n → ℝ) → Fin n → ℝ} {k : ℕ} (hn : Fl.IsNormalize u k norm) (hk : k ≤ n + 2)
    (hn1 : 1 ≤ n) {len : (Fin n → ℝ) → ℝ} {l : ℕ} (hlen : ∀ v, |len v - norm2 v| ≤ ((1 + u) ^ l - 1) * norm2 v) (hl : l ≤ n + 3) (p : GPlane n)
    (s : GSegment n) (hs : s.point1 ≠ s.point2) {x : Fin n → ℝ} (hx : Fl.intersectPlaneSegment fl madd dot norm len p s = some x) :
    (∃ y ∈ segPoints s, norm2 (fun i => x i - y i) ≤ 6 * γ * (norm2 s.point1 + norm2 s.point2)) ∧
      |∑ i, p.normal i * x i - p.scalar - (∑ i, p.normal i ^ 2 - 1) * p.scalar| ≤
        γ * norm2 p.normal * (norm2 p.normal * |p.scalar| + 5 * (norm2 s.point1 + norm2 s.point2)) := by
  have hu := h.u_nonneg
  have hγ0 : 0 ≤ γ := by rw [hγ]; linarith [h.one_le (n + 4)]
  have mono : ∀ {j}, j ≤ n + 4 → (1 + u) ^ j - 1 ≤ γ := fun hj => by rw [hγ]; exact sub_le_sub_right (pow_le_pow_right₀ (by linarith) hj) 1
  have hw : (fun i => s.point2 i - s.point1 i) ≠ 0 := fun e => hs (funext fun i => (sub_eq_zero.1 (congrFun e i)).symm)
  have hL := Fl.norm2_pos hw
  have hd := (Fl.direction_err h hn hk hn1 ((mono (by omega)).trans hg) hs).trans (mul_le_mul_of_nonneg_left (mono (j := n + 3) (by omega)) zero_le_two)
  have hlen' : |len (fun i => fl (s.point1 i - s.point2 i)) - norm2 (fun i => s.point2 i - s.point1 i)| ≤ γ * norm2 (fun i => s.point2 i - s.point1 i) := by
    have := Fl.len_sub h hlen s.point1 s.point2
    rw [show norm2 (s.point1 - s.point2) = norm2 (fun i => s.point2 i - s.point1 i) by
      rw [← norm2_neg]; congr 1; funext i; simp] at this
    exact this.trans (mul_le_mul_of_nonneg_right (mono (by omega)) hL.le)
  unfold Fl.intersectPlaneSegment at hx
  split at hx
  · simp at hx
  rename_i t ht
  split at hx
  swap
  · simp at hx
  rename_i hr
  have hplane : Fl.intersectPlaneLine fl madd dot p (Fl.segLine fl norm s) = some x := by
    unfold Fl.intersectPlaneLine; rw [ht, Option.map_some]; exact hx
  rw [Option.some_inj] at hx
  have hpt := fun e => (C116_point_at h hma (Fl.segLine fl norm s) t e).trans (mul_le_mul_of_nonneg_right (mono (j := 2) (by omega)) (by positivity))
  rw [hx] at hpt
  obtain ⟨n1, hpe⟩ := point_err hg hw hd hpt
  change norm2 (fun i => x i - (s.point1 i + t * ((s.point2 i - s.point1 i) / norm2 fun i => s.point2 i - s.point1 i))) ≤ γ * (norm2 s.point1 + 3.1 * |t|) at hpe
  have hLle : norm2 (fun i => s.point2 i - s.point1 i) ≤ norm2 s.point1 + norm2 s.point2 := by
    have := norm2_add_le s.point2 fun i => -s.point1 i
    rw [norm2_neg] at this
    simpa only [sub_eq_add_neg, add_comm (norm2 s.point1)] using this
  have b1 := norm2_nonneg s.point1
  have b2 := norm2_nonneg s.point2
  have htL : t ≤ (1 + γ) * norm2 fun i => s.point2 i - s.point1 i := by linarith [hr.2, (abs_le.1 hlen').2]
  have ht0 := hr.1
  rw [abs_of_nonneg ht0] at hpe
  have ht2 : t ≤ 1.001 * (norm2 s.point1 + norm2 s.point2) := by
    have := mul_le_mul (show 1 + γ ≤ 1.001 by linarith) hLle hL.le (by norm_num)
    linarith
  set w : Fin n → ℝ := fun i => s.point2 i - s.point1 i with hwd
  set L := norm2 w
  constructor
  · refine ⟨s.interpol (min (t / L) 1), ⟨_, le_min (div_nonneg ht0 hL.le) zero_le_one, min_le_right _ _, rfl⟩, ?_⟩
    have e : (fun i => x i - s.interpol (min (t / L) 1) i) = fun i => (x i - (s.point1 i + t * (w i / L))) + (t / L - min (t / L) 1) * w i := by
      funext i; simp [GSegment.interpol, hwd]; ring
    rw [e]
    refine (norm2_add_le _ _).trans ?_
    rw [norm2_smul]
    have k1 : |t / L - min (t / L) 1| ≤ γ := by
      rw [abs_of_nonneg (sub_nonneg.2 (min_le_left _ _))]
      rcases min_choice (t / L) 1 with e | e <;> rw [e]
      · rw [sub_self]; exact hγ0
      · have : t / L ≤ 1 + γ := by rw [div_le_iff₀ hL]; exact htL
        linarith
    have k2 := mul_le_mul k1 hLle hL.le hγ0
    have k3 := mul_le_mul_of_nonneg_left ht2 hγ0
    have k4 := mul_nonneg hγ0 b1
    have k5 := mul_nonneg hγ0 b2
    have k6 : γ * (norm2 s.point1 + 3.1 * t) + γ * (norm2 s.point1 + norm2 s.point2) ≤ 6 * γ * (norm2 s.point1 + norm2 s.point2) := by linarith
    exact (add_le_add hpe k2).trans k6
  · refine (plane_residual h hma hdot p _ t x ht hx).trans ?_
    have c1 : ∑ i, |p.normal i| * (|p.normal i| * |p.scalar| + 2 * |s.point1 i| + 2 * (|t| * |(Fl.segLine fl norm s).direction i|)) ≤
        norm2 p.normal * (norm2 p.normal * |p.scalar| + 5 * (norm2 s.point1 + norm2 s.point2)) := by
      have e : ∑ i, |p.normal i| * (|p.normal i| * |p.scalar| + 2 * |s.point1 i| + 2 * (|t| * |(Fl.segLine fl norm s).direction i|)) =
          ∑ i, |p.normal i| * |p.normal i| * |p.scalar| + 2 * ∑ i, |p.normal i| * |s.point1 i| +
            2 * |t| * ∑ i, |p.normal i| * |(Fl.segLine fl norm s).direction i| := by
        rw [Finset.mul_sum, Finset.mul_sum, ← Finset.sum_add_distrib, ← Finset.sum_add_distrib]
        exact Finset.sum_congr rfl fun i _ => by ring
      have k1 := abs_dot_le p.normal p.normal
      have k2 := abs_dot_le p.normal s.point1
      have k3 := abs_dot_le p.normal (Fl.segLine fl norm s).direction
      have n0 := norm2_nonneg p.normal
      rw [e, ← Finset.sum_mul, abs_of_nonneg ht0]
      have q1 := mul_le_mul_of_nonneg_right k1 (abs_nonneg p.scalar)
      have q3 := mul_le_mul_of_nonneg_left (k3.trans (mul_le_mul_of_nonneg_left n1 n0)) ht0
      have q4 := mul_le_mul_of_nonneg_left ht2 n0
      have q5 := mul_nonneg n0 b1
      have q6 := mul_nonneg n0 b2
      linarith
    rw [mul_assoc γ]
    exact mul_le_mul (mono (by omega)) c1 (Finset.sum_nonneg fun i _ => by positivity) hγ0

/-- C138: a segment that passes through the plane well inside is reported to intersect it, at a point near the exact one: the margins are rounding errors divided
by the cosine of the angle between the segment and the normal vector. Missing: segments that meet the plane near an end, see `C138_missed_violated`. -/
theorem C138_found_partial (h : Rounding fl u) {γ : ℝ} (hγ : γ = (1 + u) ^ (n + 4) - 1) (hg : γ ≤ 1 / 1000) {madd : ℝ → ℝ → ℝ → ℝ} (hma : Fl.IsMulAdd fl madd)
    {dot : (Fin n → ℝ) → (Fin n → ℝ) → ℝ} (hdot : Fl.IsDot u n dot) {norm : (Fin n → ℝ) → Fin n → ℝ} {k : ℕ} (hn : Fl.IsNormalize u k norm) (hk : k ≤ n + 2)
    (hn1 : 1 ≤ n) {len : (Fin n → ℝ) → ℝ} {l : ℕ} (hlen : ∀ v, |len v - norm2 v| ≤ ((1 + u) ^ l - 1) * norm2 v) (hl : l ≤ n + 3) (p : GPlane n)
    (hp : |∑ i, p.normal i ^ 2 - 1| ≤ γ) (s : GSegment n) (hs : s.point1 ≠ s.point2) {σ cos M : ℝ} (hσ : s.interpol σ ∈ planePoints p) (hσ1 : σ < 1) (hc0 : 0 < cos)
    (hcos : cos * norm2 (fun i => s.point2 i - s.point1 i) = |∑ i, p.normal i * (s.point2 i - s.point1 i)|)
    (hM : M = norm2 s.point1 + norm2 s.point2 + |p.scalar|)
    (m1 : 50 * γ * M ≤ cos * (σ * norm2 (fun i => s.point2 i - s.point1 i)))
    (m2 : 50 * γ * M ≤ cos * ((1 - σ) * norm2 (fun i => s.point2 i - s.point1 i))) :
    ∃ x, Fl.intersectPlaneSegment fl madd dot norm len p s = some x ∧ norm2 (fun i => x i - s.interpol σ i) ≤ 12 * γ * M / cos := by
  have hu := h.u_nonneg
  have hγ0 : 0 ≤ γ := by rw [hγ]; linarith [h.one_le (n + 4)]
  have mono : ∀ {j}, j ≤ n + 4 → (1 + u) ^ j - 1 ≤ γ := fun hj => by rw [hγ]; exact sub_le_sub_right (pow_le_pow_right₀ (by linarith) hj) 1
  have hw : (fun i => s.point2 i - s.point1 i) ≠ 0 := fun e => hs (funext fun i => (sub_eq_zero.1 (congrFun e i)).symm)
  have hL := Fl.norm2_pos hw
  have hd := (Fl.direction_err h hn hk hn1 ((mono (by omega)).trans hg) hs).trans (mul_le_mul_of_nonneg_left (mono (j := n + 3) (by omega)) zero_le_two)
  have hlen' : |len (fun i => fl (s.point1 i - s.point2 i)) - norm2 (fun i => s.point2 i - s.point1 i)| ≤ γ * norm2 (fun i => s.point2 i - s.point1 i) := by
    have := Fl.len_sub h hlen s.point1 s.point2
    rw [show norm2 (s.point1 - s.point2) = norm2 (fun i => s.point2 i - s.point1 i) by
      rw [← norm2_neg]; congr 1; funext i; simp] at this
    exact this.trans (mul_le_mul_of_nonneg_right (mono (by omega)) hL.le)
  have hLle : norm2 (fun i => s.point2 i - s.point1 i) ≤ norm2 s.point1 + norm2 s.point2 := by
    have := norm2_add_le s.point2 fun i => -s.point1 i
    rw [norm2_neg] at this
    simpa only [sub_eq_add_neg, add_comm (norm2 s.point1)] using this
  have b1 := norm2_nonneg s.point1
  have b2 := norm2_nonneg s.point2
  have b3 := abs_nonneg p.scalar
  have n0 := norm2_nonneg p.normal
  have nn : norm2 p.normal ≤ 1.001 := by
    have e : norm2 p.normal ^ 2 = ∑ i, p.normal i ^ 2 := norm2_sq p.normal
    have := (abs_le.1 hp).2
    by_contra hc
    rw [not_le] at hc
    have : 1.001 * 1.001 < norm2 p.normal * norm2 p.normal := mul_lt_mul'' hc hc (by norm_num) (by norm_num)
    norm_num at this
    linarith [sq (norm2 p.normal)]
  have dn : norm2 (norm fun i => fl (s.point2 i - s.point1 i)) ≤ 1.002 := (point_err (b := 0) (x := 0) (t := 0) hg hw hd (fun e => by simp)).1
  have hdd : norm2 (fun i => norm (fun i => fl (s.point2 i - s.point1 i)) i - (s.point2 i - s.point1 i) / norm2 fun i => s.point2 i - s.point1 i) ≤ 2 * γ := hd
  set d : Fin n → ℝ := norm fun i => fl (s.point2 i - s.point1 i) with hdef
  set w : Fin n → ℝ := fun i => s.point2 i - s.point1 i with hwd
  set L := norm2 w with hLd
  set N := ∑ i, p.normal i * w i with hN
  have hN' : cos * L = |N| := hcos
  have M0 : 0 < M := by linarith
  have σ0 : 0 ≤ σ := by
    by_contra hc
    have : σ * L < 0 := mul_neg_of_neg_of_pos (not_le.1 hc) hL
    have := mul_neg_of_pos_of_neg hc0 this
    have : 0 ≤ 50 * γ * M := by positivity
    linarith
  have c1 : cos ≤ 1.001 := by
    have k1 : |N| ≤ ∑ i, |p.normal i| * |w i| := by
      rw [hN]; refine (Finset.abs_sum_le_sum_abs _ _).trans (le_of_eq (Finset.sum_congr rfl fun i _ => abs_mul _ _))
    have k2 := k1.trans (abs_dot_le p.normal w)
    rw [← hN'] at k2
    exact (le_of_mul_le_mul_right k2 hL).trans nn
  have cγ : 50 * γ ≤ cos := by
    refine le_of_mul_le_mul_right ?_ M0
    have k1 : σ * L ≤ 1 * M := mul_le_mul hσ1.le (by linarith) hL.le zero_le_one
    have := mul_le_mul_of_nonneg_left k1 hc0.le
    linarith
  -- the denominator
  have hden : |dot p.normal d - N / L| ≤ 3.1 * γ := by
    have k1 := hdot p.normal d
    have k2 : ∑ i, |p.normal i * d i| ≤ 1.001 * 1.002 := by
      simp only [abs_mul]
      exact (abs_dot_le p.normal d).trans (mul_le_mul nn dn (norm2_nonneg _) (by norm_num))
    have k3 := k1.trans (mul_le_mul (mono (j := n) (by omega)) k2 (Finset.sum_nonneg fun _ _ => abs_nonneg _) hγ0)
    have e : ∑ i, p.normal i * d i - N / L = ∑ i, p.normal i * (d i - w i / L) := by
      rw [hN, Finset.sum_div, ← Finset.sum_sub_distrib]
      exact Finset.sum_congr rfl fun i _ => by ring
    have k4 : |∑ i, p.normal i * d i - N / L| ≤ 1.001 * (2 * γ) := by
      rw [e]
      refine (Finset.abs_sum_le_sum_abs _ _).trans ?_
      simp only [abs_mul]
      exact (abs_dot_le p.normal _).trans (mul_le_mul nn hdd (norm2_nonneg _) (by norm_num))
    have k5 := abs_add_le (dot p.normal d - ∑ i, p.normal i * d i) (∑ i, p.normal i * d i - N / L)
    rw [sub_add_sub_cancel] at k5
    linarith
  have hNL : |N / L| = cos := by rw [abs_div, ← hN', abs_of_pos hL, mul_div_cancel_right₀ _ hL.ne']
  have hdenc : 0.9 * cos ≤ |dot p.normal d| := by
    have := abs_sub_abs_le_abs_sub (N / L) (dot p.normal d)
    rw [abs_sub_comm, hNL] at this
    linarith
  have hden0 : dot p.normal d ≠ 0 := by
    rw [← abs_pos]; linarith
  -- the numerator
  have hnum : |dot p.normal (fun e => fl (Fl.planeBase fl p e - s.point1 e)) - σ * N| ≤ 2.1 * γ * M := by
    have k1 := (plane_num_near h hdot p s.point1).err
    have e1 : ∑ i, p.normal i * (p.normal i * p.scalar - s.point1 i) = σ * N + (∑ i, p.normal i ^ 2 - 1) * p.scalar := by
      have hσ' : ∑ i, p.normal i * s.interpol σ i = p.scalar := hσ
      have : ∑ i, p.normal i * s.interpol σ i = ∑ i, p.normal i * s.point1 i + σ * N := by
        rw [hN, Finset.mul_sum, ← Finset.sum_add_distrib]
        exact Finset.sum_congr rfl fun i _ => by simp [GSegment.interpol, hwd]; ring
      have e2 : ∑ i, p.normal i * (p.normal i * p.scalar - s.point1 i) = (∑ i, p.normal i ^ 2) * p.scalar - ∑ i, p.normal i * s.point1 i := by
        rw [Finset.sum_mul, ← Finset.sum_sub_distrib]
        exact Finset.sum_congr rfl fun i _ => by ring
      rw [e2]; linarith
    have k2 : ∑ i, |p.normal i| * (|p.normal i| * |p.scalar| + |s.point1 i|) ≤ 1.003 * M := by
      have e : ∑ i, |p.normal i| * (|p.normal i| * |p.scalar| + |s.point1 i|) =
          (∑ i, |p.normal i| * |p.normal i|) * |p.scalar| + ∑ i, |p.normal i| * |s.point1 i| := by
        rw [Finset.sum_mul, ← Finset.sum_add_distrib]
        exact Finset.sum_congr rfl fun i _ => by ring
      have q1 := (abs_dot_le p.normal p.normal).trans (mul_le_mul nn nn n0 (by norm_num))
      have q2 := (abs_dot_le p.normal s.point1).trans (mul_le_mul_of_nonneg_right nn b1)
      have q3 := mul_le_mul_of_nonneg_right q1 b3
      rw [e]; linarith
    have k3 := k1.trans (mul_le_mul (mono (j := n + 2) (by omega)) k2 (Finset.sum_nonneg fun i _ => by positivity) hγ0)
    have k4 : |(∑ i, p.normal i ^ 2 - 1) * p.scalar| ≤ γ * M := by
      rw [abs_mul]; exact mul_le_mul hp (by linarith) b3 hγ0
    rw [e1] at k3
    have k5 := abs_add_le (dot p.normal (fun e => fl (Fl.planeBase fl p e - s.point1 e)) - (σ * N + (∑ i, p.normal i ^ 2 - 1) * p.scalar))
      ((∑ i, p.normal i ^ 2 - 1) * p.scalar)
    rw [show dot p.normal (fun e => fl (Fl.planeBase fl p e - s.point1 e)) - (σ * N + (∑ i, p.normal i ^ 2 - 1) * p.scalar) +
      (∑ i, p.normal i ^ 2 - 1) * p.scalar = dot p.normal (fun e => fl (Fl.planeBase fl p e - s.point1 e)) - σ * N by ring] at k5
    have : 0 ≤ γ * M := by positivity
    linarith
  -- the parameter
  have ht : Fl.planeLineParam fl dot p (Fl.segLine fl norm s) =
      some (fl (dot p.normal (fun e => fl (Fl.planeBase fl p e - s.point1 e)) / dot p.normal d)) := by
    unfold Fl.planeLineParam
    exact if_neg hden0
  set num := dot p.normal (fun e => fl (Fl.planeBase fl p e - s.point1 e)) with hnumd
  set den := dot p.normal d with hdend
  clear_value num den
  have hσL : σ * L ≤ M := by
    have := mul_le_mul hσ1.le (show L ≤ M by linarith) hL.le zero_le_one
    linarith
  have hσL0 : 0 ≤ σ * L := mul_nonneg σ0 hL.le
  have γM : 0 ≤ γ * M := by positivity
  have hq : |num / den - σ * L| ≤ 5.8 * (γ * M / cos) := by
    have e : num / den - σ * L = ((num - σ * N) - σ * L * (den - N / L)) / den := by field_simp; ring
    rw [e, abs_div, div_le_iff₀ (abs_pos.2 hden0)]
    have k1 : |σ * L * (den - N / L)| ≤ M * (3.1 * γ) := by
      rw [abs_mul, abs_of_nonneg hσL0]; exact mul_le_mul hσL hden (abs_nonneg _) M0.le
    have k2 := mul_le_mul_of_nonneg_left hdenc (show 0 ≤ 5.8 * (γ * M / cos) by positivity)
    have k3 : 5.8 * (γ * M / cos) * (0.9 * cos) = 5.22 * (γ * M) := by field_simp; ring
    have k4 := abs_sub (num - σ * N) (σ * L * (den - N / L))
    linarith
  have hγc : γ * M ≤ 1.001 * (γ * M / cos) := by
    rw [← mul_div_assoc, le_div_iff₀ hc0]
    have := mul_le_mul_of_nonneg_left c1 γM
    linarith
  have h50 : γ * M / cos ≤ 0.02 * M := by
    rw [div_le_iff₀ hc0]
    have := mul_le_mul_of_nonneg_right cγ M0.le
    linarith
  have huγ : u ≤ γ := by simpa using mono (j := 1) (by omega)
  have htL : |fl (num / den) - σ * L| ≤ 7 * (γ * M / cos) := by
    have k1 := h.err (num / den)
    have k2 : |num / den| ≤ 1.12 * M := by
      have := abs_sub_abs_le_abs_sub (num / den) (σ * L)
      rw [abs_of_nonneg hσL0] at this
      linarith
    have k3 := mul_le_mul huγ k2 (abs_nonneg _) hγ0
    have k4 := abs_add_le (fl (num / den) - num / den) (num / den - σ * L)
    rw [sub_add_sub_cancel] at k4
    linarith
  set t := fl (num / den) with htd
  clear_value t
  have g1 : γ * M / cos ≤ 0.02 * (σ * L) := by rw [div_le_iff₀ hc0]; linarith
  have g2 : γ * M / cos ≤ 0.02 * ((1 - σ) * L) := by rw [div_le_iff₀ hc0]; linarith
  have t0 : 0 ≤ t := by linarith [(abs_le.1 htL).1]
  have p1 : 0 < (1 - σ) * L := mul_pos (by linarith) hL
  have hγL : γ * L ≤ γ * M := mul_le_mul_of_nonneg_left (by linarith) hγ0
  have t1 : t < len fun i => fl (s.point1 i - s.point2 i) := by
    linarith [(abs_le.1 htL).2, (abs_le.1 hlen').1]
  refine ⟨Fl.pointAt madd (Fl.segLine fl norm s) t, ?_, ?_⟩
  · unfold Fl.intersectPlaneSegment
    rw [ht]
    dsimp only
    rw [if_pos ⟨t0, t1⟩]
  · have hpt := fun e => (C116_point_at h hma (Fl.segLine fl norm s) t e).trans (mul_le_mul_of_nonneg_right (mono (j := 2) (by omega)) (by positivity))
    have hpe := (point_err hg hw hd hpt).2
    change norm2 (fun i => Fl.pointAt madd (Fl.segLine fl norm s) t i - (s.point1 i + t * (w i / L))) ≤ γ * (norm2 s.point1 + 3.1 * |t|) at hpe
    have e : (fun i => Fl.pointAt madd (Fl.segLine fl norm s) t i - s.interpol σ i) =
        fun i => (Fl.pointAt madd (Fl.segLine fl norm s) t i - (s.point1 i + t * (w i / L))) + ((t - σ * L) / L) * w i := by
      funext i
      have : s.interpol σ i = s.point1 i + σ * w i := by simp [GSegment.interpol, hwd]; ring
      rw [this]; field_simp; ring
    rw [e]
    refine (norm2_add_le _ _).trans ?_
    rw [norm2_smul, abs_div, abs_of_pos hL, div_mul_cancel₀ _ hL.ne']
    have k1 : |t| ≤ 1.14 * M := by
      rw [abs_of_nonneg t0]; linarith [(abs_le.1 htL).2]
    have k2 := mul_le_mul_of_nonneg_left (show norm2 s.point1 + 3.1 * |t| ≤ 4.6 * M by linarith) hγ0
    rw [mul_assoc 12, mul_div_assoc]
    linarith

/-! ## The corner -/

private theorem unit_y : length (![0, 1] : Fin 2 → ℝ) = 1 := by
  unfold length; rw [lengthSquared_eq_sum]; simp [Fin.sum_univ_two]

/-- C138 is violated in single and in double precision: the path from `(-15, -20)` through the origin to `(15, 20)` starts below the plane `y = -2⁻⁶⁰` and ends above
it, but neither of its segments is reported to intersect the plane. In every configuration, for every reduction order, contracted or not. -/
theorem C138_missed_violated {q : ℕ} (hq : q = 24 ∨ q = 53) (hfl : RoundsToNearest q fl) {madd : ℝ → ℝ → ℝ → ℝ} {dot : (Fin 2 → ℝ) → (Fin 2 → ℝ) → ℝ}
    (hd : DotExact q dot) (c : Cfg) (pk : Bool) (conv : Bool) (tb : RTree (batchSize 2 false)) (ts : RTree 3) (htb : tb.Valid) (hts : ts.Valid) :
    let p : GPlane 2 := ⟨![0, 1], -(2 : ℝ) ^ (-60 : ℤ)⟩
    let path : ℕ → Fin 2 → ℝ := fun k => if k = 0 then ![-15, -20] else if k = 1 then 0 else ![15, 20]
    length p.normal = 1 ∧ ∑ i, p.normal i * path 0 i < p.scalar ∧ p.scalar < ∑ i, p.normal i * path 2 i ∧
      ∀ k < 2, Fl.intersectPlaneSegment fl madd dot (Fl.normalizePrecise1 (n := 1) c pk fl conv tb ts)
        (fun v => Fl.length fl conv tb ts (Vec.ofFn v : Vec c ℝ 2 pk)) p ⟨path k, path (k + 1)⟩ = none := by
  have fi : ∀ (m e : ℤ) (x : ℝ), x = m * (2 : ℝ) ^ e → |m| ≤ 2 ^ 24 → fl x = x := fun m e x hx hm => by
    rw [hx]; rcases hq with rfl | rfl
    · exact float_grid (by norm_num) hfl m e hm
    · exact float_grid (by norm_num) hfl m e (hm.trans (by norm_num))
  have hq1 : 1 ≤ q := by rcases hq with rfl | rfl <;> norm_num
  have hq2 : (2 : ℤ) ^ 24 ≤ 2 ^ q := by rcases hq with rfl | rfl <;> norm_num
  have f0 : fl 0 = 0 := fi 0 0 0 (by simp) (by norm_num)
  have f1 : fl 1 = 1 := fi 1 0 1 (by simp) (by norm_num)
  have f15 : fl 15 = 15 := fi 15 0 15 (by simp) (by norm_num)
  have f20 : fl 20 = 20 := fi 20 0 20 (by simp) (by norm_num)
  have f15' : fl (-15) = -15 := fi (-15) 0 _ (by simp) (by norm_num)
  have f20' : fl (-20) = -20 := fi (-20) 0 _ (by simp) (by norm_num)
  have f25 : fl 25 = 25 := fi 25 0 25 (by simp) (by norm_num)
  have f34 : fl (3 / 4) = 3 / 4 := fi 3 (-2) _ (by norm_num) (by norm_num)
  have f54 : fl (5 / 4) = 5 / 4 := fi 5 (-2) _ (by norm_num) (by norm_num)
  have hr := hfl.rounding hq1
  have fz : fl (-(2 : ℝ) ^ (-60 : ℤ)) = -(2 : ℝ) ^ (-60 : ℤ) := fi (-1) (-60) _ (by norm_num) (by norm_num)
  have fc : fl (20 - (2 : ℝ) ^ (-60 : ℤ)) = 20 := by
    rcases hq with rfl | rfl
    · have := Fl.round_to_grid (by norm_num) hfl (-19) 10485760 (x := 20 - (2 : ℝ) ^ (-60 : ℤ)) (by norm_num) (by norm_num [abs_of_pos]) (by norm_num [abs_lt])
      rw [this]; norm_num
    · have := Fl.round_to_grid (by norm_num) hfl (-48) 5629499534213120 (x := 20 - (2 : ℝ) ^ (-60 : ℤ)) (by norm_num) (by norm_num [abs_of_pos]) (by norm_num [abs_lt])
      rw [this]; norm_num
  -- the second coordinate of the direction
  obtain ⟨m, e, hm, hB0, fB, f25B⟩ : ∃ m e : ℤ, |m| ≤ 2 ^ q ∧ (0 : ℝ) < m * (2 : ℝ) ^ e ∧ fl (4 / 5) = m * (2 : ℝ) ^ e ∧ fl (20 / (m * (2 : ℝ) ^ e)) = 25 := by
    rcases hq with rfl | rfl
    · refine ⟨13421773, -24, by norm_num, by norm_num, ?_, ?_⟩
      · have := Fl.round_to_grid (by norm_num) hfl (-24) 13421773 (x := 4 / 5) (by norm_num) (by norm_num [abs_of_pos]) (by norm_num [abs_lt])
        rw [this]
      · have := Fl.round_to_grid (by norm_num) hfl (-19) 13107200 (x := 20 / ((13421773 : ℤ) * (2 : ℝ) ^ (-24 : ℤ))) (by norm_num) (by norm_num [abs_of_pos]) (by norm_num [abs_lt])
        rw [this]; norm_num
    · refine ⟨7205759403792794, -53, by norm_num, by norm_num, ?_, ?_⟩
      · have := Fl.round_to_grid (by norm_num) hfl (-53) 7205759403792794 (x := 4 / 5) (by norm_num) (by norm_num [abs_of_pos]) (by norm_num [abs_lt])
        rw [this]
      · have := Fl.round_to_grid (by norm_num) hfl (-48) 7036874417766400 (x := 20 / ((7205759403792794 : ℤ) * (2 : ℝ) ^ (-53 : ℤ))) (by norm_num) (by norm_num [abs_of_pos]) (by norm_num [abs_lt])
        rw [this]; norm_num
  set B : ℝ := m * (2 : ℝ) ^ e with hB
  have d2 : Fl.normalizePrecise1 (n := 1) c pk fl conv tb ts ![15, 20] = ![fl (3 / 5), B] := by
    funext i
    rw [normalizePrecise_exact hq1 hfl c pk conv tb ts htb hts (y := ![3 / 4, 1]) (l := 5 / 4) (s := 20) (by rw [scaleElements_two]; norm_num [abs_of_pos]) (by norm_num)
      (fun i => by
        fin_cases i
        · simp; rw [show (15 : ℝ) / 20 = 3 / 4 by norm_num, f34]
        · simp [f1])
      ![9, 16] (-4) (fun i => by fin_cases i <;> norm_num) (le_trans (by simp [Fin.sum_univ_two]) hq2) (by simp [Fin.sum_univ_two]; norm_num) (by norm_num) f54]
    fin_cases i
    · simp; rw [show (3 : ℝ) / 4 / (5 / 4) = 3 / 5 by norm_num]
    · simp; rw [show (4 : ℝ) / 5 = 4 / 5 by norm_num, fB]
  have den : dot ![0, 1] ![fl (3 / 5), B] = B := by
    rw [hd _ _ ![0, m] e (fun i => by fin_cases i <;> simp [hB]) (by simpa [Fin.sum_univ_two] using hm)]; simp [Fin.sum_univ_two]
  have num1 : dot ![0, 1] ![15, 20] = 20 := by
    rw [hd _ _ ![0, 20] 0 (fun i => by fin_cases i <;> simp) (le_trans (by simp [Fin.sum_univ_two]) hq2)]; simp [Fin.sum_univ_two]
  have num2 : dot ![0, 1] ![0, -(2 : ℝ) ^ (-60 : ℤ)] = -(2 : ℝ) ^ (-60 : ℤ) := by
    rw [hd _ _ ![0, -1] (-60) (fun i => by fin_cases i <;> simp) (le_trans (by simp [Fin.sum_univ_two]) hq2)]; simp [Fin.sum_univ_two]
  have hlen : Fl.length fl conv tb ts (Vec.ofFn ![-15, -20] : Vec c ℝ 2 pk) = 25 := by
    unfold Fl.length Fl.lengthSquared
    have := C137_dot hq1 hfl (c := c) (pk := pk) conv tb ts htb hts ![-15, -20] ![-15, -20] ![225, 400] 0 (fun i => by fin_cases i <;> norm_num)
      (le_trans (by simp [Fin.sum_univ_two]) hq2)
    dsimp only at this
    rw [this, show ∑ i, (![-15, -20] : Fin 2 → ℝ) i * (![-15, -20] : Fin 2 → ℝ) i = 25 ^ 2 by simp [Fin.sum_univ_two]; norm_num, Real.sqrt_sq (by norm_num), f25]
  intro p path
  have hz : (0 : ℝ) < (2 : ℝ) ^ (-60 : ℤ) := by positivity
  refine ⟨?_, ?_, ?_, ?_⟩
  · exact unit_y
  · simp [p, path, Fin.sum_univ_two]; norm_num
  · simp [p, path, Fin.sum_univ_two]; norm_num
  intro k hk
  have base : Fl.planeBase fl p = ![0, -(2 : ℝ) ^ (-60 : ℤ)] := by
    funext i; fin_cases i
    · simp [p, Fl.planeBase, f0]
    · simpa [p, Fl.planeBase] using fz
  unfold Fl.intersectPlaneSegment
  rcases (show k = 0 ∨ k = 1 by omega) with rfl | rfl
  · have w1 : (fun i => fl ((path (0 + 1)) i - (path 0) i)) = ![15, 20] := by
      funext i; fin_cases i <;> simp [path, f15, f20]
    have w2 : (fun i => fl ((path 0) i - (path (0 + 1)) i)) = ![-15, -20] := by
      funext i; fin_cases i <;> simp [path, f15', f20']
    have w3 : (fun i => fl (Fl.planeBase fl p i - path 0 i)) = ![15, 20] := by
      rw [base]
      funext i; fin_cases i
      · simp [path, f15]
      · have e : (![0, -(2 : ℝ) ^ (-60 : ℤ)] : Fin 2 → ℝ) 1 - path 0 1 = 20 - (2 : ℝ) ^ (-60 : ℤ) := by simp [path]; ring
        exact (congrArg fl e).trans fc
    have hpl : Fl.planeLineParam fl dot p (Fl.segLine fl (Fl.normalizePrecise1 (n := 1) c pk fl conv tb ts) ⟨path 0, path (0 + 1)⟩) = some 25 := by
      unfold Fl.planeLineParam Fl.segLine Fl.segDirection
      dsimp only
      rw [w1, d2, w3]
      rw [show p.normal = ![0, 1] from rfl, den, if_neg hB0.ne', num1, f25B]
    rw [hpl]
    dsimp only
    rw [w2, if_neg]
    rintro ⟨-, h⟩
    rw [hlen] at h
    exact lt_irrefl _ h
  · have w1 : (fun i => fl ((path (1 + 1)) i - (path 1) i)) = ![15, 20] := by
      funext i; fin_cases i <;> simp [path, f15, f20]
    have w3 : (fun i => fl (Fl.planeBase fl p i - path 1 i)) = ![0, -(2 : ℝ) ^ (-60 : ℤ)] := by
      rw [base]
      funext i; fin_cases i
      · simp [path, f0]
      · simpa [path] using fz
    have hpl : Fl.planeLineParam fl dot p (Fl.segLine fl (Fl.normalizePrecise1 (n := 1) c pk fl conv tb ts) ⟨path 1, path (1 + 1)⟩) =
        some (fl (-(2 : ℝ) ^ (-60 : ℤ) / B)) := by
      unfold Fl.planeLineParam Fl.segLine Fl.segDirection
      dsimp only
      rw [w1, d2, w3]
      rw [show p.normal = ![0, 1] from rfl, den, if_neg hB0.ne', num2]
    rw [hpl]
    dsimp only
    rw [if_neg]
    rintro ⟨h, -⟩
    have hu : (2 : ℝ) ^ (-(q : ℤ)) < 1 := by rcases hq with rfl | rfl <;> norm_num
    have hneg : -(2 : ℝ) ^ (-60 : ℤ) / B < 0 := div_neg_of_neg_of_pos (by linarith) hB0
    have := (abs_le.1 (hr.err (-(2 : ℝ) ^ (-60 : ℤ) / B))).2
    rw [abs_of_neg hneg] at this
    have k : (2 : ℝ) ^ (-(q : ℤ)) * -(-(2 : ℝ) ^ (-60 : ℤ) / B) < 1 * -(-(2 : ℝ) ^ (-60 : ℤ) / B) := mul_lt_mul_of_pos_right hu (by linarith)
    linarith

/-- The functions of the library meet the hypotheses in three dimensions in double precision, in every configuration, for every reduction order. -/
example (hfl : RoundsToNearest 53 fl) (c : Cfg) (pk : Bool) (conv : Bool) (tb : RTree (batchSize 3 false)) (ts : RTree 4) (htb : tb.Valid) (hts : ts.Valid) :
    Rounding fl (2 ^ (-((53 : ℕ) : ℤ))) ∧ (1 + (2 : ℝ) ^ (-((53 : ℕ) : ℤ))) ^ (3 + 4) - 1 ≤ 1 / 1000 ∧ Fl.IsMulAdd fl (fun a b d => fl (fl (a * b) + d)) ∧
      Fl.IsDot (2 ^ (-((53 : ℕ) : ℤ))) 3 (fun x y => Fl.dot fl conv tb ts (Vec.ofFn x : Vec c ℝ 3 pk) (Vec.ofFn y : Vec c ℝ 3 pk)) ∧
      Fl.IsNormalize (n := 3) (2 ^ (-((53 : ℕ) : ℤ))) 5 (Fl.normalizePrecise1 c pk fl conv tb ts) ∧
      ∀ v, |Fl.length fl conv tb ts (Vec.ofFn v : Vec c ℝ 3 pk) - norm2 v| ≤ ((1 + 2 ^ (-((53 : ℕ) : ℤ))) ^ 4 - 1) * norm2 v := by
  have h := hfl.rounding (by norm_num)
  refine ⟨h, by norm_num, fun _ _ _ => Or.inl rfl, C116_dot h conv tb ts htb hts, C133_normalize (n := 2) h (by norm_num) c pk conv tb ts htb hts, fun v => ?_⟩
  have := C76_length h conv tb ts htb hts (Vec.ofFn v : Vec c ℝ 3 pk)
  simp only [Vec.get_ofFn] at this
  exact this

/-- The segment from the origin to `(3, 4)` meets the margins with the plane `y = 2` in single precision: the parameter is `1 / 2`, the cosine is `4 / 5`. -/
example : let s : GSegment 2 := ⟨![0, 0], ![3, 4]⟩; let p : GPlane 2 := ⟨![0, 1], 2⟩
    s.interpol (1 / 2) ∈ planePoints p ∧ |∑ i, p.normal i ^ 2 - 1| ≤ (1 + (2 : ℝ) ^ (-((24 : ℕ) : ℤ))) ^ (2 + 4) - 1 ∧
      4 / 5 * norm2 (fun i => s.point2 i - s.point1 i) = |∑ i, p.normal i * (s.point2 i - s.point1 i)| ∧
      50 * ((1 + (2 : ℝ) ^ (-((24 : ℕ) : ℤ))) ^ (2 + 4) - 1) * (norm2 s.point1 + norm2 s.point2 + |p.scalar|) ≤
        4 / 5 * (1 / 2 * norm2 (fun i => s.point2 i - s.point1 i)) := by
  have n5 : norm2 (![3, 4] : Fin 2 → ℝ) = 5 := by
    unfold norm2
    rw [show ∑ i, (![3, 4] : Fin 2 → ℝ) i ^ 2 = 5 ^ 2 by simp [Fin.sum_univ_two]; norm_num, Real.sqrt_sq (by norm_num)]
  have n0 : norm2 (![0, 0] : Fin 2 → ℝ) = 0 := by unfold norm2; simp [Fin.sum_univ_two]
  have nw : norm2 (fun i => (![3, 4] : Fin 2 → ℝ) i - (![0, 0] : Fin 2 → ℝ) i) = 5 := by
    rw [show (fun i => (![3, 4] : Fin 2 → ℝ) i - (![0, 0] : Fin 2 → ℝ) i) = ![3, 4] by funext i; fin_cases i <;> simp, n5]
  dsimp only
  refine ⟨?_, ?_, ?_, ?_⟩
  · simp [planePoints, GSegment.interpol, Fin.sum_univ_two]; norm_num
  · simp [Fin.sum_univ_two]; norm_num
  · rw [nw]; simp [Fin.sum_univ_two]
  · rw [nw, n5, n0]; norm_num [abs_of_pos]

/-- A path of two segments on a parabola through the line `y = 1`. -/
example : ∃ k : ℕ, k < 2 ∧ ∃ x, intersectPlaneSegment ⟨![0, 1], 1⟩ ⟨![(k : ℝ), (k : ℝ) ^ 2], ![((k + 1 : ℕ) : ℝ), ((k + 1 : ℕ) : ℝ) ^ 2]⟩ = some x :=
  C138_path_exact_partial ⟨![0, 1], 1⟩ unit_y 2 (fun k => ![(k : ℝ), (k : ℝ) ^ 2]) (Or.inl (by simp [Fin.sum_univ_two]))

end Mathter.Props
