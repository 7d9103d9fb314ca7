import Verif.Model.RoundedSegment
import Verif.Props.RoundedGeometry
import Verif.Props.Intersection
import Verif.Lemmas.RoundedGram

/-!
# C145: rounded intersections of planes with lines and rays

`γ` collects the rounding errors; the normal of the plane is a unit vector up to `γ`. `cos` is the (absolute) cosine of the angle between the normal and the line, `M`
the size of the numbers that enter: base point, distance of the plane from the origin, and distance travelled.
-/

namespace Mathter.Props
open Mathter
variable {n : ℕ} {fl : ℝ → ℝ} {u : ℝ}

/-- The arithmetic of the parameter: numerator and denominator with small errors, then a rounded quotient. -/
private theorem param_arith {γ σ D N M0 M cos num den t : ℝ} (hγ0 : 0 ≤ γ) (hg : γ ≤ 1 / 1000) (hD : 0 < D) (hc0 : 0 < cos) (hc1 : cos ≤ 1.001) (hcγ : 50 * γ ≤ cos)
    (hN : cos * D = |N|) (hM0 : 0 ≤ M0) (hM : M = M0 + |σ| * D) (hden : |den - N| ≤ 1.001 * γ * D) (hnum : |num - σ * N| ≤ 2.1 * γ * M0)
    (ht : |t - num / den| ≤ γ * |num / den|) : den ≠ 0 ∧ |t - σ| * D ≤ 3.4 * (γ * M / cos) := by
  have hs : 0 ≤ |σ| * D := by positivity
  have hM0' : 0 ≤ M := by linarith
  have γD : 50 * (γ * D) ≤ cos * D := by
    have := mul_le_mul_of_nonneg_right hcγ hD.le
    linarith
  have hcD : 0 < cos * D := mul_pos hc0 hD
  have hdc : 0.97 * (cos * D) ≤ |den| := by
    have := abs_sub_abs_le_abs_sub N den
    rw [abs_sub_comm, ← hN] at this
    linarith
  have hd0 : den ≠ 0 := by rw [← abs_pos]; linarith
  refine ⟨hd0, ?_⟩
  have γM : 0 ≤ γ * M := mul_nonneg hγ0 hM0'
  set E := γ * M / cos with hE
  have hE0 : 0 ≤ E := div_nonneg γM hc0.le
  have hEc : E * cos = γ * M := by rw [hE]; field_simp
  have hq : |num / den - σ| * D ≤ 2.2 * E := by
    have e : num / den - σ = ((num - σ * N) - σ * (den - N)) / den := by field_simp; ring
    rw [e, abs_div, div_mul_eq_mul_div, div_le_iff₀ (abs_pos.2 hd0)]
    have k1 : |σ * (den - N)| ≤ |σ| * (1.001 * γ * D) := by rw [abs_mul]; exact mul_le_mul_of_nonneg_left hden (abs_nonneg _)
    have k2 := mul_le_mul_of_nonneg_left hdc (show 0 ≤ 2.2 * E by positivity)
    have k3 : 2.2 * E * (0.97 * (cos * D)) = 2.134 * (γ * M) * D := by rw [← hEc]; ring
    have k4 := abs_sub (num - σ * N) (σ * (den - N))
    have k5 : |num - σ * N - σ * (den - N)| ≤ 2.1 * (γ * M) := by
      have : 2.1 * γ * M0 + |σ| * (1.001 * γ * D) ≤ 2.1 * (γ * M) := by
        rw [hM]
        have := mul_nonneg hγ0 hs
        linarith
      linarith
    have k6 := mul_le_mul_of_nonneg_right k5 hD.le
    have k7 : 0 ≤ γ * M * D := by positivity
    linarith
  have hσM : |σ| * D ≤ M := by linarith
  have hγc : γ * M ≤ 1.001 * E := by
    rw [← hEc]
    have := mul_le_mul_of_nonneg_left hc1 hE0
    linarith
  have k1 : |num / den| * D ≤ |σ| * D + 2.2 * E := by
    have := abs_sub_abs_le_abs_sub (num / den) σ
    have := mul_le_mul_of_nonneg_right this hD.le
    rw [sub_mul] at this
    linarith
  have k2 := mul_le_mul_of_nonneg_right ht hD.le
  have k3 : γ * |num / den| * D ≤ γ * (M + 2.2 * E) := by
    rw [mul_assoc]
    exact mul_le_mul_of_nonneg_left (by linarith) hγ0
  have k4 : γ * E ≤ 1 / 1000 * E := mul_le_mul_of_nonneg_right hg hE0
  have k5 := abs_add_le (t - num / den) (num / den - σ)
  rw [sub_add_sub_cancel] at k5
  have k6 := mul_le_mul_of_nonneg_right k5 hD.le
  rw [add_mul] at k6
  linarith

variable {γ σ cos M : ℝ} {madd : ℝ → ℝ → ℝ → ℝ} {dot : (Fin n → ℝ) → (Fin n → ℝ) → ℝ}

/-- The computed parameter is near the exact one. -/
private theorem param_near (h : Rounding fl u) (hγ : γ = (1 + u) ^ (n + 4) - 1) (hg : γ ≤ 1 / 1000) (hdot : Fl.IsDot u n dot) (p : GPlane n)
    (hp : |∑ i, p.normal i ^ 2 - 1| ≤ γ) (l : GLine n) (hl : l.direction ≠ 0) (hσ : l.pointAt σ ∈ planePoints p)
    (hcos : cos * norm2 l.direction = |∑ i, p.normal i * l.direction i|) (hM : M = norm2 l.base + |p.scalar| + |σ| * norm2 l.direction) (hcγ : 50 * γ ≤ cos)
    (hc0 : 0 < cos) :
    ∃ t, Fl.planeLineParam fl dot p l = some t ∧ |t - σ| * norm2 l.direction ≤ 3.4 * (γ * M / cos) ∧ cos ≤ 1.001 := by
  have hu := h.u_nonneg
  have hγ0 : 0 ≤ γ := by rw [hγ]; linarith [h.one_le (n + 4)]
  have mono : ∀ {j}, j ≤ n + 4 → (1 + u) ^ j - 1 ≤ γ := fun hj => by rw [hγ]; exact sub_le_sub_right (pow_le_pow_right₀ (by linarith) hj) 1
  have hD := Fl.norm2_pos hl
  have b1 := norm2_nonneg l.base
  have b3 := abs_nonneg p.scalar
  have n0 := norm2_nonneg p.normal
  have nn : norm2 p.normal ≤ 1.001 := by
    have e : norm2 p.normal ^ 2 = ∑ i, p.normal i ^ 2 := norm2_sq p.normal
    have := (abs_le.1 hp).2
    by_contra hc
    rw [not_le] at hc
    have : 1.001 * 1.001 < norm2 p.normal * norm2 p.normal := mul_lt_mul'' hc hc (by norm_num) (by norm_num)
    norm_num at this
    linarith [sq (norm2 p.normal)]
  have c1 : cos ≤ 1.001 := by
    have k2 := dot_abs_le p.normal l.direction
    rw [← hcos] at k2
    exact (le_of_mul_le_mul_right k2 hD).trans nn
  set N := ∑ i, p.normal i * l.direction i with hN
  have hden : |dot p.normal l.direction - N| ≤ 1.001 * γ * norm2 l.direction := by
    have k1 := hdot p.normal l.direction
    have k2 : ∑ i, |p.normal i * l.direction i| ≤ 1.001 * norm2 l.direction := by
      simp only [abs_mul]
      exact (abs_dot_le p.normal l.direction).trans (mul_le_mul_of_nonneg_right nn hD.le)
    have k3 := k1.trans (mul_le_mul (mono (j := n) (by omega)) k2 (Finset.sum_nonneg fun _ _ => abs_nonneg _) hγ0)
    linarith
  have hnum : |dot p.normal (fun e => fl (Fl.planeBase fl p e - l.base e)) - σ * N| ≤ 2.1 * γ * (norm2 l.base + |p.scalar|) := by
    have k1 := (plane_num_near h hdot p l.base).err
    have e1 : ∑ i, p.normal i * (p.normal i * p.scalar - l.base i) = σ * N + (∑ i, p.normal i ^ 2 - 1) * p.scalar := by
      have hσ' : ∑ i, p.normal i * l.pointAt σ i = p.scalar := hσ
      have : ∑ i, p.normal i * l.pointAt σ i = ∑ i, p.normal i * l.base i + σ * N := by
        rw [hN, Finset.mul_sum, ← Finset.sum_add_distrib]
        exact Finset.sum_congr rfl fun i _ => by simp [GLine.pointAt]; ring
      have e2 : ∑ i, p.normal i * (p.normal i * p.scalar - l.base i) = (∑ i, p.normal i ^ 2) * p.scalar - ∑ i, p.normal i * l.base i := by
        rw [Finset.sum_mul, ← Finset.sum_sub_distrib]
        exact Finset.sum_congr rfl fun i _ => by ring
      rw [e2]; linarith
    have k2 : ∑ i, |p.normal i| * (|p.normal i| * |p.scalar| + |l.base i|) ≤ 1.003 * (norm2 l.base + |p.scalar|) := by
      have e : ∑ i, |p.normal i| * (|p.normal i| * |p.scalar| + |l.base i|) =
          (∑ i, |p.normal i| * |p.normal i|) * |p.scalar| + ∑ i, |p.normal i| * |l.base i| := by
        rw [Finset.sum_mul, ← Finset.sum_add_distrib]
        exact Finset.sum_congr rfl fun i _ => by ring
      have q1 := (abs_dot_le p.normal p.normal).trans (mul_le_mul nn nn n0 (by norm_num))
      have q2 := (abs_dot_le p.normal l.base).trans (mul_le_mul_of_nonneg_right nn b1)
      have q3 := mul_le_mul_of_nonneg_right q1 b3
      rw [e]; linarith
    have k3 := k1.trans (mul_le_mul (mono (j := n + 2) (by omega)) k2 (Finset.sum_nonneg fun i _ => by positivity) hγ0)
    have k4 : |(∑ i, p.normal i ^ 2 - 1) * p.scalar| ≤ γ * (norm2 l.base + |p.scalar|) := by
      rw [abs_mul]; exact mul_le_mul hp (by linarith) b3 hγ0
    rw [e1] at k3
    have k5 := abs_add_le (dot p.normal (fun e => fl (Fl.planeBase fl p e - l.base e)) - (σ * N + (∑ i, p.normal i ^ 2 - 1) * p.scalar))
      ((∑ i, p.normal i ^ 2 - 1) * p.scalar)
    rw [show dot p.normal (fun e => fl (Fl.planeBase fl p e - l.base e)) - (σ * N + (∑ i, p.normal i ^ 2 - 1) * p.scalar) +
      (∑ i, p.normal i ^ 2 - 1) * p.scalar = dot p.normal (fun e => fl (Fl.planeBase fl p e - l.base e)) - σ * N by ring] at k5
    have : 0 ≤ γ * (norm2 l.base + |p.scalar|) := by positivity
    linarith
  have u1 : u ≤ γ := by
    have := mono (j := 1) (by omega)
    rwa [pow_one, add_sub_cancel_left] at this
  have ht := (h.err (dot p.normal (fun e => fl (Fl.planeBase fl p e - l.base e)) / dot p.normal l.direction)).trans (mul_le_mul_of_nonneg_right u1 (abs_nonneg _))
  obtain ⟨hd0, hres⟩ := param_arith hγ0 hg hD hc0 c1 hcγ hcos (by positivity) hM hden hnum ht
  refine ⟨_, ?_, hres, c1⟩
  unfold Fl.planeLineParam
  exact if_neg hd0

/-- From the parameter to the point. -/
private theorem point_near (h : Rounding fl u) (hγ : γ = (1 + u) ^ (n + 4) - 1) (hg : γ ≤ 1 / 1000) (hma : Fl.IsMulAdd fl madd) (l : GLine n)
    (hb : norm2 l.base + |σ| * norm2 l.direction ≤ M) (hc0 : 0 < cos) (hc1 : cos ≤ 1.001) {t : ℝ}
    (ht : |t - σ| * norm2 l.direction ≤ 3.4 * (γ * M / cos)) : norm2 (fun i => Fl.pointAt madd l t i - l.pointAt σ i) ≤ 5 * γ * M / cos := by
  have hu := h.u_nonneg
  have hγ0 : 0 ≤ γ := by rw [hγ]; linarith [h.one_le (n + 4)]
  have b1 := norm2_nonneg l.base
  have hD := norm2_nonneg l.direction
  have hs : 0 ≤ |σ| * norm2 l.direction := by positivity
  have hM : 0 ≤ M := by linarith
  set E := γ * M / cos with hE
  have hE0 : 0 ≤ E := div_nonneg (mul_nonneg hγ0 hM) hc0.le
  have hEc : E * cos = γ * M := by rw [hE]; field_simp
  have hpt : ∀ e, |Fl.pointAt madd l t e - (l.base e + t * l.direction e)| ≤ γ * |(|l.base e| + |t| * |l.direction e|)| := fun e => by
    rw [abs_of_nonneg (show 0 ≤ |l.base e| + |t| * |l.direction e| by positivity)]
    refine (C116_point_at h hma l t e).trans (mul_le_mul_of_nonneg_right ?_ (by positivity))
    rw [hγ]; exact sub_le_sub_right (pow_le_pow_right₀ (by linarith) (by omega)) 1
  have k1 := norm2_le_mul hγ0 hpt
  have k2 : norm2 (fun e => |l.base e| + |t| * |l.direction e|) ≤ norm2 l.base + |t| * norm2 l.direction := by
    have := norm2_add_le (fun e => |l.base e|) fun e => |t| * |l.direction e|
    rwa [norm2_abs, norm2_smul |t| fun e => |l.direction e|, norm2_abs, abs_abs] at this
  have k3 : |t| * norm2 l.direction ≤ |σ| * norm2 l.direction + 3.4 * E := by
    have := mul_le_mul_of_nonneg_right (abs_sub_abs_le_abs_sub t σ) hD
    rw [sub_mul] at this
    linarith
  have k4 := norm2_add_le (fun e => Fl.pointAt madd l t e - (l.base e + t * l.direction e)) fun e => (t - σ) * l.direction e
  rw [norm2_smul] at k4
  rw [show (fun i => Fl.pointAt madd l t i - l.pointAt σ i) =
    fun e => Fl.pointAt madd l t e - (l.base e + t * l.direction e) + (t - σ) * l.direction e by funext e; simp [GLine.pointAt]; ring]
  have k5 : γ * norm2 (fun e => |l.base e| + |t| * |l.direction e|) ≤ γ * (M + 3.4 * E) := mul_le_mul_of_nonneg_left (by linarith) hγ0
  have k6 : γ * M ≤ 1.001 * E := by
    rw [← hEc]
    have := mul_le_mul_of_nonneg_left hc1 hE0
    linarith
  have k7 : γ * E ≤ 1 / 1000 * E := mul_le_mul_of_nonneg_right hg hE0
  have k8 : 5 * γ * M / cos = 5 * E := by rw [hE]; ring
  rw [k8]
  linarith

/-- C145: a line that is not nearly parallel to the plane: the intersection is reported, at a point near the exact one. -/
theorem C145_line_found (h : Rounding fl u) (hγ : γ = (1 + u) ^ (n + 4) - 1) (hg : γ ≤ 1 / 1000) (hma : Fl.IsMulAdd fl madd) (hdot : Fl.IsDot u n dot)
    (p : GPlane n) (hp : |∑ i, p.normal i ^ 2 - 1| ≤ γ) (l : GLine n) (hl : l.direction ≠ 0) (hσ : l.pointAt σ ∈ planePoints p)
    (hcos : cos * norm2 l.direction = |∑ i, p.normal i * l.direction i|) (hM : M = norm2 l.base + |p.scalar| + |σ| * norm2 l.direction) (hc0 : 0 < cos)
    (hcγ : 50 * γ ≤ cos) :
    ∃ x, Fl.intersectPlaneLine fl madd dot p l = some x ∧ norm2 (fun i => x i - l.pointAt σ i) ≤ 5 * γ * M / cos := by
  obtain ⟨t, ht, he, hc1⟩ := param_near h hγ hg hdot p hp l hl hσ hcos hM hcγ hc0
  refine ⟨Fl.pointAt madd l t, by rw [Fl.intersectPlaneLine, ht]; rfl, point_near h hγ hg hma l ?_ hc0 hc1 he⟩
  linarith [abs_nonneg p.scalar]

/-- If the exact parameter is clearly different from zero, the computed one has its sign. -/
private theorem param_sign {D E σ t : ℝ} (hD : 0 < D) (he : |t - σ| * D ≤ 3.4 * E) (hm : 50 * E ≤ |σ| * D) (hσ : σ ≠ 0) : |t - σ| < |σ| := by
  have h1 : 0 < |σ| * D := mul_pos (abs_pos.2 hσ) hD
  refine lt_of_mul_lt_mul_right (a := D) ?_ hD.le
  linarith

/-- C145: a ray whose intersection with the plane lies clearly ahead of its base: the intersection is reported, at a point near the exact one. -/
theorem C145_ray_found (h : Rounding fl u) (hγ : γ = (1 + u) ^ (n + 4) - 1) (hg : γ ≤ 1 / 1000) (hma : Fl.IsMulAdd fl madd) (hdot : Fl.IsDot u n dot)
    (p : GPlane n) (hp : |∑ i, p.normal i ^ 2 - 1| ≤ γ) (l : GLine n) (hl : l.direction ≠ 0) (hσ : l.pointAt σ ∈ planePoints p) (hσ0 : 0 < σ)
    (hcos : cos * norm2 l.direction = |∑ i, p.normal i * l.direction i|) (hM : M = norm2 l.base + |p.scalar| + |σ| * norm2 l.direction) (hc0 : 0 < cos)
    (hm : 50 * γ * M ≤ cos * (|σ| * norm2 l.direction)) :
    ∃ x, Fl.intersectPlaneRay fl madd dot p l = some x ∧ norm2 (fun i => x i - l.pointAt σ i) ≤ 5 * γ * M / cos := by
  have hD := Fl.norm2_pos hl
  have hs : 0 < |σ| * norm2 l.direction := mul_pos (abs_pos.2 hσ0.ne') hD
  have b1 := norm2_nonneg l.base
  have b3 := abs_nonneg p.scalar
  have hγ0 : 0 ≤ γ := by rw [hγ]; linarith [h.one_le (n + 4)]
  have hcγ : 50 * γ ≤ cos := by
    refine le_of_mul_le_mul_right ?_ hs
    refine le_trans ?_ hm
    exact mul_le_mul_of_nonneg_left (by linarith) (by positivity)
  obtain ⟨t, ht, he, hc1⟩ := param_near h hγ hg hdot p hp l hl hσ hcos hM hcγ hc0
  have hsign := param_sign hD he (by rw [← mul_div_assoc, div_le_iff₀ hc0]; linarith) hσ0.ne'
  have t0 : 0 ≤ t := by
    rw [abs_of_pos hσ0] at hsign
    linarith [(abs_lt.1 hsign).1]
  refine ⟨Fl.pointAt madd l t, by rw [Fl.intersectPlaneRay, ht]; exact if_pos t0, point_near h hγ hg hma l ?_ hc0 hc1 he⟩
  linarith

/-- C145: a ray whose line meets the plane clearly behind the base of the ray: no intersection is reported. -/
theorem C145_ray_missed (h : Rounding fl u) (hγ : γ = (1 + u) ^ (n + 4) - 1) (hg : γ ≤ 1 / 1000) (hdot : Fl.IsDot u n dot)
    (p : GPlane n) (hp : |∑ i, p.normal i ^ 2 - 1| ≤ γ) (l : GLine n) (hl : l.direction ≠ 0) (hσ : l.pointAt σ ∈ planePoints p) (hσ0 : σ < 0)
    (hcos : cos * norm2 l.direction = |∑ i, p.normal i * l.direction i|) (hM : M = norm2 l.base + |p.scalar| + |σ| * norm2 l.direction) (hc0 : 0 < cos)
    (hm : 50 * γ * M ≤ cos * (|σ| * norm2 l.direction)) : Fl.intersectPlaneRay fl madd dot p l = none := by
  have hD := Fl.norm2_pos hl
  have hs : 0 < |σ| * norm2 l.direction := mul_pos (abs_pos.2 hσ0.ne) hD
  have b1 := norm2_nonneg l.base
  have b3 := abs_nonneg p.scalar
  have hγ0 : 0 ≤ γ := by rw [hγ]; linarith [h.one_le (n + 4)]
  have hcγ : 50 * γ ≤ cos := by
    refine le_of_mul_le_mul_right ?_ hs
    refine le_trans ?_ hm
    exact mul_le_mul_of_nonneg_left (by linarith) (by positivity)
  obtain ⟨t, ht, he, hc1⟩ := param_near h hγ hg hdot p hp l hl hσ hcos hM hcγ hc0
  have hsign := param_sign hD he (by rw [← mul_div_assoc, div_le_iff₀ hc0]; linarith) hσ0.ne
  have t0 : ¬ 0 ≤ t := by
    rw [abs_of_neg hσ0] at hsign
    linarith [(abs_lt.1 hsign).2]
  rw [Fl.intersectPlaneRay, ht]
  exact if_neg t0

/-- C145: whatever is reported for a ray lies near the ray and near the plane. -/
theorem C145_ray_reported (h : Rounding fl u) (hma : Fl.IsMulAdd fl madd) (hdot : Fl.IsDot u n dot) (p : GPlane n) (l : GLine n) (x : Fin n → ℝ)
    (hx : Fl.intersectPlaneRay fl madd dot p l = some x) :
    ∃ t : ℝ, 0 ≤ t ∧ (∀ e, |x e - (l.base e + t * l.direction e)| ≤ ((1 + u) ^ 2 - 1) * (|l.base e| + t * |l.direction e|)) ∧
      |∑ i, p.normal i * x i - p.scalar - (∑ i, p.normal i ^ 2 - 1) * p.scalar| ≤
        ((1 + u) ^ (n + 3) - 1) * ∑ i, |p.normal i| * (|p.normal i| * |p.scalar| + 2 * |l.base i| + 2 * (t * |l.direction i|)) := by
  unfold Fl.intersectPlaneRay at hx
  split at hx
  · simp at hx
  · rename_i t ht
    split at hx
    · rename_i t0
      have hx := Option.some.inj hx
      have hpt := fun e => C116_point_at h hma l t e
      have hr := plane_residual h hma hdot p l t x ht hx
      rw [hx] at hpt
      rw [abs_of_nonneg t0] at hr
      simp only [abs_of_nonneg t0] at hpt
      exact ⟨t, t0, hpt, hr⟩
    · simp at hx

/-- Single precision, a ray from (-3, -1) in the direction (3, 4) and the plane y = 3: the hit near (0, 3) is found. -/
example : ∃ x, Fl.intersectPlaneRay (flAway 24) (fun a b d => flAway 24 (a * b + d)) (fun x y => ∑ i, x i * y i) ⟨![0, 1], 3⟩ ⟨![3, 4], ![-3, -1]⟩ = some x ∧
    norm2 (fun i => x i - ![0, 3] i) ≤ 1 / 10000 := by
  have R : Rounding (flAway 24) ((2 : ℝ) ^ (-((24 : ℕ) : ℤ))) := (flAway_roundsToNearest (by norm_num)).rounding (by norm_num)
  have n1 : norm2 ![(3 : ℝ), 4] = 5 := by
    rw [norm2, Fin.sum_univ_two]
    norm_num
    rw [show (25 : ℝ) = 5 ^ 2 by norm_num, Real.sqrt_sq (by norm_num)]
  have n2 : norm2 ![(-3 : ℝ), -1] ≤ 4 := by
    rw [norm2, Fin.sum_univ_two]
    norm_num
    rw [Real.sqrt_le_left (by norm_num)]
    norm_num
  have n3 := norm2_nonneg ![(-3 : ℝ), -1]
  have g : (1 + (2 : ℝ) ^ (-((24 : ℕ) : ℤ))) ^ (2 + 4) - 1 ≤ 4 / 10 ^ 7 := by norm_num
  have g0 : 0 ≤ (1 + (2 : ℝ) ^ (-((24 : ℕ) : ℤ))) ^ (2 + 4) - 1 := by norm_num
  obtain ⟨x, hx, hn⟩ := C145_ray_found (n := 2) (σ := 1) (cos := 4 / 5) R rfl (g.trans (by norm_num)) (madd := fun a b d => flAway 24 (a * b + d))
    (fun _ _ _ => Or.inr rfl) (dot := fun x y => ∑ i, x i * y i)
    (fun x y => by rw [sub_self, abs_zero]; exact mul_nonneg (by linarith [R.one_le 2]) (Finset.sum_nonneg fun _ _ => abs_nonneg _))
    ⟨![0, 1], 3⟩ (by simpa using g0) ⟨![3, 4], ![-3, -1]⟩ (fun e => by have := congrFun e 0; norm_num at this)
    (by rw [planePoints, Set.mem_ofPred_eq]; simp [GLine.pointAt, Fin.sum_univ_two]; norm_num) one_pos
    (by rw [n1]; simp [Fin.sum_univ_two]) rfl (by norm_num) (by
      rw [n1, abs_one, one_mul, abs_of_pos (show (0 : ℝ) < 3 by norm_num)]
      have := mul_le_mul g (show norm2 ![(-3 : ℝ), -1] + 3 + 5 ≤ 12 by linarith) (by linarith) (by norm_num)
      linarith)
  refine ⟨x, hx, ?_⟩
  have e : (fun i => x i - (⟨![3, 4], ![-3, -1]⟩ : GLine 2).pointAt 1 i) = fun i => x i - ![0, 3] i := by
    funext i
    fin_cases i <;> simp [GLine.pointAt]; norm_num
  rw [e, n1, abs_one, one_mul, abs_of_pos (show (0 : ℝ) < 3 by norm_num)] at hn
  refine hn.trans ?_
  have := mul_le_mul g (show norm2 ![(-3 : ℝ), -1] + 3 + 5 ≤ 12 by linarith) (by linarith) (by norm_num)
  rw [div_le_iff₀ (by norm_num)]
  linarith

end Mathter.Props
