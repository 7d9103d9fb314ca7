import Verif.Lemmas.IeeeIntersection
import Verif.Props.IeeeGeometry
import Verif.Props.RoundedCrossing
import Verif.Props.RoundedTriangle
import Verif.Props.RoundedGram

/-!
# Property C141: a finite intersection is right although results in between may overflow

With floating-point coordinates, results in between can overflow to infinities, and infinities can cancel to NaN. A finite coordinate of an intersection that
is nevertheless reported is as accurate as without overflow for planes with lines and rays and for two lines, if the directions and normals are about unit
vectors; not in general for segments and triangles.
-/

namespace Mathter.Props
open Mathter Fx

variable {n N : ℕ} {fl : ℝ → Fx} {fl₀ : ℝ → ℝ} {u : ℝ} {madd : Fx → Fx → Fx → Fx} {bmax : Fx → Fx → Fx}


/-- C141: a finite distance from a plane. -/
theorem C141_distance (h : Rounding fl₀ u) (hf : Overflows fl fl₀) {R : Ie.Red n} (hR : R.Valid) (p : GPlane n) (x : Fin n → ℝ) (d : ℝ)
    (hd : (finPlane p).distance R fl (finV x) = .fin d) :
    |d - (∑ i, x i * p.normal i - p.scalar)| ≤ ((1 + u) ^ (n + 1) - 1) * (∑ i, |x i * p.normal i| + |p.scalar|) := by
  have t : Tracks ((finPlane p).distance R fl (finV x)) (Fl.planeDistance fl₀ (R.dot fl₀) p x) :=
    (Ie.vdot_tracks hf R (a := finV x) (b := finV p.normal) (fun _ => tracks_fin _) (fun _ => tracks_fin _)).sub hf (tracks_fin _)
  rw [t d hd]
  exact C116_distance h (C116_dot h R.conv R.tb R.ts hR.tb hR.ts) p x

/-- C141: a finite coordinate of a point on a line. -/
theorem C141_point_at (h : Rounding fl₀ u) (hf : Overflows fl fl₀) (hop : Fx.IsMulAdd fl madd) (l : GLine n) (t : ℝ) (e : Fin n) (x : ℝ)
    (hx : (finLine l).pointAt madd (.fin t) e = .fin x) :
    |x - (l.base e + t * l.direction e)| ≤ ((1 + u) ^ 2 - 1) * (|l.base e| + |t| * |l.direction e|) := by
  obtain ⟨madd₀, hma, ht⟩ := hop.real hf
  rw [Ie.pointAt_tracks ht l (tracks_fin t) e x hx]
  exact C116_point_at h hma l t e

/-- C141: no intersection of a line with a plane is reported only if they are parallel up to the error of the product of direction and normal. -/
theorem C141_parallel (h : Rounding fl₀ u) (hf : Overflows fl fl₀) {R : Ie.Red n} (hR : R.Valid) (p : GPlane n) (l : GLine n)
    (hn : Ie.intersectPlaneLine R fl madd (finPlane p) (finLine l) = none) :
    |∑ i, p.normal i * l.direction i| ≤ ((1 + u) ^ n - 1) * ∑ i, |p.normal i * l.direction i| := by
  unfold Ie.intersectPlaneLine Ie.planeLineParam at hn
  dsimp only at hn
  split at hn
  · rename_i h0
    have t := Ie.vdot_tracks hf R (a := finV p.normal) (b := finV l.direction) (fun _ => tracks_fin _) (fun _ => tracks_fin _)
    have e : Ie.vdot R fl (finV p.normal) (finV l.direction) = .fin 0 := by
      rcases t.cases with e | e
      · rw [e]
        have h0' : (Ie.vdot R fl (finV p.normal) (finV l.direction)).isZero = true := h0
        rw [e] at h0'
        simp only [Fx.isZero, decide_eq_true_eq] at h0'
        rw [h0']
      · have h0' : (Ie.vdot R fl (finV p.normal) (finV l.direction)).isZero = true := h0
        rcases e.cases with e | ⟨s, e⟩ <;> rw [e] at h0' <;> simp [Fx.isZero] at h0'
    have : |R.dot fl₀ p.normal l.direction - ∑ i, p.normal i * l.direction i| ≤ ((1 + u) ^ n - 1) * ∑ i, |p.normal i * l.direction i| :=
      (C116_dot (c := R.c) (p := false) h R.conv R.tb R.ts hR.tb hR.ts) p.normal l.direction
    rw [← t 0 e, zero_sub, abs_neg] at this
    exact this
  · simp at hn

/-- The rounded intersection of a plane, whose scalar may have overflowed, with a line. -/
private theorem plane_line (hf : Overflows fl fl₀) {madd₀ : ℝ → ℝ → ℝ → ℝ}
    (hma : ∀ a b d x y z, Tracks a x → Tracks b y → Tracks d z → Tracks (madd a b d) (madd₀ x y z)) {R : Ie.Red n} (p : GPlane n) (l : GLine n) {s : Fx}
    (hs : Tracks s p.scalar) (hd : ∃ z, Ie.vdot R fl (finV p.normal) (finV l.direction) = .fin z) (x : Fin n → ℝ)
    (hx : Ie.intersectPlaneLine R fl madd ⟨finV p.normal, s⟩ (finLine l) = some (finV x)) : Fl.intersectPlaneLine fl₀ madd₀ (R.dot fl₀) p l = some x := by
  unfold Ie.intersectPlaneLine at hx
  unfold Fl.intersectPlaneLine
  rcases Ie.param_tracks hf R p l hs hd with ⟨e, -⟩ | ⟨t, t₀, e, e₀, ht⟩
  · rw [e] at hx; cases hx
  · rw [e] at hx
    rw [e₀, Option.map_some]
    have hx' : (finLine l).pointAt madd t = finV x := Option.some.inj hx
    refine congrArg some (funext fun i => ?_)
    exact (Ie.pointAt_tracks hma l ht i (x i) (congrFun hx' i)).symm

/-- C141: the finite intersection of a plane with a line. The elements of normal and direction are at most 2 in magnitude. -/
theorem C141_plane_line (h : Rounding fl₀ u) (hf : Overflows fl fl₀) (hm : RoundsMonoFx N fl) (hsym : ∀ x, fl (-x) = (fl x).neg) (hop : Fx.IsMulAdd fl madd)
    {R : Ie.Red n} (hR : R.Valid) (hN : 4 * batchSize n false ≤ N ∧ 4 * (n + 1) ≤ N) (p : GPlane n) (l : GLine n) (hp : ∀ i, |p.normal i| ≤ 2)
    (hl : ∀ i, |l.direction i| ≤ 2) (x : Fin n → ℝ) (hx : Ie.intersectPlaneLine R fl madd (finPlane p) (finLine l) = some (finV x)) :
    ∃ t : ℝ, (∀ e, |x e - (l.base e + t * l.direction e)| ≤ ((1 + u) ^ 2 - 1) * (|l.base e| + |t| * |l.direction e|)) ∧
      |∑ i, p.normal i * x i - p.scalar - (∑ i, p.normal i ^ 2 - 1) * p.scalar| ≤
        ((1 + u) ^ (n + 3) - 1) * ∑ i, |p.normal i| * (|p.normal i| * |p.scalar| + 2 * |l.base i| + 2 * (|t| * |l.direction i|)) := by
  obtain ⟨madd₀, hma, ht⟩ := hop.real hf
  exact C116_intersect h hma (C116_dot (c := R.c) (p := false) h R.conv R.tb R.ts hR.tb hR.ts) p l x
    (plane_line hf ht p l (tracks_fin _) (Ie.vdot_two hm (Ie.neg_nat hm hsym) hR hN hp hl) x hx)

/-- C141: the finite intersection of a plane with a ray, which lies on the ray. -/
theorem C141_plane_ray (h : Rounding fl₀ u) (hf : Overflows fl fl₀) (hm : RoundsMonoFx N fl) (hsym : ∀ x, fl (-x) = (fl x).neg) (hop : Fx.IsMulAdd fl madd)
    {R : Ie.Red (n + 1)} (hR : R.Valid) (hN : 4 * batchSize (n + 1) false ≤ N ∧ 4 * (n + 2) ≤ N) (p : GPlane (n + 1)) (l : GLine (n + 1))
    (hp : ∀ i, |p.normal i| ≤ 2) (hl : ∀ i, |l.direction i| ≤ 2) (x : Fin (n + 1) → ℝ)
    (hx : Ie.intersectPlaneRay R fl madd (finPlane p) (finLine l) = some (finV x)) :
    ∃ t : ℝ, 0 ≤ t ∧ (∀ e, |x e - (l.base e + t * l.direction e)| ≤ ((1 + u) ^ 2 - 1) * (|l.base e| + |t| * |l.direction e|)) ∧
      |∑ i, p.normal i * x i - p.scalar - (∑ i, p.normal i ^ 2 - 1) * p.scalar| ≤
        ((1 + u) ^ (n + 1 + 3) - 1) * ∑ i, |p.normal i| * (|p.normal i| * |p.scalar| + 2 * |l.base i| + 2 * (|t| * |l.direction i|)) := by
  obtain ⟨madd₀, hma, htr⟩ := hop.real hf
  unfold Ie.intersectPlaneRay at hx
  rcases Ie.param_tracks hf R p l (tracks_fin _) (Ie.vdot_two hm (Ie.neg_nat hm hsym) hR hN hp hl) with ⟨e, -⟩ | ⟨t, t₀, e, e₀, ht⟩
  · have e' : Ie.planeLineParam R fl (finPlane p) (finLine l) = none := e
    rw [e'] at hx; cases hx
  · have e' : Ie.planeLineParam R fl (finPlane p) (finLine l) = some t := e
    rw [e'] at hx
    dsimp only at hx
    split at hx
    · rename_i h0
      have hx' : (finLine l).pointAt madd t = finV x := Option.some.inj hx
      have et : t = .fin t₀ := by
        rcases ht.cases with e | e
        · exact e
        · exact absurd (congrFun hx' 0) (Ie.pointAt_nf hop _ e 0 _)
      rw [et] at h0
      have ex : Fl.pointAt madd₀ l t₀ = x := funext fun i => (Ie.pointAt_tracks htr l ht i (x i) (congrFun hx' i)).symm
      refine ⟨t₀, (Ie.le_fin _ _).1 h0, fun e => ?_, plane_residual h hma (C116_dot (c := R.c) (p := false) h R.conv R.tb R.ts hR.tb hR.ts) p l t₀ x e₀ ex⟩
      rw [← ex]
      exact C116_point_at h hma l t₀ e
    · cases hx

/-! ## Lines through points and segments -/

private theorem ofLine_fin (hf : Overflows fl fl₀) (R : Ie.Red 2) (l : GLine 2) :
    ∃ s, Ie.XPlane.ofLine R fl (finLine l) = ⟨finV (cross2 l.direction), s⟩ ∧ Tracks s (R.dot fl₀ (cross2 l.direction) l.base) := by
  have e : ![((finLine l).direction 1).neg, (finLine l).direction 0] = finV (cross2 l.direction) := by
    funext i; fin_cases i <;> rfl
  refine ⟨Ie.vdot R fl (finV (cross2 l.direction)) (finV l.base), ?_, Ie.vdot_tracks hf R (fun _ => tracks_fin _) (fun _ => tracks_fin _)⟩
  unfold Ie.XPlane.ofLine
  dsimp only
  rw [e]
  rfl

private theorem line_line (hf : Overflows fl fl₀) (hm : RoundsMonoFx N fl) (hsym : ∀ x, fl (-x) = (fl x).neg) {madd₀ : ℝ → ℝ → ℝ → ℝ}
    (hma : ∀ a b d x y z, Tracks a x → Tracks b y → Tracks d z → Tracks (madd a b d) (madd₀ x y z)) {R : Ie.Red 2} (hR : R.Valid)
    (hN : 4 * batchSize 2 false ≤ N ∧ 4 * 3 ≤ N) (l m : GLine 2) (hl : ∀ i, |l.direction i| ≤ 2) (hm2 : ∀ i, |m.direction i| ≤ 2) (x : Fin 2 → ℝ)
    (hx : Ie.intersectLineLine R fl madd (finLine l) (finLine m) = some (finV x)) : Fl.intersectLineLine fl₀ madd₀ (R.dot fl₀) l m = some x := by
  unfold Ie.intersectLineLine at hx
  obtain ⟨s, e, hs⟩ := ofLine_fin hf R l
  rw [e] at hx
  refine plane_line hf hma (Fl.planeOfLine (R.dot fl₀) l) m hs (Ie.vdot_two hm (Ie.neg_nat hm hsym) hR hN (fun i => ?_) hm2) x hx
  fin_cases i
  · simpa [Fl.planeOfLine, cross2] using hl 1
  · simpa [Fl.planeOfLine, cross2] using hl 0

private theorem norm_ok (h : Rounding fl₀ u) (hu : u ≤ 1 / 1000) {R : Ie.Red 2} (hR : R.Valid) :
    Fl.IsNormalize (n := 2) u 4 (Fl.normalizePrecise1 R.c false fl₀ R.conv R.tb R.ts) := by
  refine C133_normalize (n := 1) h ?_ R.c false R.conv R.tb R.ts hR.tb hR.ts
  have h0 := h.u_nonneg
  calc (1 + u) ^ 3 ≤ (1 + 1 / 1000) ^ 3 := pow_le_pow_left₀ (by linarith) (by linarith) 3
    _ < 2 := by norm_num

private theorem u_small (h : Rounding fl₀ u) (hg : (1 + u) ^ 5 - 1 ≤ 1 / 1000) : u ≤ 1 / 1000 := by
  have := one_add_mul_le_pow (a := u) (by linarith [h.u_nonneg]) 5
  push_cast at this
  linarith [h.u_nonneg]

/-- C141: the finite intersection of two lines through points in the plane whose differences do not overflow. -/
theorem C141_lines (h : Rounding fl₀ u) {γ : ℝ} (hγ : γ = (1 + u) ^ 5 - 1) (hg : γ ≤ 1 / 1000) (hf : Overflows fl fl₀) (hm : RoundsMonoFx N fl)
    (hsym : ∀ x, fl (-x) = (fl x).neg) (hop : Fx.IsMulAdd fl madd) (hmax : LaneMax bmax) {R : Ie.Red 2} (hR : R.Valid)
    (hN : 4 * batchSize 2 false ≤ N ∧ 4 * 3 ≤ N) {p1 p2 q1 q2 x : Fin 2 → ℝ} (hp : p1 ≠ p2) (hq : q1 ≠ q2) (hpd : ∀ i, ∃ z, fl (p2 i - p1 i) = .fin z)
    (hqd : ∀ i, ∃ z, fl (q2 i - q1 i) = .fin z)
    (hx : Ie.intersectLineLine R fl madd (Ie.XLine.through R fl bmax (finV p1) (finV p2)) (Ie.XLine.through R fl bmax (finV q1) (finV q2)) = some (finV x)) :
    (∃ s : ℝ, norm2 (fun i => x i - (p1 i + s * (p2 i - p1 i))) ≤ 12 * γ * (norm2 p1 + norm2 q1 + norm2 x)) ∧
      ∃ s : ℝ, norm2 (fun i => x i - (q1 i + s * (q2 i - q1 i))) ≤ 12 * γ * (norm2 p1 + norm2 q1 + norm2 x) := by
  obtain ⟨madd₀, hma, ht⟩ := hop.real hf
  have hu := u_small h (hγ ▸ hg)
  have lp := Ie.line_finite h (by linarith) hf hm hmax hR hN (s := ⟨p1, p2⟩) hp hpd
  have lq := Ie.line_finite h (by linarith) hf hm hmax hR hN (s := ⟨q1, q2⟩) hq hqd
  have ep : Ie.XLine.through R fl bmax (finV p1) (finV p2) = _ := lp.1
  have eq : Ie.XLine.through R fl bmax (finV q1) (finV q2) = _ := lq.1
  rw [ep, eq] at hx
  exact C137_lines h hγ hg hma (C116_dot (c := R.c) (p := false) h R.conv R.tb R.ts hR.tb hR.ts) (norm_ok h hu hR) le_rfl hp hq
    (line_line hf hm hsym ht hR hN _ _ (fun i => (lp.2 i).trans (by norm_num)) (fun i => (lq.2 i).trans (by norm_num)) x hx)

/-- C141, for segments in the plane whose coordinate differences do not overflow: a finite intersection is near both. -/
theorem C141_segments_partial (h : Rounding fl₀ u) {γ : ℝ} (hγ : γ = (1 + u) ^ 5 - 1) (hg : γ ≤ 1 / 1000) (hf : Overflows fl fl₀) (hm : RoundsMonoFx N fl)
    (hsym : ∀ x, fl (-x) = (fl x).neg) (hop : Fx.IsMulAdd fl madd) (hmax : LaneMax bmax) {R : Ie.Red 2} (hR : R.Valid)
    (hN : 4 * batchSize 2 false ≤ N ∧ 4 * 3 ≤ N) (neg1 neg2 : Bool) {lhs rhs : GSegment 2} {x : Fin 2 → ℝ} (hl : lhs.point1 ≠ lhs.point2)
    (hr : rhs.point1 ≠ rhs.point2) (hld : ∀ i, ∃ z, fl (lhs.point2 i - lhs.point1 i) = .fin z) (hrd : ∀ i, ∃ z, fl (rhs.point2 i - rhs.point1 i) = .fin z)
    (hx : Ie.intersectSegmentSegment neg1 neg2 R fl madd bmax (finSegment lhs) (finSegment rhs) = some (finV x)) :
    (∃ y ∈ segPoints lhs, norm2 (fun i => x i - y i) ≤ 40 * γ * (norm2 lhs.point1 + norm2 lhs.point2 + norm2 rhs.point1 + norm2 rhs.point2)) ∧
      ∃ y ∈ segPoints rhs, norm2 (fun i => x i - y i) ≤ 40 * γ * (norm2 lhs.point1 + norm2 lhs.point2 + norm2 rhs.point1 + norm2 rhs.point2) := by
  obtain ⟨madd₀, hma, ht⟩ := hop.real hf
  have hu := u_small h (hγ ▸ hg)
  have lp := Ie.line_finite h (by linarith) hf hm hmax hR hN hl hld
  have lq := Ie.line_finite h (by linarith) hf hm hmax hR hN hr hrd
  refine C137_segments_partial h hγ hg hma (C116_dot (c := R.c) (p := false) h R.conv R.tb R.ts hR.tb hR.ts) (norm_ok h hu hR) le_rfl (neg1 := neg1) (neg2 := neg2) hl hr ?_
  unfold Ie.intersectSegmentSegment at hx
  rw [lp.1, lq.1] at hx
  split at hx
  · cases hx
  · rename_i p hp
    split at hx
    · rename_i hw
      rw [Option.some.inj hx] at hp hw
      rw [Bool.and_eq_true] at hw
      unfold Fl.intersectSegmentSegment
      have e := line_line hf hm hsym ht hR hN _ _ (fun i => (lp.2 i).trans (by norm_num)) (fun i => (lq.2 i).trans (by norm_num)) x hp
      change (match Fl.intersectLineLine fl₀ madd₀ (R.dot fl₀) _ _ with | none => none | some p => _) = _
      rw [e]
      dsimp only
      rw [if_pos ⟨Ie.isWithin_finite h hf neg1 hld hw.1, Ie.isWithin_finite h hf neg2 hrd hw.2⟩]
    · cases hx

private theorem vdistance_finite (hf : Overflows fl fl₀) {R : Ie.Red n} (hR : R.Valid) {a b : Fin n → ℝ} {z : ℝ}
    (h : Ie.vdistance R fl (finV a) (finV b) = .fin z) :
    z = Fl.length fl₀ R.conv R.tb R.ts (Vec.ofFn fun i => fl₀ (a i - b i) : Vec R.c ℝ n false) ∧ ∀ i, ∃ y, fl (a i - b i) = .fin y := by
  have g : ∀ i, (Vec.doBinary R.conv (Fx.sub fl) (Vec.ofFn (finV a) : Vec R.c Fx n false) (Vec.ofFn (finV b) : Vec R.c Fx n false) :
      Vec R.c Fx n (false && false)).get i = Fx.sub fl (.fin (a i)) (.fin (b i)) := fun i => by
    rw [Vec.get_doBinary, Vec.get_ofFn, Vec.get_ofFn]; rfl
  constructor
  · have hv : ∀ i, Tracks ((Vec.doBinary R.conv (Fx.sub fl) (Vec.ofFn (finV a) : Vec R.c Fx n false) (Vec.ofFn (finV b) : Vec R.c Fx n false) :
        Vec R.c Fx n (false && false)).get i) ((Vec.ofFn fun i => fl₀ (a i - b i) : Vec R.c ℝ n (false && false)).get i) := fun i => by
      rw [g, Vec.get_ofFn]
      exact (tracks_fin _).sub hf (tracks_fin _)
    exact (Ie.dot_tracks hf R.conv R.tb R.ts hv hv).sqrt hf z h
  · intro i
    rcases nf_or (fl (a i - b i)) with e | e
    · exact e
    · refine absurd h ((Ie.dot_nf R.conv R.tb R.ts hR.tb hR.ts _ _ ⟨i, Or.inl ?_⟩).sqrt z)
      rw [g]
      change NF (fl (a i + -b i))
      rw [← sub_eq_add_neg]
      exact e

/-- C141, for a plane and a segment whose ends have a finite distance: a finite intersection is near both. -/
theorem C141_plane_segment_partial (h : Rounding fl₀ u) {γ : ℝ} (hγ : γ = (1 + u) ^ (n + 1 + 4) - 1) (hg : γ ≤ 1 / 1000) (hf : Overflows fl fl₀)
    (hm : RoundsMonoFx N fl) (hsym : ∀ x, fl (-x) = (fl x).neg) (hop : Fx.IsMulAdd fl madd) (hmax : LaneMax bmax) {R : Ie.Red (n + 1)} (hR : R.Valid)
    (hN : 4 * batchSize (n + 1) false ≤ N ∧ 4 * (n + 2) ≤ N) (p : GPlane (n + 1)) (hp : ∀ i, |p.normal i| ≤ 2) (s : GSegment (n + 1))
    (hs : s.point1 ≠ s.point2) {d : ℝ} (hd : Ie.vdistance R fl (finV s.point1) (finV s.point2) = .fin d) {x : Fin (n + 1) → ℝ}
    (hx : Ie.intersectPlaneSegment R fl madd bmax (finPlane p) (finSegment s) = some (finV x)) :
    (∃ y ∈ segPoints s, norm2 (fun i => x i - y i) ≤ 6 * γ * (norm2 s.point1 + norm2 s.point2)) ∧
      |∑ i, p.normal i * x i - p.scalar - (∑ i, p.normal i ^ 2 - 1) * p.scalar| ≤
        γ * norm2 p.normal * (norm2 p.normal * |p.scalar| + 5 * (norm2 s.point1 + norm2 s.point2)) := by
  obtain ⟨madd₀, hma, htr⟩ := hop.real hf
  have h0 := h.u_nonneg
  have hu : u ≤ 1 / 1000 := by
    have := one_add_mul_le_pow (a := u) (by linarith) (n + 1 + 4)
    have h5 : (1 : ℝ) ≤ ((n + 1 + 4 : ℕ) : ℝ) := by push_cast; linarith [n.cast_nonneg (α := ℝ)]
    nlinarith
  obtain ⟨ed, hd2⟩ := vdistance_finite hf hR hd
  have hd1 : ∀ i, ∃ z, fl (s.point2 i - s.point1 i) = .fin z := fun i => by
    obtain ⟨z, e⟩ := hd2 i
    exact ⟨-z, by rw [← neg_sub, hsym, e]; rfl⟩
  have ls := Ie.line_finite h (by linarith) hf hm hmax hR hN hs hd1
  have hpow : (1 + u) ^ (n + 2) < 2 := by
    have : (1 + u) ^ (n + 2) ≤ (1 + u) ^ (n + 1 + 4) := pow_le_pow_right₀ (by linarith) (by omega)
    linarith
  refine C138_reported_partial h hγ hg hma (C116_dot (c := R.c) (p := false) h R.conv R.tb R.ts hR.tb hR.ts)
    (C133_normalize h hpow R.c false R.conv R.tb R.ts hR.tb hR.ts) (by omega) (by omega)
    (len := fun v => Fl.length fl₀ R.conv R.tb R.ts (Vec.ofFn v : Vec R.c ℝ (n + 1) false)) (l := n + 2) (fun v => ?_) (by omega) p s hs ?_
  · have := C76_length h R.conv R.tb R.ts hR.tb hR.ts (Vec.ofFn v : Vec R.c ℝ (n + 1) false)
    simp only [Vec.get_ofFn] at this
    exact this
  · unfold Ie.intersectPlaneSegment at hx
    rw [ls.1] at hx
    unfold Fl.intersectPlaneSegment
    rcases Ie.param_tracks hf R p _ (tracks_fin _) (Ie.vdot_two hm (Ie.neg_nat hm hsym) hR hN hp fun i => (ls.2 i).trans (by norm_num)) with
      ⟨e, -⟩ | ⟨t, t₀, e, e₀, ht⟩
    · change (match Ie.planeLineParam R fl ⟨finV p.normal, .fin p.scalar⟩ _ with | none => none | some t => _) = _ at hx
      rw [e] at hx; cases hx
    · change (match Ie.planeLineParam R fl ⟨finV p.normal, .fin p.scalar⟩ _ with | none => none | some t => _) = _ at hx
      change (match Fl.planeLineParam fl₀ (R.dot fl₀) _ _ with | none => none | some t => _) = _
      rw [e] at hx
      rw [e₀]
      dsimp only at hx ⊢
      split at hx
      · rename_i hc
        have hx' := Option.some.inj hx
        have et : t = .fin t₀ := by
          rcases ht.cases with e | e
          · exact e
          · exact absurd (congrFun hx' 0) (Ie.pointAt_nf hop _ e 0 _)
        have hd' : Ie.vdistance R fl (finSegment s).point1 (finSegment s).point2 = .fin d := hd
        rw [et, hd', Bool.and_eq_true, Ie.le_fin, Ie.lt_fin, ed] at hc
        rw [if_pos hc]
        exact congrArg some (funext fun i => (Ie.pointAt_tracks htr _ ht i (x i) (congrFun hx' i)).symm)
      · cases hx

/-! ## Triangles -/

/-- C141, for a ray and a triangle: a finite intersection is near a point of the triangle if neither product in the coordinates of the point in the triangle
is NaN. -/
theorem C141_ray_triangle_partial {p : ℕ} (hp : 3 ≤ p) (h : RoundsToNearest p fl₀) (hf : Overflows fl fl₀) (hm : RoundsFx fl) (hop : Fx.IsMulAdd fl madd) {R : Ie.Red 3}
    (hR : R.Valid) {epsilon : ℝ} (he : 0 < epsilon) (ray : GLine 3) (tr : GTriangle 3) (hdir : ∀ i, fl (ray.direction i) = .fin (ray.direction i))
    (hu : Ie.vdot R fl (Ie.vsub fl (finV ray.base) (finV tr.a)) (Ie.cross3 fl (finV ray.direction) (Ie.vsub fl (finV tr.c) (finV tr.a))) ≠ .nan)
    (hv : Ie.vdot R fl (finV ray.direction) (Ie.cross3 fl (Ie.vsub fl (finV ray.base) (finV tr.a)) (Ie.vsub fl (finV tr.b) (finV tr.a))) ≠ .nan)
    (x : Fin 3 → ℝ) (hx : Ie.intersectRayTriangle R fl madd epsilon (finLine ray) (finTriangle tr) = some (finV x)) :
    ∃ a b t : ℝ, 0 ≤ a ∧ a ≤ 1 ∧ 0 ≤ b ∧ (1 - 2 ^ (-(p : ℤ))) * (a + b) ≤ 1 ∧ epsilon ≤ t ∧
      (∀ i, |x i - (ray.base i + t * ray.direction i)| ≤ ((1 + 2 ^ (-(p : ℤ))) ^ 2 - 1) * (|ray.base i| + |t| * |ray.direction i|)) ∧
      ∀ i, |det3v (tr.b - tr.a) ray.direction (tr.c - tr.a)| * |ray.pointAt t i - (tr.a i + a * (tr.b i - tr.a i) + b * (tr.c i - tr.a i))| ≤
        ((1 + 2 ^ (-(p : ℤ))) ^ 12 - 1) *
          ((absDet3 (ray.base - tr.a) ray.direction (tr.c - tr.a) + a * absDet3 (tr.b - tr.a) ray.direction (tr.c - tr.a)) * |tr.b i - tr.a i| +
           (absDet3 ray.direction (ray.base - tr.a) (tr.b - tr.a) + b * absDet3 (tr.b - tr.a) ray.direction (tr.c - tr.a)) * |tr.c i - tr.a i| +
           (absDet3 (tr.c - tr.a) (ray.base - tr.a) (tr.b - tr.a) + t * absDet3 (tr.b - tr.a) ray.direction (tr.c - tr.a)) * |ray.direction i|) := by
  obtain ⟨madd₀, hma, htr⟩ := hop.real hf
  have hrd := h.rounding (by omega : 1 ≤ p)
  refine C129_sound hrd hma (C116_dot (c := R.c) (p := false) hrd R.conv R.tb R.ts hR.tb hR.ts)
    (C129_cross (c := R.c) (pk := false) hp h R.conv (fun _ => 0)) he ray tr (fun i => hf.fix (hdir i)) x ?_
  have tE1 : ∀ i, Tracks (Ie.vsub fl (finV tr.b) (finV tr.a) i) (fl₀ (tr.b i - tr.a i)) := Ie.vsub_tracks hf (fun _ => tracks_fin _) fun _ => tracks_fin _
  have tE2 : ∀ i, Tracks (Ie.vsub fl (finV tr.c) (finV tr.a) i) (fl₀ (tr.c i - tr.a i)) := Ie.vsub_tracks hf (fun _ => tracks_fin _) fun _ => tracks_fin _
  have tS : ∀ i, Tracks (Ie.vsub fl (finV ray.base) (finV tr.a) i) (fl₀ (ray.base i - tr.a i)) := Ie.vsub_tracks hf (fun _ => tracks_fin _) fun _ => tracks_fin _
  have tH := Ie.cross3_tracks hf R (a := finV ray.direction) (fun _ => tracks_fin _) tE2
  have tA := Ie.vdot_tracks hf R tE1 tH
  have tQ := Ie.cross3_tracks hf R tS tE1
  have tSH := Ie.vdot_tracks hf R tS tH
  have tDQ := Ie.vdot_tracks hf R (a := finV ray.direction) (fun _ => tracks_fin _) tQ
  have tEQ := Ie.vdot_tracks hf R tE2 tQ
  unfold Ie.intersectRayTriangle at hx
  dsimp only [finLine, finTriangle] at hx
  change Fl.intersectRayTriangle fl₀ madd₀ (R.dot fl₀) (R.cross fl₀) epsilon ray tr = some x
  unfold Fl.intersectRayTriangle
  dsimp only
  set A := Ie.vdot R fl (Ie.vsub fl (finV tr.b) (finV tr.a)) (Ie.cross3 fl (finV ray.direction) (Ie.vsub fl (finV tr.c) (finV tr.a))) with hA
  set SH := Ie.vdot R fl (Ie.vsub fl (finV ray.base) (finV tr.a)) (Ie.cross3 fl (finV ray.direction) (Ie.vsub fl (finV tr.c) (finV tr.a))) with hSH
  set DQ := Ie.vdot R fl (finV ray.direction) (Ie.cross3 fl (Ie.vsub fl (finV ray.base) (finV tr.a)) (Ie.vsub fl (finV tr.b) (finV tr.a))) with hDQ
  set EQ := Ie.vdot R fl (Ie.vsub fl (finV tr.c) (finV tr.a)) (Ie.cross3 fl (Ie.vsub fl (finV ray.base) (finV tr.a)) (Ie.vsub fl (finV tr.b) (finV tr.a)))
  set a := R.dot fl₀ (fun i => fl₀ (tr.b i - tr.a i)) (R.cross fl₀ ray.direction fun i => fl₀ (tr.c i - tr.a i))
  set sh := R.dot fl₀ (fun i => fl₀ (ray.base i - tr.a i)) (R.cross fl₀ ray.direction fun i => fl₀ (tr.c i - tr.a i))
  set dq := R.dot fl₀ ray.direction (R.cross fl₀ (fun i => fl₀ (ray.base i - tr.a i)) fun i => fl₀ (tr.b i - tr.a i))
  set eq := R.dot fl₀ (fun i => fl₀ (tr.c i - tr.a i)) (R.cross fl₀ (fun i => fl₀ (ray.base i - tr.a i)) fun i => fl₀ (tr.b i - tr.a i))
  clear_value A SH DQ EQ a sh dq eq
  split at hx
  · cases hx
  rename_i n1
  split at hx
  · cases hx
  rename_i n2
  split at hx
  · cases hx
  rename_i n3
  split at hx
  · cases hx
  rename_i n4
  have hx' := Option.some.inj hx
  have ft : ¬NF (Fx.mul fl (Fx.div fl (.fin 1) A) EQ) := fun e => absurd (congrFun hx' 0) (Ie.pointAt_nf hop _ e 0 _)
  have eEQ : EQ = .fin eq := by
    rcases tEQ.cases with e | e
    · exact e
    · exact absurd (e.mul_right _) ft
  have z0 : ∀ {y : ℝ}, y = 0 → fl y = .fin 0 := fun e => by rw [e]; exact hm.zero
  have eA : A = .fin a := by
    rcases tA.cases with e | e
    · exact e
    · exfalso
      rcases e.cases with e | ⟨s, e⟩
      · exact ft (by rw [e, Fx.div_nan', Fx.nan_mul']; exact nf_nan)
      · refine n4 ?_
        rw [e, eEQ]
        change Fx.lt (fl (0 * eq)) (.fin epsilon) = true
        rw [z0 (zero_mul _), Ie.lt_fin]
        exact he
  rw [eA, eEQ] at n4 hx'
  rw [eA] at n1 n2 n3
  have na : ¬|a| < epsilon := fun e => n1 ((Ie.lt_fin _ _).2 e)
  have a0 : a ≠ 0 := by rintro rfl; exact na (by rw [abs_zero]; exact he)
  have ef : Fx.div fl (.fin 1) (.fin a) = .fin (fl₀ (1 / a)) := by
    rcases ((tracks_fin 1).div hf a).cases with e | e
    · exact e
    · rw [eA] at ft; exact absurd (e.mul_left _) ft
  have f0 : fl₀ (1 / a) ≠ 0 := by
    intro e
    refine n4 ?_
    rw [ef, e]
    change Fx.lt (fl (0 * eq)) (.fin epsilon) = true
    rw [z0 (zero_mul _), Ie.lt_fin]
    exact he
  rw [ef] at n2 n3 n4 hx'
  rw [Bool.or_eq_true, not_or] at n2 n3
  rw [if_neg na]
  have range : ∀ {d : Fx} {d₀ : ℝ}, d ≠ .nan → Tracks d d₀ → ¬Fx.lt (Fx.mul fl (.fin (fl₀ (1 / a))) d) (.fin 0) = true →
      Fx.mul fl (.fin (fl₀ (1 / a))) d = .fin (fl₀ (fl₀ (1 / a) * d₀)) ∨ Fx.mul fl (.fin (fl₀ (1 / a))) d = .inf false := by
    intro d d₀ hd ht h0
    rcases ((tracks_fin (fl₀ (1 / a))).mul hf ht).cases with e | e
    · exact Or.inl e
    · rcases e.cases with e | ⟨s, e⟩
      · exfalso
        rcases ht.cases with rfl | hn
        · exact hm.not_nan _ e
        · rcases hn.cases with rfl | ⟨s, rfl⟩
          · exact hd rfl
          · have e' : Fx.mul fl (.fin (fl₀ (1 / a))) (.inf s) = .inf (decide (fl₀ (1 / a) < 0) != s) := by unfold Fx.mul; dsimp only; rw [if_neg f0]
            rw [e'] at e
            cases e
      · cases s
        · exact Or.inr e
        · rw [e] at h0; exact absurd rfl h0
  have eU : Fx.mul fl (.fin (fl₀ (1 / a))) SH = .fin (fl₀ (fl₀ (1 / a) * sh)) := by
    rcases range hu tSH n2.1 with e | e
    · exact e
    · exact absurd (by rw [e]; rfl) n2.2
  rw [eU] at n2 n3
  have eV : Fx.mul fl (.fin (fl₀ (1 / a))) DQ = .fin (fl₀ (fl₀ (1 / a) * dq)) := by
    rcases range hv tDQ n3.1 with e | e
    · exact e
    · exact absurd (by rw [e]; rfl) n3.2
  rw [eV] at n3
  rw [Ie.lt_fin, Ie.lt_fin] at n2
  rw [Ie.lt_fin] at n3
  rw [if_neg (by rintro (e | e); exacts [n2.1 e, n2.2 e])]
  have eW : ¬fl₀ (fl₀ (fl₀ (1 / a) * sh) + fl₀ (fl₀ (1 / a) * dq)) > 1 := by
    intro hw
    refine n3.2 ?_
    change Fx.lt (.fin 1) (fl (fl₀ (fl₀ (1 / a) * sh) + fl₀ (fl₀ (1 / a) * dq))) = true
    have nn := hm.nonneg (fl₀ (fl₀ (1 / a) * sh) + fl₀ (fl₀ (1 / a) * dq)) (by linarith [n2.1, n3.1])
    rcases hf.round (fl₀ (fl₀ (1 / a) * sh) + fl₀ (fl₀ (1 / a) * dq)) with e | ⟨s, e⟩
    · rw [e, Ie.lt_fin]; exact hw
    · rw [e] at nn ⊢
      cases s
      · rfl
      · simp [Fx.val] at nn
  rw [if_neg (by rintro (e | e); exacts [n3.1 e, eW e])]
  have eT : Fx.mul fl (.fin (fl₀ (1 / a))) (.fin eq) = .fin (fl₀ (fl₀ (1 / a) * eq)) := by
    rcases ((tracks_fin (fl₀ (1 / a))).mul hf (tracks_fin eq)).cases with e | e
    · exact e
    · rw [eA, ef, eEQ] at ft; exact absurd e ft
  rw [eT] at n4 hx'
  rw [if_neg (fun e => n4 ((Ie.lt_fin _ _).2 e))]
  exact congrArg some (funext fun i => (Ie.pointAt_tracks htr ray (tracks_fin _) i (x i) (congrFun hx' i)).symm)

/-! ## The claim is false for segments and triangles -/

/-- Evaluation without SIMD in three dimensions. -/
noncomputable def red3 : Ie.Red 3 :=
  ⟨Cfg.scalar, false, (.node (.node (.leaf 0) (.leaf 1)) (.node (.leaf 2) (.leaf 3)) : RTree 4), (.node (.node (.leaf 0) (.leaf 1)) (.node (.leaf 2) (.leaf 3)) : RTree 4),
    .node (.node (.node (.leaf 0) (.leaf 1)) (.leaf 2)) (.leaf 3)⟩

theorem red3_valid : red3.Valid := ⟨List.Perm.refl _, List.Perm.refl _, List.Perm.refl _⟩

private theorem vdot3 (a b : Fin 3 → Fx) : Ie.vdot red3 fl a b =
    Fx.add fl (Fx.add fl (Fx.add fl (Fx.mul fl (a 0) (b 0)) (Fx.mul fl (a 1) (b 1))) (Fx.mul fl (a 2) (b 2))) (.fin 0) := by
  unfold Ie.vdot Ie.dot Ie.sum
  have hb : isBatched red3.c 3 (false && false) = false := rfl
  rw [dif_neg (by rw [hb]; simp)]
  simp only [red3, RTree.eval, Vec.get_doBinary, Vec.get_ofFn]
  rfl

private theorem vdot2' (a b : Fin 2 → Fx) : Ie.vdot red2 fl a b =
    Fx.add fl (Fx.add fl (Fx.mul fl (a 0) (b 0)) (Fx.mul fl (a 1) (b 1))) (.fin 0) := by
  unfold Ie.vdot Ie.dot Ie.sum
  have hb : isBatched red2.c 2 (false && false) = false := rfl
  rw [dif_neg (by rw [hb]; simp)]
  simp only [red2, RTree.eval, Vec.get_doBinary, Vec.get_ofFn]
  rfl

private theorem fmta_exact (f0 : fl 0 = .fin 0) {a b x d : ℝ} (hw : fl (d * x) = .fin (d * x)) (hn : fl (-(d * x)) = .fin (-(d * x)))
    (hr : fl (a * b + d * x) = .fin (a * b + d * x)) : Ie.fmta1 fl (.fin a) (.fin b) (.fin x) (.fin d) = .fin (a * b + d * x) := by
  unfold Ie.fmta1
  simp only [Fx.mul, hw, mul_neg, mul_one, hn, Fx.add, add_neg_cancel, f0, hr, add_zero]

private theorem mul_fin (a b : ℝ) : Fx.mul fl (.fin a) (.fin b) = fl (a * b) := rfl
private theorem add_fin (a b : ℝ) : Fx.add fl (.fin a) (.fin b) = fl (a + b) := rfl

private theorem madd_exact (hop : Fx.IsMulAdd fl madd) {a b d : ℝ} (h1 : fl (a * b) = .fin (a * b)) {r : ℝ} (e : a * b + d = r) (hr : fl r = .fin r) :
    madd (.fin a) (.fin b) (.fin d) = .fin r := by
  rcases hop (.fin a) (.fin b) (.fin d) with h | h
  · rw [h, mul_fin, h1, add_fin, e, hr]
  · rw [h]; change fl (a * b + d) = _; rw [e, hr]

/-- C141: the claim is false for triangles: two infinities can cancel to NaN, which passes the tests for the inside of the triangle. Of the ray from
`(2M, M, -1)` in the third direction, `(2M, M, 0)` is reported as the intersection with the triangle `(0, 0, 0)`, `(0, 1/M, 0)`, `(M, M, 0)`. Their first
coordinates are at most `M`, so that the ray does not meet the triangle. `M` is any number whose square overflows, such as `2^64` in single precision. -/
theorem C141_false_hit_violated (hop : Fx.IsMulAdd fl madd) {M : ℝ} (hM : 0 < M) (f0 : fl 0 = .fin 0) (f1 : fl 1 = .fin 1) (fm : fl (-1) = .fin (-1))
    (f2 : fl 2 = .fin 2) (fM : fl M = .fin M) (fmM : fl (-M) = .fin (-M)) (f2M : fl (2 * M) = .fin (2 * M)) (fm2M : fl (-(2 * M)) = .fin (-(2 * M)))
    (fi : fl M⁻¹ = .fin M⁻¹) (fmi : fl (-M⁻¹) = .fin (-M⁻¹)) (o1 : fl (M * M) = .inf false) (o2 : fl (-(2 * M * M)) = .inf true) {epsilon : ℝ}
    (he : epsilon ≤ 1) :
    Ie.intersectRayTriangle red3 fl madd epsilon (finLine ⟨![0, 0, 1], ![2 * M, M, -1]⟩) (finTriangle ⟨![0, 0, 0], ![0, M⁻¹, 0], ![M, M, 0]⟩) =
        some (finV ![2 * M, M, 0]) ∧
      ∀ t a b, ¬IsHit ⟨![0, 0, 1], ![2 * M, M, -1]⟩ ⟨![0, 0, 0], ![0, M⁻¹, 0], ![M, M, 0]⟩ t a b := by
  have hM0 : M ≠ 0 := hM.ne'
  constructor
  · have e1 : Ie.vsub fl (finV ![0, M⁻¹, 0]) (finV ![0, 0, 0]) = finV ![0, M⁻¹, 0] := by
      funext i; fin_cases i <;> simp [Ie.vsub, finV, Fx.sub, Fx.neg, Fx.add, f0, fi]
    have e2 : Ie.vsub fl (finV ![M, M, 0]) (finV ![0, 0, 0]) = finV ![M, M, 0] := by
      funext i; fin_cases i <;> simp [Ie.vsub, finV, Fx.sub, Fx.neg, Fx.add, f0, fM]
    have es : Ie.vsub fl (finV ![2 * M, M, -1]) (finV ![0, 0, 0]) = finV ![2 * M, M, -1] := by
      funext i; fin_cases i <;> simp [Ie.vsub, finV, Fx.sub, Fx.neg, Fx.add, fm, fM, f2M]
    have eh : Ie.cross3 fl (finV ![0, 0, 1]) (finV ![M, M, 0]) = finV ![-M, M, 0] := by
      funext i
      fin_cases i <;> simp [Ie.cross3, Ie.fmta1, finV, Fx.mul, Fx.add, f0, fm, fM, fmM]
    have eq : Ie.cross3 fl (finV ![2 * M, M, -1]) (finV ![0, M⁻¹, 0]) = finV ![M⁻¹, 0, 2] := by
      funext i
      fin_cases i <;> simp [Ie.cross3, Ie.fmta1, finV, Fx.mul, Fx.add, f0, f1, fmM, fm2M, fi, fmi, f2, hM0]
    unfold Ie.intersectRayTriangle
    dsimp only [finLine, finTriangle]
    rw [e1, e2, es, eh, eq, vdot3, vdot3, vdot3, vdot3]
    have ea : Fx.add fl (Fx.add fl (Fx.add fl (Fx.mul fl (finV ![0, M⁻¹, 0] 0) (finV ![-M, M, 0] 0)) (Fx.mul fl (finV ![0, M⁻¹, 0] 1) (finV ![-M, M, 0] 1)))
        (Fx.mul fl (finV ![0, M⁻¹, 0] 2) (finV ![-M, M, 0] 2))) (.fin 0) = .fin 1 := by
      simp [finV, Fx.mul, Fx.add, f0, f1, hM0]
    have eu : Fx.add fl (Fx.add fl (Fx.add fl (Fx.mul fl (finV ![2 * M, M, -1] 0) (finV ![-M, M, 0] 0)) (Fx.mul fl (finV ![2 * M, M, -1] 1) (finV ![-M, M, 0] 1)))
        (Fx.mul fl (finV ![2 * M, M, -1] 2) (finV ![-M, M, 0] 2))) (.fin 0) = .nan := by
      simp [finV, Fx.mul, Fx.add, o1, o2, f0]
    have et : Fx.add fl (Fx.add fl (Fx.add fl (Fx.mul fl (finV ![M, M, 0] 0) (finV ![M⁻¹, 0, 2] 0)) (Fx.mul fl (finV ![M, M, 0] 1) (finV ![M⁻¹, 0, 2] 1)))
        (Fx.mul fl (finV ![M, M, 0] 2) (finV ![M⁻¹, 0, 2] 2))) (.fin 0) = .fin 1 := by
      simp [finV, Fx.mul, Fx.add, f0, f1, hM0]
    have ev : Fx.add fl (Fx.add fl (Fx.add fl (Fx.mul fl (finV ![0, 0, 1] 0) (finV ![M⁻¹, 0, 2] 0)) (Fx.mul fl (finV ![0, 0, 1] 1) (finV ![M⁻¹, 0, 2] 1)))
        (Fx.mul fl (finV ![0, 0, 1] 2) (finV ![M⁻¹, 0, 2] 2))) (.fin 0) = .fin 2 := by
      simp [finV, Fx.mul, Fx.add, f0, f2]
    rw [ea, eu, et, ev]
    have ef : Fx.div fl (.fin 1) (.fin 1) = .fin 1 := by simp [Fx.div, f1]
    rw [ef, if_neg (by simp [Fx.abs, Fx.lt, he]), Fx.mul_nan', if_neg (by simp [Fx.lt]), Fx.nan_add', mul_fin, one_mul, f2,
      if_neg (by simp [Fx.lt]), mul_fin, one_mul, f1, if_neg (by simp [Fx.lt, he])]
    refine congrArg some (funext fun i => ?_)
    fin_cases i
    · exact madd_exact hop (by simp [f0]) (by simp) f2M
    · exact madd_exact hop (by simp [f0]) (by simp) fM
    · exact madd_exact hop (by simp [f1]) (by simp) f0
  · rintro t a b ⟨ha, hb, hab, h⟩
    have := congrFun h 0
    simp [GLine.pointAt] at this
    rcases this with e | e
    · linarith
    · exact hM0 e

/-- C141: the claim is false for triangles: if the volume spanned by ray and triangle overflows, its reciprocal is zero, and so is the parameter. The ray from
`(B, B, -1/2)` in the third direction, which meets the triangle `(0, 0, 0)`, `(4B, 0, 0)`, `(0, 4B, 0)` in `(B, B, 0)`, is not reported to meet it. `16 B²`
overflows, `8 B²` need not; `B` is `2^62` in single precision. -/
theorem C141_missed_violated {B : ℝ} (f0 : fl 0 = .fin 0) (fm : fl (-1) = .fin (-1)) (fB : fl B = .fin B) (fmB : fl (-B) = .fin (-B))
    (fh : fl (-2⁻¹) = .fin (-2⁻¹)) (fh' : fl 2⁻¹ = .fin 2⁻¹) (fm2 : fl (-(2⁻¹ * (4 * B))) = .fin (-(2⁻¹ * (4 * B)))) (f4 : fl (4 * B) = .fin (4 * B))
    (fm4 : fl (-(4 * B)) = .fin (-(4 * B))) (s4' : fl (4 * B * B) = .fin (4 * B * B)) (sm4' : fl (-(4 * B * B)) = .fin (-(4 * B * B)))
    (s8 : fl (-(4 * B * (2⁻¹ * (4 * B)))) = .fin (-(4 * B * (2⁻¹ * (4 * B))))) (o : fl (-(4 * B * (4 * B))) = .inf true) {epsilon : ℝ} (he : 0 < epsilon) :
    Ie.intersectRayTriangle red3 fl madd epsilon (finLine ⟨![0, 0, 1], ![B, B, -2⁻¹]⟩) (finTriangle ⟨![0, 0, 0], ![4 * B, 0, 0], ![0, 4 * B, 0]⟩) = none ∧
      IsHit ⟨![0, 0, 1], ![B, B, -2⁻¹]⟩ ⟨![0, 0, 0], ![4 * B, 0, 0], ![0, 4 * B, 0]⟩ 2⁻¹ (1 / 4) (1 / 4) := by
  constructor
  · have e1 : Ie.vsub fl (finV ![4 * B, 0, 0]) (finV ![0, 0, 0]) = finV ![4 * B, 0, 0] := by
      funext i; fin_cases i <;> simp [Ie.vsub, finV, Fx.sub, Fx.neg, Fx.add, f0, f4]
    have e2 : Ie.vsub fl (finV ![0, 4 * B, 0]) (finV ![0, 0, 0]) = finV ![0, 4 * B, 0] := by
      funext i; fin_cases i <;> simp [Ie.vsub, finV, Fx.sub, Fx.neg, Fx.add, f0, f4]
    have es : Ie.vsub fl (finV ![B, B, -2⁻¹]) (finV ![0, 0, 0]) = finV ![B, B, -2⁻¹] := by
      funext i; fin_cases i <;> simp [Ie.vsub, finV, Fx.sub, Fx.neg, Fx.add, fB, fh]
    have eh : Ie.cross3 fl (finV ![0, 0, 1]) (finV ![0, 4 * B, 0]) = finV ![-(4 * B), 0, 0] := by
      funext i
      fin_cases i <;> simp [Ie.cross3, Ie.fmta1, finV, Fx.mul, Fx.add, f0, fm, f4, fm4]
    have eq : Ie.cross3 fl (finV ![B, B, -2⁻¹]) (finV ![4 * B, 0, 0]) = finV ![0, -(2⁻¹ * (4 * B)), -(4 * B * B)] := by
      funext i
      fin_cases i <;> simp [Ie.cross3, Ie.fmta1, finV, Fx.mul, Fx.add, f0, fmB, fh', fm2, s4', sm4']
    unfold Ie.intersectRayTriangle
    dsimp only [finLine, finTriangle]
    rw [e1, e2, es, eh, eq, vdot3, vdot3, vdot3, vdot3]
    have ea : Fx.add fl (Fx.add fl (Fx.add fl (Fx.mul fl (finV ![4 * B, 0, 0] 0) (finV ![-(4 * B), 0, 0] 0)) (Fx.mul fl (finV ![4 * B, 0, 0] 1) (finV ![-(4 * B), 0, 0] 1)))
        (Fx.mul fl (finV ![4 * B, 0, 0] 2) (finV ![-(4 * B), 0, 0] 2))) (.fin 0) = .inf true := by
      simp [finV, Fx.mul, Fx.add, f0, o]
    have et : Fx.add fl (Fx.add fl (Fx.add fl (Fx.mul fl (finV ![0, 4 * B, 0] 0) (finV ![0, -(2⁻¹ * (4 * B)), -(4 * B * B)] 0))
        (Fx.mul fl (finV ![0, 4 * B, 0] 1) (finV ![0, -(2⁻¹ * (4 * B)), -(4 * B * B)] 1)))
        (Fx.mul fl (finV ![0, 4 * B, 0] 2) (finV ![0, -(2⁻¹ * (4 * B)), -(4 * B * B)] 2))) (.fin 0) = .fin (-(4 * B * (2⁻¹ * (4 * B)))) := by
      simp [finV, Fx.mul, Fx.add, f0, s8]
    rw [ea, et]
    have ef : Fx.div fl (.fin 1) (.inf true) = .fin 0 := rfl
    have ez : Fx.mul fl (.fin 0) (.fin (-(4 * B * (2⁻¹ * (4 * B))))) = .fin 0 := by rw [mul_fin, zero_mul, f0]
    rw [ef, ez]
    split
    · rfl
    split
    · rfl
    split
    · rfl
    rw [if_pos ((Ie.lt_fin _ _).2 he)]
  · refine ⟨by norm_num, by norm_num, by norm_num, funext fun i => ?_⟩
    fin_cases i <;> simp [GLine.pointAt]

private theorem axis_line (hm : RoundsMonoFx N fl) (hN : 4 ≤ N) (hmax : LaneMax bmax) {M : ℝ} (hM : 0 < M) (fM : fl M = .fin M) :
    Ie.XSegment.line red2 fl bmax (finSegment ⟨![0, 0], ![M, 0]⟩) = ⟨finV ![1, 0], finV ![0, 0]⟩ := by
  have f0 : fl 0 = .fin 0 := hm.zero
  have f1 : fl 1 = .fin 1 := by have := hm.nat 1 (by omega); push_cast at this; exact this
  have ev : Ie.vsub fl (finV ![M, 0]) (finV ![0, 0]) = finV ![M, 0] := by
    funext i; fin_cases i <;> simp [Ie.vsub, finV, Fx.sub, Fx.neg, Fx.add, f0, fM]
  obtain ⟨S, l, h1, ⟨i1, h2⟩, -, -, -, hl, hy⟩ := normalizePrecise_steps hm bmax hmax red2.conv red2.tm red2.tb red2.ts red2_valid.tm red2_valid.tb red2_valid.ts
    (by change 2 ≤ N ∧ 3 ≤ N; omega) (Vec.ofFn (finV ![M, 0]) : Vec red2.c Fx (1 + 1) false)
    (Vec.ofFn fun i => if i = 0 then .fin 1 else .fin 0 : Vec red2.c Fx (1 + 1) false) ![M, 0] (fun i => by rw [Vec.get_ofFn]; rfl) ⟨0, by simpa using hM.ne'⟩
  have hS : S = M := by
    have a0 := h1 0
    simp only [Matrix.cons_val_zero, abs_of_pos hM] at a0
    fin_cases i1
    · simpa [abs_of_pos hM] using h2.symm
    · simp at h2; linarith
  subst hS
  have hsc : ∀ i, (Ie.divScalar fl red2.conv (Vec.ofFn (finV ![S, 0]) : Vec red2.c Fx (1 + 1) false) (.fin S)).get i = finV ![1, 0] i := by
    intro i
    unfold Ie.divScalar
    rw [Vec.get_doBinary, Vec.get_fill, Vec.get_ofFn]
    fin_cases i <;> simp [finV, Fx.div, hM.ne', f0, f1]
  have hl1 : l = 1 := by
    have hdot : Ie.dot fl red2.conv red2.tb red2.ts (Ie.divScalar fl red2.conv (Vec.ofFn (finV ![S, 0]) : Vec red2.c Fx (1 + 1) false) (.fin S))
        (Ie.divScalar fl red2.conv (Vec.ofFn (finV ![S, 0]) : Vec red2.c Fx (1 + 1) false) (.fin S)) = .fin 1 := by
      unfold Ie.dot Ie.sum
      have hb : isBatched red2.c (1 + 1) (false && false && (false && false)) = false := rfl
      have ht : red2.ts = .node (.node (.leaf 0) (.leaf 1)) (.leaf 2) := rfl
      rw [dif_neg (by rw [hb]; simp), ht]
      simp only [RTree.eval, Vec.get_doBinary, hsc]
      simp [finV, Fx.add, Fx.mul, f0, f1]
    unfold Ie.length at hl
    rw [hdot] at hl
    simp [Fx.sqrt, f1] at hl
    norm_num [f1] at hl
    exact hl.symm
  subst hl1
  unfold Ie.XSegment.line finSegment
  dsimp only
  rw [ev]
  have : Ie.normalizePrecise1 red2 fl bmax (finV ![S, 0]) = finV ![1, 0] := by
    funext i
    obtain ⟨y, e, -, -, e'⟩ := hy i
    unfold Ie.normalizePrecise1
    rw [e', div_one]
    fin_cases i
    · simp [hM.ne', f1] at e; rw [← e, f1]; rfl
    · simp [f0] at e; rw [← e, f0]; rfl
  rw [this]

private theorem axis_param (f0 : fl 0 = .fin 0) (f1 : fl 1 = .fin 1) {s : ℝ} (fs : fl s = .fin s) :
    Ie.planeLineParam red2 fl (finPlane ⟨![1, 0], s⟩) ⟨finV ![1, 0], finV ![0, 0]⟩ = some (.fin s) := by
  have eb : Ie.vsub fl (Ie.XPlane.base fl (finPlane ⟨![1, 0], s⟩)) (finV ![0, 0]) = finV ![s, 0] := by
    funext i; fin_cases i <;> simp [Ie.vsub, Ie.XPlane.base, finPlane, finV, Fx.sub, Fx.neg, Fx.add, Fx.mul, f0, fs]
  unfold Ie.planeLineParam
  dsimp only
  rw [eb, show (finPlane ⟨![1, 0], s⟩).normal = finV ![1, 0] from rfl, vdot2', vdot2']
  simp [finV, Fx.mul, Fx.add, Fx.div, Fx.isZero, f0, f1, fs]

/-- C141: the claim is false for segments: if the distance between the ends overflows, the end of the segment is not checked. The plane `x = 2M` is reported to
meet the segment from `(0, 0)` to `(M, 0)` in `(2M, 0)`. `M` is any number whose square overflows. -/
theorem C141_segment_end_violated (hm : RoundsMonoFx N fl) (hN : 4 ≤ N) (hop : Fx.IsMulAdd fl madd) (hmax : LaneMax bmax) {M : ℝ} (hM : 0 < M)
    (fM : fl M = .fin M) (fmM : fl (-M) = .fin (-M)) (f2M : fl (2 * M) = .fin (2 * M)) (o : fl (M * M) = .inf false) :
    Ie.intersectPlaneSegment red2 fl madd bmax (finPlane ⟨![1, 0], 2 * M⟩) (finSegment ⟨![0, 0], ![M, 0]⟩) = some (finV ![2 * M, 0]) ∧
      ∀ y ∈ segPoints ⟨![0, 0], ![M, 0]⟩, y 0 ≤ M := by
  have f0 : fl 0 = .fin 0 := hm.zero
  have f1 : fl 1 = .fin 1 := by have := hm.nat 1 (by omega); push_cast at this; exact this
  constructor
  · have el := axis_line hm hN hmax hM fM
    have ed : Ie.vdistance red2 fl (finV ![0, 0]) (finV ![M, 0]) = .inf false := by
      have g : ∀ i, (Vec.doBinary red2.conv (Fx.sub fl) (Vec.ofFn (finV ![0, 0]) : Vec red2.c Fx 2 false) (Vec.ofFn (finV ![M, 0]) : Vec red2.c Fx 2 false) :
          Vec red2.c Fx 2 (false && false)).get i = finV ![-M, 0] i := fun i => by
        rw [Vec.get_doBinary, Vec.get_ofFn, Vec.get_ofFn]
        fin_cases i <;> simp [finV, Fx.sub, Fx.neg, Fx.add, f0, fmM]
      unfold Ie.vdistance Ie.distance Ie.length Ie.dot Ie.sum
      have hb : isBatched red2.c 2 (false && false && (false && false)) = false := rfl
      have ht : red2.ts = .node (.node (.leaf 0) (.leaf 1)) (.leaf 2) := rfl
      rw [dif_neg (by rw [hb]; simp), ht]
      simp only [RTree.eval, Vec.get_doBinary, g]
      simp [finV, Fx.add, Fx.mul, Fx.sqrt, f0, o]
    have ep := axis_param f0 f1 f2M
    unfold Ie.intersectPlaneSegment
    rw [el, ep]
    dsimp only
    rw [show (finSegment ⟨![0, 0], ![M, 0]⟩).point1 = finV ![0, 0] from rfl, show (finSegment ⟨![0, 0], ![M, 0]⟩).point2 = finV ![M, 0] from rfl, ed, if_pos (by rw [Bool.and_eq_true, Ie.le_fin]; exact ⟨by linarith, rfl⟩)]
    refine congrArg some (funext fun i => ?_)
    fin_cases i
    · exact madd_exact hop (by simp [f2M]) (by simp) f2M
    · exact madd_exact hop (by simp [f0]) (by simp) f0
  · rintro y ⟨t, h0, h1, rfl⟩
    simp [GSegment.interpol]
    nlinarith

/-- C141: the claim is false for lines through points and for the lines of segments: if a difference of coordinates overflows, the direction is that of the first
axis, whatever the points are; here they are on the second axis. -/
theorem C141_direction_violated (hmax : LaneMax bmax) {R : Ie.Red 2} (hR : R.Valid) {M : ℝ} (o : fl (M - -M) = .inf false) :
    (Ie.XLine.through R fl bmax (finV ![0, -M]) (finV ![0, M])).direction = finV ![1, 0] ∧
      (Ie.XSegment.line R fl bmax (finSegment ⟨![0, -M], ![0, M]⟩)).direction = finV ![1, 0] := by
  have e : Ie.normalizePrecise1 R fl bmax (Ie.vsub fl (finV ![0, M]) (finV ![0, -M])) = finV ![1, 0] := by
    unfold Ie.normalizePrecise1
    rw [C94_violated bmax hmax R.conv R.tm R.tb R.ts hR.tm hR.tb hR.ts _ _ ⟨1, fun x => ?_⟩]
    · funext i
      rw [Vec.get_ofFn]
      fin_cases i <;> rfl
    · rw [Vec.get_ofFn]
      have : Ie.vsub fl (finV ![0, M]) (finV ![0, -M]) 1 = .inf false := by
        change fl (M + - -M) = _
        rw [← sub_eq_add_neg]; exact o
      rw [this]
      simp
  exact ⟨e, e⟩

/-! ## The hypotheses are met in single precision -/

/-- Rounding to nearest in single precision as `fl₀`, with overflow from `2^128` and without underflow. -/
noncomputable def flSingle (fl₀ : ℝ → ℝ) (x : ℝ) : Fx := if |fl₀ x| < 2 ^ 128 then .fin (fl₀ x) else .inf (decide (x < 0))

private theorem single_fix {x : ℝ} (hx : fl₀ x = x) (h2 : |x| < 2 ^ 128) : flSingle fl₀ x = .fin x := by
  unfold flSingle; rw [hx, if_pos h2]

private theorem nearest_mono (h : RoundsToNearest 24 fl₀) {x y : ℝ} (hxy : x ≤ y) : fl₀ x ≤ fl₀ y := by
  rcases hxy.eq_or_lt with rfl | hlt
  · exact le_rfl
  by_contra hc
  push Not at hc
  have a := h.nearest x (fl₀ y) (h.mem y)
  have b := h.nearest y (fl₀ x) (h.mem x)
  rcases abs_cases (fl₀ x - x) with ⟨e1, s1⟩ | ⟨e1, s1⟩ <;> rcases abs_cases (fl₀ y - x) with ⟨e2, s2⟩ | ⟨e2, s2⟩ <;>
    rcases abs_cases (fl₀ y - y) with ⟨e3, s3⟩ | ⟨e3, s3⟩ <;> rcases abs_cases (fl₀ x - y) with ⟨e4, s4⟩ | ⟨e4, s4⟩ <;> rw [e1, e2] at a <;> rw [e3, e4] at b <;> linarith

private theorem nearest_zero (h : RoundsToNearest 24 fl₀) : fl₀ 0 = 0 := by
  have := h.odd 0
  rw [neg_zero] at this
  linarith

private theorem single_overflows (h : RoundsToNearest 24 fl₀) : Overflows (flSingle fl₀) fl₀ where
  round x := by unfold flSingle; split; exacts [Or.inl rfl, Or.inr ⟨_, rfl⟩]
  idem x y e := by
    unfold flSingle at e
    split at e
    · rename_i hlt
      cases e
      exact single_fix ((h.rounding (by norm_num)).idem x) hlt
    · cases e

private theorem single_sym (h : RoundsToNearest 24 fl₀) (x : ℝ) : flSingle fl₀ (-x) = (flSingle fl₀ x).neg := by
  unfold flSingle
  rw [h.odd, abs_neg]
  split
  · rfl
  · rename_i hc
    have hx : x ≠ 0 := by
      rintro rfl
      rw [nearest_zero h, abs_zero] at hc
      exact hc (by positivity)
    rcases lt_or_gt_of_ne hx with h0 | h0
    · have : ¬-x < 0 := by linarith
      simp [Fx.neg, h0, this]
    · have : ¬x < 0 := by linarith
      simp [Fx.neg, h0]; linarith

private theorem single_mono (h : RoundsToNearest 24 fl₀) : RoundsMonoFx (2 ^ 24) (flSingle fl₀) where
  not_nan x := by unfold flSingle; split <;> simp
  zero := single_fix (nearest_zero h) (by rw [abs_zero]; positivity)
  nonneg x hx := by
    unfold flSingle
    have := nearest_mono h hx
    rw [nearest_zero h] at this
    split
    · exact EReal.coe_nonneg.2 this
    · rw [decide_eq_false (not_lt.2 hx)]; exact le_top
  mono x y hxy := by
    have hm := nearest_mono h hxy
    unfold flSingle
    split_ifs with h1 h2 h2
    · exact EReal.coe_le_coe_iff.2 hm
    · have hy : ¬y < 0 := fun hy => by
        have := nearest_mono h hy.le
        rw [nearest_zero h] at this
        rw [abs_of_nonpos this] at h2
        rw [abs_of_nonpos (by linarith)] at h1
        linarith
      rw [decide_eq_false hy]; exact le_top
    · have hx : x < 0 := by
        by_contra hx
        have := nearest_mono h (not_lt.1 hx)
        rw [nearest_zero h] at this
        rw [abs_of_nonneg this] at h1
        rw [abs_of_nonneg (by linarith)] at h2
        linarith
      rw [decide_eq_true hx]; exact bot_le
    · by_cases hx : x < 0
      · rw [decide_eq_true hx]; exact bot_le
      · rw [decide_eq_false hx, decide_eq_false (by linarith : ¬y < 0)]
  nat k hk := by
    refine single_fix ?_ ?_
    · have := float_grid (by norm_num) h (k : ℤ) 0 (by rw [Nat.abs_cast]; exact_mod_cast hk)
      simpa using this
    · rw [Nat.abs_cast]
      have : (k : ℝ) ≤ 2 ^ 24 := by exact_mod_cast hk
      have : (2 : ℝ) ^ 24 < 2 ^ 128 := by norm_num
      linarith
  neg_one := by
    refine single_fix ?_ (by norm_num)
    have := float_grid (by norm_num) h (-1) 0 (by norm_num)
    simpa using this

/-- The hypotheses on the rounding are met in single precision. -/
example (h : RoundsToNearest 24 fl₀) : Rounding fl₀ (2 ^ (-((24 : ℕ) : ℤ))) ∧ Overflows (flSingle fl₀) fl₀ ∧ RoundsMonoFx (2 ^ 24) (flSingle fl₀) ∧
    RoundsFx (flSingle fl₀) ∧ (∀ x, flSingle fl₀ (-x) = (flSingle fl₀ x).neg) ∧ 4 * batchSize 2 false ≤ 2 ^ 24 ∧ red2.Valid ∧ red3.Valid ∧
    Fx.IsMulAdd (flSingle fl₀) (fun a b d => Fx.add (flSingle fl₀) (Fx.mul .fin a b) d) :=
  ⟨h.rounding (by norm_num), single_overflows h, single_mono h, (single_mono h).toRoundsFx, single_sym h, by decide, red2_valid, red3_valid,
    fun _ _ _ => Or.inr rfl⟩

private theorem single_pow (h : RoundsToNearest 24 fl₀) (m e : ℤ) (hm : |m| ≤ 2 ^ 24) {x : ℝ} (hx : x = m * (2 : ℝ) ^ e) (h2 : |x| < 2 ^ 128) :
    flSingle fl₀ x = .fin x :=
  single_fix (by rw [hx]; exact float_grid (by norm_num) h m e hm) h2

private theorem single_inf (h : RoundsToNearest 24 fl₀) (m e : ℤ) (hm : |m| ≤ 2 ^ 24) {x : ℝ} (hx : x = m * (2 : ℝ) ^ e) (h2 : ¬|x| < 2 ^ 128) :
    flSingle fl₀ x = .inf (decide (x < 0)) := by
  unfold flSingle
  rw [show fl₀ x = x by rw [hx]; exact float_grid (by norm_num) h m e hm, if_neg h2]

/-- A plane and a line far from the origin: a finite intersection is reported in single precision. -/
example (h : RoundsToNearest 24 fl₀) (hop : Fx.IsMulAdd (flSingle fl₀) madd) :
    Ie.intersectPlaneLine red2 (flSingle fl₀) madd (finPlane ⟨![1, 0], 2 ^ 100⟩) (finLine ⟨![1, 0], ![0, 0]⟩) = some (finV ![2 ^ 100, 0]) := by
  have f0 : flSingle fl₀ 0 = .fin 0 := single_pow h 0 0 (by norm_num) (by norm_num) (by norm_num)
  have f1 : flSingle fl₀ 1 = .fin 1 := single_pow h 1 0 (by norm_num) (by norm_num) (by norm_num)
  have fs : flSingle fl₀ (2 ^ 100) = .fin (2 ^ 100) := single_pow h 1 100 (by norm_num) (by norm_num) (by norm_num)
  unfold Ie.intersectPlaneLine
  rw [show finLine ⟨![1, 0], ![0, 0]⟩ = ⟨finV ![1, 0], finV ![0, 0]⟩ from rfl, axis_param f0 f1 fs]
  refine congrArg some (funext fun i => ?_)
  fin_cases i
  · exact madd_exact hop (by simp [fs]) (by simp) fs
  · exact madd_exact hop (by simp [f0]) (by simp) f0

/-- A plane and a segment: the distance between the ends and the intersection are finite in single precision. -/
example (h : RoundsToNearest 24 fl₀) (hop : Fx.IsMulAdd (flSingle fl₀) madd) (hmax : LaneMax bmax) :
    Ie.vdistance red2 (flSingle fl₀) (finV ![0, 0]) (finV ![2, 0]) = .fin 2 ∧
      Ie.intersectPlaneSegment red2 (flSingle fl₀) madd bmax (finPlane ⟨![1, 0], 1⟩) (finSegment ⟨![0, 0], ![2, 0]⟩) = some (finV ![1, 0]) := by
  have f0 : flSingle fl₀ 0 = .fin 0 := single_pow h 0 0 (by norm_num) (by norm_num) (by norm_num)
  have f1 : flSingle fl₀ 1 = .fin 1 := single_pow h 1 0 (by norm_num) (by norm_num) (by norm_num)
  have f2 : flSingle fl₀ 2 = .fin 2 := single_pow h 2 0 (by norm_num) (by norm_num) (by norm_num)
  have fm2 : flSingle fl₀ (-2) = .fin (-2) := single_pow h (-2) 0 (by norm_num) (by norm_num) (by norm_num)
  have f4 : flSingle fl₀ (2 * 2) = .fin (2 * 2) := single_pow h 4 0 (by norm_num) (by norm_num) (by norm_num)
  have ed : Ie.vdistance red2 (flSingle fl₀) (finV ![0, 0]) (finV ![2, 0]) = .fin 2 := by
    have g : ∀ i, (Vec.doBinary red2.conv (Fx.sub (flSingle fl₀)) (Vec.ofFn (finV ![0, 0]) : Vec red2.c Fx 2 false) (Vec.ofFn (finV ![2, 0]) : Vec red2.c Fx 2 false) :
        Vec red2.c Fx 2 (false && false)).get i = finV ![-2, 0] i := fun i => by
      rw [Vec.get_doBinary, Vec.get_ofFn, Vec.get_ofFn]
      fin_cases i <;> simp [finV, Fx.sub, Fx.neg, Fx.add, f0, fm2]
    unfold Ie.vdistance Ie.distance Ie.length Ie.dot Ie.sum
    have hb : isBatched red2.c 2 (false && false && (false && false)) = false := rfl
    have ht : red2.ts = .node (.node (.leaf 0) (.leaf 1)) (.leaf 2) := rfl
    rw [dif_neg (by rw [hb]; simp), ht]
    simp only [RTree.eval, Vec.get_doBinary, g]
    simp [finV, Fx.add, Fx.mul, Fx.sqrt, f0, f4, f2]
  refine ⟨ed, ?_⟩
  unfold Ie.intersectPlaneSegment
  rw [axis_line (single_mono h) (by norm_num) hmax (by norm_num : (0 : ℝ) < 2) f2, axis_param f0 f1 f1]
  dsimp only
  rw [show (finSegment ⟨![0, 0], ![2, 0]⟩).point1 = finV ![0, 0] from rfl, show (finSegment ⟨![0, 0], ![2, 0]⟩).point2 = finV ![2, 0] from rfl, ed,
    if_pos (by rw [Bool.and_eq_true, Ie.le_fin, Ie.lt_fin]; norm_num)]
  refine congrArg some (funext fun i => ?_)
  fin_cases i
  · exact madd_exact hop (by simp [f1]) (by simp) f1
  · exact madd_exact hop (by simp [f0]) (by simp) f0

/-- A ray and a triangle: a finite intersection is reported in single precision, and the products are finite. -/
example (h : RoundsToNearest 24 fl₀) (hop : Fx.IsMulAdd (flSingle fl₀) madd) :
    Ie.intersectRayTriangle red3 (flSingle fl₀) madd (2 ^ (-23 : ℤ)) (finLine ⟨![0, 0, 1], ![1, 1, -1]⟩) (finTriangle ⟨![0, 0, 0], ![4, 0, 0], ![0, 4, 0]⟩) =
      some (finV ![1, 1, 0]) := by
  have f0 : flSingle fl₀ 0 = .fin 0 := single_pow h 0 0 (by norm_num) (by norm_num) (by norm_num)
  have f1 : flSingle fl₀ 1 = .fin 1 := single_pow h 1 0 (by norm_num) (by norm_num) (by norm_num)
  have fm : flSingle fl₀ (-1) = .fin (-1) := single_pow h (-1) 0 (by norm_num) (by norm_num) (by norm_num)
  have f4 : flSingle fl₀ 4 = .fin 4 := single_pow h 4 0 (by norm_num) (by norm_num) (by norm_num)
  have fm4 : flSingle fl₀ (-4) = .fin (-4) := single_pow h (-4) 0 (by norm_num) (by norm_num) (by norm_num)
  have fm16 : flSingle fl₀ (-16) = .fin (-16) := single_pow h (-16) 0 (by norm_num) (by norm_num) (by norm_num)
  have fi : flSingle fl₀ (-16⁻¹) = .fin (-16⁻¹) := single_pow h (-1) (-4) (by norm_num) (by norm_num) (by norm_num [abs_of_pos])
  have fq : flSingle fl₀ (1 / 4) = .fin (1 / 4) := single_pow h 1 (-2) (by norm_num) (by norm_num) (by norm_num [abs_of_pos])
  have fh : flSingle fl₀ (1 / 2) = .fin (1 / 2) := single_pow h 1 (-1) (by norm_num) (by norm_num) (by norm_num [abs_of_pos])
  have e1 : Ie.vsub (flSingle fl₀) (finV ![4, 0, 0]) (finV ![0, 0, 0]) = finV ![4, 0, 0] := by
    funext i; fin_cases i <;> simp [Ie.vsub, finV, Fx.sub, Fx.neg, Fx.add, f0, f4]
  have e2 : Ie.vsub (flSingle fl₀) (finV ![0, 4, 0]) (finV ![0, 0, 0]) = finV ![0, 4, 0] := by
    funext i; fin_cases i <;> simp [Ie.vsub, finV, Fx.sub, Fx.neg, Fx.add, f0, f4]
  have es : Ie.vsub (flSingle fl₀) (finV ![1, 1, -1]) (finV ![0, 0, 0]) = finV ![1, 1, -1] := by
    funext i; fin_cases i <;> simp [Ie.vsub, finV, Fx.sub, Fx.neg, Fx.add, f1, fm]
  have eh : Ie.cross3 (flSingle fl₀) (finV ![0, 0, 1]) (finV ![0, 4, 0]) = finV ![-4, 0, 0] := by
    funext i
    fin_cases i <;> simp [Ie.cross3, Ie.fmta1, finV, Fx.mul, Fx.add, f0, fm, f4, fm4]
  have eq : Ie.cross3 (flSingle fl₀) (finV ![1, 1, -1]) (finV ![4, 0, 0]) = finV ![0, -4, -4] := by
    funext i
    fin_cases i <;> simp [Ie.cross3, Ie.fmta1, finV, Fx.mul, Fx.add, f0, f1, fm, f4, fm4]
  unfold Ie.intersectRayTriangle
  dsimp only [finLine, finTriangle]
  have ea : Ie.vdot red3 (flSingle fl₀) (finV ![4, 0, 0]) (finV ![-4, 0, 0]) = .fin (-16) := by
    rw [vdot3]; norm_num [finV, Fx.mul, Fx.add, f0, fm16, Matrix.cons_val_two]
  have eu : Ie.vdot red3 (flSingle fl₀) (finV ![1, 1, -1]) (finV ![-4, 0, 0]) = .fin (-4) := by
    rw [vdot3]; norm_num [finV, Fx.mul, Fx.add, f0, fm4, Matrix.cons_val_two]
  have et : Ie.vdot red3 (flSingle fl₀) (finV ![0, 4, 0]) (finV ![0, -4, -4]) = .fin (-16) := by
    rw [vdot3]; norm_num [finV, Fx.mul, Fx.add, f0, fm16, Matrix.cons_val_two]
  have ev : Ie.vdot red3 (flSingle fl₀) (finV ![0, 0, 1]) (finV ![0, -4, -4]) = .fin (-4) := by
    rw [vdot3]; norm_num [finV, Fx.mul, Fx.add, f0, fm4, Matrix.cons_val_two]
  have ef : Fx.div (flSingle fl₀) (.fin 1) (.fin (-16)) = .fin (-16⁻¹) := by
    norm_num [Fx.div]; simpa using fi
  rw [e1, e2, es, eh, eq, ea, eu, et, ev, ef, mul_fin, mul_fin, show (-16⁻¹ : ℝ) * -4 = 1 / 4 by norm_num, show (-16⁻¹ : ℝ) * -16 = 1 by norm_num, fq, f1,
    add_fin, show (1 / 4 : ℝ) + 1 / 4 = 1 / 2 by norm_num, fh, if_neg (by norm_num [Fx.abs, Fx.lt]), if_neg (by norm_num [Fx.lt]), if_neg (by norm_num [Fx.lt]),
    if_neg (by norm_num [Fx.lt])]
  refine congrArg some ?_
  funext i
  fin_cases i
  · exact madd_exact hop (by simp [f0]) (by simp) f1
  · exact madd_exact hop (by simp [f0]) (by simp) f1
  · exact madd_exact hop (by simp [f1]) (by simp) f0

/-- The false intersection with a triangle in single precision, with `M = 2^64`. -/
example (h : RoundsToNearest 24 fl₀) (hop : Fx.IsMulAdd (flSingle fl₀) madd) :
    Ie.intersectRayTriangle red3 (flSingle fl₀) madd (2 ^ (-23 : ℤ)) (finLine ⟨![0, 0, 1], ![2 * 2 ^ 64, 2 ^ 64, -1]⟩)
      (finTriangle ⟨![0, 0, 0], ![0, (2 ^ 64)⁻¹, 0], ![2 ^ 64, 2 ^ 64, 0]⟩) = some (finV ![2 * 2 ^ 64, 2 ^ 64, 0]) := by
  refine (C141_false_hit_violated hop (M := 2 ^ 64) (by positivity) ?_ ?_ ?_ ?_ ?_ ?_ ?_ ?_ ?_ ?_ ?_ ?_ (by norm_num)).1
  · exact single_pow h 0 0 (by norm_num) (by norm_num) (by norm_num)
  · exact single_pow h 1 0 (by norm_num) (by norm_num) (by norm_num)
  · exact single_pow h (-1) 0 (by norm_num) (by norm_num) (by norm_num)
  · exact single_pow h 2 0 (by norm_num) (by norm_num) (by norm_num)
  · exact single_pow h 1 64 (by norm_num) (by norm_num) (by norm_num)
  · exact single_pow h (-1) 64 (by norm_num) (by norm_num) (by norm_num)
  · exact single_pow h 2 64 (by norm_num) (by norm_num) (by norm_num)
  · exact single_pow h (-2) 64 (by norm_num) (by norm_num) (by norm_num)
  · exact single_pow h 1 (-64) (by norm_num) (by norm_num) (by norm_num)
  · exact single_pow h (-1) (-64) (by norm_num) (by norm_num) (by norm_num)
  · rw [single_inf h 1 128 (by norm_num) (by norm_num) (by norm_num), decide_eq_false (by norm_num)]
  · rw [single_inf h (-2) 128 (by norm_num) (by norm_num) (by norm_num), decide_eq_true (by norm_num)]

/-- The missed intersection with a triangle in single precision, with `B = 2^62`. -/
example (h : RoundsToNearest 24 fl₀) : Ie.intersectRayTriangle red3 (flSingle fl₀) madd (2 ^ (-23 : ℤ)) (finLine ⟨![0, 0, 1], ![2 ^ 62, 2 ^ 62, -2⁻¹]⟩)
    (finTriangle ⟨![0, 0, 0], ![4 * 2 ^ 62, 0, 0], ![0, 4 * 2 ^ 62, 0]⟩) = none := by
  refine (C141_missed_violated (B := 2 ^ 62) ?_ ?_ ?_ ?_ ?_ ?_ ?_ ?_ ?_ ?_ ?_ ?_ ?_ (by positivity)).1
  · exact single_pow h 0 0 (by norm_num) (by norm_num) (by norm_num)
  · exact single_pow h (-1) 0 (by norm_num) (by norm_num) (by norm_num)
  · exact single_pow h 1 62 (by norm_num) (by norm_num) (by norm_num)
  · exact single_pow h (-1) 62 (by norm_num) (by norm_num) (by norm_num)
  · exact single_pow h (-1) (-1) (by norm_num) (by norm_num) (by norm_num [abs_of_pos])
  · exact single_pow h 1 (-1) (by norm_num) (by norm_num) (by norm_num [abs_of_pos])
  · exact single_pow h (-1) 63 (by norm_num) (by norm_num) (by norm_num)
  · exact single_pow h 1 64 (by norm_num) (by norm_num) (by norm_num)
  · exact single_pow h (-1) 64 (by norm_num) (by norm_num) (by norm_num)
  · exact single_pow h 1 126 (by norm_num) (by norm_num) (by norm_num)
  · exact single_pow h (-1) 126 (by norm_num) (by norm_num) (by norm_num)
  · exact single_pow h (-1) 127 (by norm_num) (by norm_num) (by norm_num)
  · rw [single_inf h (-1) 128 (by norm_num) (by norm_num) (by norm_num), decide_eq_true (by norm_num)]

/-- The intersection beyond the end of a segment in single precision, with `M = 2^64`. -/
example (h : RoundsToNearest 24 fl₀) (hop : Fx.IsMulAdd (flSingle fl₀) madd) (hmax : LaneMax bmax) :
    Ie.intersectPlaneSegment red2 (flSingle fl₀) madd bmax (finPlane ⟨![1, 0], 2 * 2 ^ 64⟩) (finSegment ⟨![0, 0], ![2 ^ 64, 0]⟩) = some (finV ![2 * 2 ^ 64, 0]) := by
  refine (C141_segment_end_violated (single_mono h) (by norm_num) hop hmax (M := 2 ^ 64) (by positivity) ?_ ?_ ?_ ?_).1
  · exact single_pow h 1 64 (by norm_num) (by norm_num) (by norm_num)
  · exact single_pow h (-1) 64 (by norm_num) (by norm_num) (by norm_num)
  · exact single_pow h 2 64 (by norm_num) (by norm_num) (by norm_num)
  · rw [single_inf h 1 128 (by norm_num) (by norm_num) (by norm_num), decide_eq_false (by norm_num)]

/-- A difference that overflows in single precision: the ends are `2^127` and `-2^127`. -/
example (h : RoundsToNearest 24 fl₀) : flSingle fl₀ (2 ^ 127 - -2 ^ 127) = .inf false := by
  rw [single_inf h 1 128 (by norm_num) (by norm_num) (by norm_num), decide_eq_false (by norm_num)]

end Mathter.Props
