import Verif.Lemmas.IeeeLinear
import Verif.Model.IeeeGeometry
import Verif.Props.Ieee

/-!
# C121–C123: geometry with NaN coordinates

C121: an intersection computed from a NaN coordinate is never reported as a finite point; C122: rays and segments with a NaN coordinate hit nothing;
C123: lengths, distances, areas, centroids, parameters and orthogonalised vectors computed from NaN are NaN.
-/

namespace Mathter.Props
open Mathter
variable {n : ℕ} {fl : ℝ → Fx} {madd : Fx → Fx → Fx → Fx} {bmax : Fx → Fx → Fx}

/-- A coordinate of a vector is NaN. -/
def HasNan (v : Fin n → Fx) : Prop := ∃ i, v i = .nan

/-- All coordinates of a vector are NaN. -/
def AllNan (v : Fin n → Fx) : Prop := ∀ i, v i = .nan

private theorem vdot_nan {R : Ie.Red n} (hR : R.Valid) {a b : Fin n → Fx} (h : HasNan a ∨ HasNan b) : Ie.vdot R fl a b = .nan := by
  refine C92_dot _ _ _ hR.tb hR.ts _ _ ?_
  rcases h with ⟨i, h⟩ | ⟨i, h⟩
  · exact ⟨i, Or.inl (by simpa using h)⟩
  · exact ⟨i, Or.inr (by simpa using h)⟩

private theorem vsub_nan {a b : Fin n → Fx} (h : HasNan a ∨ HasNan b) : HasNan (Ie.vsub fl a b) := by
  rcases h with ⟨i, h⟩ | ⟨i, h⟩
  · exact ⟨i, by unfold Ie.vsub; rw [h, Fx.nan_sub']⟩
  · exact ⟨i, by unfold Ie.vsub; rw [h, Fx.sub_nan']⟩

private theorem vdist_nan {R : Ie.Red n} (hR : R.Valid) {a b : Fin n → Fx} (h : HasNan a ∨ HasNan b) : Ie.vdistance R fl a b = .nan := by
  refine C92_distance _ _ _ hR.tb hR.ts _ _ ?_
  rcases h with ⟨i, h⟩ | ⟨i, h⟩
  · exact ⟨i, Or.inl (by simpa using h)⟩
  · exact ⟨i, Or.inr (by simpa using h)⟩

private theorem lt_nan (a : Fx) : Fx.lt a .nan = false := by rcases a with _ | (_ | _) | x <;> rfl
private theorem nan_lt (a : Fx) : Fx.lt .nan a = false := by rcases a with _ | (_ | _) | x <;> rfl
private theorem le_nan (a : Fx) : Ie.le a .nan = false := by rcases a with _ | (_ | _) | x <;> rfl
private theorem nan_le (a : Fx) : Ie.le .nan a = false := by rcases a with _ | (_ | _) | x <;> rfl

private theorem pointAt_nan (hop : Fx.IsMulAdd fl madd) (l : Ie.XLine n) : AllNan (l.pointAt madd .nan) := fun _ => hop.nan1 _ _

/-- The parameter of the intersection of a plane with a line. -/
private theorem param_nan {R : Ie.Red (n + 1)} (hR : R.Valid) (plane : Ie.XPlane (n + 1)) (line : Ie.XLine (n + 1))
    (h : HasNan plane.normal ∨ plane.scalar = .nan ∨ HasNan line.base ∨ HasNan line.direction) (t : Fx)
    (ht : Ie.planeLineParam R fl plane line = some t) : t = .nan := by
  unfold Ie.planeLineParam at ht
  dsimp only at ht
  split at ht
  · cases ht
  · have e : t = Fx.div fl (Ie.vdot R fl plane.normal (Ie.vsub fl (plane.base fl) line.base)) (Ie.vdot R fl plane.normal line.direction) := by
      injection ht with ht; exact ht.symm
    rw [e]
    have key : HasNan plane.normal ∨ HasNan (Ie.vsub fl (plane.base fl) line.base) ∨ HasNan line.direction := by
      rcases h with h | h | h | h
      · exact Or.inl h
      · exact Or.inr (Or.inl (vsub_nan (Or.inl ⟨0, by unfold Ie.XPlane.base; rw [h, Fx.mul_nan']⟩)))
      · exact Or.inr (Or.inl (vsub_nan (Or.inr h)))
      · exact Or.inr (Or.inr h)
    rcases key with h | h | h
    · rw [vdot_nan hR (Or.inl h), Fx.nan_div']
    · rw [vdot_nan hR (Or.inr h), Fx.nan_div']
    · rw [vdot_nan hR (b := line.direction) (Or.inr h), Fx.div_nan']

private theorem cross3_left {a b : Fin 3 → Fx} (h : HasNan a) : HasNan (Ie.cross3 fl a b) := by
  obtain ⟨i, h⟩ := h
  have key : ∀ k : Fin 3, a (![1, 2, 0] k) = .nan → Ie.cross3 fl a b k = .nan := by
    intro k hk
    unfold Ie.cross3 Ie.fmta1
    dsimp only
    rw [hk, Fx.nan_mul', Fx.nan_add', Fx.nan_add']
  fin_cases i
  · exact ⟨2, key 2 h⟩
  · exact ⟨0, key 0 h⟩
  · exact ⟨1, key 1 h⟩

private theorem cross3_right {a b : Fin 3 → Fx} (h : HasNan b) : HasNan (Ie.cross3 fl a b) := by
  obtain ⟨i, h⟩ := h
  have key : ∀ k : Fin 3, b (![2, 0, 1] k) = .nan → Ie.cross3 fl a b k = .nan := by
    intro k hk
    unfold Ie.cross3 Ie.fmta1
    dsimp only
    rw [hk, Fx.mul_nan', Fx.nan_add', Fx.nan_add']
  fin_cases i
  · exact ⟨1, key 1 h⟩
  · exact ⟨2, key 2 h⟩
  · exact ⟨0, key 0 h⟩

/-! ## C121: intersections that are reported -/

/-- C121: if a coordinate of the plane or the line is NaN and an intersection is reported, all its coordinates are NaN. -/
theorem C121_plane_line {R : Ie.Red (n + 1)} (hR : R.Valid) (hop : Fx.IsMulAdd fl madd) (plane : Ie.XPlane (n + 1)) (line : Ie.XLine (n + 1))
    (h : HasNan plane.normal ∨ plane.scalar = .nan ∨ HasNan line.base ∨ HasNan line.direction) (p : Fin (n + 1) → Fx)
    (hp : Ie.intersectPlaneLine R fl madd plane line = some p) : AllNan p := by
  unfold Ie.intersectPlaneLine at hp
  obtain ⟨t, ht, rfl⟩ := Option.map_eq_some_iff.1 hp
  rw [param_nan hR plane line h t ht]
  exact pointAt_nan hop line

/-- C121: a NaN in the normal or in the direction is not mistaken for a parallel line: an intersection is reported. -/
theorem C121_plane_line_reported {R : Ie.Red (n + 1)} (hR : R.Valid) (hop : Fx.IsMulAdd fl madd) (plane : Ie.XPlane (n + 1)) (line : Ie.XLine (n + 1))
    (h : HasNan plane.normal ∨ HasNan line.direction) : ∃ p, Ie.intersectPlaneLine R fl madd plane line = some p ∧ AllNan p := by
  have e : ∃ p, Ie.intersectPlaneLine R fl madd plane line = some p := by
    unfold Ie.intersectPlaneLine Ie.planeLineParam
    dsimp only
    rw [vdot_nan hR (b := line.direction) h, if_neg (by simp [Fx.isZero])]
    exact ⟨_, rfl⟩
  obtain ⟨p, hp⟩ := e
  exact ⟨p, hp, C121_plane_line hR hop plane line (by tauto) p hp⟩

private theorem ofLine_nan {R : Ie.Red 2} (hR : R.Valid) (l : Ie.XLine 2) (h : HasNan l.base ∨ HasNan l.direction) :
    (Ie.XPlane.ofLine R fl l).scalar = .nan ∧ (HasNan l.direction → HasNan (Ie.XPlane.ofLine R fl l).normal) := by
  have hn : HasNan l.direction → HasNan ![(l.direction 1).neg, l.direction 0] := by
    rintro ⟨i, h⟩
    fin_cases i
    · exact ⟨1, h⟩
    · exact ⟨0, by have h' : l.direction 1 = .nan := h; simp [h', Fx.neg]⟩
  refine ⟨vdot_nan hR ?_, hn⟩
  rcases h with h | h
  · exact Or.inr h
  · exact Or.inl (hn h)

/-- C121: so it is for two lines in the plane. -/
theorem C121_line_line {R : Ie.Red 2} (hR : R.Valid) (hop : Fx.IsMulAdd fl madd) (l m : Ie.XLine 2)
    (h : HasNan l.base ∨ HasNan l.direction ∨ HasNan m.base ∨ HasNan m.direction) (p : Fin 2 → Fx)
    (hp : Ie.intersectLineLine R fl madd l m = some p) : AllNan p := by
  refine C121_plane_line hR hop _ _ ?_ p hp
  rcases h with h | h | h | h
  · exact Or.inr (Or.inl (ofLine_nan hR l (Or.inl h)).1)
  · exact Or.inr (Or.inl (ofLine_nan hR l (Or.inr h)).1)
  · exact Or.inr (Or.inr (Or.inl h))
  · exact Or.inr (Or.inr (Or.inr h))

/-- C121: and for a ray and a triangle. -/
theorem C121_ray_triangle {R : Ie.Red 3} (hR : R.Valid) (hop : Fx.IsMulAdd fl madd) (epsilon : ℝ) (ray : Ie.XLine 3) (tr : Ie.XTriangle 3)
    (h : HasNan ray.base ∨ HasNan ray.direction ∨ HasNan tr.a ∨ HasNan tr.b ∨ HasNan tr.c) (p : Fin 3 → Fx)
    (hp : Ie.intersectRayTriangle R fl madd epsilon ray tr = some p) : AllNan p := by
  unfold Ie.intersectRayTriangle at hp
  dsimp only at hp
  split at hp
  · cases hp
  split at hp
  · cases hp
  split at hp
  · cases hp
  split at hp
  · cases hp
  have e : Fx.mul fl (Fx.div fl (.fin 1) (Ie.vdot R fl (Ie.vsub fl tr.b tr.a) (Ie.cross3 fl ray.direction (Ie.vsub fl tr.c tr.a))))
      (Ie.vdot R fl (Ie.vsub fl tr.c tr.a) (Ie.cross3 fl (Ie.vsub fl ray.base tr.a) (Ie.vsub fl tr.b tr.a))) = .nan := by
    rcases h with h | h | h | h | h
    · rw [vdot_nan hR (b := Ie.cross3 fl _ _) (Or.inr (cross3_left (vsub_nan (Or.inl h)))), Fx.mul_nan']
    · rw [vdot_nan hR (b := Ie.cross3 fl ray.direction _) (Or.inr (cross3_left h)), Fx.div_nan', Fx.nan_mul']
    · rw [vdot_nan hR (a := Ie.vsub fl tr.c tr.a) (Or.inl (vsub_nan (Or.inr h))), Fx.mul_nan']
    · rw [vdot_nan hR (a := Ie.vsub fl tr.b tr.a) (Or.inl (vsub_nan (Or.inl h))), Fx.div_nan', Fx.nan_mul']
    · rw [vdot_nan hR (a := Ie.vsub fl tr.c tr.a) (Or.inl (vsub_nan (Or.inl h))), Fx.mul_nan']
  rw [e] at hp
  injection hp with hp
  rw [← hp]
  exact pointAt_nan hop ray

private theorem isWithin_point (neg : Bool) (seg : Ie.XSegment (n + 1)) (p : Fin (n + 1) → Fx) (h : AllNan p) : Ie.isWithin neg fl seg p = false := by
  unfold Ie.isWithin Ie.vsub
  dsimp only
  rw [h, Fx.nan_sub', Fx.mul_nan', le_nan]
  rfl

private theorem isWithin_x (neg : Bool) (seg : Ie.XSegment 2) (p : Fin 2 → Fx) (h : seg.point2 0 = .nan) : Ie.isWithin neg fl seg p = false := by
  unfold Ie.isWithin
  dsimp only
  have e : forUp 2 1 (fun i largest => if Fx.lt (Fx.abs (Ie.vsub fl seg.point2 seg.point1 largest)) (Fx.abs (Ie.vsub fl seg.point2 seg.point1 i)) then i
      else largest) 0 = 0 := by
    refine forUp_inv (n := 2) (lo := 1) (body := fun i largest => if Fx.lt (Fx.abs (Ie.vsub fl seg.point2 seg.point1 largest))
      (Fx.abs (Ie.vsub fl seg.point2 seg.point1 i)) then i else largest) (s := (0 : Fin 2)) (fun _ r => r = 0) (by norm_num) rfl fun i r _ hr => ?_
    have : Ie.vsub fl seg.point2 seg.point1 r = .nan := by rw [hr]; unfold Ie.vsub; rw [h, Fx.nan_sub']
    rw [this]
    simp only [Fx.abs, nan_lt]
    exact hr
  rw [e]
  have : Ie.vsub fl seg.point2 seg.point1 0 = .nan := by unfold Ie.vsub; rw [h, Fx.nan_sub']
  rw [this]
  simp only [Fx.abs, le_nan, Bool.and_false]

/-- C121, what holds for two segments: nothing is reported if the NaN is in a first point or in the first coordinate of a second point. What is missing:
a NaN in the second coordinate of a second point. -/
theorem C121_segments_partial {R : Ie.Red 2} (hR : R.Valid) (hop : Fx.IsMulAdd fl madd) (neg1 neg2 : Bool) (lhs rhs : Ie.XSegment 2)
    (h : HasNan lhs.point1 ∨ HasNan rhs.point1 ∨ lhs.point2 0 = .nan ∨ rhs.point2 0 = .nan) :
    Ie.intersectSegmentSegment neg1 neg2 R fl madd bmax lhs rhs = none := by
  unfold Ie.intersectSegmentSegment
  split
  · rfl
  · rename_i p hp
    refine if_neg ?_
    rcases h with h | h | h | h
    · rw [isWithin_point neg1 lhs p (C121_line_line hR hop _ _ (Or.inl h) p hp)]; simp
    · rw [isWithin_point neg1 lhs p (C121_line_line hR hop _ _ (Or.inr (Or.inr (Or.inl h))) p hp)]; simp
    · rw [isWithin_x neg1 lhs p h]; simp
    · rw [isWithin_x neg2 rhs p h]; simp

/-! ## C122: rays and segments -/

/-- C122: a ray and a plane do not meet if a coordinate of either is NaN. Missing here and below: triangles (`C122_ray_triangle_violated`). -/
theorem C122_plane_ray_partial {R : Ie.Red (n + 1)} (hR : R.Valid) (plane : Ie.XPlane (n + 1)) (ray : Ie.XLine (n + 1))
    (h : HasNan plane.normal ∨ plane.scalar = .nan ∨ HasNan ray.base ∨ HasNan ray.direction) : Ie.intersectPlaneRay R fl madd plane ray = none := by
  unfold Ie.intersectPlaneRay
  split
  · rfl
  · rename_i t ht
    rw [param_nan hR plane ray h t ht, le_nan]
    rfl

/-- C122: neither do a segment and a plane. -/
theorem C122_plane_segment_partial {R : Ie.Red (n + 1)} (hR : R.Valid) (plane : Ie.XPlane (n + 1)) (seg : Ie.XSegment (n + 1))
    (h : HasNan plane.normal ∨ plane.scalar = .nan ∨ HasNan seg.point1 ∨ HasNan seg.point2) :
    Ie.intersectPlaneSegment R fl madd bmax plane seg = none := by
  unfold Ie.intersectPlaneSegment
  split
  · rfl
  · rename_i t ht
    refine if_neg ?_
    by_cases h2 : HasNan seg.point2
    · rw [vdist_nan hR (Or.inr h2), lt_nan, Bool.and_false]; simp
    · rw [param_nan hR plane _ (by rcases h with h | h | h | h; exacts [Or.inl h, Or.inr (Or.inl h), Or.inr (Or.inr (Or.inl h)), absurd h h2]) t ht,
        le_nan, Bool.false_and]
      simp

/-- C122: nor a segment and a line in the plane. -/
theorem C122_line_segment_partial {R : Ie.Red 2} (hR : R.Valid) (line : Ie.XLine 2) (seg : Ie.XSegment 2)
    (h : HasNan line.base ∨ HasNan line.direction ∨ HasNan seg.point1 ∨ HasNan seg.point2) :
    Ie.intersectLineSegment R fl madd bmax line seg = none := by
  refine C122_plane_segment_partial hR _ _ ?_
  rcases h with h | h | h | h
  · exact Or.inr (Or.inl (ofLine_nan hR line (Or.inl h)).1)
  · exact Or.inr (Or.inl (ofLine_nan hR line (Or.inr h)).1)
  · exact Or.inr (Or.inr (Or.inl h))
  · exact Or.inr (Or.inr (Or.inr h))

/-- C122: the claim is false for triangles: every ray hits every triangle with a NaN, and every ray with a NaN in its direction hits every triangle. -/
theorem C122_ray_triangle_violated {R : Ie.Red 3} (hR : R.Valid) (hop : Fx.IsMulAdd fl madd) (epsilon : ℝ) (ray : Ie.XLine 3) (tr : Ie.XTriangle 3)
    (h : HasNan ray.direction ∨ HasNan tr.a ∨ HasNan tr.b ∨ HasNan tr.c) :
    ∃ p, Ie.intersectRayTriangle R fl madd epsilon ray tr = some p ∧ AllNan p := by
  have ha : Ie.vdot R fl (Ie.vsub fl tr.b tr.a) (Ie.cross3 fl ray.direction (Ie.vsub fl tr.c tr.a)) = .nan := by
    rcases h with h | h | h | h
    · exact vdot_nan hR (Or.inr (cross3_left h))
    · exact vdot_nan hR (Or.inl (vsub_nan (Or.inr h)))
    · exact vdot_nan hR (Or.inl (vsub_nan (Or.inl h)))
    · exact vdot_nan hR (Or.inr (cross3_right (vsub_nan (Or.inl h))))
  have e : ∃ p, Ie.intersectRayTriangle R fl madd epsilon ray tr = some p := by
    unfold Ie.intersectRayTriangle
    dsimp only
    rw [ha]
    simp only [Fx.abs, nan_lt, lt_nan, Fx.div_nan', Fx.nan_mul', Fx.nan_add', Bool.or_false, Bool.false_eq_true, if_false]
    exact ⟨_, rfl⟩
  obtain ⟨p, hp⟩ := e
  exact ⟨p, hp, C121_ray_triangle hR hop epsilon ray tr (by tauto) p hp⟩

/-! ## C123: measurements -/

/-- C123: the distance from a plane. Missing here and below: directions (`C123_through_violated`). -/
theorem C123_plane_distance_partial {R : Ie.Red n} (hR : R.Valid) (plane : Ie.XPlane n) (point : Fin n → Fx)
    (h : HasNan plane.normal ∨ plane.scalar = .nan ∨ HasNan point) : plane.distance R fl point = .nan := by
  unfold Ie.XPlane.distance
  rcases h with h | h | h
  · rw [vdot_nan hR (Or.inr h), Fx.nan_sub']
  · rw [h, Fx.sub_nan']
  · rw [vdot_nan hR (Or.inl h), Fx.nan_sub']

/-- C123: a coordinate of a point on a line is NaN if the parameter is, or that coordinate of the base or of the direction. -/
theorem C123_pointAt_partial (hop : Fx.IsMulAdd fl madd) (l : Ie.XLine n) (t : Fx) (e : Fin n) (h : t = .nan ∨ l.direction e = .nan ∨ l.base e = .nan) :
    l.pointAt madd t e = .nan := by
  unfold Ie.XLine.pointAt
  rcases h with h | h | h <;> rw [h]
  · exact hop.nan1 _ _
  · exact hop.nan2 _ _
  · exact hop.nan3 _ _

private theorem vlen_nan {R : Ie.Red (n + 1)} (hR : R.Valid) {tiny Ω : ℝ} (hΩ : tiny ≤ Ω) {v : Fin (n + 1) → Fx} (h : HasNan v) :
    Ie.vlengthPrecise R fl tiny Ω bmax v = some .nan := by
  obtain ⟨i, h⟩ := h
  exact C92_lengthPrecise tiny Ω hΩ bmax R.conv R.tm R.tb R.ts hR.tb hR.ts _ ⟨i, by simpa using h⟩

/-- C123: the parameter of a point on a segment. -/
theorem C123_interpolOf_partial {R : Ie.Red (n + 1)} (hR : R.Valid) {tiny Ω : ℝ} (hΩ : tiny ≤ Ω) (s : Ie.XSegment (n + 1)) (point : Fin (n + 1) → Fx)
    (h : HasNan s.point1 ∨ HasNan s.point2 ∨ HasNan point) : s.interpolOf R fl tiny Ω bmax point = some .nan := by
  unfold Ie.XSegment.interpolOf
  dsimp only
  by_cases hd : HasNan (Ie.vsub fl s.point2 s.point1)
  · rw [vlen_nan hR hΩ hd]
    simp only [Option.map_some, Fx.div_nan']
  · have hp : HasNan point := by
      rcases h with h | h | h
      · exact absurd (vsub_nan (Or.inr h)) hd
      · exact absurd (vsub_nan (Or.inl h)) hd
      · exact h
    have : Fx.lt (.fin Ω) (.fin tiny) = false := decide_eq_false (not_lt.2 hΩ)
    unfold Ie.vlengthPrecise Ie.lengthPrecise Fx.stdClamp
    rw [this, if_neg (by simp), Option.map_some, Option.map_some, vdot_nan hR (Or.inl (vsub_nan (Or.inl hp))), Fx.nan_div']

/-- C123: the area of a triangle. -/
theorem C123_area_partial {R : Ie.Red (n + 1)} (hR : R.Valid) {tiny Ω : ℝ} (hΩ : tiny ≤ Ω) (tr : Ie.XTriangle (n + 1))
    (h : HasNan tr.a ∨ HasNan tr.b ∨ HasNan tr.c) : tr.area R fl tiny Ω bmax = some .nan := by
  have len : ∀ v, ∃ l, Ie.vlengthPrecise R fl tiny Ω bmax v = some l := by
    intro v
    have : Fx.lt (.fin Ω) (.fin tiny) = false := decide_eq_false (not_lt.2 hΩ)
    unfold Ie.vlengthPrecise Ie.lengthPrecise Fx.stdClamp
    rw [this, if_neg (by simp), Option.map_some]
    exact ⟨_, rfl⟩
  unfold Ie.XTriangle.area
  have key : ∀ l0 l1 l2 : Fx, (l0 = .nan ∨ l1 = .nan) ∨ l2 = .nan → Fx.mul fl (.fin (1 / 2)) (Fx.add fl (Fx.add fl l0 l1) l2) = .nan := by
    rintro l0 l1 l2 ((rfl | rfl) | rfl)
    · rw [Fx.nan_add', Fx.nan_add', Fx.mul_nan']
    · rw [Fx.add_nan', Fx.nan_add', Fx.mul_nan']
    · rw [Fx.add_nan', Fx.mul_nan']
  obtain ⟨l0, e0⟩ := len (Ie.vsub fl tr.a tr.b)
  obtain ⟨l1, e1⟩ := len (Ie.vsub fl tr.a tr.c)
  obtain ⟨l2, e2⟩ := len (Ie.vsub fl tr.b tr.c)
  have hl : (l0 = .nan ∨ l1 = .nan) ∨ l2 = .nan := by
    rcases h with h | h | h
    · rw [vlen_nan hR hΩ (vsub_nan (Or.inl h))] at e0; injection e0 with e0; exact Or.inl (Or.inl e0.symm)
    · rw [vlen_nan hR hΩ (vsub_nan (Or.inr h))] at e0; injection e0 with e0; exact Or.inl (Or.inl e0.symm)
    · rw [vlen_nan hR hΩ (vsub_nan (Or.inr h))] at e1; injection e1 with e1; exact Or.inl (Or.inr e1.symm)
  rw [e0, e1, e2]
  simp only [Option.bind_some, Option.map_some]
  rw [key l0 l1 l2 hl, Fx.nan_mul', Fx.nan_mul', Fx.nan_mul']
  rfl

/-- C123: the centroid, coordinate by coordinate. -/
theorem C123_centroid_partial (tr : Ie.XTriangle n) (e : Fin n) (h : tr.a e = .nan ∨ tr.b e = .nan ∨ tr.c e = .nan) : tr.centroid fl e = .nan := by
  unfold Ie.XTriangle.centroid
  rcases h with h | h | h <;> rw [h]
  · rw [Fx.nan_add', Fx.nan_add', Fx.nan_div']
  · rw [Fx.add_nan', Fx.nan_add', Fx.nan_div']
  · rw [Fx.add_nan', Fx.nan_div']

/-- C123: the claim is false for directions: a line through a point with a NaN (or infinite) coordinate gets the first unit vector as direction, whatever
the other coordinates are; so does the line of a segment. -/
theorem C123_through_violated {R : Ie.Red (n + 1)} (hR : R.Valid) (hm : LaneMax bmax) (point1 point2 : Fin (n + 1) → Fx) (h : HasNan point1 ∨ HasNan point2) :
    (Ie.XLine.through R fl bmax point1 point2).direction = (fun i => if i = 0 then .fin 1 else .fin 0) ∧
      (Ie.XSegment.line R fl bmax ⟨point1, point2⟩).direction = (fun i => if i = 0 then .fin 1 else .fin 0) := by
  have e : Ie.normalizePrecise1 R fl bmax (Ie.vsub fl point2 point1) = fun i => if i = 0 then .fin 1 else .fin 0 := by
    unfold Ie.normalizePrecise1
    rw [C94_violated bmax hm R.conv R.tm R.tb R.ts hR.tm hR.tb hR.ts]
    · funext i; rw [Vec.get_ofFn]
    · obtain ⟨i, hi⟩ := vsub_nan (fl := fl) (a := point2) (b := point1) h.symm
      exact ⟨i, fun x => by rw [Vec.get_ofFn, hi]; simp⟩
  exact ⟨e, e⟩

private theorem gsProj_nan {R : Ie.Red (n + 1)} (hR : R.Valid) {u v : Fin (n + 1) → Fx} (h : HasNan u ∨ HasNan v) : AllNan (Ie.gsProj R fl bmax u v) := by
  intro e
  unfold Ie.gsProj
  rcases h with h | h
  · rw [vdot_nan hR (a := u) (Or.inl h), Fx.div_nan', Fx.nan_mul']
  · rw [vdot_nan hR (a := v) (Or.inl h), Fx.nan_div', Fx.nan_mul']

private theorem gsProj_null (hm : LaneMax bmax) {R : Ie.Red (n + 1)} (hR : R.Valid) (hf : fl 0 = .fin 0) {u : Fin (n + 1) → Fx} (v : Fin (n + 1) → Fx)
    (h : ∀ i, u i = .fin 0) : AllNan (Ie.gsProj R fl bmax u v) := by
  have e1 : Ie.normalizePrecise1 R fl bmax u = fun i => if i = 0 then .fin 1 else .fin 0 := by
    unfold Ie.normalizePrecise1
    rw [C94_null bmax hm R.conv R.tm R.tb R.ts hR.tm hR.tb hR.ts _ _ (fun i => by rw [Vec.get_ofFn, h])]
    funext i; rw [Vec.get_ofFn]
  have e2 : Ie.vdot R fl u (Ie.normalizePrecise1 R fl bmax u) = .fin 0 := by
    unfold Ie.vdot Ie.dot
    refine ie_sum_zero hf _ _ hR.tb hR.ts _ fun i => ?_
    rw [Vec.get_doBinary, Vec.get_ofFn, Vec.get_ofFn, h, e1]
    dsimp only
    split <;> simp [Fx.mul, hf]
  intro e
  unfold Ie.gsProj
  rw [e2, h]
  rcases Ie.vdot R fl v (Ie.normalizePrecise1 R fl bmax u) with _ | s | x
  · rfl
  · simp [Fx.div, Fx.mul]
  · by_cases hx : x = 0
    · simp [Fx.div, Fx.mul, hx]
    · simp [Fx.div, Fx.mul, hx]

private theorem gsInner_all {R : Ie.Red (n + 1)} (hR : R.Valid) : ∀ (us : List (Fin (n + 1) → Fx)) (uk : Fin (n + 1) → Fx), AllNan uk →
    AllNan (Ie.gsInner R fl bmax us uk)
  | [], _, h => h
  | _ :: us, _, h => by
    refine gsInner_all hR us _ fun e => ?_
    unfold Ie.vsub
    rw [h e, Fx.nan_sub']

private theorem gsInner_has {R : Ie.Red (n + 1)} (hR : R.Valid) : ∀ (us : List (Fin (n + 1) → Fx)) (uk : Fin (n + 1) → Fx), HasNan uk →
    HasNan (Ie.gsInner R fl bmax us uk)
  | [], _, h => h
  | _ :: us, _, h => gsInner_has hR us _ (vsub_nan (Or.inl h))

/-- A vector on which no later vector can be projected. -/
private def Bad (u : Fin (n + 1) → Fx) : Prop := HasNan u ∨ ∀ i, u i = .fin 0

private theorem gsInner_bad (hm : LaneMax bmax) {R : Ie.Red (n + 1)} (hR : R.Valid) (hf : fl 0 = .fin 0) : ∀ (us : List (Fin (n + 1) → Fx))
    (uk : Fin (n + 1) → Fx), (∃ u ∈ us, Bad u) → AllNan (Ie.gsInner R fl bmax us uk)
  | [], _, ⟨_, h, _⟩ => by simp at h
  | u :: us, uk, ⟨w, hw, hb⟩ => by
    rcases List.mem_cons.1 hw with rfl | hw
    · refine gsInner_all hR us _ fun e => ?_
      unfold Ie.vsub
      rw [(show AllNan (Ie.gsProj R fl bmax w uk) from hb.elim (fun h => gsProj_nan hR (Or.inl h)) (fun h => gsProj_null hm hR hf uk h)) e, Fx.sub_nan']
    · exact gsInner_bad hm hR hf us _ ⟨w, hw, hb⟩

private theorem gsLoop_prefix (R : Ie.Red (n + 1)) : ∀ (vs done : List (Fin (n + 1) → Fx)),
    (Ie.gsLoop R fl bmax vs done).length = done.length + vs.length ∧ ∀ k, k < done.length → (Ie.gsLoop R fl bmax vs done)[k]? = done[k]?
  | [], done => ⟨by simp [Ie.gsLoop], fun k _ => rfl⟩
  | v :: vs, done => by
    obtain ⟨h1, h2⟩ := gsLoop_prefix R vs (done ++ [Ie.gsInner R fl bmax done v])
    refine ⟨?_, fun k hk => ?_⟩
    · rw [Ie.gsLoop, h1]; simp; omega
    · rw [Ie.gsLoop, h2 k (by simp; omega), List.getElem?_append_left hk]

private theorem gsLoop_bad (hm : LaneMax bmax) {R : Ie.Red (n + 1)} (hR : R.Valid) (hf : fl 0 = .fin 0) : ∀ (vs done : List (Fin (n + 1) → Fx)),
    (∃ u ∈ done, Bad u) → ∀ k, done.length ≤ k → ∀ w, (Ie.gsLoop R fl bmax vs done)[k]? = some w → AllNan w
  | [], done, _, k, hk, w, hw => by
    rw [Ie.gsLoop, List.getElem?_eq_none hk] at hw; cases hw
  | v :: vs, done, hb, k, hk, w, hw => by
    rw [Ie.gsLoop] at hw
    rcases Nat.eq_or_lt_of_le hk with e | hlt
    · rw [(gsLoop_prefix R vs _).2 k (by simp; omega), ← e, List.getElem?_append_right le_rfl] at hw
      simp only [Nat.sub_self, List.getElem?_cons_zero, Option.some.injEq] at hw
      rw [← hw]
      exact gsInner_bad hm hR hf done v hb
    · refine gsLoop_bad hm hR hf vs _ ?_ k (by simp; omega) w hw
      obtain ⟨u, hu, hb⟩ := hb
      exact ⟨u, List.mem_append_left _ hu, hb⟩

private theorem gsLoop_at (R : Ie.Red (n + 1)) : ∀ (vs done : List (Fin (n + 1) → Fx)) (k : ℕ) (v : Fin (n + 1) → Fx), vs[k]? = some v →
    ∃ us, us.length = done.length + k ∧ (Ie.gsLoop R fl bmax vs done)[done.length + k]? = some (Ie.gsInner R fl bmax us v) ∧
      ∃ vs', Ie.gsLoop R fl bmax vs done = Ie.gsLoop R fl bmax vs' (us ++ [Ie.gsInner R fl bmax us v])
  | [], _, _, _, h => by simp at h
  | v :: vs, done, 0, w, h => by
    simp only [List.getElem?_cons_zero, Option.some.injEq] at h
    subst h
    refine ⟨done, rfl, ?_, vs, rfl⟩
    rw [Ie.gsLoop, (gsLoop_prefix R vs _).2 _ (by simp)]
    simp
  | v :: vs, done, k + 1, w, h => by
    rw [List.getElem?_cons_succ] at h
    obtain ⟨us, h1, h2, h3⟩ := gsLoop_at R vs (done ++ [Ie.gsInner R fl bmax done v]) k w h
    refine ⟨us, by rw [h1]; simp; omega, ?_, h3⟩
    rw [Ie.gsLoop, ← h2]
    congr 1
    simp
    omega

/-- C123: in an orthogonalisation, the output of a vector with a NaN has a NaN, and all elements of all later outputs are NaN. -/
theorem C123_gramSchmidt_partial (hm : LaneMax bmax) {R : Ie.Red (n + 1)} (hR : R.Valid) (hf : fl 0 = .fin 0) (vs : List (Fin (n + 1) → Fx)) (k : ℕ)
    (v : Fin (n + 1) → Fx) (hv : vs[k]? = some v) (h : HasNan v) :
    (Ie.gramSchmidt R fl bmax vs).length = vs.length ∧ (∃ w, (Ie.gramSchmidt R fl bmax vs)[k]? = some w ∧ HasNan w) ∧
      ∀ l, k < l → ∀ w, (Ie.gramSchmidt R fl bmax vs)[l]? = some w → AllNan w := by
  unfold Ie.gramSchmidt
  obtain ⟨us, h1, h2, vs', h3⟩ := gsLoop_at (fl := fl) (bmax := bmax) R vs [] k v hv
  have hw := gsInner_has (fl := fl) (bmax := bmax) hR us v h
  refine ⟨by rw [(gsLoop_prefix R vs []).1]; simp, ⟨_, by simpa using h2, hw⟩, fun l hl w e => ?_⟩
  rw [h3] at e
  exact gsLoop_bad hm hR hf vs' _ ⟨_, List.mem_append_right _ (List.mem_singleton_self _), Or.inl hw⟩ l (by simp at h1 ⊢; omega) w e

/-- C123: the same happens without any NaN among the inputs: if the first of the vectors is null, all elements of the other outputs are NaN. -/
theorem C123_gramSchmidt_null (hm : LaneMax bmax) {R : Ie.Red (n + 1)} (hR : R.Valid) (hf : fl 0 = .fin 0) (v : Fin (n + 1) → Fx) (vs : List (Fin (n + 1) → Fx))
    (h : ∀ i, v i = .fin 0) (l : ℕ) (hl : 0 < l) (w : Fin (n + 1) → Fx) (e : (Ie.gramSchmidt R fl bmax (v :: vs))[l]? = some w) : AllNan w := by
  unfold Ie.gramSchmidt at e
  rw [Ie.gsLoop] at e
  exact gsLoop_bad hm hR hf vs _ ⟨v, by simp [Ie.gsInner], Or.inr h⟩ l (by simp; omega) w e

/-! ## Non-vacuity and a witness -/

/-- Evaluation without SIMD in two dimensions. -/
noncomputable def red2 : Ie.Red 2 :=
  ⟨Cfg.scalar, false, (.node (.leaf 0) (.leaf 1) : RTree 2), (.node (.leaf 0) (.leaf 1) : RTree 2), .node (.node (.leaf 0) (.leaf 1)) (.leaf 2)⟩

theorem red2_valid : red2.Valid := ⟨List.Perm.refl _, List.Perm.refl _, List.Perm.refl _⟩

private theorem vdot2 (a b : Fin 2 → ℝ) : Ie.vdot red2 .fin (fun i => .fin (a i)) (fun i => .fin (b i)) = .fin (a 0 * b 0 + a 1 * b 1 + 0) := by
  unfold Ie.vdot Ie.dot Ie.sum
  have hb : isBatched red2.c 2 (false && false) = false := rfl
  rw [dif_neg (by rw [hb]; simp)]
  simp [red2, RTree.eval, Fx.add, Fx.mul]

/-- C121: the claim is false for two segments: the segment from (0, 0) to (1, NaN) is taken to meet the segment from (1/2, -1) to (1/2, 1) in (1/2, 0). -/
theorem C121_segments_violated (hm : LaneMax bmax) (neg1 neg2 : Bool) : ∃ p, Ie.intersectSegmentSegment neg1 neg2 red2 .fin
    (fun a b d => Fx.add .fin (Fx.mul .fin a b) d) bmax ⟨![.fin (1 / 2), .fin (-1)], ![.fin (1 / 2), .fin 1]⟩ ⟨![.fin 0, .fin 0], ![.fin 1, .nan]⟩ = some p ∧
      p = ![.fin (1 / 2), .fin 0] := by
  have d1 : Ie.XSegment.line red2 .fin bmax ⟨![.fin (1 / 2), .fin (-1)], ![.fin (1 / 2), .fin 1]⟩ =
      ⟨fun i => .fin ((![0, 1] : Fin 2 → ℝ) i), fun i => .fin ((![1 / 2, -1] : Fin 2 → ℝ) i)⟩ := by
    have ev : Ie.vsub .fin ![.fin (1 / 2), .fin 1] ![.fin (1 / 2), .fin (-1)] = ![.fin 0, .fin 2] := by
      funext i; fin_cases i <;> norm_num [Ie.vsub, Fx.sub, Fx.neg, Fx.add]
    have hd : Ie.normalizePrecise1 red2 .fin bmax (![.fin 0, .fin 2] : Fin 2 → Fx) = fun i => .fin ((![0, 1] : Fin 2 → ℝ) i) := by
      have hs : Ie.scaleElements bmax red2.conv red2.tm (Vec.ofFn ![.fin 0, .fin 2] : Vec red2.c Fx (1 + 1) false) = .fin 2 := by
        unfold Ie.scaleElements Ie.maxElem
        have hb : isBatched red2.c (1 + 1) false = false := rfl
        rw [dif_neg (by rw [hb]; simp)]
        have : (Vec.doUnary red2.conv Fx.abs (Vec.ofFn ![.fin 0, .fin 2] : Vec red2.c Fx (1 + 1) false) : Vec red2.c Fx (1 + 1) false).get = ![.fin 0, .fin 2] := by
          funext i
          rw [Vec.get_doUnary, Vec.get_ofFn]
          fin_cases i <;> simp [Fx.abs]
        rw [this]
        change ![Fx.fin 0, .fin 2] (if Fx.lt (Fx.fin 0) (Fx.fin 2) then (1 : Fin 2) else 0) = .fin 2
        norm_num [Fx.lt]
      have hsc : ∀ i, (Ie.divScalar .fin red2.conv (Vec.ofFn ![.fin 0, .fin 2] : Vec red2.c Fx (1 + 1) false) (.fin 2)).get i = .fin ((![0, 1] : Fin 2 → ℝ) i) := by
        intro i
        unfold Ie.divScalar
        rw [Vec.get_doBinary, Vec.get_fill, Vec.get_ofFn]
        fin_cases i <;> norm_num [Fx.div]
      have hl : Ie.length .fin red2.conv red2.tb red2.ts (Ie.divScalar .fin red2.conv (Vec.ofFn ![.fin 0, .fin 2] : Vec red2.c Fx (1 + 1) false) (.fin 2)) = .fin 1 := by
        have hdot : Ie.dot .fin red2.conv red2.tb red2.ts (Ie.divScalar .fin red2.conv (Vec.ofFn ![.fin 0, .fin 2] : Vec red2.c Fx (1 + 1) false) (.fin 2))
            (Ie.divScalar .fin red2.conv (Vec.ofFn ![.fin 0, .fin 2] : Vec red2.c Fx (1 + 1) false) (.fin 2)) = .fin 1 := by
          unfold Ie.dot Ie.sum
          have hb : isBatched red2.c (1 + 1) (false && false && (false && false)) = false := rfl
          have ht : red2.ts = .node (.node (.leaf 0) (.leaf 1)) (.leaf 2) := rfl
          rw [dif_neg (by rw [hb]; simp), ht]
          simp only [RTree.eval, Vec.get_doBinary, hsc]
          norm_num [Fx.add, Fx.mul]
        unfold Ie.length
        rw [hdot]
        norm_num [Fx.sqrt]
      unfold Ie.normalizePrecise1 Ie.normalizePrecise
      dsimp only
      rw [hs, hl, if_pos (by simp [Fx.isFinite, BEq.beq])]
      funext i
      have hdiv : ∀ (v : Vec red2.c Fx (1 + 1) (false && false)) s j, (Ie.divScalar .fin red2.conv v s).get j = Fx.div .fin (v.get j) s := by
        intro v s j
        unfold Ie.divScalar
        rw [Vec.get_doBinary, Vec.get_fill]
      rw [hdiv, hsc]
      norm_num [Fx.div]
    unfold Ie.XSegment.line
    dsimp only
    rw [ev, hd]
    congr 1
    funext i; fin_cases i <;> simp
  have d2 : Ie.XSegment.line red2 .fin bmax ⟨![.fin 0, .fin 0], ![.fin 1, .nan]⟩ =
      ⟨fun i => .fin ((![1, 0] : Fin 2 → ℝ) i), fun i => .fin ((![0, 0] : Fin 2 → ℝ) i)⟩ := by
    have h := (C123_through_violated (fl := .fin) red2_valid hm ![.fin 0, .fin 0] ![.fin 1, .nan] (Or.inr ⟨1, rfl⟩)).2
    have h2 : Ie.XSegment.line red2 .fin bmax ⟨![.fin 0, .fin 0], ![.fin 1, .nan]⟩ = ⟨(Ie.XSegment.line red2 .fin bmax ⟨![.fin 0, .fin 0], ![.fin 1, .nan]⟩).direction,
      ![.fin 0, .fin 0]⟩ := rfl
    rw [h2, h]
    congr 1 <;> (funext i; fin_cases i <;> simp)
  have hp : Ie.intersectLineLine red2 .fin (fun a b d => Fx.add .fin (Fx.mul .fin a b) d)
      ⟨fun i => .fin ((![0, 1] : Fin 2 → ℝ) i), fun i => .fin ((![1 / 2, -1] : Fin 2 → ℝ) i)⟩
      ⟨fun i => .fin ((![1, 0] : Fin 2 → ℝ) i), fun i => .fin ((![0, 0] : Fin 2 → ℝ) i)⟩ = some ![.fin (1 / 2), .fin 0] := by
    have hn : (![((fun i => Fx.fin ((![0, 1] : Fin 2 → ℝ) i)) 1).neg, (fun i => Fx.fin ((![0, 1] : Fin 2 → ℝ) i)) 0] : Fin 2 → Fx) =
        fun i => .fin ((![-1, 0] : Fin 2 → ℝ) i) := by funext i; fin_cases i <;> simp [Fx.neg]
    have e1 : Ie.XPlane.ofLine red2 .fin ⟨fun i => .fin ((![0, 1] : Fin 2 → ℝ) i), fun i => .fin ((![1 / 2, -1] : Fin 2 → ℝ) i)⟩ =
        ⟨fun i => .fin ((![-1, 0] : Fin 2 → ℝ) i), .fin (-1 / 2)⟩ := by
      unfold Ie.XPlane.ofLine
      dsimp only at hn ⊢
      rw [hn, vdot2]
      norm_num
    unfold Ie.intersectLineLine Ie.intersectPlaneLine Ie.planeLineParam
    rw [e1]
    have hb : Ie.vsub .fin (Ie.XPlane.base .fin ⟨fun i => .fin ((![-1, 0] : Fin 2 → ℝ) i), .fin (-1 / 2)⟩) (fun i => .fin ((![0, 0] : Fin 2 → ℝ) i)) =
        fun i => .fin ((![1 / 2, 0] : Fin 2 → ℝ) i) := by
      funext i
      fin_cases i <;> norm_num [Ie.vsub, Ie.XPlane.base, Fx.mul, Fx.sub, Fx.neg, Fx.add]
    dsimp only
    rw [hb, vdot2, vdot2]
    norm_num [Fx.isZero, Fx.div]
    funext i
    fin_cases i <;> norm_num [Ie.XLine.pointAt, Fx.mul, Fx.add]
  refine ⟨_, ?_, rfl⟩
  unfold Ie.intersectSegmentSegment
  rw [d1, d2, hp]
  have w1 : Ie.isWithin neg1 .fin (⟨![.fin (1 / 2), .fin (-1)], ![.fin (1 / 2), .fin 1]⟩ : Ie.XSegment 2) ![.fin (1 / 2), .fin 0] = true := by
    have e : ∀ v : Fin 2 → Fx, v = ![.fin 0, .fin 2] → forUp 2 1 (fun i largest => if Fx.lt (v largest).abs (v i).abs then i else largest) 0 = 1 := by
      rintro v rfl
      change (if Fx.lt (Fx.fin 0).abs (Fx.fin 2).abs then (1 : Fin 2) else 0) = 1
      norm_num [Fx.abs, Fx.lt]
    have ev : Ie.vsub .fin ![.fin (1 / 2), .fin 1] ![.fin (1 / 2), .fin (-1)] = ![.fin 0, .fin 2] := by
      funext i; fin_cases i <;> norm_num [Ie.vsub, Fx.sub, Fx.neg, Fx.add]
    unfold Ie.isWithin
    dsimp only
    rw [e _ ev, ev]
    norm_num [Ie.copysign1, Ie.vsub, Fx.sub, Fx.neg, Fx.add, Fx.lt, Fx.mul, Ie.le, Fx.abs]
  have w2 : Ie.isWithin neg2 .fin (⟨![.fin 0, .fin 0], ![.fin 1, .nan]⟩ : Ie.XSegment 2) ![.fin (1 / 2), .fin 0] = true := by
    have e : ∀ v : Fin 2 → Fx, v = ![.fin 1, .nan] → forUp 2 1 (fun i largest => if Fx.lt (v largest).abs (v i).abs then i else largest) 0 = 0 := by
      rintro v rfl
      rfl
    have ev : Ie.vsub .fin ![.fin 1, .nan] ![.fin 0, .fin 0] = ![.fin 1, .nan] := by
      funext i; fin_cases i <;> norm_num [Ie.vsub, Fx.sub, Fx.neg, Fx.add]
    unfold Ie.isWithin
    dsimp only
    rw [e _ ev, ev]
    norm_num [Ie.copysign1, Ie.vsub, Fx.sub, Fx.neg, Fx.add, Fx.lt, Fx.mul, Ie.le, Fx.abs]
  dsimp only
  rw [w1, w2]
  rfl

/-- Non-vacuity: evaluation with SIMD in three dimensions (four lanes). -/
example : ∃ R : Ie.Red 3, R.Valid ∧ R.c = Cfg.sse :=
  ⟨⟨Cfg.sse, true, (.node (.node (.leaf 0) (.leaf 1)) (.node (.leaf 2) (.leaf 3)) : RTree 4),
    (.node (.node (.leaf 0) (.leaf 1)) (.node (.leaf 2) (.leaf 3)) : RTree 4), .node (.node (.node (.leaf 0) (.leaf 1)) (.leaf 2)) (.leaf 3)⟩,
    ⟨List.Perm.refl _, List.Perm.refl _, List.Perm.refl _⟩, rfl⟩

/-- Non-vacuity: a line whose base has a NaN meets the line `y = 1`; the reported point is NaN. -/
example : ∃ p, Ie.intersectPlaneLine red2 .fin (fun a b d => Fx.add .fin (Fx.mul .fin a b) d) ⟨fun i => .fin ((![0, 1] : Fin 2 → ℝ) i), .fin 1⟩
    ⟨fun i => .fin ((![0, 1] : Fin 2 → ℝ) i), ![.nan, .fin 0]⟩ = some p ∧ AllNan p := by
  have e : ∃ p, Ie.intersectPlaneLine red2 .fin (fun a b d => Fx.add .fin (Fx.mul .fin a b) d) ⟨fun i => .fin ((![0, 1] : Fin 2 → ℝ) i), .fin 1⟩
      ⟨fun i => .fin ((![0, 1] : Fin 2 → ℝ) i), ![.nan, .fin 0]⟩ = some p := by
    unfold Ie.intersectPlaneLine Ie.planeLineParam
    dsimp only
    rw [vdot2, if_neg (by norm_num [Fx.isZero])]
    exact ⟨_, rfl⟩
  obtain ⟨p, hp⟩ := e
  exact ⟨p, hp, C121_plane_line red2_valid (fun _ _ _ => Or.inl rfl) _ _ (Or.inr (Or.inr (Or.inl ⟨0, rfl⟩))) p hp⟩

/-- Non-vacuity: a segment whose second point has a NaN. -/
example : Ie.intersectLineSegment red2 .fin (fun a b d => Fx.add .fin (Fx.mul .fin a b) d) Fx.stdMax ⟨![.fin 1, .fin 0], ![.fin 0, .fin 0]⟩
    ⟨![.fin 0, .fin (-1)], ![.fin 1, .nan]⟩ = none :=
  C122_line_segment_partial red2_valid _ _ (Or.inr (Or.inr (Or.inr ⟨1, rfl⟩)))

/-- Non-vacuity: two lines, one of them with a NaN, for which a point is reported. -/
example : ∃ p, Ie.intersectLineLine red2 .fin (fun a b d => Fx.add .fin (Fx.mul .fin a b) d) ⟨![.fin 1, .nan], ![.fin 0, .fin 0]⟩
    ⟨![.fin 0, .fin 1], ![.fin 1, .fin 0]⟩ = some p ∧ AllNan p := by
  obtain ⟨p, hp, -⟩ := C121_plane_line_reported (fl := .fin) (madd := fun a b d => Fx.add .fin (Fx.mul .fin a b) d) red2_valid (fun _ _ _ => Or.inl rfl)
    (Ie.XPlane.ofLine red2 .fin ⟨![.fin 1, .nan], ![.fin 0, .fin 0]⟩) ⟨![.fin 0, .fin 1], ![.fin 1, .fin 0]⟩ (Or.inl ⟨0, rfl⟩)
  exact ⟨p, hp, C121_line_line red2_valid (fun _ _ _ => Or.inl rfl) _ _ (Or.inr (Or.inl ⟨1, rfl⟩)) p hp⟩

/-- Non-vacuity: three vectors, the second with a NaN. -/
example : ∀ w, (Ie.gramSchmidt red2 .fin Fx.stdMax [![.fin 1, .fin 0], ![.fin 1, .nan], ![.fin 0, .fin 1]])[2]? = some w → AllNan w :=
  (C123_gramSchmidt_partial stdMax_lane red2_valid rfl _ 1 ![.fin 1, .nan] rfl ⟨1, rfl⟩).2.2 2 (by norm_num)

/-- Non-vacuity: the area of a triangle with a NaN corner. -/
example : (⟨![.fin 0, .fin 0], ![.fin 1, .nan], ![.fin 0, .fin 1]⟩ : Ie.XTriangle 2).area red2 .fin (1 / 2) 2 Fx.stdMax = some .nan :=
  C123_area_partial red2_valid (by norm_num) _ (Or.inr (Or.inl ⟨1, rfl⟩))

end Mathter.Props
