import Verif.Props.Geometry

/-!
# Properties C62, C63, C64: intersections
-/

namespace Mathter.Props
open Mathter

/-! ## C62 -/

/-- The points of a ray. -/
def rayPoints {n : ℕ} (l : GLine n) : Set (Fin n → ℝ) := {x | ∃ t, 0 ≤ t ∧ x = l.pointAt t}

/-- The points of a segment, both ends included. -/
def segPoints {n : ℕ} (s : GSegment n) : Set (Fin n → ℝ) := {x | ∃ t, 0 ≤ t ∧ t ≤ 1 ∧ x = s.interpol t}

/-- The points of a segment without its end. -/
def segPointsOpen {n : ℕ} (s : GSegment n) : Set (Fin n → ℝ) := {x | ∃ t, 0 ≤ t ∧ t < 1 ∧ x = s.interpol t}

private theorem param_spec {n : ℕ} (p : GPlane n) (l : GLine n) (hn : length p.normal = 1) :
    (dot p.normal l.direction = 0 → planeLineParam p l = none ∧ ∀ s t, l.pointAt s ∈ planePoints p ↔ l.pointAt t ∈ planePoints p) ∧
    (dot p.normal l.direction ≠ 0 → ∃ t, planeLineParam p l = some t ∧ ∀ s, l.pointAt s ∈ planePoints p ↔ s = t) := by
  have hb : dot p.normal p.base = p.scalar := by rw [GPlane.base, dotR_smul, dotR_self, hn]; ring
  constructor
  · intro h
    refine ⟨by rw [planeLineParam]; simp only [h, if_true], fun s t => ?_⟩
    rw [mem_planePoints, mem_planePoints, GLine.pointAt, GLine.pointAt, dotR_add, dotR_add, dotR_smul, dotR_smul, h, mul_zero, mul_zero]
  · intro h
    refine ⟨_, by rw [planeLineParam]; simp only [h, if_false]; rfl, fun s => ?_⟩
    rw [mem_planePoints, GLine.pointAt, dotR_add, dotR_smul, dotR_sub, hb, eq_div_iff h]
    constructor <;> intro e <;> linarith

private theorem pointAt_inj {n : ℕ} (l : GLine n) (hd : l.direction ≠ 0) (s t : ℝ) (h : l.pointAt s = l.pointAt t) : s = t := by
  rw [GLine.pointAt, GLine.pointAt, add_right_inj, ← sub_eq_zero, ← sub_smul, smul_eq_zero] at h
  rcases h with h | h
  · exact sub_eq_zero.1 h
  · exact absurd h hd

/-- C62, plane and line: `x` is returned exactly when it is the only common point. -/
theorem C62_line {n : ℕ} (p : GPlane n) (l : GLine n) (hn : length p.normal = 1) (hd : l.direction ≠ 0) (x : Fin n → ℝ) :
    intersectPlaneLine p l = some x ↔ planePoints p ∩ linePoints l = {x} := by
  obtain ⟨h0, h1⟩ := param_spec p l hn
  rw [intersectPlaneLine]
  by_cases h : dot p.normal l.direction = 0
  · obtain ⟨e, hs⟩ := h0 h
    rw [e]
    simp only [Option.map_none, reduceCtorEq, false_iff]
    intro hx
    have hm : x ∈ planePoints p ∩ linePoints l := by rw [hx]; rfl
    obtain ⟨hp, t, rfl⟩ := hm
    have : l.pointAt (t + 1) ∈ planePoints p ∩ linePoints l := ⟨(hs t (t + 1)).1 hp, _, rfl⟩
    rw [hx] at this
    have := pointAt_inj l hd _ _ this
    linarith
  · obtain ⟨t, e, hs⟩ := h1 h
    rw [e]
    have : planePoints p ∩ linePoints l = {l.pointAt t} := by
      ext y
      constructor
      · rintro ⟨hp, s, rfl⟩
        rw [(hs s).1 hp]; rfl
      · rintro rfl
        exact ⟨(hs t).2 rfl, t, rfl⟩
    rw [this, Option.map_some, Option.some_inj, Set.singleton_eq_singleton_iff]

/-- C62: nothing is returned exactly for a line parallel to the plane. -/
theorem C62_line_parallel {n : ℕ} (p : GPlane n) (l : GLine n) : intersectPlaneLine p l = none ↔ ∑ i, p.normal i * l.direction i = 0 := by
  rw [← dotR', intersectPlaneLine, planeLineParam]
  by_cases h : dot p.normal l.direction = 0 <;> simp [h]

/-- C62: without a unit normal the returned point solves `normal · x = scalar * |normal|²` instead of the equation of the plane. -/
theorem C62_line_any_normal {n : ℕ} (p : GPlane n) (l : GLine n) (x : Fin n → ℝ) (h : intersectPlaneLine p l = some x) :
    x ∈ linePoints l ∧ ∑ i, p.normal i * x i = p.scalar * length p.normal ^ 2 := by
  rw [intersectPlaneLine, planeLineParam] at h
  by_cases h0 : dot p.normal l.direction = 0
  · simp [h0] at h
  · simp only [h0, if_false, Option.map_some, Option.some_inj] at h
    refine ⟨⟨_, h⟩, ?_⟩
    rw [← dotR', ← h, GLine.pointAt, dotR_add, dotR_smul, dotR_sub, GPlane.base, dotR_smul, dotR_self]
    field_simp
    ring

/-- C62, plane and ray: `x` is returned exactly when it is the only common point. -/
theorem C62_ray {n : ℕ} (p : GPlane n) (l : GLine n) (hn : length p.normal = 1) (hd : l.direction ≠ 0) (x : Fin n → ℝ) :
    intersectPlaneRay p l = some x ↔ planePoints p ∩ rayPoints l = {x} := by
  obtain ⟨h0, h1⟩ := param_spec p l hn
  rw [intersectPlaneRay]
  by_cases h : dot p.normal l.direction = 0
  · obtain ⟨e, hs⟩ := h0 h
    rw [e]
    simp only [reduceCtorEq, false_iff]
    intro hx
    have hm : x ∈ planePoints p ∩ rayPoints l := by rw [hx]; rfl
    obtain ⟨hp, t, ht, rfl⟩ := hm
    have : l.pointAt (t + 1) ∈ planePoints p ∩ rayPoints l := ⟨(hs t (t + 1)).1 hp, _, by linarith, rfl⟩
    rw [hx] at this
    have := pointAt_inj l hd _ _ this
    linarith
  · obtain ⟨t, e, hs⟩ := h1 h
    rw [e]
    dsimp only
    by_cases ht : 0 ≤ t
    · have : planePoints p ∩ rayPoints l = {l.pointAt t} := by
        ext y
        constructor
        · rintro ⟨hp, s, _, rfl⟩
          rw [(hs s).1 hp]; rfl
        · rintro rfl
          exact ⟨(hs t).2 rfl, t, ht, rfl⟩
      rw [if_pos ht, this, Option.some_inj, Set.singleton_eq_singleton_iff]
    · rw [if_neg ht]
      simp only [reduceCtorEq, false_iff]
      intro hx
      have hm : x ∈ planePoints p ∩ rayPoints l := by rw [hx]; rfl
      obtain ⟨hp, s, hs0, rfl⟩ := hm
      rw [(hs s).1 hp] at hs0
      exact ht hs0

/-- A plane and a line that meet. -/
example : intersectPlaneLine (n := 2) ⟨![0, 1], 2⟩ ⟨![0, 1], ![5, 0]⟩ = some ![5, 2] := by
  rw [intersectPlaneLine, planeLineParam]
  have h1 : dot (![0, 1] : Fin 2 → ℝ) ![0, 1] = 1 := by rw [dotR', Fin.sum_univ_two]; simp
  have h2 : dot (![0, 1] : Fin 2 → ℝ) (GPlane.base ⟨![0, 1], 2⟩ - ![5, 0]) = 2 := by rw [dotR', Fin.sum_univ_two]; simp [GPlane.base]
  simp only [h1, h2, one_ne_zero, if_false, Option.map_some, GLine.pointAt]
  congr 1
  funext i
  fin_cases i <;> simp

private theorem seg_point {n : ℕ} (s : GSegment (n + 1)) (h : s.point1 ≠ s.point2) (t : ℝ) :
    s.line.pointAt t = s.interpol (t / distance s.point1 s.point2) ∧ 0 < distance s.point1 s.point2 ∧ s.line.direction ≠ 0 := by
  obtain ⟨h1, h2, -⟩ := C60_segment s h 0
  have hpos : 0 < distance s.point1 s.point2 := by
    refine lt_of_le_of_ne (length_nonneg _) fun e => ?_
    exact h (sub_eq_zero.1 ((length_eq_zero _).1 e.symm))
  refine ⟨?_, hpos, ?_⟩
  · have := (C60_segment s h (t / distance s.point1 s.point2)).2.2
    rw [h2, div_mul_cancel₀ _ hpos.ne'] at this
    exact this
  · intro e
    have : length s.direction = 0 := (length_eq_zero _).2 e
    rw [h1] at this
    exact one_ne_zero this

/-- C62, plane and segment, partial: `x` is returned exactly when it is the only common point of the plane and the segment without its end
point. Missing: a segment whose end is on the plane, see `C62_segment_end_violated`. -/
theorem C62_segment_partial {n : ℕ} (p : GPlane (n + 1)) (s : GSegment (n + 1)) (hn : length p.normal = 1) (h : s.point1 ≠ s.point2)
    (x : Fin (n + 1) → ℝ) : intersectPlaneSegment p s = some x ↔ planePoints p ∩ segPointsOpen s = {x} := by
  obtain ⟨h0, h1⟩ := param_spec p s.line hn
  have hpt := fun t => (seg_point s h t).1
  obtain ⟨-, hpos, hd⟩ := seg_point s h 0
  have hip : ∀ t, s.interpol t = s.line.pointAt (t * distance s.point1 s.point2) := fun t => by
    rw [hpt, mul_div_cancel_right₀ _ hpos.ne']
  rw [intersectPlaneSegment]
  by_cases hnd : dot p.normal s.line.direction = 0
  · obtain ⟨e, hs⟩ := h0 hnd
    rw [e]
    simp only [reduceCtorEq, false_iff]
    intro hx
    have hm : x ∈ planePoints p ∩ segPointsOpen s := by rw [hx]; rfl
    obtain ⟨hp, t, ht0, ht1, rfl⟩ := hm
    rw [hip] at hp
    have : s.interpol ((t + 1) / 2) ∈ planePoints p ∩ segPointsOpen s := by
      refine ⟨?_, _, by linarith, by linarith, rfl⟩
      rw [hip]
      exact (hs _ _).1 hp
    rw [hx, hip, hip] at this
    have := mul_right_cancel₀ hpos.ne' (pointAt_inj s.line hd _ _ this)
    linarith
  · obtain ⟨t, e, hs⟩ := h1 hnd
    rw [e]
    dsimp only
    by_cases ht : 0 ≤ t ∧ t < distance s.point1 s.point2
    · have : planePoints p ∩ segPointsOpen s = {s.line.pointAt t} := by
        ext y
        constructor
        · rintro ⟨hp, q, _, _, rfl⟩
          rw [hip] at hp ⊢
          rw [(hs _).1 hp]; rfl
        · rintro rfl
          exact ⟨(hs t).2 rfl, t / distance s.point1 s.point2, div_nonneg ht.1 hpos.le, (div_lt_one hpos).2 ht.2, hpt t⟩
      rw [if_pos ht, this, Option.some_inj, Set.singleton_eq_singleton_iff]
    · rw [if_neg ht]
      simp only [reduceCtorEq, false_iff]
      intro hx
      have hm : x ∈ planePoints p ∩ segPointsOpen s := by rw [hx]; rfl
      obtain ⟨hp, q, hq0, hq1, rfl⟩ := hm
      rw [hip, hs] at hp
      apply ht
      rw [← hp]
      exact ⟨mul_nonneg hq0 hpos.le, by nlinarith⟩

/-- C62 is violated: whenever the end of a segment is its only point on the plane, nothing is returned. -/
theorem C62_segment_end_violated {n : ℕ} (p : GPlane (n + 1)) (s : GSegment (n + 1)) (hn : length p.normal = 1) (h : s.point1 ≠ s.point2)
    (hx : planePoints p ∩ segPoints s = {s.point2}) : intersectPlaneSegment p s = none := by
  rcases e : intersectPlaneSegment p s with _ | x
  · rfl
  · rw [C62_segment_partial p s hn h] at e
    have hm : x ∈ planePoints p ∩ segPointsOpen s := by rw [e]; rfl
    obtain ⟨hp, t, h0, h1, rfl⟩ := hm
    have h2 : s.interpol t ∈ planePoints p ∩ segPoints s := ⟨hp, t, h0, h1.le, rfl⟩
    rw [hx] at h2
    have h3 : s.interpol t = s.interpol 1 := by rw [h2]; exact (C60_interpol_ends s).2.symm
    have hpt := fun t => (seg_point s h t).1
    obtain ⟨-, hpos, hd⟩ := seg_point s h 0
    have hip : ∀ t, s.interpol t = s.line.pointAt (t * distance s.point1 s.point2) := fun t => by
      rw [hpt, mul_div_cancel_right₀ _ hpos.ne']
    rw [hip, hip] at h3
    have := mul_right_cancel₀ hpos.ne' (pointAt_inj s.line hd _ _ h3)
    linarith

/-- Such a plane and segment exist. -/
theorem C62_segment_end_exists : ∃ (p : GPlane 2) (s : GSegment 2), length p.normal = 1 ∧ s.point1 ≠ s.point2 ∧
    planePoints p ∩ segPoints s = {s.point2} := by
  refine ⟨⟨![0, 1], 1⟩, ⟨![0, 0], ![2, 1]⟩, ?_, ?_, ?_⟩
  · rw [length, lengthSquared_eq_sum]; norm_num [Fin.sum_univ_two]
  · intro e
    have := congrFun e 1
    norm_num at this
  · ext y
    simp only [Set.mem_inter_iff, mem_planePoints, dotR', Fin.sum_univ_two, Set.mem_singleton_iff]
    constructor
    · rintro ⟨h, t, h0, h1, rfl⟩
      simp [GSegment.interpol] at h
      subst h
      simp [GSegment.interpol]
    · rintro rfl
      exact ⟨by simp, 1, by norm_num, le_rfl, by simp [GSegment.interpol]⟩

/-! ## C63 -/

private theorem ofLine_normal (l : GLine 2) : length (GPlane.ofLine l).normal = length l.direction := by
  rw [length, length, lengthSquared_eq_sum, lengthSquared_eq_sum, Fin.sum_univ_two, Fin.sum_univ_two]
  congr 1
  simp [GPlane.ofLine, cross2]
  ring

private theorem dir_ne_zero {n : ℕ} (l : GLine n) (h : length l.direction = 1) : l.direction ≠ 0 := by
  intro e
  rw [e, (length_eq_zero _).2 rfl] at h
  exact zero_ne_one h

/-- C63, two lines: `x` is returned exactly when it is their only common point; nothing is returned exactly for parallel lines. -/
theorem C63_lines (l r : GLine 2) (hl : length l.direction = 1) (hr : length r.direction = 1) :
    (∀ x, intersectLineLine l r = some x ↔ linePoints l ∩ linePoints r = {x}) ∧
    (intersectLineLine l r = none ↔ l.direction 0 * r.direction 1 = l.direction 1 * r.direction 0) := by
  refine ⟨fun x => ?_, ?_⟩
  · rw [intersectLineLine, C62_line _ _ ((ofLine_normal l).trans hl) (dir_ne_zero r hr), C60_line_to_plane l (dir_ne_zero l hl)]
  · rw [intersectLineLine, C62_line_parallel, Fin.sum_univ_two]
    simp only [GPlane.ofLine, cross2, Matrix.cons_val_zero, Matrix.cons_val_one]
    constructor <;> intro h <;> linarith

/-- `std::max_element` returns the index of a largest element. -/
theorem C63_max_element {n : ℕ} (v : Fin (n + 1) → ℝ) (i : Fin (n + 1)) : v i ≤ v (maxElementPos v) := by
  have := forUp_inv (n := n + 1) (lo := 1) (body := fun i best => if v best < v i then i else best) (s := (0 : Fin (n + 1)))
    (fun t b => ∀ i : Fin (n + 1), i.val < t → v i ≤ v b) (by omega)
    (by
      intro i hi
      have : i = 0 := Fin.ext (by rw [Fin.val_zero]; omega)
      rw [this])
    (by
      intro i b _ hb j hj
      split_ifs with h
      · by_cases e : j = i
        · rw [e]
        · have : j.val ≠ i.val := fun h => e (Fin.ext h)
          exact (hb j (by omega)).trans h.le
      · by_cases e : j = i
        · rw [e]; exact not_lt.1 h
        · have : j.val ≠ i.val := fun h => e (Fin.ext h)
          exact hb j (by omega))
  exact this i i.isLt

private theorem copysign_mul (neg : Bool) (x : ℝ) (hx : x ≠ 0) : copysign1 neg x * x = |x| := by
  rw [copysign1]
  by_cases h : x < 0
  · rw [if_pos (Or.inl h), abs_of_neg h]; ring
  · have h' : ¬(x < 0 ∨ (x = 0 ∧ neg = true)) := by
      rintro (h' | ⟨h', _⟩)
      · exact h h'
      · exact hx h'
    rw [if_neg h', abs_of_nonneg (not_lt.1 h)]; ring

/-- C63: the range checks, for points on the carrier line, in any dimension. -/
theorem C63_is_within {n : ℕ} (neg : Bool) (s : GSegment (n + 1)) (h : s.point1 ≠ s.point2) (l : GLine (n + 1)) (hl : l.direction ≠ 0) (t : ℝ) :
    (isWithin neg s (s.interpol t) ↔ 0 ≤ t ∧ t ≤ 1) ∧ (isWithinRay neg l (l.pointAt t) ↔ 0 ≤ t) := by
  have key : ∀ v : Fin (n + 1) → ℝ, v ≠ 0 → v (maxElementPos fun i => |v i|) ≠ 0 := by
    intro v hv e
    apply hv
    funext i
    have := C63_max_element (fun i => |v i|) i
    rw [e, abs_zero] at this
    exact abs_eq_zero.1 (le_antisymm this (abs_nonneg _))
  constructor
  · have hd := key (s.point2 - s.point1) (sub_ne_zero.2 (Ne.symm h))
    rw [isWithin]
    have e : ∀ i, (s.interpol t - s.point1) i = t * (s.point2 - s.point1) i := by
      intro i
      simp [GSegment.interpol]; ring
    rw [e, ← mul_assoc, mul_comm _ t, mul_assoc, copysign_mul _ _ hd]
    have hp := abs_pos.2 hd
    constructor
    · rintro ⟨h1, h2⟩
      refine ⟨by_contra fun h => ?_, by_contra fun h => ?_⟩ <;> nlinarith
    · rintro ⟨h1, h2⟩
      exact ⟨by positivity, by nlinarith⟩
  · have hd := key l.direction hl
    rw [isWithinRay]
    have e : ∀ i, (l.pointAt t - l.base) i = t * l.direction i := by
      intro i
      simp [GLine.pointAt]
    rw [e, ← mul_assoc, mul_comm _ t, mul_assoc, copysign_mul _ _ hd]
    have hp := abs_pos.2 hd
    constructor
    · intro h1
      by_contra h
      nlinarith
    · intro h1
      positivity

/-- C63, two proper segments: if they are parallel nothing is returned; otherwise `x` is returned exactly when it is a common point (ends
included). -/
theorem C63_segments (neg1 neg2 : Bool) (l r : GSegment 2) (hl : l.point1 ≠ l.point2) (hr : r.point1 ≠ r.point2) :
    ((l.point2 - l.point1) 0 * (r.point2 - r.point1) 1 = (l.point2 - l.point1) 1 * (r.point2 - r.point1) 0 →
      intersectSegmentSegment neg1 neg2 l r = none) ∧
    ((l.point2 - l.point1) 0 * (r.point2 - r.point1) 1 ≠ (l.point2 - l.point1) 1 * (r.point2 - r.point1) 0 →
      ∀ x, intersectSegmentSegment neg1 neg2 l r = some x ↔ segPoints l ∩ segPoints r = {x}) := by
  have hdl : l.line.direction = (length (l.point2 - l.point1))⁻¹ • (l.point2 - l.point1) := normalizeR _ (sub_ne_zero.2 (Ne.symm hl))
  have hdr : r.line.direction = (length (r.point2 - r.point1))⁻¹ • (r.point2 - r.point1) := normalizeR _ (sub_ne_zero.2 (Ne.symm hr))
  have hul : length l.line.direction = 1 := (C60_segment l hl 0).1
  have hur : length r.line.direction = 1 := (C60_segment r hr 0).1
  have hll : (length (l.point2 - l.point1))⁻¹ ≠ 0 := inv_ne_zero fun e => hl (sub_eq_zero.1 ((length_eq_zero _).1 e)).symm
  have hlr : (length (r.point2 - r.point1))⁻¹ ≠ 0 := inv_ne_zero fun e => hr (sub_eq_zero.1 ((length_eq_zero _).1 e)).symm
  obtain ⟨hsome, hnone⟩ := C63_lines l.line r.line hul hur
  have hpar : l.line.direction 0 * r.line.direction 1 = l.line.direction 1 * r.line.direction 0 ↔
      (l.point2 - l.point1) 0 * (r.point2 - r.point1) 1 = (l.point2 - l.point1) 1 * (r.point2 - r.point1) 0 := by
    rw [hdl, hdr]
    simp only [Pi.smul_apply, smul_eq_mul]
    generalize (length (l.point2 - l.point1))⁻¹ = a at *
    generalize (length (r.point2 - r.point1))⁻¹ = b at *
    have hab : a * b ≠ 0 := mul_ne_zero hll hlr
    constructor
    · intro h
      apply mul_left_cancel₀ hab
      linear_combination h
    · intro h
      linear_combination (a * b) * h
  rw [hpar] at hnone
  have hiL : ∀ t, l.interpol t ∈ linePoints l.line := fun t => ⟨_, (C60_segment l hl t).2.2⟩
  have hiR : ∀ t, r.interpol t ∈ linePoints r.line := fun t => ⟨_, (C60_segment r hr t).2.2⟩
  have hwL : ∀ x ∈ linePoints l.line, isWithin neg1 l x ↔ x ∈ segPoints l := by
    rintro _ ⟨t, rfl⟩
    obtain ⟨e, hp, hd⟩ := seg_point l hl t
    rw [e, (C63_is_within neg1 l hl l.line hd _).1]
    constructor
    · rintro ⟨h1, h2⟩; exact ⟨_, h1, h2, rfl⟩
    · rintro ⟨q, h1, h2, h3⟩
      have := (C60_interpol_of 1 1 one_pos le_rfl l).2 hl
      have e3 := this.1 (t / distance l.point1 l.point2)
      rw [h3, this.1 q, Option.some_inj] at e3
      rw [← e3]; exact ⟨h1, h2⟩
  have hwR : ∀ x ∈ linePoints r.line, isWithin neg2 r x ↔ x ∈ segPoints r := by
    rintro _ ⟨t, rfl⟩
    obtain ⟨e, hp, hd⟩ := seg_point r hr t
    rw [e, (C63_is_within neg2 r hr r.line hd _).1]
    constructor
    · rintro ⟨h1, h2⟩; exact ⟨_, h1, h2, rfl⟩
    · rintro ⟨q, h1, h2, h3⟩
      have := (C60_interpol_of 1 1 one_pos le_rfl r).2 hr
      have e3 := this.1 (t / distance r.point1 r.point2)
      rw [h3, this.1 q, Option.some_inj] at e3
      rw [← e3]; exact ⟨h1, h2⟩
  rw [intersectSegmentSegment]
  constructor
  · intro h
    rw [hnone.2 h]
  · intro h x
    rcases e : intersectLineLine l.line r.line with _ | y
    · exact absurd (hnone.1 e) h
    · have hy := (hsome y).1 e
      have hym : y ∈ linePoints l.line ∩ linePoints r.line := by rw [hy]; rfl
      dsimp only
      rw [hwL y hym.1, hwR y hym.2]
      have hsub : segPoints l ∩ segPoints r ⊆ {y} := by
        rintro _ ⟨⟨t, _, _, rfl⟩, ⟨q, _, _, h3⟩⟩
        rw [← hy]
        exact ⟨hiL t, by rw [h3]; exact hiR q⟩
      by_cases hm : y ∈ segPoints l ∧ y ∈ segPoints r
      · rw [if_pos hm, Option.some_inj]
        have : segPoints l ∩ segPoints r = {y} := Set.Subset.antisymm hsub (by rintro _ rfl; exact hm)
        rw [this, Set.singleton_eq_singleton_iff]
      · rw [if_neg hm]
        simp only [reduceCtorEq, false_iff]
        intro hx
        have hxm : x ∈ segPoints l ∩ segPoints r := by rw [hx]; rfl
        have := hsub hxm
        rw [Set.mem_singleton_iff] at this
        rw [this] at hxm
        exact hm hxm

/-- Crossing segments. -/
example : (![2, 2] - ![0, 0] : Fin 2 → ℝ) 0 * (![0, 2] - ![2, 0] : Fin 2 → ℝ) 1 ≠
    (![2, 2] - ![0, 0] : Fin 2 → ℝ) 1 * (![0, 2] - ![2, 0] : Fin 2 → ℝ) 0 := by norm_num

/-- C63, line and segment, partial: `x` is returned exactly when it is the only common point of the line and the segment without its end.
Missing: a segment whose end is on the line, see `C63_line_segment_end_violated`. -/
theorem C63_line_segment_partial (l : GLine 2) (s : GSegment 2) (hl : length l.direction = 1) (hs : s.point1 ≠ s.point2) (x : Fin 2 → ℝ) :
    intersectLineSegment l s = some x ↔ linePoints l ∩ segPointsOpen s = {x} := by
  rw [intersectLineSegment, C62_segment_partial _ _ ((ofLine_normal l).trans hl) hs, C60_line_to_plane l (dir_ne_zero l hl)]

/-- C63 is violated: the end of a segment on a line is not found. -/
theorem C63_line_segment_end_violated (l : GLine 2) (s : GSegment 2) (hl : length l.direction = 1) (hs : s.point1 ≠ s.point2)
    (hx : linePoints l ∩ segPoints s = {s.point2}) : intersectLineSegment l s = none := by
  rw [intersectLineSegment]
  refine C62_segment_end_violated _ _ ((ofLine_normal l).trans hl) hs ?_
  rw [C60_line_to_plane l (dir_ne_zero l hl)]
  exact hx

/-! ## C64 -/

/-- The determinant of three vectors. -/
def det3v (a b c : Fin 3 → ℝ) : ℝ := (Matrix.of ![a, b, c]).det

private theorem det3v_eq (a b c : Fin 3 → ℝ) : det3v a b c =
    a 0 * b 1 * c 2 - a 0 * b 2 * c 1 - a 1 * b 0 * c 2 + a 1 * b 2 * c 0 + a 2 * b 0 * c 1 - a 2 * b 1 * c 0 := by
  rw [det3v, Matrix.det_fin_three]; simp

private theorem dot_cross3 (a b c : Fin 3 → ℝ) : dot a (cross3 b c) = det3v a b c := by
  rw [det3v_eq, dotR', Fin.sum_univ_three]
  simp [cross3, sw]
  ring

/-- The hit of a ray and a closed triangle with parameter `t` and barycentric coordinates `u`, `v`. -/
def IsHit (ray : GLine 3) (tr : GTriangle 3) (t u v : ℝ) : Prop :=
  0 ≤ u ∧ 0 ≤ v ∧ u + v ≤ 1 ∧ ray.pointAt t = (1 - u - v) • tr.a + u • tr.b + v • tr.c

/-- Cramer's rule for the hit. -/
private theorem hit_params (ray : GLine 3) (tr : GTriangle 3) (h : det3v (tr.b - tr.a) ray.direction (tr.c - tr.a) ≠ 0) (t u v : ℝ) :
    ray.pointAt t = (1 - u - v) • tr.a + u • tr.b + v • tr.c ↔
      u = 1 / det3v (tr.b - tr.a) ray.direction (tr.c - tr.a) * det3v (ray.base - tr.a) ray.direction (tr.c - tr.a) ∧
      v = 1 / det3v (tr.b - tr.a) ray.direction (tr.c - tr.a) * det3v ray.direction (ray.base - tr.a) (tr.b - tr.a) ∧
      t = 1 / det3v (tr.b - tr.a) ray.direction (tr.c - tr.a) * det3v (tr.c - tr.a) (ray.base - tr.a) (tr.b - tr.a) := by
  have hd : ∀ e1 d e2 s : Fin 3 → ℝ, det3v e1 d e2 ≠ 0 → ((∀ i, s i + t * d i = u * e1 i + v * e2 i) ↔
      (u = 1 / det3v e1 d e2 * det3v s d e2 ∧ v = 1 / det3v e1 d e2 * det3v d s e1 ∧ t = 1 / det3v e1 d e2 * det3v e2 s e1)) := by
    intro e1 d e2 s h
    have hrec : ∀ x y : ℝ, x = 1 / det3v e1 d e2 * y ↔ x * det3v e1 d e2 = y := by
      intro x y
      rw [eq_comm, one_div, inv_mul_eq_iff_eq_mul₀ h, mul_comm, eq_comm]
    rw [hrec, hrec, hrec]
    simp only [det3v_eq] at h ⊢
    constructor
    · intro hi
      have h0 := hi 0
      have h1 := hi 1
      have h2 := hi 2
      refine ⟨?_, ?_, ?_⟩
      · linear_combination (-(d 1 * e2 2 - d 2 * e2 1)) * h0 + (d 0 * e2 2 - d 2 * e2 0) * h1 + (-(d 0 * e2 1 - d 1 * e2 0)) * h2
      · linear_combination (e1 2 * d 1 - e1 1 * d 2) * h0 + (e1 0 * d 2 - e1 2 * d 0) * h1 + (e1 1 * d 0 - e1 0 * d 1) * h2
      · linear_combination (-(e1 1 * e2 2 - e1 2 * e2 1)) * h0 - (e1 2 * e2 0 - e1 0 * e2 2) * h1 - (e1 0 * e2 1 - e1 1 * e2 0) * h2
    · rintro ⟨hu, hv, ht⟩ i
      apply mul_right_cancel₀ h
      fin_cases i
      · simp only [Fin.zero_eta]
        linear_combination (d 0) * ht - (e1 0) * hu - (e2 0) * hv
      · simp only [Fin.mk_one]
        linear_combination (d 1) * ht - (e1 1) * hu - (e2 1) * hv
      · simp only [Fin.reduceFinMk]
        linear_combination (d 2) * ht - (e1 2) * hu - (e2 2) * hv
  rw [← hd _ _ _ _ h]
  constructor
  · intro e i
    have := congrFun e i
    simp only [GLine.pointAt, Pi.add_apply, Pi.smul_apply, smul_eq_mul, Pi.sub_apply] at this ⊢
    linarith
  · intro e
    funext i
    have := e i
    simp only [GLine.pointAt, Pi.add_apply, Pi.smul_apply, smul_eq_mul, Pi.sub_apply] at this ⊢
    linarith

/-- C64: for any machine epsilon, a point is returned exactly when the ray is not (nearly) parallel to the triangle - the determinant of
the two edges and the direction is at least epsilon - and the closed triangle is hit at a distance of at least epsilon; the point is the
hit. -/
theorem C64_ray_triangle (epsilon : ℝ) (he : 0 < epsilon) (ray : GLine 3) (tr : GTriangle 3) (x : Fin 3 → ℝ) :
    intersectRayTriangle epsilon ray tr = some x ↔ epsilon ≤ |det3v (tr.b - tr.a) ray.direction (tr.c - tr.a)| ∧
      ∃ t u v, IsHit ray tr t u v ∧ epsilon ≤ t ∧ x = ray.pointAt t := by
  rw [intersectRayTriangle]
  simp only [dot_cross3]
  by_cases h : |det3v (tr.b - tr.a) ray.direction (tr.c - tr.a)| < epsilon
  · rw [if_pos h]
    simp only [reduceCtorEq, false_iff]
    exact fun h' => absurd h (not_lt.2 h'.1)
  · rw [if_neg h]
    have h0 : det3v (tr.b - tr.a) ray.direction (tr.c - tr.a) ≠ 0 := by
      intro e
      rw [e, abs_zero] at h
      exact h he
    have hp := fun t u v => hit_params ray tr h0 t u v
    generalize 1 / det3v (tr.b - tr.a) ray.direction (tr.c - tr.a) * det3v (ray.base - tr.a) ray.direction (tr.c - tr.a) = U at *
    generalize 1 / det3v (tr.b - tr.a) ray.direction (tr.c - tr.a) * det3v ray.direction (ray.base - tr.a) (tr.b - tr.a) = V at *
    generalize 1 / det3v (tr.b - tr.a) ray.direction (tr.c - tr.a) * det3v (tr.c - tr.a) (ray.base - tr.a) (tr.b - tr.a) = T at *
    have hrhs : (∃ t u v, IsHit ray tr t u v ∧ epsilon ≤ t ∧ x = ray.pointAt t) ↔
        (0 ≤ U ∧ 0 ≤ V ∧ U + V ≤ 1) ∧ epsilon ≤ T ∧ x = ray.pointAt T := by
      constructor
      · rintro ⟨t, u, v, ⟨a1, a2, a3, a4⟩, h2, h3⟩
        obtain ⟨rfl, rfl, rfl⟩ := (hp t u v).1 a4
        exact ⟨⟨a1, a2, a3⟩, h2, h3⟩
      · rintro ⟨⟨a1, a2, a3⟩, h2, h3⟩
        exact ⟨T, U, V, ⟨a1, a2, a3, (hp T U V).2 ⟨rfl, rfl, rfl⟩⟩, h2, h3⟩
    rw [hrhs]
    simp only [not_lt.1 h, true_and]
    by_cases h1 : U < 0 ∨ U > 1
    · rw [if_pos h1]
      simp only [reduceCtorEq, false_iff]
      rintro ⟨⟨a1, a2, a3⟩, -, -⟩
      rcases h1 with h1 | h1 <;> linarith
    · rw [if_neg h1]
      push Not at h1
      by_cases h2 : V < 0 ∨ U + V > 1
      · rw [if_pos h2]
        simp only [reduceCtorEq, false_iff]
        rintro ⟨⟨a1, a2, a3⟩, -, -⟩
        rcases h2 with h2 | h2 <;> linarith
      · rw [if_neg h2]
        push Not at h2
        by_cases h3 : T < epsilon
        · rw [if_pos h3]
          simp only [reduceCtorEq, false_iff]
          rintro ⟨-, a, -⟩
          linarith
        · rw [if_neg h3, Option.some_inj]
          constructor
          · intro e
            exact ⟨⟨h1.1, h2.1, h2.2⟩, not_lt.1 h3, e.symm⟩
          · rintro ⟨-, -, e⟩
            exact e.symm

/-- C64: a hit is unique when the ray is not parallel to the triangle. -/
theorem C64_unique (ray : GLine 3) (tr : GTriangle 3) (h : det3v (tr.b - tr.a) ray.direction (tr.c - tr.a) ≠ 0) (t u v t' u' v' : ℝ)
    (h1 : IsHit ray tr t u v) (h2 : IsHit ray tr t' u' v') : t = t' ∧ u = u' ∧ v = v' := by
  obtain ⟨a, b, c⟩ := (hit_params ray tr h t u v).1 h1.2.2.2
  obtain ⟨a', b', c'⟩ := (hit_params ray tr h t' u' v').1 h2.2.2.2
  exact ⟨c.trans c'.symm, a.trans a'.symm, b.trans b'.symm⟩

/-- C64: the epsilon is absolute: whatever it is, some triangle hit perpendicularly in its interior is missed because it is small. -/
theorem C64_small_triangle (epsilon : ℝ) (he : 0 < epsilon) : ∃ (ray : GLine 3) (tr : GTriangle 3) (t u v : ℝ), IsHit ray tr t u v ∧
    0 < u ∧ 0 < v ∧ u + v < 1 ∧ epsilon ≤ t ∧ det3v (tr.b - tr.a) ray.direction (tr.c - tr.a) ≠ 0 ∧ intersectRayTriangle epsilon ray tr = none := by
  obtain ⟨s, hs0, hs1⟩ : ∃ s : ℝ, 0 < s ∧ s * s < epsilon := by
    refine ⟨min (epsilon / 2) 1, lt_min (by linarith) one_pos, ?_⟩
    have h1 := min_le_left (epsilon / 2) 1
    have h2 := min_le_right (epsilon / 2) 1
    have h3 : 0 < min (epsilon / 2) 1 := lt_min (by linarith) one_pos
    nlinarith
  have hdet : det3v ((![s, 0, 0] : Fin 3 → ℝ) - ![0, 0, 0]) ![0, 0, 1] (![0, s, 0] - ![0, 0, 0]) = -(s * s) := by
    rw [det3v_eq]; simp
  refine ⟨⟨![0, 0, 1], ![s / 4, s / 4, -epsilon]⟩, ⟨![0, 0, 0], ![s, 0, 0], ![0, s, 0]⟩, epsilon, 1 / 4, 1 / 4, ⟨by norm_num, by norm_num,
    by norm_num, ?_⟩, by norm_num, by norm_num, by norm_num, le_rfl, ?_, ?_⟩
  · funext i
    fin_cases i <;> simp [GLine.pointAt] <;> ring
  · dsimp only
    rw [hdet]
    nlinarith
  · rw [intersectRayTriangle]
    simp only [dot_cross3]
    rw [hdet, if_pos]
    rw [abs_neg, abs_of_pos (by positivity)]
    exact hs1

/-- A hit that is found. -/
example : (2 : ℝ) ^ (-52 : ℤ) ≤ |det3v ((![1, 0, 0] : Fin 3 → ℝ) - ![0, 0, 0]) ![0, 0, 1] (![0, 1, 0] - ![0, 0, 0])| ∧
    IsHit ⟨![0, 0, 1], ![1 / 4, 1 / 2, -3]⟩ ⟨![0, 0, 0], ![1, 0, 0], ![0, 1, 0]⟩ 3 (1 / 4) (1 / 2) := by
  refine ⟨?_, by norm_num, by norm_num, by norm_num, ?_⟩
  · rw [det3v_eq]; simp; norm_num
  · funext i
    fin_cases i <;> simp [GLine.pointAt]

end Mathter.Props
