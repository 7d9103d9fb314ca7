import Mathlib.Analysis.Convex.Combination
import Mathlib.Data.Nat.Choose.Sum
import Mathlib.Algebra.BigOperators.Fin
import Mathlib.LinearAlgebra.Matrix.Determinant.Basic
import Verif.Model.Geometry
import Verif.Props.VectorMath

/-!
# Properties C59, C60, C61: Bézier curves, lines, segments, planes and triangles
-/

namespace Mathter.Props
open Mathter
universe u

/-! ## C59 -/

/-- The Bernstein form of a Bézier curve. -/
def bernstein {K : Type u} [CommRing K] {n order : ℕ} (p : Fin (order + 1) → Fin n → K) (t : K) : Fin n → K :=
  ∑ k : Fin (order + 1), ((order.choose k.val : K) * (1 - t) ^ (order - k.val) * t ^ k.val) • p k

private theorem bern_step {K : Type u} [CommRing K] {V : Type u} [AddCommGroup V] [Module K V] (f : ℕ → V) (t : K) (r : ℕ) :
    (1 - t) • (∑ k ∈ Finset.range (r + 1), ((r.choose k : K) * (1 - t) ^ (r - k) * t ^ k) • f k) +
      t • (∑ k ∈ Finset.range (r + 1), ((r.choose k : K) * (1 - t) ^ (r - k) * t ^ k) • f (k + 1)) =
    ∑ k ∈ Finset.range (r + 2), (((r + 1).choose k : K) * (1 - t) ^ (r + 1 - k) * t ^ k) • f k := by
  rw [Finset.sum_range_succ' _ (r + 1), Finset.smul_sum, Finset.smul_sum, Finset.sum_range_succ' _ r]
  have e : ∀ k ∈ Finset.range (r + 1), (((r + 1).choose (k + 1) : K) * (1 - t) ^ (r + 1 - (k + 1)) * t ^ (k + 1)) • f (k + 1) =
      t • (((r.choose k : K) * (1 - t) ^ (r - k) * t ^ k) • f (k + 1)) +
      (if k < r then (1 - t) • (((r.choose (k + 1) : K) * (1 - t) ^ (r - (k + 1)) * t ^ (k + 1)) • f (k + 1)) else 0) := by
    intro k hk
    rw [Finset.mem_range] at hk
    rw [Nat.choose_succ_succ, Nat.succ_eq_add_one, Nat.add_sub_add_right]
    split
    · rename_i h
      rw [smul_smul, smul_smul, ← add_smul]
      congr 1
      have : r - k = (r - (k + 1)) + 1 := by omega
      rw [this]
      push_cast
      ring
    · have hk' : k = r := by omega
      subst hk'
      rw [add_zero, smul_smul]
      congr 1
      simp
      ring
  rw [Finset.sum_congr rfl e, Finset.sum_add_distrib, Finset.sum_ite, Finset.sum_const_zero, add_zero]
  have hf : (Finset.range (r + 1)).filter (fun k => k < r) = Finset.range r := by
    ext k; simp; omega
  rw [hf]
  have h0 : (1 - t) • (((r.choose 0 : K) * (1 - t) ^ (r - 0) * t ^ 0) • f 0) = (((r + 1).choose 0 : K) * (1 - t) ^ (r + 1 - 0) * t ^ 0) • f 0 := by
    rw [smul_smul]
    congr 1
    simp
    ring
  rw [h0]
  abel

private theorem bezier_inner {K : Type u} [CommRing K] {n order : ℕ} (t : K) (i : Fin order) (red : Fin (order + 1) → Fin n → K)
    (q : Fin (order + 1)) :
    forUp (i.val + 1) 0 (fun j red => fun q => if q.val = j.val then (1 - t) • red ⟨j.val, by omega⟩ + t • red ⟨j.val + 1, by omega⟩ else red q)
      red q = if h : q.val ≤ i.val then (1 - t) • red q + t • red ⟨q.val + 1, by omega⟩ else red q := by
  have := forUp_inv (n := i.val + 1) (lo := 0) (body := fun j (red : Fin (order + 1) → Fin n → K) =>
      fun q : Fin (order + 1) => if q.val = j.val then (1 - t) • red ⟨j.val, by omega⟩ + t • red ⟨j.val + 1, by omega⟩ else red q) (s := red)
    (fun z y => ∀ q : Fin (order + 1), y q = if h : q.val < z ∧ q.val ≤ i.val then (1 - t) • red q + t • red ⟨q.val + 1, by omega⟩ else red q)
    (Nat.zero_le _) (by intro q; rw [dif_neg (by omega)]) (by
      intro j y _ hy q
      dsimp only
      by_cases e : q.val = j.val
      · rw [if_pos e, dif_pos (by omega), hy, hy, dif_neg (by simp), dif_neg (by simp)]
        have e1 : (⟨j.val, by omega⟩ : Fin (order + 1)) = q := Fin.ext e.symm
        have e2 : (⟨j.val + 1, by omega⟩ : Fin (order + 1)) = ⟨q.val + 1, by omega⟩ := Fin.ext (by simp [e])
        rw [e1, e2]
      · rw [if_neg e, hy q]
        by_cases h : q.val < j.val ∧ q.val ≤ i.val
        · rw [dif_pos h, dif_pos (by omega)]
        · rw [dif_neg h, dif_neg (by omega)])
  rw [this q]
  by_cases h : q.val ≤ i.val
  · rw [dif_pos h, dif_pos (by omega)]
  · rw [dif_neg h, dif_neg (by omega)]

/-- C59: evaluation is the Bernstein form, for every order, dimension, commutative ring and parameter. -/
theorem C59_bernstein {K : Type u} [CommRing K] {n order : ℕ} (p : Fin (order + 1) → Fin n → K) (t : K) :
    bezierPointAt p t = bernstein p t := by
  let f : ℕ → Fin n → K := fun k => if h : k < order + 1 then p ⟨k, h⟩ else 0
  have := forDown_inv (n := order) (body := fun i red => forUp (i.val + 1) 0 (fun j red =>
      fun q : Fin (order + 1) => if q.val = j.val then (1 - t) • red ⟨j.val, by omega⟩ + t • red ⟨j.val + 1, by omega⟩ else red q) red) (s := p)
    (fun z y => z ≤ order ∧ ∀ q : Fin (order + 1), q.val ≤ z → y q = ∑ k ∈ Finset.range (order - z + 1),
      (((order - z).choose k : K) * (1 - t) ^ (order - z - k) * t ^ k) • f (q.val + k))
    ⟨le_rfl, by
      intro q _
      have := q.isLt
      simp [f]
      omega⟩ (by
      rintro i y ⟨hz, hy⟩
      refine ⟨by omega, fun q hq => ?_⟩
      rw [bezier_inner, dif_pos hq, hy q (by omega), hy ⟨q.val + 1, by omega⟩ (by simpa using hq)]
      have e : order - i.val = (order - (i.val + 1)) + 1 := by omega
      rw [e, ← bern_step (fun k => f (q.val + k)) t]
      congr 2
      refine Finset.sum_congr rfl fun k _ => ?_
      congr 2
      show q.val + 1 + k = q.val + (k + 1)
      omega)
  have h := this.2 0 (by simp)
  refine h.trans ?_
  unfold bernstein
  rw [Nat.sub_zero, Finset.sum_range]
  refine Finset.sum_congr rfl fun k _ => ?_
  have hk : f ((0 : Fin (order + 1)).val + k.val) = p k := by
    rw [Fin.val_zero, Nat.zero_add]
    exact dif_pos k.isLt
  rw [hk]

/-- C59: the curve starts at the first and ends at the last control point. -/
theorem C59_endpoints {K : Type u} [CommRing K] {n order : ℕ} (p : Fin (order + 1) → Fin n → K) :
    bezierPointAt p 0 = p 0 ∧ bezierPointAt p 1 = p (Fin.last order) := by
  rw [C59_bernstein, C59_bernstein]
  constructor
  · unfold bernstein
    rw [Finset.sum_eq_single 0]
    · simp
    · intro k _ hk
      have : k.val ≠ 0 := fun e => hk (Fin.ext e)
      rw [zero_pow this, mul_zero, zero_smul]
    · simp
  · unfold bernstein
    rw [Finset.sum_eq_single (Fin.last order)]
    · simp
    · intro k _ hk
      have : order - k.val ≠ 0 := by
        have : k.val ≠ order := fun e => hk (Fin.ext e)
        omega
      rw [sub_self, zero_pow this, mul_zero, zero_mul, zero_smul]
    · simp

private theorem bernstein_sum_one {K : Type u} [CommRing K] (order : ℕ) (t : K) :
    ∑ k : Fin (order + 1), ((order.choose k.val : K) * (1 - t) ^ (order - k.val) * t ^ k.val) = 1 := by
  have := add_pow t (1 - t) order
  rw [add_sub_cancel, one_pow, Finset.sum_range] at this
  refine Eq.trans ?_ this.symm
  exact Finset.sum_congr rfl fun k _ => by ring

/-- C59: affine maps commute with evaluation. -/
theorem C59_affine {K : Type u} [CommRing K] {n m order : ℕ} (p : Fin (order + 1) → Fin n → K) (t : K) (A : Matrix (Fin m) (Fin n) K)
    (b : Fin m → K) : bezierPointAt (fun k => A.mulVec (p k) + b) t = A.mulVec (bezierPointAt p t) + b := by
  rw [C59_bernstein, C59_bernstein]
  unfold bernstein
  have hs := bernstein_sum_one order t
  simp only [smul_add, Finset.sum_add_distrib]
  rw [← Finset.sum_smul, hs, one_smul, Matrix.mulVec_sum]
  simp only [Matrix.mulVec_smul]

/-- C59: for a parameter in [0, 1] the point is in the convex hull of the control points. -/
theorem C59_convex_hull {n order : ℕ} (p : Fin (order + 1) → Fin n → ℝ) (t : ℝ) (h0 : 0 ≤ t) (h1 : t ≤ 1) :
    bezierPointAt p t ∈ convexHull ℝ (Set.range p) := by
  rw [C59_bernstein]
  refine (convex_convexHull ℝ _).sum_mem (fun k _ => ?_) (bernstein_sum_one order t) fun k _ => subset_convexHull ℝ _ ⟨k, rfl⟩
  have : 0 ≤ 1 - t := by linarith
  positivity

/-- A cubic curve. -/
example : bezierPointAt (order := 3) ![![(0 : ℚ), 0], ![0, 1], ![1, 1], ![1, 0]] (1 / 2) = ![1 / 2, 3 / 4] := by decide +kernel

/-! ## C60 -/

theorem dotR' {n : ℕ} (a b : Fin n → ℝ) : dot a b = ∑ i, a i * b i := by rw [dot_eq_sum]; rfl

theorem dotR_comm {n : ℕ} (a b : Fin n → ℝ) : dot a b = dot b a := by
  rw [dotR', dotR']; exact Finset.sum_congr rfl fun _ _ => mul_comm _ _

theorem dotR_add {n : ℕ} (a b c : Fin n → ℝ) : dot a (b + c) = dot a b + dot a c := by
  rw [dotR', dotR', dotR', ← Finset.sum_add_distrib]; exact Finset.sum_congr rfl fun _ _ => mul_add _ _ _

theorem dotR_smul {n : ℕ} (s : ℝ) (a b : Fin n → ℝ) : dot a (s • b) = s * dot a b := by
  rw [dotR', dotR', Finset.mul_sum]; exact Finset.sum_congr rfl fun _ _ => by simp; ring

theorem dotR_sub {n : ℕ} (a b c : Fin n → ℝ) : dot a (b - c) = dot a b - dot a c := by
  rw [dotR', dotR', dotR', ← Finset.sum_sub_distrib]; exact Finset.sum_congr rfl fun _ _ => mul_sub _ _ _

theorem dotR_self {n : ℕ} (a : Fin n → ℝ) : dot a a = length a ^ 2 := by rw [dot_self]; rfl

private theorem lengthR_sq {n : ℕ} (a b : Fin n → ℝ) : length (a + b) ^ 2 = length a ^ 2 + 2 * dot a b + length b ^ 2 := by
  rw [← dotR_self, ← dotR_self, ← dotR_self, dotR_add, dotR_comm (a + b) a, dotR_comm (a + b) b, dotR_add, dotR_add, dotR_comm b a]
  ring

theorem normalizeR {n : ℕ} (v : Fin (n + 1) → ℝ) (hv : v ≠ 0) : normalizePrecise1 v = (length v)⁻¹ • v := by
  rw [normalizePrecise1, normalizePrecise_ne_zero v _ hv, divReal_eq]; rfl

/-- C60: a line through two points passes through both: at parameter 0 and at their distance; its direction has unit length. -/
theorem C60_through {n : ℕ} (p q : Fin (n + 1) → ℝ) :
    (GLine.through p q).pointAt 0 = p ∧ (GLine.through p q).pointAt (distance p q) = q ∧ length (GLine.through p q).direction = 1 := by
  refine ⟨by simp [GLine.through, GLine.pointAt], ?_, (C15_normalize_precise_default _).1⟩
  unfold GLine.through GLine.pointAt
  dsimp only
  by_cases h : q = p
  · subst h
    have : distance q q = 0 := by rw [distance, sub_self, (length_eq_zero _).2 rfl]
    rw [this, zero_smul, add_zero]
  · have h0 : q - p ≠ 0 := sub_ne_zero.2 h
    have hl : length (q - p) ≠ 0 := fun e => h0 ((length_eq_zero _).1 e)
    have hd : distance p q = length (q - p) := by
      rw [distance, show p - q = (-1 : ℝ) • (q - p) by rw [neg_one_smul, neg_sub], length_smul]; simp
    rw [normalizeR _ h0, hd, smul_smul, mul_inv_cancel₀ hl, one_smul, add_sub_cancel]

/-- C60: for a unit direction, the parameter of `PointAt` is the signed distance from the base point. -/
theorem C60_point_at {n : ℕ} (l : GLine n) (h : length l.direction = 1) (s t : ℝ) :
    distance (l.pointAt s) (l.pointAt t) = |s - t| ∧ dot (l.pointAt t - l.base) l.direction = t := by
  constructor
  · rw [distance, GLine.pointAt, GLine.pointAt, add_sub_add_left_eq_sub, ← sub_smul, length_smul, h, mul_one]; rfl
  · rw [GLine.pointAt, add_sub_cancel_left, dotR_comm, dotR_smul, dotR_self, h]; ring

/-- A unit direction that is not an axis. -/
example : length ![(3 : ℝ) / 5, 4 / 5] = 1 := by
  rw [length, lengthSquared_eq_sum]; norm_num [Fin.sum_univ_two]

/-- C60: segments: `Interpol` at 0 and 1 gives the end points. -/
theorem C60_interpol_ends {n : ℕ} (s : GSegment n) : s.interpol 0 = s.point1 ∧ s.interpol 1 = s.point2 := by
  constructor <;> simp [GSegment.interpol]

/-- C60: `InterpolOf` inverts `Interpol`; on other points it returns the parameter of the closest point of the line. It fails (division by
zero) exactly for a degenerate segment. -/
theorem C60_interpol_of {n : ℕ} (lo hi : ℝ) (hlo : 0 < lo) (hhi : lo ≤ hi) (s : GSegment (n + 1)) :
    (s.point1 = s.point2 → ∀ p, s.interpolOf lo hi p = none) ∧
    (s.point1 ≠ s.point2 → (∀ t, s.interpolOf lo hi (s.interpol t) = some t) ∧
      ∀ p, ∃ t, s.interpolOf lo hi p = some t ∧ ∀ t', distance p (s.interpol t) ≤ distance p (s.interpol t')) := by
  have hL : ∀ p, s.interpolOf lo hi p = if length (s.point2 - s.point1) = 0 then none
      else some (dot (p - s.point1) (s.point2 - s.point1) / length (s.point2 - s.point1) ^ 2) := by
    intro p
    rw [GSegment.interpolOf]
    simp only [C14_length_precise lo hi hlo hhi]
    split_ifs with h
    · rfl
    · rw [divReal_eq]
      have : dot (p - s.point1) ((((length (s.point2 - s.point1))⁻¹ : ℝ) : ℝ) • (s.point2 - s.point1)) = _ := dotR_smul _ _ _
      congr 1
      rw [pow_two, ← div_div]
      congr 1
      rw [div_eq_inv_mul]
      exact this
  refine ⟨fun h p => ?_, fun h => ?_⟩
  · rw [hL, h, sub_self, if_pos ((length_eq_zero _).2 rfl)]
  · have hd : s.point2 - s.point1 ≠ 0 := sub_ne_zero.2 (Ne.symm h)
    have hl : length (s.point2 - s.point1) ≠ 0 := fun e => hd ((length_eq_zero _).1 e)
    have hi' : ∀ t, s.interpol t = s.point1 + t • (s.point2 - s.point1) := by
      intro t
      rw [GSegment.interpol, smul_sub, sub_smul, one_smul]; abel
    refine ⟨fun t => ?_, fun p => ⟨_, by rw [hL, if_neg hl], fun t' => ?_⟩⟩
    · rw [hL, if_neg hl, hi', add_sub_cancel_left, dotR_comm, dotR_smul, dotR_self]
      congr 1
      field_simp
    · rw [distance, distance, hi', hi']
      generalize hD : s.point2 - s.point1 = d at *
      generalize ht : dot (p - s.point1) d / length d ^ 2 = t
      have e : p - (s.point1 + t' • d) = (p - (s.point1 + t • d)) + (t - t') • d := by rw [sub_smul]; abel
      have horth : dot (p - (s.point1 + t • d)) d = 0 := by
        rw [dotR_comm, show p - (s.point1 + t • d) = (p - s.point1) - t • d by abel, dotR_sub, dotR_smul, dotR_self, ← ht, dotR_comm d]
        field_simp
        ring
      have hsq : length (p - (s.point1 + t • d)) ^ 2 ≤ length (p - (s.point1 + t' • d)) ^ 2 := by
        rw [e, lengthR_sq, dotR_smul, horth]
        have := sq_nonneg (length ((t - t') • d))
        linarith
      exact (sq_le_sq₀ (length_nonneg _) (length_nonneg _)).1 hsq

/-- C60: length and direction of a segment built from a unit direction; the carrier line contains the points of the segment at their
distance from the start. -/
theorem C60_segment {n : ℕ} (s : GSegment (n + 1)) (h : s.point1 ≠ s.point2) (t : ℝ) :
    length s.direction = 1 ∧ s.len = distance s.point1 s.point2 ∧ s.line.pointAt (t * s.len) = s.interpol t := by
  have hd : s.point2 - s.point1 ≠ 0 := sub_ne_zero.2 (Ne.symm h)
  have hl : length (s.point2 - s.point1) ≠ 0 := fun e => hd ((length_eq_zero _).1 e)
  refine ⟨(C15_normalize_precise_default _).1, ?_, ?_⟩
  · rw [GSegment.len, distance, show s.point1 - s.point2 = (-1 : ℝ) • (s.point2 - s.point1) by rw [neg_one_smul, neg_sub], length_smul]; simp
  · rw [GSegment.line, GLine.pointAt, GSegment.direction, normalizeR _ hd, GSegment.len]
    dsimp only
    rw [smul_smul, mul_assoc, mul_inv_cancel₀ hl, mul_one, GSegment.interpol, smul_sub, sub_smul, one_smul]; abel

/-- C60: a segment from start, unit direction and nonnegative length. -/
theorem C60_segment_of_direction {n : ℕ} (base d : Fin (n + 1) → ℝ) (len : ℝ) (hd : length d = 1) (hl : 0 < len) :
    (GSegment.ofDirection base d len).len = len ∧ (GSegment.ofDirection base d len).direction = d ∧
      (GSegment.ofDirection base d len).interpol 0 = base := by
  have e : (GSegment.ofDirection base d len).point2 - (GSegment.ofDirection base d len).point1 = len • d := by
    simp [GSegment.ofDirection]
  have hlen : length (len • d) = len := by rw [length_smul, hd, mul_one]; simp [abs_of_pos hl]
  refine ⟨by rw [GSegment.len, e, hlen], ?_, ?_⟩
  · rw [GSegment.direction, e, normalizeR, hlen, smul_smul, inv_mul_cancel₀ hl.ne', one_smul]
    intro h0
    rw [h0, (length_eq_zero _).2 rfl] at hlen
    exact hl.ne hlen
  · simp [GSegment.interpol, GSegment.ofDirection]

/-- The points of a line. -/
def linePoints {n : ℕ} (l : GLine n) : Set (Fin n → ℝ) := Set.range l.pointAt

/-- The points of the plane with the equation `normal · x = scalar`. -/
def planePoints {n : ℕ} (p : GPlane n) : Set (Fin n → ℝ) := {x | ∑ i, p.normal i * x i = p.scalar}

theorem mem_planePoints {n : ℕ} (p : GPlane n) (x : Fin n → ℝ) : x ∈ planePoints p ↔ dot p.normal x = p.scalar := by
  rw [dotR']; exact Iff.rfl

/-- C60: the plane through a point contains the point; `Base` is on the plane when the normal has unit length. -/
theorem C60_plane_base {n : ℕ} (b normal : Fin n → ℝ) (p : GPlane n) (h : length p.normal = 1) :
    b ∈ planePoints (GPlane.ofBase b normal) ∧ p.base ∈ planePoints p := by
  rw [mem_planePoints, mem_planePoints]
  refine ⟨rfl, ?_⟩
  rw [GPlane.base, dotR_smul, dotR_self, h]
  ring

/-- C60: `Distance` is zero exactly on the plane, positive on the side the normal points to, and for a unit normal its magnitude is the
distance from the closest point of the plane. -/
theorem C60_plane_distance {n : ℕ} (p : GPlane n) (x : Fin n → ℝ) :
    (p.distance x = 0 ↔ x ∈ planePoints p) ∧ (∀ s, p.distance (x + s • p.normal) = p.distance x + s * length p.normal ^ 2) ∧
    (length p.normal = 1 → (∀ q ∈ planePoints p, |p.distance x| ≤ distance x q) ∧ ∃ q ∈ planePoints p, distance x q = |p.distance x|) := by
  have hd : ∀ y, p.distance y = dot p.normal y - p.scalar := fun y => by rw [GPlane.distance, dotR_comm]
  refine ⟨?_, fun s => ?_, fun h => ⟨fun q hq => ?_, ?_⟩⟩
  · rw [hd, sub_eq_zero, mem_planePoints]
  · rw [hd, hd, dotR_add, dotR_smul, dotR_self]; ring
  · rw [mem_planePoints] at hq
    rw [hd, ← hq, ← dotR_sub, distance]
    have := C13_cauchy_schwarz p.normal (x - q)
    rwa [h, one_mul] at this
  · refine ⟨x - p.distance x • p.normal, ?_, ?_⟩
    · rw [mem_planePoints, dotR_sub, dotR_smul, dotR_self, h, hd]; ring
    · rw [distance, sub_sub_cancel, length_smul, h, mul_one]; rfl

/-- C60: converting a line (of any nonzero direction) to a plane keeps the point set. -/
theorem C60_line_to_plane (l : GLine 2) (h : l.direction ≠ 0) : planePoints (GPlane.ofLine l) = linePoints l := by
  ext x
  rw [mem_planePoints]
  have hsq : 0 < l.direction 0 ^ 2 + l.direction 1 ^ 2 := by
    by_contra hn
    apply h
    have h0 : l.direction 0 = 0 := by nlinarith [sq_nonneg (l.direction 0), sq_nonneg (l.direction 1)]
    have h1 : l.direction 1 = 0 := by nlinarith [sq_nonneg (l.direction 0), sq_nonneg (l.direction 1)]
    funext i; fin_cases i
    · exact h0
    · exact h1
  simp only [GPlane.ofLine, dotR', Fin.sum_univ_two, cross2, Matrix.cons_val_zero, Matrix.cons_val_one]
  constructor
  · intro e
    refine ⟨((x 0 - l.base 0) * l.direction 0 + (x 1 - l.base 1) * l.direction 1) / (l.direction 0 ^ 2 + l.direction 1 ^ 2), ?_⟩
    funext i
    fin_cases i
    · simp only [GLine.pointAt, Pi.add_apply, Pi.smul_apply, smul_eq_mul]
      have : (x 0 - l.base 0) * l.direction 1 = (x 1 - l.base 1) * l.direction 0 := by linarith
      field_simp
      simp only [Fin.zero_eta]
      linear_combination (-l.direction 1) * this
    · simp only [GLine.pointAt, Pi.add_apply, Pi.smul_apply, smul_eq_mul]
      have : (x 0 - l.base 0) * l.direction 1 = (x 1 - l.base 1) * l.direction 0 := by linarith
      field_simp
      simp only [Fin.mk_one]
      linear_combination (l.direction 0) * this
  · rintro ⟨t, rfl⟩
    simp only [GLine.pointAt, Pi.add_apply, Pi.smul_apply, smul_eq_mul]
    ring

/-- C60: converting a plane with a unit normal to a line keeps the point set. -/
theorem C60_plane_to_line (p : GPlane 2) (h : length p.normal = 1) : linePoints p.toLine = planePoints p := by
  have hsq : p.normal 0 * p.normal 0 + p.normal 1 * p.normal 1 = 1 := by
    have := dotR_self p.normal
    rwa [h, dotR', Fin.sum_univ_two, one_pow] at this
  have hne : p.toLine.direction ≠ 0 := by
    intro e
    have h0 := congrFun e 0
    have h1 := congrFun e 1
    simp [GPlane.toLine, cross2] at h0 h1
    rw [h0, h1] at hsq
    norm_num at hsq
  rw [← C60_line_to_plane _ hne]
  ext x
  rw [mem_planePoints, mem_planePoints]
  simp only [GPlane.ofLine, GPlane.toLine, GPlane.base, dotR', Fin.sum_univ_two, cross2, Matrix.cons_val_zero, Matrix.cons_val_one,
    Pi.smul_apply, smul_eq_mul]
  have e : -p.normal 0 * (p.scalar * p.normal 0) + -p.normal 1 * (p.scalar * p.normal 1) = -p.scalar := by linear_combination (-p.scalar) * hsq
  rw [e]
  constructor <;> intro h' <;> linarith

/-- Without a unit normal, `Base` is not on the plane: nothing in the type enforces the assertion of the constructors. -/
theorem C60_base_needs_unit {n : ℕ} (p : GPlane n) (hs : p.scalar ≠ 0) : p.base ∈ planePoints p ↔ length p.normal = 1 := by
  rw [mem_planePoints, GPlane.base, dotR_smul, dotR_self]
  constructor
  · intro h
    have h1 : length p.normal ^ 2 = 1 := by
      have : p.scalar * length p.normal ^ 2 = p.scalar * 1 := by rw [h, mul_one]
      exact mul_left_cancel₀ hs this
    have := length_nonneg p.normal
    nlinarith
  · intro h
    rw [h]; ring

/-! ## C61 -/

/-- The Gram determinant of two vectors. -/
def gram {n : ℕ} (x y : Fin n → ℝ) : ℝ := (∑ i, x i * x i) * (∑ i, y i * y i) - (∑ i, x i * y i) ^ 2

private theorem heron (x y z w : ℝ) : 1 / 2 * (x + y + z) * (1 / 2 * (x + y + z) - x) * (1 / 2 * (x + y + z) - y) * (1 / 2 * (x + y + z) - z) = w ↔
    (2 * x ^ 2 * y ^ 2 + 2 * y ^ 2 * z ^ 2 + 2 * x ^ 2 * z ^ 2 - x ^ 4 - y ^ 4 - z ^ 4) / 16 = w := by
  constructor <;> intro h <;> rw [← h] <;> ring

/-- C61: the area is half of the area of the parallelogram spanned by two edges. -/
theorem C61_area {n : ℕ} (lo hi : ℝ) (hlo : 0 < lo) (hhi : lo ≤ hi) (tr : GTriangle (n + 1)) :
    tr.area lo hi = Real.sqrt (gram (tr.b - tr.a) (tr.c - tr.a)) / 2 := by
  rw [GTriangle.area]
  simp only [C14_length_precise lo hi hlo hhi]
  have hg : gram (tr.b - tr.a) (tr.c - tr.a) = length (tr.b - tr.a) ^ 2 * length (tr.c - tr.a) ^ 2 - dot (tr.b - tr.a) (tr.c - tr.a) ^ 2 := by
    rw [← dotR_self, ← dotR_self, dotR', dotR', dotR', gram]
  have h0 : length (tr.a - tr.b) = length (tr.b - tr.a) := by
    rw [show tr.a - tr.b = (-1 : ℝ) • (tr.b - tr.a) by rw [neg_one_smul, neg_sub], length_smul]; simp
  have h1 : length (tr.a - tr.c) = length (tr.c - tr.a) := by
    rw [show tr.a - tr.c = (-1 : ℝ) • (tr.c - tr.a) by rw [neg_one_smul, neg_sub], length_smul]; simp
  have h2 : length (tr.b - tr.c) ^ 2 = length (tr.b - tr.a) ^ 2 - 2 * dot (tr.b - tr.a) (tr.c - tr.a) + length (tr.c - tr.a) ^ 2 := by
    have := lengthR_sq (tr.b - tr.a) ((-1 : ℝ) • (tr.c - tr.a))
    rw [dotR_smul, length_smul] at this
    rw [show tr.b - tr.c = (tr.b - tr.a) + (-1 : ℝ) • (tr.c - tr.a) by rw [neg_one_smul]; abel, this]
    simp
    ring
  have h4 : Real.sqrt (gram (tr.b - tr.a) (tr.c - tr.a)) / 2 = Real.sqrt (gram (tr.b - tr.a) (tr.c - tr.a) / 4) := by
    rw [Real.sqrt_div' _ (by norm_num), show (4 : ℝ) = 2 ^ 2 by norm_num, Real.sqrt_sq (by norm_num)]
  rw [h4, hg, h0, h1]
  congr 1
  rw [heron]
  generalize length (tr.b - tr.c) = z at *
  rw [show z ^ 4 = (z ^ 2) ^ 2 by ring, h2]
  ring

/-- C61: the area does not depend on the order of the corners. -/
theorem C61_order {n : ℕ} (lo hi : ℝ) (hlo : 0 < lo) (hhi : lo ≤ hi) (a b c : Fin (n + 1) → ℝ) :
    (GTriangle.mk a b c).area lo hi = (GTriangle.mk b a c).area lo hi ∧ (GTriangle.mk a b c).area lo hi = (GTriangle.mk a c b).area lo hi := by
  rw [C61_area lo hi hlo hhi, C61_area lo hi hlo hhi, C61_area lo hi hlo hhi]
  have hl : ∀ x y : Fin (n + 1) → ℝ, gram x y = dot x x * dot y y - dot x y ^ 2 := fun x y => by rw [dotR', dotR', dotR', gram]
  constructor
  · congr 2
    dsimp only
    rw [hl, hl, show a - b = (-1 : ℝ) • (b - a) by rw [neg_one_smul, neg_sub],
      show c - b = (c - a) - (b - a) by abel]
    generalize b - a = x
    generalize c - a = y
    rw [dotR_smul, dotR_comm ((-1 : ℝ) • x) x, dotR_smul, dotR_comm ((-1 : ℝ) • x), dotR_smul, dotR_sub, dotR_comm (y - x), dotR_comm (y - x),
      dotR_sub, dotR_sub, dotR_comm y x]
    ring
  · congr 2
    dsimp only
    rw [hl, hl, dotR_comm (b - a) (c - a)]
    ring

/-- C61: the area is invariant under rigid motions (orthogonal matrix and translation). -/
theorem C61_rigid {n : ℕ} (lo hi : ℝ) (hlo : 0 < lo) (hhi : lo ≤ hi) (tr : GTriangle (n + 1)) (R : Matrix (Fin (n + 1)) (Fin (n + 1)) ℝ)
    (hR : R.transpose * R = 1) (t : Fin (n + 1) → ℝ) :
    (GTriangle.mk (R.mulVec tr.a + t) (R.mulVec tr.b + t) (R.mulVec tr.c + t)).area lo hi = tr.area lo hi := by
  rw [C61_area lo hi hlo hhi, C61_area lo hi hlo hhi]
  have hd : ∀ x y : Fin (n + 1) → ℝ, (∑ i, R.mulVec x i * R.mulVec y i) = ∑ i, x i * y i := by
    intro x y
    have : dotProduct (R.mulVec x) (R.mulVec y) = dotProduct x y := by
      rw [Matrix.dotProduct_mulVec, Matrix.vecMul_mulVec, hR, Matrix.vecMul_one]
    exact this
  dsimp only
  rw [add_sub_add_right_eq_sub, add_sub_add_right_eq_sub, ← Matrix.mulVec_sub, ← Matrix.mulVec_sub, gram, gram, hd, hd, hd]

private theorem gram_nonneg {n : ℕ} (x y : Fin n → ℝ) : 0 ≤ gram x y := by
  have := C13_cauchy_schwarz x y
  have h2 : ‖dot x y‖ ^ 2 ≤ (length x * length y) ^ 2 := pow_le_pow_left₀ (norm_nonneg _) this 2
  rw [Real.norm_eq_abs, sq_abs, mul_pow, ← dotR_self, ← dotR_self, dotR', dotR', dotR'] at h2
  rw [gram]; linarith

/-- C61: the area is zero exactly for collinear corners. -/
theorem C61_zero {n : ℕ} (lo hi : ℝ) (hlo : 0 < lo) (hhi : lo ≤ hi) (tr : GTriangle (n + 1)) :
    tr.area lo hi = 0 ↔ ∃ (p d : Fin (n + 1) → ℝ) (x y z : ℝ), tr.a = p + x • d ∧ tr.b = p + y • d ∧ tr.c = p + z • d := by
  rw [C61_area lo hi hlo hhi, div_eq_zero_iff, or_iff_left (by norm_num), Real.sqrt_eq_zero (gram_nonneg _ _)]
  have hl : ∀ x y : Fin (n + 1) → ℝ, gram x y = dot x x * dot y y - dot x y ^ 2 := fun x y => by rw [dotR', dotR', dotR', gram]
  rw [hl]
  constructor
  · intro h
    by_cases hb : tr.b - tr.a = 0
    · refine ⟨tr.a, tr.c - tr.a, 0, 0, 1, by simp, ?_, by simp⟩
      rw [zero_smul, add_zero]; exact sub_eq_zero.1 hb
    · generalize hx : tr.b - tr.a = x at *
      generalize hy : tr.c - tr.a = y at *
      have hxx : dot x x ≠ 0 := by
        rw [dotR_self]
        exact pow_ne_zero 2 fun e => hb ((length_eq_zero _).1 e)
      have key : y = (dot x y / dot x x) • x := by
        have h0 : dot (y - (dot x y / dot x x) • x) (y - (dot x y / dot x x) • x) = 0 := by
          rw [dotR_sub, dotR_smul, dotR_comm (y - _) y, dotR_comm (y - _) x, dotR_sub, dotR_sub, dotR_smul, dotR_smul, dotR_comm y x]
          field_simp
          linear_combination h
        rw [dotR_self] at h0
        exact sub_eq_zero.1 ((length_eq_zero _).1 (by simpa using h0))
      refine ⟨tr.a, x, 0, 1, dot x y / dot x x, by simp, ?_, ?_⟩
      · rw [one_smul, ← hx]; abel
      · rw [← key, ← hy]; abel
  · rintro ⟨p, d, x, y, z, ha, hb, hc⟩
    rw [ha, hb, hc, add_sub_add_left_eq_sub, add_sub_add_left_eq_sub, ← sub_smul, ← sub_smul, dotR_smul, dotR_smul, dotR_smul,
      dotR_comm ((y - x) • d), dotR_comm ((z - x) • d), dotR_smul, dotR_smul]
    ring

/-- C61: the centroid is the mean of the corners, and every median passes through it. -/
theorem C61_centroid {n : ℕ} (tr : GTriangle n) :
    (∀ i, tr.centroid i = (tr.a i + tr.b i + tr.c i) / 3) ∧ (tr.a - tr.centroid) + (tr.b - tr.centroid) + (tr.c - tr.centroid) = 0 ∧
      tr.centroid = (1 / 3 : ℝ) • tr.a + (2 / 3 : ℝ) • ((1 / 2 : ℝ) • (tr.b + tr.c)) := by
  have h : ∀ i, tr.centroid i = (tr.a i + tr.b i + tr.c i) / 3 := fun i => rfl
  refine ⟨h, ?_, ?_⟩ <;> funext i
  · simp only [Pi.add_apply, Pi.sub_apply, h, Pi.zero_apply]; ring
  · simp only [Pi.add_apply, Pi.smul_apply, h, smul_eq_mul]; ring

/-- A right triangle with legs 3 and 4. -/
example : gram (![(3 : ℝ), 0] - ![0, 0]) (![0, 4] - ![0, 0]) = 144 := by
  rw [gram]; norm_num [Fin.sum_univ_two]

end Mathter.Props
