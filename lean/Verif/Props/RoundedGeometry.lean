import Verif.Model.RoundedGeometry
import Verif.Lemmas.RoundedNear
import Verif.Lemmas.RoundedOne
import Verif.Lemmas.LoopRel
import Verif.Props.Geometry
import Verif.Props.RoundedReduce
import Mathlib.Tactic.LinearCombination

/-!
# Properties C114, C115, C116: rounding errors of interpolation and of intersections with planes
-/

namespace Mathter.Props
open Mathter

variable {n : ℕ} {fl : ℝ → ℝ} {u : ℝ}

/-! ## C114 -/

private theorem near_ps_of (h : Rounding fl u) {ps : ℝ → ℝ → ℝ → ℝ → ℝ} (hps : Fl.IsProdSum fl ps) {k l : ℕ} {a a' A b b' B c c' C d d' D : ℝ}
    (ha : Near u k a a' A) (hb : Near u l b b' B) (hc : Near u k c c' C) (hd : Near u l d d' D) :
    Near u (k + l + 2) (ps a b c d) (a' * b' + c' * d') (A * B + C * D) := by
  have p1 := ha.prod h hb
  have p2 := hc.prod h hd
  rcases hps a b c d with e | e | e <;> rw [e]
  · exact ((p1.round h).add (p2.round h)).round h
  · exact ((p1.mono h (Nat.le_succ _)).add (p2.round h)).round h
  · exact ((p1.round h).add (p2.mono h (Nat.le_succ _))).round h

private theorem Near.enlarge (h : Rounding fl u) {k : ℕ} {y x M M' : ℝ} (a : Near u k y x M) (hM : M ≤ M') : Near u k y x M' :=
  ⟨a.err.trans (mul_le_mul_of_nonneg_left hM (by linarith [h.one_le k])), a.bound.trans hM⟩

/-- The rounded and the exact state of the evaluation of a Bézier curve after the same number of passes. -/
private def BezNear (u : ℝ) (t M : ℝ) {order n : ℕ} (k : ℕ) (y x : Fin (order + 1) → Fin n → ℝ) : Prop :=
  ∀ q e, Near u (3 * k) (y q e) (x q e) ((|1 - t| + |t|) ^ k * M)

private theorem bez_pass (h : Rounding fl u) {ps : ℝ → ℝ → ℝ → ℝ → ℝ} (hps : Fl.IsProdSum fl ps) (t M : ℝ) {order k : ℕ} (i : Fin order)
    (y x : Fin (order + 1) → Fin n → ℝ) (hyx : BezNear u t M k y x) :
    BezNear u t M (k + 1)
      (forUp (i.val + 1) 0 (fun j red => fun q => if q.val = j.val then fun e => ps (fl (1 - t)) (red ⟨j.val, by omega⟩ e) t (red ⟨j.val + 1, by omega⟩ e)
        else red q) y)
      (forUp (i.val + 1) 0 (fun j red => fun q => if q.val = j.val then (1 - t) • red ⟨j.val, by omega⟩ + t • red ⟨j.val + 1, by omega⟩ else red q) x) := by
  have hT : 1 ≤ |1 - t| + |t| := by
    have := abs_add_le (1 - t) t
    rw [sub_add_cancel, abs_one] at this
    exact this
  have hone : Near u 1 (fl (1 - t)) (1 - t) |1 - t| := (Near.exact (u := u) (1 - t)).round h
  have htt : Near u 1 t t |t| := (Near.exact (u := u) t).mono h (by norm_num)
  have key := forUp_rel_idx (n := i.val + 1) (lo := 0)
    (body := fun j (red : Fin (order + 1) → Fin n → ℝ) => fun q => if q.val = j.val then fun e => ps (fl (1 - t)) (red ⟨j.val, by omega⟩ e) t
      (red ⟨j.val + 1, by omega⟩ e) else red q)
    (body' := fun j (red : Fin (order + 1) → Fin n → ℝ) => fun q => if q.val = j.val then (1 - t) • red ⟨j.val, by omega⟩ +
      t • red ⟨j.val + 1, by omega⟩ else red q) (s := y) (t := x)
    (fun z y x => ∀ (q : Fin (order + 1)) e, (z ≤ q.val → Near u (3 * k) (y q e) (x q e) ((|1 - t| + |t|) ^ k * M)) ∧
      (q.val < z → Near u (3 * (k + 1)) (y q e) (x q e) ((|1 - t| + |t|) ^ (k + 1) * M)))
    (Nat.zero_le _) (fun q e => ⟨fun _ => hyx q e, fun hq => absurd hq (Nat.not_lt_zero _)⟩) (by
      intro j y x _ hR q e
      dsimp only
      by_cases hq : q.val = j.val
      · rw [if_pos hq, if_pos hq]
        refine ⟨fun hz => by omega, fun _ => ?_⟩
        have b1 := (hR ⟨j.val, by omega⟩ e).1 (by simp)
        have b2 := (hR ⟨j.val + 1, by omega⟩ e).1 (by simp)
        refine (near_ps_of h hps hone b1 htt b2).congr (by ring) ?_ ?_
        · simp only [Pi.add_apply, Pi.smul_apply, smul_eq_mul]
        · ring
      · rw [if_neg hq, if_neg hq]
        exact ⟨fun hz => (hR q e).1 (by omega), fun hz => (hR q e).2 (by omega)⟩)
  intro q e
  by_cases hq : q.val < i.val + 1
  · exact (key q e).2 hq
  · refine Near.enlarge h (((key q e).1 (by omega)).mono h (by omega)) ?_
    have hM : 0 ≤ (|1 - t| + |t|) ^ k * M := (hyx q e).nonneg
    rw [pow_succ, mul_right_comm]
    exact le_mul_of_one_le_right hM hT

/-- C114: the point computed on a Bézier curve of any order and dimension. For a parameter in [0, 1] the factor `(|1 - t| + |t|) ^ order` is 1. -/
theorem C114_bezier (h : Rounding fl u) {ps : ℝ → ℝ → ℝ → ℝ → ℝ} (hps : Fl.IsProdSum fl ps) {order : ℕ} (p : Fin (order + 1) → Fin n → ℝ) (t M : ℝ)
    (hM : ∀ q e, |p q e| ≤ M) (e : Fin n) :
    |Fl.bezierPointAt fl ps p t e - bernstein p t e| ≤ ((1 + u) ^ (3 * order) - 1) * ((|1 - t| + |t|) ^ order * M) := by
  rw [← C59_bernstein]
  have key := forDown_rel (n := order)
    (body := fun i (red : Fin (order + 1) → Fin n → ℝ) => forUp (i.val + 1) 0 (fun j red => fun q => if q.val = j.val then fun e =>
      ps (fl (1 - t)) (red ⟨j.val, by omega⟩ e) t (red ⟨j.val + 1, by omega⟩ e) else red q) red)
    (body' := fun i (red : Fin (order + 1) → Fin n → ℝ) => forUp (i.val + 1) 0 (fun j red => fun q => if q.val = j.val then
      (1 - t) • red ⟨j.val, by omega⟩ + t • red ⟨j.val + 1, by omega⟩ else red q) red) (s := p) (t := p)
    (fun z y x => z ≤ order ∧ BezNear u t M (order - z) y x)
    ⟨le_rfl, fun q e => by
      rw [Nat.sub_self, pow_zero, one_mul]
      exact Near.enlarge h (Near.exact _) (hM q e)⟩ (by
      rintro i y x ⟨hz, hR⟩
      refine ⟨by omega, ?_⟩
      have := bez_pass h hps t M i y x hR
      have e : order - (i.val + 1) + 1 = order - i.val := by omega
      rwa [e] at this)
  exact (key.2 0 e).err

private theorem ps_one_zero (h : Rounding fl u) {ps : ℝ → ℝ → ℝ → ℝ → ℝ} (hps : Fl.IsProdSum fl ps) (x y : ℝ) (hx : fl x = x) :
    ps 1 x 0 y = x ∧ ps 0 y 1 x = x := by
  have h0 : fl 0 = 0 := by
    have := h.odd 0
    rw [neg_zero] at this
    linarith
  constructor
  · rcases hps 1 x 0 y with e | e | e <;> rw [e] <;> simp [hx, h0]
  · rcases hps 0 y 1 x with e | e | e <;> rw [e] <;> simp [hx, h0]

/-- C114: the end points of the curve are exactly the first and the last control point. -/
theorem C114_bezier_ends (h : Rounding fl u) {ps : ℝ → ℝ → ℝ → ℝ → ℝ} (hps : Fl.IsProdSum fl ps) {order : ℕ} (p : Fin (order + 1) → Fin n → ℝ)
    (hp : ∀ q e, fl (p q e) = p q e) (h1 : fl 1 = 1) :
    Fl.bezierPointAt fl ps p 0 = p 0 ∧ Fl.bezierPointAt fl ps p 1 = p (Fin.last order) := by
  have h0 : fl 0 = 0 := by
    have := h.odd 0
    rw [neg_zero] at this
    linarith
  constructor
  · have key := forDown_inv (n := order)
      (body := fun i (red : Fin (order + 1) → Fin n → ℝ) => forUp (i.val + 1) 0 (fun j red => fun q => if q.val = j.val then fun e =>
        ps (fl (1 - 0)) (red ⟨j.val, by omega⟩ e) 0 (red ⟨j.val + 1, by omega⟩ e) else red q) red) (s := p)
      (fun _ y => y = p) rfl (by
        rintro i y rfl
        refine forUp_inv (n := i.val + 1) (lo := 0) (body := fun j (red : Fin (order + 1) → Fin n → ℝ) => fun q => if q.val = j.val then fun e =>
          ps (fl (1 - 0)) (red ⟨j.val, by omega⟩ e) 0 (red ⟨j.val + 1, by omega⟩ e) else red q) (s := y) (fun _ z => z = y) (Nat.zero_le _) rfl ?_
        rintro j z _ rfl
        funext q
        split
        · rename_i hq
          funext e
          rw [sub_zero, h1, (ps_one_zero h hps _ _ (hp _ _)).1]
          have e1 : (⟨j.val, by omega⟩ : Fin (order + 1)) = q := Fin.ext hq.symm
          rw [e1]
        · rfl)
    exact congrFun key 0
  · have key := forDown_inv (n := order)
      (body := fun i (red : Fin (order + 1) → Fin n → ℝ) => forUp (i.val + 1) 0 (fun j red => fun q => if q.val = j.val then fun e =>
        ps (fl (1 - 1)) (red ⟨j.val, by omega⟩ e) 1 (red ⟨j.val + 1, by omega⟩ e) else red q) red) (s := p)
      (fun z y => z ≤ order ∧ ∀ q : Fin (order + 1), (q.val ≤ z → ∀ hq : q.val + (order - z) < order + 1, y q = p ⟨q.val + (order - z), hq⟩) ∧
        ∀ e, fl (y q e) = y q e)
      ⟨le_rfl, fun q => ⟨fun _ hq => by congr 1; exact Fin.ext (by simp), hp q⟩⟩ (by
        rintro i y ⟨hz, hy⟩
        have := forUp_inv (n := i.val + 1) (lo := 0) (body := fun j (red : Fin (order + 1) → Fin n → ℝ) => fun q => if q.val = j.val then fun e =>
          ps (fl (1 - 1)) (red ⟨j.val, by omega⟩ e) 1 (red ⟨j.val + 1, by omega⟩ e) else red q) (s := y)
          (fun z w => z ≤ i.val + 1 ∧ ∀ q : Fin (order + 1), (q.val < z → ∀ hq : q.val + 1 < order + 1, w q = y ⟨q.val + 1, hq⟩) ∧ (z ≤ q.val → w q = y q))
          (Nat.zero_le _) ⟨Nat.zero_le _, fun q => ⟨fun hq => absurd hq (Nat.not_lt_zero _), fun _ => rfl⟩⟩ (by
            rintro j w _ ⟨hj, hw⟩
            refine ⟨by omega, fun q => ?_⟩
            dsimp only
            by_cases hq : q.val = j.val
            · rw [if_pos hq]
              refine ⟨fun _ hq1 => ?_, fun hz => by omega⟩
              funext e
              have hw1 := (hw ⟨j.val + 1, by omega⟩).2 (by simp)
              rw [sub_self, h0, hw1, (ps_one_zero h hps _ _ ((hy ⟨j.val + 1, by omega⟩).2 e)).2]
              have e1 : (⟨j.val + 1, by omega⟩ : Fin (order + 1)) = ⟨q.val + 1, hq1⟩ := Fin.ext (by dsimp only; omega)
              rw [e1]
            · rw [if_neg hq]
              exact ⟨fun hz => (hw q).1 (by omega), fun hz => (hw q).2 (by omega)⟩)
        refine ⟨by omega, fun q => ⟨fun hq hq1 => ?_, fun e => ?_⟩⟩
        · rw [(this.2 q).1 (by omega) (by omega), (hy ⟨q.val + 1, by omega⟩).1 (by simpa using hq) (by dsimp only; omega)]
          congr 1
          exact Fin.ext (by simp; omega)
        · by_cases hq : q.val < i.val + 1
          · rw [(this.2 q).1 hq (by omega)]
            exact (hy _).2 e
          · rw [(this.2 q).2 (by omega)]
            exact (hy _).2 e)
    have := (key.2 0).1 (by simp) (by simp)
    refine this.trans ?_
    congr 1
    exact Fin.ext (by simp)

/-- C114: the interpolation of a segment. -/
theorem C114_interpol (h : Rounding fl u) {ps : ℝ → ℝ → ℝ → ℝ → ℝ} (hps : Fl.IsProdSum fl ps) (s : GSegment n) (t : ℝ) (e : Fin n) :
    |Fl.interpol fl ps s t e - (t * s.point2 e + (1 - t) * s.point1 e)| ≤ ((1 + u) ^ 3 - 1) * (|t| * |s.point2 e| + |1 - t| * |s.point1 e|) :=
  (near_ps_of h hps ((Near.exact (u := u) t).mono h (Nat.zero_le 1)) (Near.exact _) ((Near.exact (u := u) (1 - t)).round h) (Near.exact _)).err

/-- C114: the ends of a segment are exactly the results for the parameters 0 and 1. -/
theorem C114_interpol_ends (h : Rounding fl u) {ps : ℝ → ℝ → ℝ → ℝ → ℝ} (hps : Fl.IsProdSum fl ps) (s : GSegment n)
    (hp : ∀ e, fl (s.point1 e) = s.point1 e ∧ fl (s.point2 e) = s.point2 e) (h1 : fl 1 = 1) :
    Fl.interpol fl ps s 0 = s.point1 ∧ Fl.interpol fl ps s 1 = s.point2 := by
  have h0 : fl 0 = 0 := by
    have := h.odd 0
    rw [neg_zero] at this
    linarith
  constructor
  · funext e
    unfold Fl.interpol
    rw [sub_zero, h1, (ps_one_zero h hps _ _ (hp e).1).2]
  · funext e
    unfold Fl.interpol
    rw [sub_self, h0, (ps_one_zero h hps _ _ (hp e).2).1]

/-! ## C115 -/

private theorem bernstein_bounds {order : ℕ} (p : Fin (order + 1) → Fin n → ℝ) (t : ℝ) (h0 : 0 ≤ t) (h1 : t ≤ 1) (e : Fin n) {lo hi : ℝ}
    (hb : ∀ q, lo ≤ p q e ∧ p q e ≤ hi) : lo ≤ bernstein p t e ∧ bernstein p t e ≤ hi := by
  have hc := C59_convex_hull p t h0 h1
  rw [C59_bernstein] at hc
  have hs : convexHull ℝ (Set.range p) ⊆ {x : Fin n → ℝ | lo ≤ x e ∧ x e ≤ hi} := by
    refine convexHull_min ?_ ?_
    · rintro _ ⟨q, rfl⟩
      exact hb q
    · intro x hx y hy a b ha hb' hab
      simp only [Set.mem_ofPred_eq, Pi.add_apply, Pi.smul_apply, smul_eq_mul] at hx hy ⊢
      have e1 : lo = a * lo + b * lo := by rw [← add_mul, hab, one_mul]
      have e2 : hi = a * hi + b * hi := by rw [← add_mul, hab, one_mul]
      constructor
      · rw [e1]
        exact add_le_add (mul_le_mul_of_nonneg_left hx.1 ha) (mul_le_mul_of_nonneg_left hy.1 hb')
      · rw [e2]
        exact add_le_add (mul_le_mul_of_nonneg_left hx.2 ha) (mul_le_mul_of_nonneg_left hy.2 hb')
  exact hs hc

/-- C115: the computed point leaves the bounding box of the control points by no more than the rounding error. (Missing: that it stays inside,
see `C115_violated`.) -/
theorem C115_partial (h : Rounding fl u) {ps : ℝ → ℝ → ℝ → ℝ → ℝ} (hps : Fl.IsProdSum fl ps) {order : ℕ} (p : Fin (order + 1) → Fin n → ℝ) (t lo hi M : ℝ)
    (h0 : 0 ≤ t) (h1 : t ≤ 1) (e : Fin n) (hb : ∀ q, lo ≤ p q e ∧ p q e ≤ hi) (hM : ∀ q e, |p q e| ≤ M) :
    lo - ((1 + u) ^ (3 * order) - 1) * M ≤ Fl.bezierPointAt fl ps p t e ∧ Fl.bezierPointAt fl ps p t e ≤ hi + ((1 + u) ^ (3 * order) - 1) * M := by
  have hk := C114_bezier h hps p t M hM e
  rw [abs_of_nonneg h0, abs_of_nonneg (by linarith : 0 ≤ 1 - t), sub_add_cancel, one_pow, one_mul] at hk
  have hk := _root_.abs_le.mp hk
  have := bernstein_bounds p t h0 h1 e hb
  constructor <;> linarith [hk.1, hk.2]

private theorem round_to_grid {p : ℕ} (hp : 1 ≤ p) (hfl : RoundsToNearest p fl) {e : ℤ} {x y : ℝ} (hy : Grid e y) (hyp : |y| ≤ (2 : ℝ) ^ ((p : ℤ) + e))
    (hx : (2 : ℝ) ^ ((p : ℤ) - 1 + e) ≤ |x|) (hxy : |y - x| < (2 : ℝ) ^ e / 2) : fl x = y := by
  have hf := grid_of_isFloat (hfl.mem x) (pow_le_fl hp hfl hx)
  have hn := hfl.nearest x y (isFloat_of_grid hp hy hyp)
  obtain ⟨m, hm⟩ := grid_sub hf hy
  have h2 := two_zpow_pos e
  have ht : |fl x - y| < (2 : ℝ) ^ e := by
    have := abs_add_le (fl x - x) (x - y)
    rw [sub_add_sub_cancel, abs_sub_comm x y] at this
    linarith
  rw [hm, abs_mul, abs_of_pos h2] at ht
  have : |(m : ℝ)| < 1 := by
    by_contra hc
    push Not at hc
    have := mul_le_mul_of_nonneg_right hc h2.le
    linarith
  have hm0 : m = 0 := by
    have : |m| < 1 := by exact_mod_cast this
    exact Int.abs_lt_one_iff.mp this
  rw [hm0, Int.cast_zero, zero_mul] at hm
  linarith

/-- C115: with separately rounded operations a constant segment and a constant curve are left at some parameter between 0 and 1, in every precision
of at least four bits and for every rounding to nearest. -/
theorem C115_violated {p : ℕ} (hp : 4 ≤ p) (hfl : RoundsToNearest p fl) :
    ∃ x t : ℝ, IsFloat p x ∧ IsFloat p t ∧ 0 < t ∧ t < 1 ∧
      Fl.interpol fl (fun a b c d => fl (fl (a * b) + fl (c * d))) (⟨fun _ => x, fun _ => x⟩ : GSegment 1) t 0 < x ∧
      Fl.bezierPointAt fl (fun a b c d => fl (fl (a * b) + fl (c * d))) (fun (_ : Fin 2) (_ : Fin 1) => x) t 0 < x := by
  have hr := hfl.rounding (by omega)
  set v : ℝ := (2 : ℝ) ^ (-(p : ℤ)) with hv
  have hv0 : 0 < v := two_zpow_pos _
  have hv1 : v ≤ 1 / 16 := by
    have : (2 : ℝ) ^ (-(p : ℤ)) ≤ (2 : ℝ) ^ (-4 : ℤ) := zpow_le_zpow_right₀ (by norm_num) (by omega)
    refine this.trans (by norm_num)
  set H : ℝ := (2 : ℝ) ^ ((p : ℤ) - 1) with hH
  have hHv : H * v = 1 / 2 := by
    rw [hH, hv, ← zpow_add₀ (by norm_num)]
    have : (p : ℤ) - 1 + -(p : ℤ) = -1 := by ring
    rw [this]; norm_num
  have hHn : H = (2 ^ (p - 1) : ℕ) := by
    push_cast
    rw [← zpow_natCast, hH]
    congr 1
    omega
  have hH8 : 8 ≤ H := by nlinarith
  have hP : (2 : ℝ) ^ (p : ℤ) = 2 * H := by
    rw [hH, ← zpow_one_add₀ (by norm_num)]
    congr 1; ring
  have s1 : fl (1 - 3 / 4 * v) = 1 - v := by
    refine round_to_grid (by omega) hfl (e := -(p : ℤ)) ⟨2 ^ p - 1, ?_⟩ ?_ ?_ ?_
    · push_cast
      rw [← zpow_natCast, hP, ← hv]
      linear_combination -2 * hHv
    · rw [add_neg_cancel, zpow_zero, abs_of_nonneg (by linarith)]
      linarith
    · have : (p : ℤ) - 1 + -(p : ℤ) = -1 := by ring
      rw [this, abs_of_nonneg (by linarith)]
      norm_num
      linarith
    · rw [← hv, abs_lt]
      constructor <;> linarith
  have s2 : fl ((1 - v) * (H + 1)) = H := by
    have e : (1 - v) * (H + 1) = H + 1 / 2 - v := by linear_combination -hHv
    refine round_to_grid (by omega) hfl (e := 0) ⟨2 ^ (p - 1), ?_⟩ ?_ ?_ ?_
    · rw [hHn]; push_cast; ring
    · rw [add_zero, hP, abs_of_nonneg (by linarith)]
      linarith
    · rw [add_zero, ← hH, e, abs_of_nonneg (by linarith)]
      linarith
    · rw [e, zpow_zero, abs_lt]
      constructor <;> linarith
  have s3 : 0 ≤ fl (3 / 4 * v * (H + 1)) ∧ fl (3 / 4 * v * (H + 1)) < 1 / 2 := by
    have e : 3 / 4 * v * (H + 1) = 3 / 8 + 3 / 4 * v := by linear_combination 3 / 4 * hHv
    have := _root_.abs_le.mp (hr.err (3 / 4 * v * (H + 1)))
    rw [e, abs_of_nonneg (by linarith : (0 : ℝ) ≤ 3 / 8 + 3 / 4 * v)] at this
    rw [e]
    have h3 : v * (3 / 8 + 3 / 4 * v) ≤ 1 / 16 * (1 / 2) := mul_le_mul hv1 (by linarith) (by linarith) (by norm_num)
    constructor <;> linarith [this.1, this.2]
  have s4 : ∀ z : ℝ, 0 ≤ z → z < 1 / 2 → fl (H + z) = H := by
    intro z hz0 hz1
    refine round_to_grid (by omega) hfl (e := 0) ⟨2 ^ (p - 1), ?_⟩ ?_ ?_ ?_
    · rw [hHn]; push_cast; ring
    · rw [add_zero, hP, abs_of_nonneg (by linarith)]
      linarith
    · rw [add_zero, ← hH, abs_of_nonneg (by linarith)]
      linarith
    · rw [zpow_zero, abs_lt]
      constructor <;> linarith
  refine ⟨H + 1, 3 / 4 * v, ?_, ?_, by linarith, by linarith, ?_, ?_⟩
  · refine isFloat_of_grid (by omega) (e := 0) ⟨2 ^ (p - 1) + 1, ?_⟩ ?_
    · rw [hHn]; push_cast; ring
    · rw [add_zero, hP, abs_of_nonneg (by linarith)]
      linarith
  · refine ⟨3, -(p : ℤ) - 2, ?_, ?_⟩
    · rw [zpow_sub₀ (by norm_num), ← hv]
      norm_num
      ring
    · have : (2 : ℤ) ^ 2 ≤ 2 ^ p := pow_le_pow_right₀ (by norm_num) (by omega)
      norm_num at this ⊢
      omega
  · show fl (fl (3 / 4 * v * (H + 1)) + fl (fl (1 - 3 / 4 * v) * (H + 1))) < H + 1
    rw [s1, s2, add_comm, s4 _ s3.1 s3.2]
    linarith
  · show fl (fl (fl (1 - 3 / 4 * v) * (H + 1)) + fl (3 / 4 * v * (H + 1))) < H + 1
    rw [s1, s2, s4 _ s3.1 s3.2]
    linarith

/-! ## C116 -/

/-- C116: a point of a line. -/
theorem C116_point_at (h : Rounding fl u) {madd : ℝ → ℝ → ℝ → ℝ} (hma : Fl.IsMulAdd fl madd) (l : GLine n) (t : ℝ) (e : Fin n) :
    |Fl.pointAt madd l t e - (l.base e + t * l.direction e)| ≤ ((1 + u) ^ 2 - 1) * (|l.base e| + |t| * |l.direction e|) := by
  have := (Near.madd h hma (m := 1) le_rfl (Near.exact t) (Near.exact (l.direction e)) ((Near.exact (l.base e)).mono h (by norm_num))).err
  rw [add_comm (t * l.direction e), add_comm (|t| * |l.direction e|)] at this
  exact this

/-- C116: the distance of a point from a plane. -/
theorem C116_distance (h : Rounding fl u) {dot : (Fin n → ℝ) → (Fin n → ℝ) → ℝ} (hd : Fl.IsDot u n dot) (p : GPlane n) (x : Fin n → ℝ) :
    |Fl.planeDistance fl dot p x - (∑ i, x i * p.normal i - p.scalar)| ≤ ((1 + u) ^ (n + 1) - 1) * (∑ i, |x i * p.normal i| + |p.scalar|) :=
  ((⟨hd x p.normal, Finset.abs_sum_le_sum_abs _ _⟩ : Near u n (dot x p.normal) (∑ i, x i * p.normal i) (∑ i, |x i * p.normal i|)).sub
    ((Near.exact p.scalar).mono h (Nat.zero_le n))).round h |>.err

/-- C116: no intersection is reported only if the line is parallel to the plane up to the error of the product of its direction with the normal. -/
theorem C116_parallel {dot : (Fin n → ℝ) → (Fin n → ℝ) → ℝ} (hd : Fl.IsDot u n dot) {madd : ℝ → ℝ → ℝ → ℝ} (p : GPlane n) (l : GLine n)
    (hn : Fl.intersectPlaneLine fl madd dot p l = none) :
    |∑ i, p.normal i * l.direction i| ≤ ((1 + u) ^ n - 1) * ∑ i, |p.normal i * l.direction i| := by
  unfold Fl.intersectPlaneLine Fl.planeLineParam at hn
  dsimp only at hn
  split at hn
  · rename_i h0
    have := hd p.normal l.direction
    rw [h0, zero_sub, abs_neg] at this
    exact this
  · simp at hn

/-- The numerator of the parameter of the intersection. -/
theorem plane_num_near (h : Rounding fl u) {dot : (Fin n → ℝ) → (Fin n → ℝ) → ℝ} (hd : Fl.IsDot u n dot) (p : GPlane n) (b : Fin n → ℝ) :
    Near u (n + 2) (dot p.normal fun e => fl (Fl.planeBase fl p e - b e)) (∑ i, p.normal i * (p.normal i * p.scalar - b i))
      (∑ i, |p.normal i| * (|p.normal i| * |p.scalar| + |b i|)) := by
  set w : Fin n → ℝ := fun e => fl (Fl.planeBase fl p e - b e) with hw
  have hwn : ∀ i, Near u 2 (w i) (p.normal i * p.scalar - b i) (|p.normal i| * |p.scalar| + |b i|) := fun i =>
    ((((Near.exact (p.normal i)).prod h (Near.exact p.scalar)).round h).sub ((Near.exact (b i)).mono h (by norm_num))).round h
  have hi : ∀ i, Near u 2 (p.normal i * w i) (p.normal i * (p.normal i * p.scalar - b i)) (|p.normal i| * (|p.normal i| * |p.scalar| + |b i|)) :=
    fun i => ((Near.exact (p.normal i)).prod h (hwn i)).congr (by norm_num) rfl rfl
  have hb : |∑ i, p.normal i * (p.normal i * p.scalar - b i)| ≤ ∑ i, |p.normal i| * (|p.normal i| * |p.scalar| + |b i|) :=
    (Finset.abs_sum_le_sum_abs _ _).trans (Finset.sum_le_sum fun i _ => (hi i).bound)
  refine ⟨?_, hb⟩
  have k1 := hd p.normal w
  have k2 : ∑ i, |p.normal i * w i| ≤ (1 + u) ^ 2 * ∑ i, |p.normal i| * (|p.normal i| * |p.scalar| + |b i|) := by
    rw [Finset.mul_sum]
    exact Finset.sum_le_sum fun i _ => (hi i).abs_le
  have k3 : |∑ i, p.normal i * w i - ∑ i, p.normal i * (p.normal i * p.scalar - b i)| ≤
      ((1 + u) ^ 2 - 1) * ∑ i, |p.normal i| * (|p.normal i| * |p.scalar| + |b i|) := by
    rw [← Finset.sum_sub_distrib, Finset.mul_sum]
    exact (Finset.abs_sum_le_sum_abs _ _).trans (Finset.sum_le_sum fun i _ => (hi i).err)
  have k4 := mul_le_mul_of_nonneg_left k2 (by linarith [h.one_le n] : 0 ≤ (1 + u) ^ n - 1)
  have k5 := abs_add_le (dot p.normal w - ∑ i, p.normal i * w i) (∑ i, p.normal i * w i - ∑ i, p.normal i * (p.normal i * p.scalar - b i))
  rw [sub_add_sub_cancel] at k5
  rw [pow_add]
  linarith

/-- The point at the computed parameter satisfies the equation of the plane, up to rounding. -/
theorem plane_residual (h : Rounding fl u) {madd : ℝ → ℝ → ℝ → ℝ} (hma : Fl.IsMulAdd fl madd) {dot : (Fin n → ℝ) → (Fin n → ℝ) → ℝ}
    (hd : Fl.IsDot u n dot) (p : GPlane n) (l : GLine n) (t : ℝ) (x : Fin n → ℝ) (htp : Fl.planeLineParam fl dot p l = some t)
    (hx : Fl.pointAt madd l t = x) :
    |∑ i, p.normal i * x i - p.scalar - (∑ i, p.normal i ^ 2 - 1) * p.scalar| ≤
      ((1 + u) ^ (n + 3) - 1) * ∑ i, |p.normal i| * (|p.normal i| * |p.scalar| + 2 * |l.base i| + 2 * (|t| * |l.direction i|)) := by
  have hu := h.u_nonneg
  unfold Fl.planeLineParam at htp
  dsimp only at htp
  split at htp
  · simp at htp
  rename_i hden
  rw [Option.some_inj] at htp
  have hnw := plane_num_near h hd p l.base
  set w : Fin n → ℝ := fun e => fl (Fl.planeBase fl p e - l.base e) with hw
  set den := dot p.normal l.direction with hdn
  set num := dot p.normal w with hnm
  have ht := htp.symm
  have hpt := fun e => C116_point_at h hma l t e
  rw [hx] at hpt
  have htd : Near u (n + 3) (t * den) (∑ i, p.normal i * (p.normal i * p.scalar - l.base i)) (∑ i, |p.normal i| * (|p.normal i| * |p.scalar| + |l.base i|)) := by
    refine ⟨?_, hnw.bound⟩
    have k1 := h.err (num / den)
    rw [← ht] at k1
    have k2 : |t * den - num| ≤ u * |num| := by
      have e1 : t * den - num = (t - num / den) * den := by rw [sub_mul, div_mul_cancel₀ _ hden]
      have e2 : u * |num| = u * |num / den| * |den| := by rw [abs_div, mul_assoc, div_mul_cancel₀ _ (abs_ne_zero.mpr hden)]
      rw [e1, e2, abs_mul]
      exact mul_le_mul_of_nonneg_right k1 (abs_nonneg _)
    have k3 := mul_le_mul_of_nonneg_left hnw.abs_le hu
    have k4 := hnw.err
    have k5 := abs_add_le (t * den - num) (num - ∑ i, p.normal i * (p.normal i * p.scalar - l.base i))
    rw [sub_add_sub_cancel] at k5
    rw [show n + 3 = n + 2 + 1 from rfl, pow_succ]
    linarith
  have hdd : |t * (∑ i, p.normal i * l.direction i) - t * den| ≤ ((1 + u) ^ n - 1) * ∑ i, |p.normal i| * (|t| * |l.direction i|) := by
    have := mul_le_mul_of_nonneg_left (hd p.normal l.direction) (abs_nonneg t)
    rw [← mul_sub, abs_mul, abs_sub_comm]
    refine this.trans (le_of_eq ?_)
    rw [mul_left_comm, Finset.mul_sum]
    congr 1
    refine Finset.sum_congr rfl fun i _ => ?_
    rw [abs_mul]; ring
  have hne : |∑ i, p.normal i * (x i - (l.base i + t * l.direction i))| ≤ ((1 + u) ^ 2 - 1) * ∑ i, |p.normal i| * (|l.base i| + |t| * |l.direction i|) := by
    rw [Finset.mul_sum]
    refine (Finset.abs_sum_le_sum_abs _ _).trans (Finset.sum_le_sum fun i _ => ?_)
    rw [abs_mul, mul_left_comm]
    exact mul_le_mul_of_nonneg_left (hpt i) (abs_nonneg _)
  have e : ∑ i, p.normal i * x i - p.scalar - (∑ i, p.normal i ^ 2 - 1) * p.scalar =
      (t * den - ∑ i, p.normal i * (p.normal i * p.scalar - l.base i)) + (t * (∑ i, p.normal i * l.direction i) - t * den) +
        ∑ i, p.normal i * (x i - (l.base i + t * l.direction i)) := by
    have e1 : ∑ i, p.normal i * (p.normal i * p.scalar - l.base i) = (∑ i, p.normal i ^ 2) * p.scalar - ∑ i, p.normal i * l.base i := by
      rw [Finset.sum_mul, ← Finset.sum_sub_distrib]
      exact Finset.sum_congr rfl fun i _ => by ring
    have e2 : ∑ i, p.normal i * (x i - (l.base i + t * l.direction i)) =
        ∑ i, p.normal i * x i - ∑ i, p.normal i * l.base i - t * ∑ i, p.normal i * l.direction i := by
      rw [Finset.mul_sum, ← Finset.sum_sub_distrib, ← Finset.sum_sub_distrib]
      exact Finset.sum_congr rfl fun i _ => by ring
    rw [e1, e2]
    ring
  have g1 : (1 + u) ^ n ≤ (1 + u) ^ (n + 3) := pow_le_pow_right₀ (by linarith) (by omega)
  have g2 : (1 + u) ^ 2 ≤ (1 + u) ^ (n + 3) := pow_le_pow_right₀ (by linarith) (by omega)
  have hdd' := hdd.trans (mul_le_mul_of_nonneg_right (by linarith : (1 + u) ^ n - 1 ≤ (1 + u) ^ (n + 3) - 1)
    (Finset.sum_nonneg fun i _ => mul_nonneg (abs_nonneg (p.normal i)) (mul_nonneg (abs_nonneg t) (abs_nonneg (l.direction i)))))
  have hne' := hne.trans (mul_le_mul_of_nonneg_right (by linarith : (1 + u) ^ 2 - 1 ≤ (1 + u) ^ (n + 3) - 1)
    (Finset.sum_nonneg fun i _ => mul_nonneg (abs_nonneg (p.normal i)) (add_nonneg (abs_nonneg (l.base i)) (mul_nonneg (abs_nonneg t) (abs_nonneg (l.direction i))))))
  rw [e]
  refine (abs_add_three _ _ _).trans ((add_le_add (add_le_add htd.err hdd') hne').trans (le_of_eq ?_))
  rw [← mul_add, ← mul_add, ← Finset.sum_add_distrib, ← Finset.sum_add_distrib]
  congr 1
  exact Finset.sum_congr rfl fun i _ => by ring

/-- C116: the reported intersection is near a point of the line, and it satisfies the equation of the plane up to rounding errors of the size of
the terms of the equation, plus what the normal vector lacks from unit length. -/
theorem C116_intersect (h : Rounding fl u) {madd : ℝ → ℝ → ℝ → ℝ} (hma : Fl.IsMulAdd fl madd) {dot : (Fin n → ℝ) → (Fin n → ℝ) → ℝ}
    (hd : Fl.IsDot u n dot) (p : GPlane n) (l : GLine n) (x : Fin n → ℝ) (hx : Fl.intersectPlaneLine fl madd dot p l = some x) :
    ∃ t : ℝ, (∀ e, |x e - (l.base e + t * l.direction e)| ≤ ((1 + u) ^ 2 - 1) * (|l.base e| + |t| * |l.direction e|)) ∧
      |∑ i, p.normal i * x i - p.scalar - (∑ i, p.normal i ^ 2 - 1) * p.scalar| ≤
        ((1 + u) ^ (n + 3) - 1) * ∑ i, |p.normal i| * (|p.normal i| * |p.scalar| + 2 * |l.base i| + 2 * (|t| * |l.direction i|)) := by
  unfold Fl.intersectPlaneLine at hx
  rw [Option.map_eq_some_iff] at hx
  obtain ⟨t, ht, hx⟩ := hx
  have hpt := fun e => C116_point_at h hma l t e
  rw [hx] at hpt
  exact ⟨t, hpt, plane_residual h hma hd p l t x ht hx⟩

/-! ## The hypotheses are met -/

/-- `Dot` of vectors of any packing has the error that C116 assumes. -/
theorem C116_dot {c : Cfg} {p : Bool} (h : Rounding fl u) (conv : Bool) (tb : RTree (batchSize n false)) (ts : RTree (n + 1)) (htb : tb.Valid) (hts : ts.Valid) :
    Fl.IsDot u n fun x y => Fl.dot fl conv tb ts (Vec.ofFn x : Vec c ℝ n p) (Vec.ofFn y : Vec c ℝ n p) := by
  intro x y
  simpa only [Vec.get_ofFn] using C76_dot h conv tb ts htb hts (Vec.ofFn x : Vec c ℝ n p) (Vec.ofFn y : Vec c ℝ n p)

/-- Floats with 24 bits, separate roundings: a cubic curve in the plane at a parameter that is not a float quotient of the control points. -/
example : |Fl.bezierPointAt (flAway 24) (fun a b c d => flAway 24 (flAway 24 (a * b) + flAway 24 (c * d))) (order := 3)
    ![![0, 0], ![0, 1], ![1, 1], ![1, 0]] (1 / 3) 1 - bernstein ![![0, 0], ![0, 1], ![1, 1], ![1, 0]] (1 / 3) 1| ≤ ((1 + 2 ^ (-24 : ℤ)) ^ 9 - 1) := by
  have := C114_bezier ((flAway_roundsToNearest (p := 24) (by norm_num)).rounding (by norm_num))
    (ps := fun a b c d => flAway 24 (flAway 24 (a * b) + flAway 24 (c * d))) (fun _ _ _ _ => Or.inl rfl) (order := 3)
    ![![0, 0], ![0, 1], ![1, 1], ![1, 0]] (1 / 3) 1 (by intro q e; fin_cases q <;> fin_cases e <;> norm_num) 1
  refine this.trans (le_of_eq ?_)
  rw [abs_of_nonneg (by norm_num), abs_of_nonneg (by norm_num)]
  norm_num

/-- The plane `x = 2` and the line along the first axis in exact arithmetic: an intersection is reported. -/
example : Fl.intersectPlaneLine (n := 2) id (fun a b d => a * b + d) (fun x y => x 0 * y 0 + x 1 * y 1) ⟨![1, 0], 2⟩ ⟨![1, 0], ![0, 5]⟩ = some ![2, 5] := by
  unfold Fl.intersectPlaneLine Fl.planeLineParam Fl.planeBase Fl.pointAt
  simp
  funext i
  fin_cases i <;> norm_num

/-- A line parallel to the plane is reported as such. -/
example : Fl.intersectPlaneLine (n := 2) id (fun a b d => a * b + d) (fun x y => x 0 * y 0 + x 1 * y 1) ⟨![1, 0], 2⟩ ⟨![0, 1], ![0, 5]⟩ = none := by
  unfold Fl.intersectPlaneLine Fl.planeLineParam Fl.planeBase Fl.pointAt
  simp

end Mathter.Props
