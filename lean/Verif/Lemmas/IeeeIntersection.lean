import Verif.Lemmas.IeeeFinite
import Verif.Lemmas.VectorMath
import Verif.Model.IeeeGeometry
import Verif.Model.RoundedSegment
import Verif.Model.Fma
import Verif.Props.Swizzle
import Verif.Props.Ieee

/-! # Lemmas relating geometry with infinities and NaN to rounded geometry -/

namespace Mathter
open Fx
variable {n : ℕ} {fl : ℝ → Fx} {fl₀ : ℝ → ℝ} {madd : Fx → Fx → Fx → Fx} {bmax : Fx → Fx → Fx}

/-- The vector of the finite values `v`. -/
def finV (v : Fin n → ℝ) : Fin n → Fx := fun i => .fin (v i)
/-- The line with the finite coordinates of `l`. -/
def finLine (l : GLine n) : Ie.XLine n := ⟨finV l.direction, finV l.base⟩
/-- The plane with the finite coordinates of `p`. -/
def finPlane (p : GPlane n) : Ie.XPlane n := ⟨finV p.normal, .fin p.scalar⟩
/-- The segment with the finite coordinates of `s`. -/
def finSegment (s : GSegment n) : Ie.XSegment n := ⟨finV s.point1, finV s.point2⟩
/-- The triangle with the finite coordinates of `t`. -/
def finTriangle (t : GTriangle n) : Ie.XTriangle n := ⟨finV t.a, finV t.b, finV t.c⟩

/-- `Dot` as evaluated by `Ie.vdot`, without overflow. -/
noncomputable def Ie.Red.dot (R : Ie.Red n) (fl₀ : ℝ → ℝ) (x y : Fin n → ℝ) : ℝ :=
  Fl.dot fl₀ R.conv R.tb R.ts (Vec.ofFn x : Vec R.c ℝ n false) (Vec.ofFn y : Vec R.c ℝ n false)

namespace Ie

theorem eval_nf {m : ℕ} (b : Fin m → Fx) (t : RTree m) (h : ∃ j ∈ t.leaves, NF (b j)) : NF (t.eval (Fx.add fl) b) := by
  induction t with
  | leaf j =>
    obtain ⟨k, hk, hn⟩ := h
    rw [RTree.leaves, List.mem_singleton] at hk
    rw [RTree.eval, ← hk]
    exact hn
  | node l r hl hr =>
    obtain ⟨k, hk, hn⟩ := h
    rw [RTree.leaves, List.mem_append] at hk
    rw [RTree.eval]
    rcases hk with hk | hk
    · exact (hl ⟨k, hk, hn⟩).add_left _
    · exact (hr ⟨k, hk, hn⟩).add_right _

theorem dot_nf {c : Cfg} {p1 p2 : Bool} (conv : Bool) (tb : RTree (batchSize n false)) (ts : RTree (n + 1)) (htb : tb.Valid) (hts : ts.Valid) (a : Vec c Fx n p1)
    (b : Vec c Fx n p2) (h : ∃ i, NF (a.get i) ∨ NF (b.get i)) : NF (dot fl conv tb ts a b) := by
  unfold dot
  obtain ⟨m, t, g, e, hb, -, -⟩ := Props.sum_lanes (fl := fl) tb ts htb hts (Vec.doBinary conv (Fx.mul fl) a b : Vec c Fx n (p1 && p2))
  rw [e]
  obtain ⟨i, hi⟩ := h
  obtain ⟨j, hj, ej⟩ := hb i
  refine eval_nf _ _ ⟨j, hj, ?_⟩
  rw [ej, Vec.get_doBinary]
  rcases hi with hi | hi
  · exact hi.mul_left _
  · exact hi.mul_right _

theorem vdot_nf {R : Red n} (hR : R.Valid) {a b : Fin n → Fx} (h : ∃ i, NF (a i) ∨ NF (b i)) : NF (vdot R fl a b) := by
  refine dot_nf _ _ _ hR.tb hR.ts _ _ ?_
  obtain ⟨i, h⟩ := h
  exact ⟨i, by rw [Vec.get_ofFn, Vec.get_ofFn]; exact h⟩

theorem vdot_tracks (hf : Overflows fl fl₀) (R : Red n) {a b : Fin n → Fx} {x y : Fin n → ℝ} (ha : ∀ i, Tracks (a i) (x i)) (hb : ∀ i, Tracks (b i) (y i)) :
    Tracks (vdot R fl a b) (R.dot fl₀ x y) :=
  dot_tracks hf _ _ _ (fun i => by rw [Vec.get_ofFn, Vec.get_ofFn]; exact ha i) (fun i => by rw [Vec.get_ofFn, Vec.get_ofFn]; exact hb i)

theorem vsub_tracks (hf : Overflows fl fl₀) {a b : Fin n → Fx} {x y : Fin n → ℝ} (ha : ∀ i, Tracks (a i) (x i)) (hb : ∀ i, Tracks (b i) (y i)) (i : Fin n) :
    Tracks (vsub fl a b i) (fl₀ (x i - y i)) := (ha i).sub hf (hb i)

/-- A sum of numbers from -4 to 4 is finite. -/
theorem eval_four {N : ℕ} (hf : RoundsMonoFx N fl) (hneg : ∀ k : ℕ, k ≤ N → fl (-k) = .fin (-k)) {m : ℕ} (b : Fin m → Fx) (t : RTree m)
    (hN : 4 * t.leaves.length ≤ N) (hb : ∀ j, ∃ y, b j = .fin y ∧ -4 ≤ y ∧ y ≤ 4) :
    ∃ y, t.eval (Fx.add fl) b = .fin y ∧ -(4 * t.leaves.length : ℝ) ≤ y ∧ y ≤ 4 * t.leaves.length := by
  induction t with
  | leaf j =>
    obtain ⟨y, e, h0, h1⟩ := hb j
    exact ⟨y, e, by simpa [RTree.leaves] using h0, by simpa [RTree.leaves] using h1⟩
  | node l r hl hr =>
    rw [RTree.leaves, List.length_append] at hN
    obtain ⟨y, ey, y0, y1⟩ := hl (by omega)
    obtain ⟨z, ez, z0, z1⟩ := hr (by omega)
    have eN := hf.nat (4 * (l.leaves.length + r.leaves.length)) hN
    have eM := hneg (4 * (l.leaves.length + r.leaves.length)) hN
    push_cast at eN eM
    rw [RTree.eval, ey, ez, Fx.add]
    obtain ⟨w, ew, w0, w1⟩ := Props.fl_between hf eM eN (by linarith : -(4 * ((l.leaves.length : ℝ) + r.leaves.length)) ≤ y + z) (by linarith)
    exact ⟨w, ew, by rw [RTree.leaves, List.length_append]; push_cast; exact w0, by rw [RTree.leaves, List.length_append]; push_cast; exact w1⟩

/-- The product of two vectors with elements from -2 to 2 does not overflow. -/
theorem vdot_two {N : ℕ} (hf : RoundsMonoFx N fl) (hneg : ∀ k : ℕ, k ≤ N → fl (-k) = .fin (-k)) {R : Red n} (hR : R.Valid)
    (hN : 4 * batchSize n false ≤ N ∧ 4 * (n + 1) ≤ N) {x y : Fin n → ℝ} (hx : ∀ i, |x i| ≤ 2) (hy : ∀ i, |y i| ≤ 2) :
    ∃ z, vdot R fl (finV x) (finV y) = .fin z := by
  unfold vdot dot
  obtain ⟨m, t, g, e, -, hg, hl⟩ := Props.sum_lanes (fl := fl) R.tb R.ts hR.tb hR.ts
    (Vec.doBinary R.conv (Fx.mul fl) (Vec.ofFn (finV x) : Vec R.c Fx n false) (Vec.ofFn (finV y) : Vec R.c Fx n false) : Vec R.c Fx n (false && false))
  have e4 := hf.nat 4 (by omega)
  have m4 := hneg 4 (by omega)
  push_cast at e4 m4
  obtain ⟨z, ez, -⟩ := eval_four hf hneg g t (by omega) fun j => by
    rcases hg j with h | ⟨i, h⟩
    · exact ⟨0, h, by norm_num, by norm_num⟩
    · rw [Vec.get_doBinary, Vec.get_ofFn, Vec.get_ofFn] at h
      have hp : |x i * y i| ≤ 4 := by
        rw [abs_mul]; nlinarith [hx i, hy i, abs_nonneg (x i), abs_nonneg (y i)]
      obtain ⟨w, ew, w0, w1⟩ := Props.fl_between hf m4 e4 (abs_le.1 hp).1 (abs_le.1 hp).2
      exact ⟨w, by rw [h]; exact ew, w0, w1⟩
  exact ⟨z, by rw [e]; exact ez⟩

/-! ## Lines and planes -/

theorem pointAt_tracks {madd₀ : ℝ → ℝ → ℝ → ℝ} (hma : ∀ a b d x y z, Tracks a x → Tracks b y → Tracks d z → Tracks (madd a b d) (madd₀ x y z)) (l : GLine n)
    {t : Fx} {t₀ : ℝ} (ht : Tracks t t₀) (i : Fin n) : Tracks ((finLine l).pointAt madd t i) (Fl.pointAt madd₀ l t₀ i) :=
  hma _ _ _ _ _ _ ht (tracks_fin _) (tracks_fin _)

theorem pointAt_nf (hop : Fx.IsMulAdd fl madd) (l : XLine n) {t : Fx} (ht : NF t) (i : Fin n) : NF (l.pointAt madd t i) := hop.nf (Or.inl ht)

/-- The parameter of the intersection of a plane and a line, if the scalar is that of a finite plane or overflowed. -/
theorem param_tracks (hf : Overflows fl fl₀) (R : Red n) (p : GPlane n) (l : GLine n) {s : Fx} (hs : Tracks s p.scalar)
    (hd : ∃ z, vdot R fl (finV p.normal) (finV l.direction) = .fin z) :
    (planeLineParam R fl ⟨finV p.normal, s⟩ (finLine l) = none ∧ Fl.planeLineParam fl₀ (R.dot fl₀) p l = none) ∨
      ∃ t t₀, planeLineParam R fl ⟨finV p.normal, s⟩ (finLine l) = some t ∧ Fl.planeLineParam fl₀ (R.dot fl₀) p l = some t₀ ∧ Tracks t t₀ := by
  obtain ⟨z, ez⟩ := hd
  have e0 := vdot_tracks hf R (a := finV p.normal) (b := finV l.direction) (fun _ => tracks_fin _) (fun _ => tracks_fin _) z ez
  have hw : ∀ i, Tracks (vsub fl (XPlane.base fl ⟨finV p.normal, s⟩) (finLine l).base i) (fl₀ (Fl.planeBase fl₀ p i - l.base i)) :=
    vsub_tracks hf (fun i => (tracks_fin _).mul hf hs) (fun _ => tracks_fin _)
  have hN := vdot_tracks hf R (a := finV p.normal) (fun _ => tracks_fin _) hw
  unfold planeLineParam Fl.planeLineParam
  change (if (vdot R fl (finV p.normal) (finV l.direction)).isZero = true then none else _) = _ ∧ _ ∨ ∃ t t₀,
    (if (vdot R fl (finV p.normal) (finV l.direction)).isZero = true then none else _) = _ ∧ _
  by_cases hz : z = 0
  · left
    rw [if_pos (by rw [ez, hz]; simp [Fx.isZero]), if_pos (by rw [← e0, hz])]
    exact ⟨rfl, rfl⟩
  · right
    rw [if_neg (by rw [ez]; simp [Fx.isZero, hz]), if_neg (by rw [← e0]; exact hz)]
    refine ⟨_, _, rfl, rfl, ?_⟩
    change Tracks (Fx.div fl _ (vdot R fl (finV p.normal) (finV l.direction))) _
    rw [ez, ← e0]
    exact hN.div hf z

/-! ## Directions of segments -/

/-- `NormalizePrecise` of a finite vector other than the null vector does not overflow; its elements lie between -1 and 1. -/
theorem normalizePrecise1_finite {N : ℕ} (hf : Overflows fl fl₀) (hm : RoundsMonoFx N fl) (hmax : LaneMax bmax) {R : Red (n + 1)} (hR : R.Valid)
    (hN : batchSize (n + 1) false ≤ N ∧ n + 2 ≤ N) {x : Fin (n + 1) → ℝ} (hx : x ≠ 0) :
    normalizePrecise1 R fl bmax (finV x) = finV (Fl.normalizePrecise1 R.c false fl₀ R.conv R.tb R.ts x) ∧
      ∀ i, |Fl.normalizePrecise1 R.c false fl₀ R.conv R.tb R.ts x i| ≤ 1 := by
  have e1 : fl 1 = .fin 1 := by have := hm.nat 1 (by omega); push_cast at this; exact this
  have hx0 : ∃ i, x i ≠ 0 := by
    by_contra hc
    push Not at hc
    exact hx (funext hc)
  obtain ⟨S, l, h1, ⟨i1, h2⟩, l1, -, -, hl, hy⟩ := Props.normalizePrecise_steps hm bmax hmax R.conv R.tm R.tb R.ts hR.tm hR.tb hR.ts hN
    (Vec.ofFn (finV x) : Vec R.c Fx (n + 1) false) (Vec.ofFn fun i => if i = 0 then .fin 1 else .fin 0 : Vec R.c Fx (n + 1) false) x
    (fun i => by rw [Vec.get_ofFn]; rfl) hx0
  have hS : Mathter.scaleElements x = S := by
    apply le_antisymm
    · obtain ⟨i, hi | hi⟩ := exists_scaleElements x
      · rw [hi]; exact h1 i
      · rw [hi]; simp only [RCLike.im_to_real, abs_zero]; exact (abs_nonneg _).trans (h1 0)
    · rw [← h2]; exact (le_scaleElements x i1).1
  have hS0 : S ≠ 0 := by
    intro h
    obtain ⟨i, hi⟩ := hx0
    have := h1 i
    rw [h] at this
    exact hi (abs_nonpos_iff.1 this)
  choose y ey y0 y1 ew using hy
  have ey' : ∀ i, fl₀ (x i / S) = y i := fun i => (hf.tracks _ _ (ey i)).symm
  have hlen : Fl.length fl₀ R.conv R.tb R.ts (Vec.ofFn fun i => fl₀ (x i / S) : Vec R.c ℝ (n + 1) false) = l := by
    have hv : ∀ i, Tracks ((divScalar fl R.conv (Vec.ofFn (finV x) : Vec R.c Fx (n + 1) false) (.fin S)).get i)
        ((Vec.ofFn fun i => fl₀ (x i / S) : Vec R.c ℝ (n + 1) false).get i) := fun i => by
      unfold divScalar
      rw [Vec.get_doBinary, Vec.get_fill, Vec.get_ofFn, Vec.get_ofFn]
      exact (tracks_fin _).div hf S
    exact ((dot_tracks hf R.conv R.tb R.ts hv hv).sqrt hf l hl).symm
  have hl0 : l ≠ 0 := by intro h; rw [h] at l1; linarith
  have e : ∀ i, ∃ w, fl (y i / l) = .fin w ∧ -1 ≤ w ∧ w ≤ 1 := fun i => by
    have l0 : 0 < l := by linarith
    refine Props.fl_between hm hm.neg_one e1 ?_ ?_
    · rw [le_div_iff₀ l0]; linarith [y0 i]
    · rw [div_le_one l0]; linarith [y1 i]
  have hE : Fl.normalizePrecise1 R.c false fl₀ R.conv R.tb R.ts x = fun i => fl₀ (y i / l) := by
    unfold Fl.normalizePrecise1
    simp only [hS]
    rw [if_neg hS0]
    simp only [hlen]
    rw [if_pos hl0]
    funext i
    rw [ey']
  rw [hE]
  constructor
  · funext i
    obtain ⟨w, hw, -⟩ := e i
    unfold normalizePrecise1
    rw [ew i, hw, hf.tracks _ _ hw]
    rfl
  · intro i
    obtain ⟨w, hw, w0, w1⟩ := e i
    have ew' : fl₀ (y i / l) = w := (hf.tracks _ _ hw).symm
    simp only [ew']
    exact abs_le.2 ⟨w0, w1⟩

/-! ## Comparisons -/

theorem lt_fin (a b : ℝ) : Fx.lt (.fin a) (.fin b) = true ↔ a < b := decide_eq_true_iff

theorem le_fin (a b : ℝ) : le (.fin a) (.fin b) = true ↔ a ≤ b := by
  unfold le
  rw [Bool.or_eq_true, lt_fin, le_iff_lt_or_eq]
  exact or_congr Iff.rfl decide_eq_true_iff

theorem le_nf_between {x : Fx} (h : NF x) {a : ℝ} (h0 : le (.fin 0) x = true) (h1 : le x (.fin a) = true) : False := by
  rcases h.cases with rfl | ⟨s, rfl⟩
  · exact absurd h0 (by simp [le, Fx.lt])
  · cases s
    · exact absurd h1 (by simp [le, Fx.lt])
    · exact absurd h0 (by simp [le, Fx.lt])

/-! ## Lines of segments -/

theorem vsub_finite (hf : Overflows fl fl₀) {a b : Fin n → ℝ} (h : ∀ i, ∃ z, fl (a i - b i) = .fin z) :
    vsub fl (finV a) (finV b) = finV fun i => fl₀ (a i - b i) := by
  funext i
  obtain ⟨z, e⟩ := h i
  have e' : fl (a i + -b i) = .fin z := by rw [← sub_eq_add_neg]; exact e
  change fl (a i + -b i) = .fin (fl₀ (a i - b i))
  rw [e', hf.tracks _ _ e]

/-- The line of a segment or through two points has finite coordinates if the differences of the coordinates are finite. -/
theorem line_finite {N : ℕ} {u : ℝ} (h : Rounding fl₀ u) (hu : u < 1) (hf : Overflows fl fl₀) (hm : RoundsMonoFx N fl) (hmax : LaneMax bmax) {R : Red (n + 1)} (hR : R.Valid)
    (hN : 4 * batchSize (n + 1) false ≤ N ∧ 4 * (n + 2) ≤ N) {s : GSegment (n + 1)} (hs : s.point1 ≠ s.point2)
    (hd : ∀ i, ∃ z, fl (s.point2 i - s.point1 i) = .fin z) :
    (finSegment s).line R fl bmax = finLine (Fl.segLine fl₀ (Fl.normalizePrecise1 R.c false fl₀ R.conv R.tb R.ts) s) ∧
      ∀ i, |(Fl.segLine fl₀ (Fl.normalizePrecise1 R.c false fl₀ R.conv R.tb R.ts) s).direction i| ≤ 1 := by
  have hv := vsub_finite hf hd
  have h0 : (fun i => fl₀ (s.point2 i - s.point1 i)) ≠ 0 := by
    intro e
    refine hs (funext fun i => ?_)
    have e1 := h.err (s.point2 i - s.point1 i)
    rw [show fl₀ (s.point2 i - s.point1 i) = 0 from congrFun e i, zero_sub, abs_neg] at e1
    by_contra hc
    have : 0 < |s.point2 i - s.point1 i| := abs_pos.2 (sub_ne_zero.2 fun e => hc e.symm)
    nlinarith
  obtain ⟨e, b⟩ := normalizePrecise1_finite hf hm hmax hR (by omega) h0
  refine ⟨?_, b⟩
  unfold XSegment.line finLine
  change (⟨normalizePrecise1 R fl bmax (vsub fl (finV s.point2) (finV s.point1)), _⟩ : XLine (n + 1)) = _
  rw [hv, e]
  rfl

theorem neg_nat {N : ℕ} (hm : RoundsMonoFx N fl) (hsym : ∀ x, fl (-x) = (fl x).neg) (k : ℕ) (hk : k ≤ N) : fl (-k) = .fin (-k) := by
  rw [hsym, hm.nat k hk]; rfl

/-! ## Points of segments -/

private theorem axis_finite (v : Fin (n + 1) → ℝ) :
    forUp (n + 1) 1 (fun i largest => if Fx.lt (Fx.abs (finV v largest)) (Fx.abs (finV v i)) then i else largest) 0 = maxElementPos fun i => |v i| := by
  unfold maxElementPos
  refine forUp_congr fun i b => ?_
  simp only [finV, Fx.abs, Fx.lt, decide_eq_true_eq]

theorem copysign1_finite (neg : Bool) (x : ℝ) : copysign1 neg (.fin x) = .fin (Mathter.copysign1 neg x) := by
  unfold copysign1 Mathter.copysign1
  rcases lt_trichotomy x 0 with h | h | h
  · rw [if_pos ((lt_fin _ _).2 h), if_pos (Or.inl h)]
  · subst h
    rw [if_neg (by rw [lt_fin]; exact lt_irrefl 0), if_neg (by rw [lt_fin]; exact lt_irrefl 0)]
    cases neg <;> simp
  · rw [if_neg (by rw [lt_fin]; exact not_lt.2 h.le), if_pos ((lt_fin _ _).2 h), if_neg (by rintro (h' | ⟨h', -⟩) <;> linarith)]

theorem isWithin_finite {u : ℝ} (h : Rounding fl₀ u) (hf : Overflows fl fl₀) (neg : Bool) {s : GSegment (n + 1)} (hd : ∀ i, ∃ z, fl (s.point2 i - s.point1 i) = .fin z)
    {x : Fin (n + 1) → ℝ} (hw : isWithin neg fl (finSegment s) (finV x) = true) : Fl.isWithin fl₀ neg s x := by
  unfold isWithin at hw
  dsimp only at hw
  have q1 : (finSegment s).point1 = finV s.point1 := rfl
  have q2 : (finSegment s).point2 = finV s.point2 := rfl
  rw [q1, q2, vsub_finite hf hd, axis_finite, show finV (fun i => fl₀ (s.point2 i - s.point1 i)) (maxElementPos fun i => |fl₀ (s.point2 i - s.point1 i)|) =
    .fin (fl₀ (s.point2 (maxElementPos fun i => |fl₀ (s.point2 i - s.point1 i)|) - s.point1 (maxElementPos fun i => |fl₀ (s.point2 i - s.point1 i)|))) from rfl,
    copysign1_finite, Bool.and_eq_true] at hw
  unfold Fl.isWithin
  dsimp only
  set k := maxElementPos fun i => |fl₀ (s.point2 i - s.point1 i)|
  set w := fl₀ (s.point2 k - s.point1 k)
  have t1 : Tracks (vsub fl (finV x) (finV s.point1) k) (fl₀ (x k - s.point1 k)) := vsub_tracks hf (fun _ => tracks_fin _) (fun _ => tracks_fin _) k
  have t2 := (tracks_fin (Mathter.copysign1 neg w)).mul hf t1
  have e2 : fl₀ (Mathter.copysign1 neg w * fl₀ (x k - s.point1 k)) = Mathter.copysign1 neg w * fl₀ (x k - s.point1 k) := by
    unfold Mathter.copysign1
    split
    · rw [neg_one_mul, h.odd, h.idem]
    · rw [one_mul, h.idem]
  rw [e2] at t2
  rcases t2.cases with e | e
  · rw [e] at hw
    exact ⟨(le_fin _ _).1 hw.1, (le_fin _ _).1 hw.2⟩
  · exact (le_nf_between e hw.1 hw.2).elim

/-! ## Cross products -/

theorem fmta1_nf {a b x d : Fx} (h : NF a ∨ NF b ∨ NF x ∨ NF d) : NF (fmta1 fl a b x d) := by
  unfold fmta1
  dsimp only
  rcases h with h | h | h | h
  · exact ((h.mul_left _).add_left _).add_left _
  · exact ((h.mul_right _).add_left _).add_left _
  · exact ((h.mul_right _).add_right _).add_left _
  · exact ((h.mul_left _).add_right _).add_left _

theorem cross3_nf {a b : Fin 3 → Fx} (h : ∃ i, NF (a i) ∨ NF (b i)) : ∃ i, NF (cross3 fl a b i) := by
  obtain ⟨i, h⟩ := h
  rcases h with h | h
  · fin_cases i
    · exact ⟨2, fmta1_nf (Or.inl h)⟩
    · exact ⟨0, fmta1_nf (Or.inl h)⟩
    · exact ⟨1, fmta1_nf (Or.inl h)⟩
  · fin_cases i
    · exact ⟨1, fmta1_nf (Or.inr (Or.inl h))⟩
    · exact ⟨2, fmta1_nf (Or.inr (Or.inl h))⟩
    · exact ⟨0, fmta1_nf (Or.inr (Or.inl h))⟩

/-- `Cross` without overflow. -/
noncomputable def _root_.Mathter.Ie.Red.cross (R : Red 3) (fl₀ : ℝ → ℝ) (x y : Fin 3 → ℝ) : Fin 3 → ℝ :=
  (Fl.cross3 fl₀ R.conv (fun _ => 0) (Vec.ofFn x : Vec R.c ℝ 3 false) (Vec.ofFn y : Vec R.c ℝ 3 false)).get

theorem cross3_tracks (hf : Overflows fl fl₀) (R : Red 3) {a b : Fin 3 → Fx} {x y : Fin 3 → ℝ} (ha : ∀ i, Tracks (a i) (x i)) (hb : ∀ i, Tracks (b i) (y i)) (i : Fin 3) :
    Tracks (cross3 fl a b i) (R.cross fl₀ x y i) := by
  have e : R.cross fl₀ x y i = fl₀ (fl₀ (x (![1, 2, 0] i) * y (![2, 0, 1] i) + fl₀ (y (![1, 2, 0] i) * fl₀ (x (![2, 0, 1] i) * -1))) +
      fl₀ (y (![1, 2, 0] i) * fl₀ (x (![2, 0, 1] i) * -1) + fl₀ (fl₀ (y (![1, 2, 0] i) * fl₀ (x (![2, 0, 1] i) * -1)) * -1))) := by
    simp only [Red.cross, Fl.cross3, Fl.fmta, Fl.add, Fl.fma, Fl.mul, Fl.neg, Vec.opScalar, Vec.get_doBinary, Vec.get_doTernary, Vec.get_fill, Props.C05_read,
      Vec.get_ofFn]
  rw [e]
  have hx := (ha (![2, 0, 1] i)).mul hf (tracks_fin (-1))
  have hw := (hb (![1, 2, 0] i)).mul hf hx
  exact (((ha (![1, 2, 0] i)).mul Overflows.id (hb (![2, 0, 1] i))).add hf hw).add hf (((hb (![1, 2, 0] i)).mul Overflows.id hx).add hf (hw.mul hf (tracks_fin (-1))))

end Ie
end Mathter
