import Verif.Lemmas.IeeeLinear
import Verif.Lemmas.LoopRel
import Verif.Lemmas.Vector
import Verif.Lemmas.RoundedSolve
import Verif.Model.RoundedDeterminant
import Verif.Spec.Ieee

/-! # Lemmas relating the evaluations with infinities and NaN to the rounded ones -/

namespace Mathter

namespace Fx
variable {fl : ℝ → Fx} {fl₀ : ℝ → ℝ}

/-- Not a number of finite size. -/
def NF (x : Fx) : Prop := ∀ z, x ≠ .fin z

/-- `x`, if finite, is `y`. -/
def Tracks (x : Fx) (y : ℝ) : Prop := ∀ z, x = .fin z → z = y

theorem NF.tracks {x : Fx} (h : NF x) (y : ℝ) : Tracks x y := fun z e => absurd e (h z)
theorem tracks_fin (y : ℝ) : Tracks (.fin y) y := fun _ e => (Fx.fin.inj e).symm
theorem Tracks.cases {x : Fx} {y : ℝ} (h : Tracks x y) : x = .fin y ∨ NF x := by
  rcases x with _ | s | z
  · exact Or.inr fun z e => by cases e
  · exact Or.inr fun z e => by cases e
  · exact Or.inl (congrArg Fx.fin (h z rfl))
theorem nf_nan : NF .nan := fun z e => by cases e
theorem nf_inf (s : Bool) : NF (.inf s) := fun z e => by cases e
theorem nf_or (x : Fx) : (∃ z, x = .fin z) ∨ NF x := by
  rcases x with _ | s | z
  · exact Or.inr nf_nan
  · exact Or.inr (nf_inf s)
  · exact Or.inl ⟨z, rfl⟩
theorem NF.cases {x : Fx} (h : NF x) : x = .nan ∨ ∃ s, x = .inf s := by
  rcases x with _ | s | z
  · exact Or.inl rfl
  · exact Or.inr ⟨s, rfl⟩
  · exact absurd rfl (h z)

theorem _root_.Mathter.Overflows.id : Overflows .fin (fun x => x) := ⟨fun _ => Or.inl rfl, fun _ _ _ => rfl⟩
theorem _root_.Mathter.Overflows.tracks (h : Overflows fl fl₀) (x : ℝ) : Tracks (fl x) (fl₀ x) := by
  rcases h.round x with e | ⟨s, e⟩ <;> rw [e]
  · exact tracks_fin _
  · exact (nf_inf s).tracks _
theorem _root_.Mathter.Overflows.fix (h : Overflows fl fl₀) {x : ℝ} (e : fl x = .fin x) : fl₀ x = x := (h.tracks x x e).symm

theorem NF.neg {a : Fx} (h : NF a) : NF a.neg := by
  rcases h.cases with rfl | ⟨s, rfl⟩
  · exact nf_nan
  · exact nf_inf _
theorem NF.abs {a : Fx} (h : NF a) : NF a.abs := by
  rcases h.cases with rfl | ⟨s, rfl⟩
  · exact nf_nan
  · exact nf_inf _
theorem NF.add_left {a : Fx} (h : NF a) (b : Fx) : NF (add fl a b) := by
  rcases h.cases with rfl | ⟨s, rfl⟩
  · rw [nan_add']; exact nf_nan
  · rcases b with _ | t | y
    · exact nf_nan
    · unfold add; dsimp only; split
      · exact nf_inf _
      · exact nf_nan
    · exact nf_inf _
theorem NF.add_right {b : Fx} (h : NF b) (a : Fx) : NF (add fl a b) := by
  rcases h.cases with rfl | ⟨s, rfl⟩
  · rw [add_nan']; exact nf_nan
  · rcases a with _ | t | y
    · exact nf_nan
    · unfold add; dsimp only; split
      · exact nf_inf _
      · exact nf_nan
    · exact nf_inf _
theorem NF.sub_left {a : Fx} (h : NF a) (b : Fx) : NF (sub fl a b) := h.add_left _
theorem NF.sub_right {b : Fx} (h : NF b) (a : Fx) : NF (sub fl a b) := h.neg.add_right _
theorem NF.mul_left {a : Fx} (h : NF a) (b : Fx) : NF (mul fl a b) := by
  rcases h.cases with rfl | ⟨s, rfl⟩
  · rw [nan_mul']; exact nf_nan
  · rcases b with _ | t | y
    · exact nf_nan
    · exact nf_inf _
    · unfold mul; dsimp only; split
      · exact nf_nan
      · exact nf_inf _
theorem NF.mul_right {b : Fx} (h : NF b) (a : Fx) : NF (mul fl a b) := by
  rcases h.cases with rfl | ⟨s, rfl⟩
  · rw [mul_nan']; exact nf_nan
  · rcases a with _ | t | y
    · exact nf_nan
    · exact nf_inf _
    · unfold mul; dsimp only; split
      · exact nf_nan
      · exact nf_inf _
theorem NF.div_left {a : Fx} (h : NF a) (b : Fx) : NF (div fl a b) := by
  rcases h.cases with rfl | ⟨s, rfl⟩
  · rw [nan_div']; exact nf_nan
  · rcases b with _ | t | y
    · exact nf_nan
    · exact nf_nan
    · exact nf_inf _
theorem nf_div_zero (a : Fx) : NF (div fl a (.fin 0)) := by
  rcases a with _ | t | y
  · exact nf_nan
  · exact nf_inf _
  · unfold div; dsimp only; rw [if_pos rfl]; split
    · exact nf_nan
    · exact nf_inf _
theorem NF.sqrt {a : Fx} (h : NF a) : NF (sqrt fl a) := by
  rcases h.cases with rfl | ⟨s, rfl⟩
  · exact nf_nan
  · unfold Fx.sqrt; dsimp only; split
    · exact nf_nan
    · exact nf_inf _

theorem Tracks.neg {a : Fx} {x : ℝ} (h : Tracks a x) : Tracks a.neg (-x) := by
  rcases h.cases with rfl | h
  · exact tracks_fin _
  · exact h.neg.tracks _
theorem Tracks.abs {a : Fx} {x : ℝ} (h : Tracks a x) : Tracks a.abs |x| := by
  rcases h.cases with rfl | h
  · exact tracks_fin _
  · exact h.abs.tracks _
theorem Tracks.add (hf : Overflows fl fl₀) {a b : Fx} {x y : ℝ} (ha : Tracks a x) (hb : Tracks b y) : Tracks (add fl a b) (fl₀ (x + y)) := by
  rcases ha.cases with rfl | ha
  · rcases hb.cases with rfl | hb
    · exact hf.tracks _
    · exact (hb.add_right _).tracks _
  · exact (ha.add_left _).tracks _
theorem Tracks.sub (hf : Overflows fl fl₀) {a b : Fx} {x y : ℝ} (ha : Tracks a x) (hb : Tracks b y) : Tracks (sub fl a b) (fl₀ (x - y)) := by
  rw [sub_eq_add_neg]; exact ha.add hf hb.neg
theorem Tracks.mul (hf : Overflows fl fl₀) {a b : Fx} {x y : ℝ} (ha : Tracks a x) (hb : Tracks b y) : Tracks (mul fl a b) (fl₀ (x * y)) := by
  rcases ha.cases with rfl | ha
  · rcases hb.cases with rfl | hb
    · exact hf.tracks _
    · exact (hb.mul_right _).tracks _
  · exact (ha.mul_left _).tracks _
theorem Tracks.div (hf : Overflows fl fl₀) {a : Fx} {x : ℝ} (ha : Tracks a x) (y : ℝ) : Tracks (div fl a (.fin y)) (fl₀ (x / y)) := by
  rcases ha.cases with rfl | ha
  · by_cases hy : y = 0
    · subst hy; exact (nf_div_zero _).tracks _
    · unfold Fx.div; dsimp only; rw [if_neg hy]; exact hf.tracks _
  · exact (ha.div_left _).tracks _
theorem Tracks.sqrt (hf : Overflows fl fl₀) {a : Fx} {x : ℝ} (ha : Tracks a x) : Tracks (sqrt fl a) (fl₀ (Real.sqrt x)) := by
  rcases ha.cases with rfl | ha
  · unfold Fx.sqrt; dsimp only; split
    · exact nf_nan.tracks _
    · exact hf.tracks _
  · exact ha.sqrt.tracks _

/-! ## Fused operations -/

theorem IsMulAdd.nf {op : Fx → Fx → Fx → Fx} (h : IsMulAdd fl op) {a b d : Fx} (hn : NF a ∨ NF b ∨ NF d) : NF (op a b d) := by
  rcases h a b d with e | e <;> rw [e] <;> rcases hn with hn | hn | hn
  · exact (hn.mul_left _).add_left _
  · exact (hn.mul_right _).add_left _
  · exact hn.add_right _
  · exact (hn.mul_left _).add_left _
  · exact (hn.mul_right _).add_left _
  · exact hn.add_right _

theorem IsMulSub.nf {op : Fx → Fx → Fx → Fx} (h : IsMulSub fl op) {a b d : Fx} (hn : NF a ∨ NF b ∨ NF d) : NF (op a b d) := by
  rcases h a b d with e | e <;> rw [e] <;> rcases hn with hn | hn | hn
  · exact hn.sub_left _
  · exact (hn.mul_left _).sub_right _
  · exact (hn.mul_right _).sub_right _
  · exact hn.sub_left _
  · exact (hn.mul_left _).sub_right _
  · exact (hn.mul_right _).sub_right _

theorem IsProdDiff.nf {pd : Fx → Fx → Fx → Fx → Fx} (h : IsProdDiff fl pd) {a b c d : Fx} (hn : NF a ∨ NF b ∨ NF c ∨ NF d) : NF (pd a b c d) := by
  rcases h a b c d with e | e | e <;> rw [e] <;> rcases hn with hn | hn | hn | hn
  all_goals first
    | exact (hn.mul_left _).sub_left _
    | exact (hn.mul_right _).sub_left _
    | exact (hn.mul_left _).sub_right _
    | exact (hn.mul_right _).sub_right _

/-- A real operation that agrees with `op` on finite numbers as far as `op` is finite there. -/
theorem IsMulAdd.real (hf : Overflows fl fl₀) {op : Fx → Fx → Fx → Fx} (h : IsMulAdd fl op) :
    ∃ op₀, Fl.IsMulAdd fl₀ op₀ ∧ ∀ a b d x y z, Tracks a x → Tracks b y → Tracks d z → Tracks (op a b d) (op₀ x y z) := by
  have key : ∀ x y z, ∃ w, (w = fl₀ (fl₀ (x * y) + z) ∨ w = fl₀ (x * y + z)) ∧ Tracks (op (.fin x) (.fin y) (.fin z)) w := by
    intro x y z
    rcases h (.fin x) (.fin y) (.fin z) with e | e
    · exact ⟨_, Or.inl rfl, by rw [e]; exact ((tracks_fin x).mul hf (tracks_fin y)).add hf (tracks_fin z)⟩
    · exact ⟨_, Or.inr rfl, by rw [e]; exact ((tracks_fin x).mul Overflows.id (tracks_fin y)).add hf (tracks_fin z)⟩
  choose op₀ h1 h2 using key
  refine ⟨op₀, h1, fun a b d x y z ha hb hd => ?_⟩
  rcases ha.cases with rfl | ha
  · rcases hb.cases with rfl | hb
    · rcases hd.cases with rfl | hd
      · exact h2 x y z
      · exact (h.nf (Or.inr (Or.inr hd))).tracks _
    · exact (h.nf (Or.inr (Or.inl hb))).tracks _
  · exact (h.nf (Or.inl ha)).tracks _

theorem IsMulSub.real (hf : Overflows fl fl₀) {op : Fx → Fx → Fx → Fx} (h : IsMulSub fl op) :
    ∃ op₀, Fl.IsMulSub fl₀ op₀ ∧ ∀ a b d x y z, Tracks a x → Tracks b y → Tracks d z → Tracks (op a b d) (op₀ x y z) := by
  have key : ∀ x y z, ∃ w, (w = fl₀ (x - fl₀ (y * z)) ∨ w = fl₀ (x - y * z)) ∧ Tracks (op (.fin x) (.fin y) (.fin z)) w := by
    intro x y z
    rcases h (.fin x) (.fin y) (.fin z) with e | e
    · exact ⟨_, Or.inl rfl, by rw [e]; exact (tracks_fin x).sub hf ((tracks_fin y).mul hf (tracks_fin z))⟩
    · exact ⟨_, Or.inr rfl, by rw [e]; exact (tracks_fin x).sub hf ((tracks_fin y).mul Overflows.id (tracks_fin z))⟩
  choose op₀ h1 h2 using key
  refine ⟨op₀, h1, fun a b d x y z ha hb hd => ?_⟩
  rcases ha.cases with rfl | ha
  · rcases hb.cases with rfl | hb
    · rcases hd.cases with rfl | hd
      · exact h2 x y z
      · exact (h.nf (Or.inr (Or.inr hd))).tracks _
    · exact (h.nf (Or.inr (Or.inl hb))).tracks _
  · exact (h.nf (Or.inl ha)).tracks _

theorem IsProdDiff.real (hf : Overflows fl fl₀) {pd : Fx → Fx → Fx → Fx → Fx} (h : IsProdDiff fl pd) :
    ∃ pd₀, Fl.IsProdDiff fl₀ pd₀ ∧ ∀ a b c d x y z w, Tracks a x → Tracks b y → Tracks c z → Tracks d w → Tracks (pd a b c d) (pd₀ x y z w) := by
  have key : ∀ x y z w, ∃ v, (v = fl₀ (fl₀ (x * y) - fl₀ (z * w)) ∨ v = fl₀ (x * y - fl₀ (z * w)) ∨ v = fl₀ (fl₀ (x * y) - z * w)) ∧
      Tracks (pd (.fin x) (.fin y) (.fin z) (.fin w)) v := by
    intro x y z w
    rcases h (.fin x) (.fin y) (.fin z) (.fin w) with e | e | e
    · exact ⟨_, Or.inl rfl, by rw [e]; exact ((tracks_fin x).mul hf (tracks_fin y)).sub hf ((tracks_fin z).mul hf (tracks_fin w))⟩
    · exact ⟨_, Or.inr (Or.inl rfl), by rw [e]; exact ((tracks_fin x).mul Overflows.id (tracks_fin y)).sub hf ((tracks_fin z).mul hf (tracks_fin w))⟩
    · exact ⟨_, Or.inr (Or.inr rfl), by rw [e]; exact ((tracks_fin x).mul hf (tracks_fin y)).sub hf ((tracks_fin z).mul Overflows.id (tracks_fin w))⟩
  choose pd₀ h1 h2 using key
  refine ⟨pd₀, h1, fun a b c d x y z w ha hb hc hd => ?_⟩
  rcases ha.cases with rfl | ha
  · rcases hb.cases with rfl | hb
    · rcases hc.cases with rfl | hc
      · rcases hd.cases with rfl | hd
        · exact h2 x y z w
        · exact (h.nf (Or.inr (Or.inr (Or.inr hd)))).tracks _
      · exact (h.nf (Or.inr (Or.inr (Or.inl hc)))).tracks _
    · exact (h.nf (Or.inr (Or.inl hb))).tracks _
  · exact (h.nf (Or.inl ha)).tracks _

/-- `x`, if finite, is a number of the format. -/
def Rep (fl : ℝ → Fx) (x : Fx) : Prop := ∀ z, x = .fin z → fl z = .fin z

theorem NF.rep {x : Fx} (h : NF x) : Rep fl x := fun z e => absurd e (h z)
theorem _root_.Mathter.Overflows.rep (h : Overflows fl fl₀) (x : ℝ) : Rep fl (fl x) := fun z e => h.idem x z e
theorem rep_add (h : Overflows fl fl₀) (a b : Fx) : Rep fl (add fl a b) := by
  rcases nf_or a with ⟨x, rfl⟩ | ha
  · rcases nf_or b with ⟨y, rfl⟩ | hb
    · exact h.rep _
    · exact (hb.add_right _).rep
  · exact (ha.add_left _).rep
theorem rep_div (h : Overflows fl fl₀) (f0 : fl 0 = .fin 0) (a b : Fx) : Rep fl (div fl a b) := by
  rcases nf_or a with ⟨x, rfl⟩ | ha
  · rcases nf_or b with ⟨y, rfl⟩ | hb
    · by_cases hy : y = 0
      · subst hy; exact (nf_div_zero _).rep
      · unfold Fx.div; dsimp only; rw [if_neg hy]; exact h.rep _
    · rcases hb.cases with rfl | ⟨s, rfl⟩
      · exact nf_nan.rep
      · intro z e; cases e; exact f0
  · exact (ha.div_left _).rep
theorem IsMulSub.rep (hf : Overflows fl fl₀) {op : Fx → Fx → Fx → Fx} (h : IsMulSub fl op) (a b d : Fx) : Rep fl (op a b d) := by
  rcases h a b d with e | e <;> rw [e] <;> exact rep_add hf _ _

end Fx

namespace Ie
open Fx
variable {c : Cfg} {dim n m : ℕ} {p p1 p2 : Bool} {fl : ℝ → Fx} {fl₀ : ℝ → ℝ} {op : Fx → Fx → Fx → Fx} {op₀ : ℝ → ℝ → ℝ → ℝ}

theorem eval_tracks (hf : Overflows fl fl₀) {k : ℕ} (t : RTree k) {b : Fin k → Fx} {b₀ : Fin k → ℝ} (h : ∀ i, Tracks (b i) (b₀ i)) :
    Tracks (t.eval (Fx.add fl) b) (t.eval (fun x y => fl₀ (x + y)) b₀) := by
  induction t with
  | leaf i => exact h i
  | node l r hl hr => exact hl.add hf hr

theorem sum_tracks (hf : Overflows fl fl₀) (tb : RTree (batchSize dim false)) (ts : RTree (dim + 1)) {v : Vec c Fx dim p} {w : Vec c ℝ dim p}
    (h : ∀ i, Tracks (v.get i) (w.get i)) : Tracks (sum fl tb ts v) (Fl.sum fl₀ tb ts w) := by
  unfold sum Fl.sum
  split
  · refine eval_tracks hf tb fun l => ?_
    unfold Vec.fillMasked
    split
    · rename_i e
      exact h ⟨l.val, by omega⟩
    · dsimp only
      split
      · rename_i hl
        exact h ⟨l.val, hl⟩
      · exact tracks_fin 0
  · refine eval_tracks hf ts fun i => ?_
    split
    · exact h _
    · exact tracks_fin 0

theorem dot_tracks (hf : Overflows fl fl₀) (conv : Bool) (tb : RTree (batchSize dim false)) (ts : RTree (dim + 1)) {a : Vec c Fx dim p1} {b : Vec c Fx dim p2}
    {a₀ : Vec c ℝ dim p1} {b₀ : Vec c ℝ dim p2} (ha : ∀ i, Tracks (a.get i) (a₀.get i)) (hb : ∀ i, Tracks (b.get i) (b₀.get i)) :
    Tracks (dot fl conv tb ts a b) (Fl.dot fl₀ conv tb ts a₀ b₀) :=
  sum_tracks hf tb ts fun i => by
    simp only [Fl.mul, Vec.get_doBinary]
    exact (ha i).mul hf (hb i)

theorem vsum_tracks (hf : Overflows fl fl₀) (tb : RTree (batchSize dim false)) (ts : RTree (dim + 1)) {v : Fin dim → Fx} {w : Fin dim → ℝ}
    (h : ∀ i, Tracks (v i) (w i)) : Tracks (vsum c p fl tb ts v) (Fl.vsum c p fl₀ tb ts w) :=
  sum_tracks hf tb ts fun i => by simp only [Vec.get_ofFn]; exact h i

/-! ## Triangular solvers -/

private theorem sub_zero_right (hop : IsMulSub fl op) (f0 : fl 0 = .fin 0) {a : ℝ} (ha : fl a = .fin a) (b : ℝ) : op (.fin a) (.fin b) (.fin 0) = .fin a := by
  rcases hop (.fin a) (.fin b) (.fin 0) with e | e <;> rw [e]
  · have : mul fl (.fin b) (.fin 0) = .fin 0 := by unfold Fx.mul; dsimp only; rw [mul_zero, f0]
    rw [this]; unfold Fx.sub Fx.add Fx.neg; dsimp only; rw [neg_zero, add_zero, ha]
  · have : mul .fin (.fin b) (.fin 0) = .fin 0 := by unfold Fx.mul; dsimp only; rw [mul_zero]
    rw [this]; unfold Fx.sub Fx.add Fx.neg; dsimp only; rw [neg_zero, add_zero, ha]

private theorem sub_self_one (hop : IsMulSub fl op) (f0 : fl 0 = .fin 0) {a : ℝ} (ha : fl a = .fin a) : op (.fin a) (.fin a) (.fin 1) = .fin 0 := by
  rcases hop (.fin a) (.fin a) (.fin 1) with e | e <;> rw [e]
  · have : mul fl (.fin a) (.fin 1) = .fin a := by unfold Fx.mul; dsimp only; rw [mul_one, ha]
    rw [this]; unfold Fx.sub Fx.add Fx.neg; dsimp only; rw [add_neg_cancel, f0]
  · have : mul .fin (.fin a) (.fin 1) = .fin a := by unfold Fx.mul; dsimp only; rw [mul_one]
    rw [this]; unfold Fx.sub Fx.add Fx.neg; dsimp only; rw [add_neg_cancel, f0]

/-- The states of both evaluations after the rows of `F` have been solved for. -/
structure TriLink (A : Matrix (Fin n) (Fin n) ℝ) (F : Finset (Fin n)) (A1 : Matrix (Fin n) (Fin n) Fx) (b1 : Matrix (Fin n) (Fin m) Fx)
    (A2 : Matrix (Fin n) (Fin n) ℝ) (b2 : Matrix (Fin n) (Fin m) ℝ) : Prop where
  zero1 : ∀ i j, i ∉ F → j ∈ F → A1 i j = .fin 0
  same1 : ∀ i j, i ∉ F → j ∉ F → A1 i j = .fin (A i j)
  zero2 : ∀ i j, i ∉ F → j ∈ F → A2 i j = 0
  same2 : ∀ i j, i ∉ F → j ∉ F → A2 i j = A i j
  rhs : ∀ i j, Tracks (b1 i j) (b2 i j)

theorem TriLink.step (hf : Overflows fl fl₀) (hop : IsMulSub fl op) (hop₀ : Fl.IsMulSub fl₀ op₀)
    (hl : ∀ a b d x y z, Tracks a x → Tracks b y → Tracks d z → Tracks (op a b d) (op₀ x y z)) (f0 : fl 0 = .fin 0) (f1 : fl 1 = .fin 1)
    {A : Matrix (Fin n) (Fin n) ℝ} (hA : ∀ i j, fl (A i j) = .fin (A i j)) {F : Finset (Fin n)} {A1 : Matrix (Fin n) (Fin n) Fx} {b1 : Matrix (Fin n) (Fin m) Fx}
    {A2 : Matrix (Fin n) (Fin n) ℝ} {b2 : Matrix (Fin n) (Fin m) ℝ} (inv : TriLink A F A1 b1 A2 b2) {row : Fin n} (hrow : row ∉ F)
    (hz : ∀ j, j ∉ F → j ≠ row → A row j = 0) (hd : A row row ≠ 0)
    {A1' : Matrix (Fin n) (Fin n) Fx} {b1' : Matrix (Fin n) (Fin m) Fx} {A2' : Matrix (Fin n) (Fin n) ℝ} {b2' : Matrix (Fin n) (Fin m) ℝ}
    (hA1 : ∀ i j, i ∉ F → i ≠ row → A1' i j = op (A1 i j) (A1 i row) (Fx.div fl (A1 row j) (A1 row row)))
    (hb1 : ∀ i j, b1' i j = if i = row then Fx.div fl (b1 row j) (A1 row row) else if i ∈ F then b1 i j
      else op (b1 i j) (A1 i row) (Fx.div fl (b1 row j) (A1 row row)))
    (hA2 : ∀ i j, i ∉ F → i ≠ row → A2' i j = op₀ (A2 i j) (A2 i row) (fl₀ (A2 row j / A2 row row)))
    (hb2 : ∀ i j, b2' i j = if i = row then fl₀ (b2 row j / A2 row row) else if i ∈ F then b2 i j
      else op₀ (b2 i j) (A2 i row) (fl₀ (b2 row j / A2 row row))) :
    TriLink A (insert row F) A1' b1' A2' b2' := by
  have r1 : A1 row row = .fin (A row row) := inv.same1 row row hrow hrow
  have r2 : A2 row row = A row row := inv.same2 row row hrow hrow
  have g0 := hf.fix f0
  have g1 := hf.fix f1
  have hg := fun i j => hf.fix (hA i j)
  have n1 : ∀ j, Fx.div fl (A1 row j) (A1 row row) = .fin (if j = row then 1 else 0) := fun j => by
    rw [r1]
    by_cases hj : j = row
    · subst hj; rw [if_pos rfl, r1]; unfold Fx.div; dsimp only; rw [if_neg hd, div_self hd, f1]
    · rw [if_neg hj]
      have : A1 row j = .fin 0 := by
        by_cases hF : j ∈ F
        · exact inv.zero1 row j hrow hF
        · rw [inv.same1 row j hrow hF, hz j hF hj]
      rw [this]; unfold Fx.div; dsimp only; rw [if_neg hd, zero_div, f0]
  have n2 : ∀ j, fl₀ (A2 row j / A2 row row) = if j = row then 1 else 0 := fun j => by
    rw [r2]
    by_cases hj : j = row
    · subst hj; rw [if_pos rfl, r2, div_self hd, g1]
    · rw [if_neg hj]
      have : A2 row j = 0 := by
        by_cases hF : j ∈ F
        · exact inv.zero2 row j hrow hF
        · rw [inv.same2 row j hrow hF, hz j hF hj]
      rw [this, zero_div, g0]
  have hdiv : ∀ j, Tracks (Fx.div fl (b1 row j) (A1 row row)) (fl₀ (b2 row j / A2 row row)) := fun j => by
    rw [r1, r2]; exact (inv.rhs row j).div hf _
  refine ⟨fun i j hi hj => ?_, fun i j hi hj => ?_, fun i j hi hj => ?_, fun i j hi hj => ?_, fun i j => ?_⟩
  · rw [Finset.mem_insert, not_or] at hi
    rw [hA1 i j hi.2 hi.1, n1, inv.same1 i row hi.2 hrow]
    by_cases hjr : j = row
    · subst hjr
      rw [if_pos rfl, inv.same1 i j hi.2 hrow]
      exact sub_self_one hop f0 (hA i j)
    · rw [if_neg hjr, inv.zero1 i j hi.2 ((Finset.mem_insert.1 hj).resolve_left hjr)]
      exact sub_zero_right hop f0 f0 _
  · rw [Finset.mem_insert, not_or] at hi hj
    rw [hA1 i j hi.2 hi.1, n1, if_neg hj.1, inv.same1 i j hi.2 hj.2, inv.same1 i row hi.2 hrow]
    exact sub_zero_right hop f0 (hA i j) _
  · rw [Finset.mem_insert, not_or] at hi
    rw [hA2 i j hi.2 hi.1, n2]
    by_cases hjr : j = row
    · subst hjr
      rw [if_pos rfl]
      exact hop₀.self g0 (by rw [inv.same2 i j hi.2 hrow]; exact hg i j)
    · rw [if_neg hjr]
      have hjF := (Finset.mem_insert.1 hj).resolve_left hjr
      rw [hop₀.zero_right g0 (by rw [inv.zero2 i j hi.2 hjF]; exact g0)]
      exact inv.zero2 i j hi.2 hjF
  · rw [Finset.mem_insert, not_or] at hi hj
    rw [hA2 i j hi.2 hi.1, n2, if_neg hj.1, hop₀.zero_right g0 (by rw [inv.same2 i j hi.2 hj.2]; exact hg i j)]
    exact inv.same2 i j hi.2 hj.2
  · rw [hb1, hb2]
    by_cases h1 : i = row
    · rw [if_pos h1, if_pos h1]; exact hdiv j
    · rw [if_neg h1, if_neg h1]
      by_cases h2 : i ∈ F
      · rw [if_pos h2, if_pos h2]; exact inv.rhs i j
      · rw [if_neg h2, if_neg h2]
        refine hl _ _ _ _ _ _ (inv.rhs i j) ?_ (hdiv j)
        rw [inv.same1 i row h2 hrow, inv.same2 i row h2 hrow]
        exact tracks_fin _

theorem solveUpper_nf (hop : IsMulSub fl op) (A : Matrix (Fin n) (Fin n) Fx) (b : Matrix (Fin n) (Fin m) Fx) {i : Fin n} {j : Fin m} (h : NF (b i j)) :
    NF (solveUpper fl op A b i j) := by
  unfold solveUpper
  refine forDown_inv (n := n) (body := fun row => solveUpperStep fl op row) (s := (A, b)) (fun _ s => NF (s.2 i j)) h fun row s hs => ?_
  rw [solveUpperStep_eq]
  simp only [Matrix.of_apply]
  split
  · rename_i e; rw [← e]; exact hs.div_left _
  · split
    · exact hop.nf (Or.inl hs)
    · exact hs

theorem solveLower_nf (hop : IsMulSub fl op) (A : Matrix (Fin n) (Fin n) Fx) (b : Matrix (Fin n) (Fin m) Fx) {i : Fin n} {j : Fin m} (h : NF (b i j)) :
    NF (solveLower fl op A b i j) := by
  unfold solveLower
  refine forUp_inv (n := n) (lo := 0) (body := fun row => solveLowerStep fl op row) (s := (A, b)) (fun _ s => NF (s.2 i j)) (Nat.zero_le _) h fun row s _ hs => ?_
  rw [solveLowerStep_eq]
  simp only [Matrix.of_apply]
  split
  · rename_i e; rw [← e]; exact hs.div_left _
  · split
    · exact hop.nf (Or.inl hs)
    · exact hs

/-- If a column of the result is finite, then no divisor was zero, and it is the one of the rounded evaluation. -/
theorem solveUpper_finite (hf : Overflows fl fl₀) (hop : IsMulSub fl op) (hop₀ : Fl.IsMulSub fl₀ op₀)
    (hl : ∀ a b d x y z, Tracks a x → Tracks b y → Tracks d z → Tracks (op a b d) (op₀ x y z)) (f0 : fl 0 = .fin 0) (f1 : fl 1 = .fin 1)
    {A : Matrix (Fin n) (Fin n) ℝ} (hA : ∀ i j, fl (A i j) = .fin (A i j)) (ht : ∀ i j, j < i → A i j = 0)
    {b : Matrix (Fin n) (Fin m) Fx} {b₀ : Matrix (Fin n) (Fin m) ℝ} (hb : ∀ i j, Tracks (b i j) (b₀ i j)) (j : Fin m)
    (hx : ∀ i, ¬NF (solveUpper fl op (A.map Fx.fin) b i j)) :
    (∀ i, A i i ≠ 0) ∧ ∃ X, Fl.solveUpper fl₀ op₀ A b₀ = some X ∧ ∀ i q, Tracks (solveUpper fl op (A.map Fx.fin) b i q) (X i q) := by
  have := forDown_rel (n := n) (body := fun row => solveUpperStep fl op row)
    (body' := fun row (s : Option (Matrix (Fin n) (Fin n) ℝ × Matrix (Fin n) (Fin m) ℝ)) => s.bind (Fl.solveUpperStep fl₀ op₀ row))
    (s := (A.map Fx.fin, b)) (t := some (A, b₀))
    (fun k s t => (∃ i, NF (s.2 i j)) ∨ ∃ A2 b2, t = some (A2, b2) ∧ TriLink A (Finset.univ.filter fun i => k ≤ i.val) s.1 s.2 A2 b2 ∧
      ∀ i : Fin n, k ≤ i.val → A i i ≠ 0) ?_ ?_
  · rcases this with ⟨i, hi⟩ | ⟨A2, b2, e, inv, hd⟩
    · exact absurd hi (hx i)
    · refine ⟨fun i => hd i (Nat.zero_le _), b2, by unfold Fl.solveUpper; rw [e]; rfl, fun i q => inv.rhs i q⟩
  · refine Or.inr ⟨A, b₀, rfl, ?_, fun i hi => absurd i.isLt (by omega)⟩
    have e : (Finset.univ.filter fun i : Fin n => n ≤ i.val) = ∅ := by
      ext i; simp [i.isLt]
    rw [e]
    exact ⟨fun _ _ _ h => absurd h (Finset.notMem_empty _), fun _ _ _ _ => rfl, fun _ _ _ h => absurd h (Finset.notMem_empty _), fun _ _ _ _ => rfl, hb⟩
  · rintro row s t (⟨i, hi⟩ | ⟨A2, b2, rfl, inv, hd⟩)
    · refine Or.inl ⟨i, ?_⟩
      rw [solveUpperStep_eq]
      simp only [Matrix.of_apply]
      split
      · rename_i e; rw [← e]; exact hi.div_left _
      · split
        · exact hop.nf (Or.inl hi)
        · exact hi
    · have hr : row ∉ Finset.univ.filter fun i : Fin n => row.val + 1 ≤ i.val := by simp
      have r1 := inv.same1 row row hr hr
      have r2 := inv.same2 row row hr hr
      by_cases h0 : A row row = 0
      · refine Or.inl ⟨row, ?_⟩
        rw [solveUpperStep_eq]
        simp only [Matrix.of_apply]
        rw [if_pos trivial, r1, h0]
        exact nf_div_zero _
      · refine Or.inr ⟨_, _, by rw [Option.bind_some, Fl.solveUpperStep_eq fl₀ op₀ row A2 b2 (by rw [r2]; exact h0)], ?_, fun i hi => ?_⟩
        · have e : (Finset.univ.filter fun i : Fin n => row.val ≤ i.val) = insert row (Finset.univ.filter fun i : Fin n => row.val + 1 ≤ i.val) := by
            ext i
            simp only [Finset.mem_filter, Finset.mem_univ, true_and, Finset.mem_insert, Fin.ext_iff]
            omega
          rw [e, solveUpperStep_eq]
          refine inv.step hf hop hop₀ hl f0 f1 hA hr (fun q hq hqr => ?_) h0 (fun i q hi hir => ?_) (fun i q => ?_) (fun i q hi hir => ?_) (fun i q => ?_)
          · refine ht row q (Fin.lt_def.2 ?_)
            have : q.val ≠ row.val := fun h => hqr (Fin.ext h)
            simp only [Finset.mem_filter, Finset.mem_univ, true_and] at hq
            omega
          · have : i.val ≠ row.val := fun h => hir (Fin.ext h)
            simp only [Finset.mem_filter, Finset.mem_univ, true_and] at hi
            simp only [Matrix.of_apply]
            rw [if_neg hir, if_pos (Fin.lt_def.2 (by omega))]
          · simp only [Matrix.of_apply, Finset.mem_filter, Finset.mem_univ, true_and]
            by_cases h1 : i = row
            · rw [if_pos h1, if_pos h1]
            · have : i.val ≠ row.val := fun h => h1 (Fin.ext h)
              rw [if_neg h1, if_neg h1]
              by_cases h2 : i < row
              · rw [if_pos h2, if_neg (by have := Fin.lt_def.1 h2; omega)]
              · rw [if_neg h2, if_pos (by have := Fin.lt_def.not.1 h2; omega)]
          · have : i.val ≠ row.val := fun h => hir (Fin.ext h)
            simp only [Finset.mem_filter, Finset.mem_univ, true_and] at hi
            simp only [Matrix.of_apply]
            rw [if_neg hir, if_pos (Fin.lt_def.2 (by omega))]
          · simp only [Matrix.of_apply, Finset.mem_filter, Finset.mem_univ, true_and]
            by_cases h1 : i = row
            · rw [if_pos h1, if_pos h1]
            · have : i.val ≠ row.val := fun h => h1 (Fin.ext h)
              rw [if_neg h1, if_neg h1]
              by_cases h2 : i < row
              · rw [if_pos h2, if_neg (by have := Fin.lt_def.1 h2; omega)]
              · rw [if_neg h2, if_pos (by have := Fin.lt_def.not.1 h2; omega)]
        · rcases Nat.lt_or_ge row.val i.val with h | h
          · exact hd i h
          · have : i = row := Fin.ext (by omega)
            rw [this]; exact h0

/-- The same for `solveLower`. -/
theorem solveLower_finite (hf : Overflows fl fl₀) (hop : IsMulSub fl op) (hop₀ : Fl.IsMulSub fl₀ op₀)
    (hl : ∀ a b d x y z, Tracks a x → Tracks b y → Tracks d z → Tracks (op a b d) (op₀ x y z)) (f0 : fl 0 = .fin 0) (f1 : fl 1 = .fin 1)
    {A : Matrix (Fin n) (Fin n) ℝ} (hA : ∀ i j, fl (A i j) = .fin (A i j)) (ht : ∀ i j, i < j → A i j = 0)
    {b : Matrix (Fin n) (Fin m) Fx} {b₀ : Matrix (Fin n) (Fin m) ℝ} (hb : ∀ i j, Tracks (b i j) (b₀ i j)) (j : Fin m)
    (hx : ∀ i, ¬NF (solveLower fl op (A.map Fx.fin) b i j)) :
    (∀ i, A i i ≠ 0) ∧ ∃ X, Fl.solveLower fl₀ op₀ A b₀ = some X ∧ ∀ i q, Tracks (solveLower fl op (A.map Fx.fin) b i q) (X i q) := by
  have := forUp_rel_idx (n := n) (lo := 0) (body := fun row => solveLowerStep fl op row)
    (body' := fun row (s : Option (Matrix (Fin n) (Fin n) ℝ × Matrix (Fin n) (Fin m) ℝ)) => s.bind (Fl.solveLowerStep fl₀ op₀ row))
    (s := (A.map Fx.fin, b)) (t := some (A, b₀))
    (fun k s t => (∃ i, NF (s.2 i j)) ∨ ∃ A2 b2, t = some (A2, b2) ∧ TriLink A (Finset.univ.filter fun i => i.val < k) s.1 s.2 A2 b2 ∧
      ∀ i : Fin n, i.val < k → A i i ≠ 0) (Nat.zero_le _) ?_ ?_
  · rcases this with ⟨i, hi⟩ | ⟨A2, b2, e, inv, hd⟩
    · exact absurd hi (hx i)
    · refine ⟨fun i => hd i i.isLt, b2, by unfold Fl.solveLower; rw [e]; rfl, fun i q => inv.rhs i q⟩
  · refine Or.inr ⟨A, b₀, rfl, ?_, fun i hi => absurd hi (by omega)⟩
    have e : (Finset.univ.filter fun i : Fin n => i.val < 0) = ∅ := by
      ext i; simp
    rw [e]
    exact ⟨fun _ _ _ h => absurd h (Finset.notMem_empty _), fun _ _ _ _ => rfl, fun _ _ _ h => absurd h (Finset.notMem_empty _), fun _ _ _ _ => rfl, hb⟩
  · rintro row s t - (⟨i, hi⟩ | ⟨A2, b2, rfl, inv, hd⟩)
    · refine Or.inl ⟨i, ?_⟩
      rw [solveLowerStep_eq]
      simp only [Matrix.of_apply]
      split
      · rename_i e; rw [← e]; exact hi.div_left _
      · split
        · exact hop.nf (Or.inl hi)
        · exact hi
    · have hr : row ∉ Finset.univ.filter fun i : Fin n => i.val < row.val := by simp
      have r1 := inv.same1 row row hr hr
      have r2 := inv.same2 row row hr hr
      by_cases h0 : A row row = 0
      · refine Or.inl ⟨row, ?_⟩
        rw [solveLowerStep_eq]
        simp only [Matrix.of_apply]
        rw [if_pos trivial, r1, h0]
        exact nf_div_zero _
      · refine Or.inr ⟨_, _, by rw [Option.bind_some, Fl.solveLowerStep_eq fl₀ op₀ row A2 b2 (by rw [r2]; exact h0)], ?_, fun i hi => ?_⟩
        · have e : (Finset.univ.filter fun i : Fin n => i.val < row.val + 1) = insert row (Finset.univ.filter fun i : Fin n => i.val < row.val) := by
            ext i
            simp only [Finset.mem_filter, Finset.mem_univ, true_and, Finset.mem_insert, Fin.ext_iff]
            omega
          rw [e, solveLowerStep_eq]
          refine inv.step hf hop hop₀ hl f0 f1 hA hr (fun q hq hqr => ?_) h0 (fun i q hi hir => ?_) (fun i q => ?_) (fun i q hi hir => ?_) (fun i q => ?_)
          · refine ht row q (Fin.lt_def.2 ?_)
            have : q.val ≠ row.val := fun h => hqr (Fin.ext h)
            simp only [Finset.mem_filter, Finset.mem_univ, true_and] at hq
            omega
          · have : i.val ≠ row.val := fun h => hir (Fin.ext h)
            simp only [Finset.mem_filter, Finset.mem_univ, true_and] at hi
            simp only [Matrix.of_apply]
            rw [if_neg hir, if_pos (Fin.lt_def.2 (by omega))]
          · simp only [Matrix.of_apply, Finset.mem_filter, Finset.mem_univ, true_and]
            by_cases h1 : i = row
            · rw [if_pos h1, if_pos h1]
            · have : i.val ≠ row.val := fun h => h1 (Fin.ext h)
              rw [if_neg h1, if_neg h1]
              by_cases h2 : row < i
              · rw [if_pos h2, if_neg (by have := Fin.lt_def.1 h2; omega)]
              · rw [if_neg h2, if_pos (by have := Fin.lt_def.not.1 h2; omega)]
          · have : i.val ≠ row.val := fun h => hir (Fin.ext h)
            simp only [Finset.mem_filter, Finset.mem_univ, true_and] at hi
            simp only [Matrix.of_apply]
            rw [if_neg hir, if_pos (Fin.lt_def.2 (by omega))]
          · simp only [Matrix.of_apply, Finset.mem_filter, Finset.mem_univ, true_and]
            by_cases h1 : i = row
            · rw [if_pos h1, if_pos h1]
            · have : i.val ≠ row.val := fun h => h1 (Fin.ext h)
              rw [if_neg h1, if_neg h1]
              by_cases h2 : row < i
              · rw [if_pos h2, if_neg (by have := Fin.lt_def.1 h2; omega)]
              · rw [if_neg h2, if_pos (by have := Fin.lt_def.not.1 h2; omega)]
        · rcases Nat.lt_or_ge i.val row.val with h | h
          · exact hd i h
          · have : i = row := Fin.ext (by omega)
            rw [this]; exact h0

/-! ## LU -/

/-- Some element of `U`, or below the diagonal in the finished columns of `L`, is not finite. -/
def LuNf (L U : Matrix (Fin n) (Fin n) Fx) (k : ℕ) : Prop :=
  (∃ i j, NF (U i j)) ∨ ∃ i j : Fin n, j < i ∧ j.val < k ∧ NF (L i j)

theorem LuNf.step (hop : IsMulSub fl op) {s : LU Fx n} {col : Fin n} (h : LuNf s.L s.U col.val) (pr : Fin n → Fx) :
    LuNf (forUp n (col.val + 1) (fun row => luElim fl op col row pr) s).L (forUp n (col.val + 1) (fun row => luElim fl op col row pr) s).U (col.val + 1) := by
  rw [luElim_loop]
  rcases h with ⟨i, j, h⟩ | ⟨i, j, h1, h2, h3⟩
  · by_cases hi : col < i
    · by_cases hj : j = col
      · subst hj
        refine Or.inr ⟨i, j, hi, by omega, ?_⟩
        simp only [Matrix.of_apply]
        rw [if_pos ⟨hi, trivial⟩]
        exact h.div_left _
      · refine Or.inl ⟨i, j, ?_⟩
        simp only [Matrix.of_apply]
        rw [if_pos hi, if_neg hj]
        exact hop.nf (Or.inl h)
    · refine Or.inl ⟨i, j, ?_⟩
      simp only [Matrix.of_apply]
      rw [if_neg hi]
      exact h
  · refine Or.inr ⟨i, j, h1, by omega, ?_⟩
    simp only [Matrix.of_apply]
    rw [if_neg (by rintro ⟨-, e⟩; subst e; omega)]
    exact h3

/-- Eliminating a column of finite numbers: either something overflows, or the rounded elimination gives the same. -/
theorem luElim_finite (hf : Overflows fl fl₀)
    (hl : ∀ a b d x y z, Tracks a x → Tracks b y → Tracks d z → Tracks (op a b d) (op₀ x y z)) {col : Fin n} (L U : Matrix (Fin n) (Fin n) ℝ) (pr : Fin n → ℝ) :
    LuNf (forUp n (col.val + 1) (fun row => luElim fl op col row fun j => .fin (pr j)) ⟨L.map Fx.fin, U.map Fx.fin⟩).L
        (forUp n (col.val + 1) (fun row => luElim fl op col row fun j => .fin (pr j)) ⟨L.map Fx.fin, U.map Fx.fin⟩).U (col.val + 1) ∨
      (forUp n (col.val + 1) (fun row => luElim fl op col row fun j => .fin (pr j)) ⟨L.map Fx.fin, U.map Fx.fin⟩).L
        = (forUp n (col.val + 1) (fun row => Fl.luElim fl₀ op₀ col row pr) ⟨L, U⟩).L.map Fx.fin ∧
      (forUp n (col.val + 1) (fun row => luElim fl op col row fun j => .fin (pr j)) ⟨L.map Fx.fin, U.map Fx.fin⟩).U
        = (forUp n (col.val + 1) (fun row => Fl.luElim fl₀ op₀ col row pr) ⟨L, U⟩).U.map Fx.fin := by
  rw [luElim_loop, Fl.luElim_loop]
  have tL : ∀ i, Tracks (div fl (.fin (U i col)) (.fin (pr col))) (fl₀ (U i col / pr col)) := fun i => (tracks_fin _).div hf _
  by_cases hbad : LuNf (Matrix.of fun i j => if col < i ∧ j = col then div fl (.fin (U i col)) (.fin (pr col)) else .fin (L i j))
      (Matrix.of fun i j => if col < i then (if j = col then .fin 0 else op (.fin (U i j)) (.fin (pr j)) (div fl (.fin (U i col)) (.fin (pr col)))) else .fin (U i j))
      (col.val + 1)
  · exact Or.inl hbad
  · unfold LuNf at hbad
    push Not at hbad
    obtain ⟨hU, hL⟩ := hbad
    refine Or.inr ⟨?_, ?_⟩
    · ext i j
      simp only [Matrix.of_apply, Matrix.map_apply]
      split
      · rename_i hc
        obtain ⟨h1, rfl⟩ := hc
        have := hL i j h1 (by omega)
        simp only [Matrix.of_apply] at this
        rw [if_pos ⟨h1, trivial⟩] at this
        exact (tL i).cases.resolve_right this
      · rfl
    · ext i j
      simp only [Matrix.of_apply, Matrix.map_apply]
      split
      · split
        · rfl
        · rename_i h1 h2
          have := hU i j
          simp only [Matrix.of_apply] at this
          rw [if_pos h1, if_neg h2] at this
          exact (hl _ _ _ _ _ _ (tracks_fin _) (tracks_fin _) (tL i)).cases.resolve_right this
      · rfl

private theorem one_map : (one : Matrix (Fin n) (Fin n) Fx) = (1 : Matrix (Fin n) (Fin n) ℝ).map Fx.fin := by
  ext i j
  simp only [one, Matrix.of_apply, Matrix.map_apply, Matrix.one_apply]
  split <;> rfl

/-- If all elements of the factors are finite, the rounded `DecomposeLU` succeeds with the same factors. -/
theorem decomposeLU_finite (hf : Overflows fl fl₀) (hop : IsMulSub fl op)
    (hl : ∀ a b d x y z, Tracks a x → Tracks b y → Tracks d z → Tracks (op a b d) (op₀ x y z)) (A : Matrix (Fin (n + 1)) (Fin (n + 1)) ℝ)
    (hx : ¬LuNf (decomposeLU fl op (A.map Fx.fin)).L (decomposeLU fl op (A.map Fx.fin)).U n) :
    ∃ d, Fl.decomposeLU fl₀ op₀ A = some d ∧ (decomposeLU fl op (A.map Fx.fin)).L = d.L.map Fx.fin ∧ (decomposeLU fl op (A.map Fx.fin)).U = d.U.map Fx.fin := by
  classical
  have := forUp_rel_idx (n := n) (lo := 0) (body := fun col (s : LU Fx (n + 1)) =>
      forUp (n + 1) (col.val + 1) (fun row => luElim fl op col.castSucc row (s.U col.castSucc)) s)
    (body' := fun col (s : Option (LU ℝ (n + 1))) => s.bind fun s =>
      let pivotRow := s.U col.castSucc
      if pivotRow col.castSucc = 0 then none
      else some (forUp (n + 1) (col.val + 1) (fun row => Fl.luElim fl₀ op₀ col.castSucc row pivotRow) s))
    (s := ⟨one, A.map Fx.fin⟩) (t := some ⟨1, A⟩)
    (fun k s t => LuNf s.L s.U k ∨ ∃ L U, t = some ⟨L, U⟩ ∧ s = ⟨L.map Fx.fin, U.map Fx.fin⟩) (Nat.zero_le _) ?_ ?_
  · rcases this with h | ⟨L, U, e1, e2⟩
    · exact absurd h hx
    · refine ⟨⟨L, U⟩, ?_, ?_, ?_⟩
      · rw [← e1]; unfold Fl.decomposeLU; congr 1
      · unfold decomposeLU; exact congrArg LU.L e2
      · unfold decomposeLU; exact congrArg LU.U e2
  · exact Or.inr ⟨1, A, rfl, by rw [one_map]⟩
  · rintro col s t - (h | ⟨L, U, rfl, rfl⟩)
    · exact Or.inl (h.step (col := col.castSucc) hop _)
    · by_cases h0 : U col.castSucc col.castSucc = 0
      · left
        rw [show col.val + 1 = col.castSucc.val + 1 from rfl, luElim_loop]
        refine Or.inr ⟨col.succ, col.castSucc, Fin.castSucc_lt_succ, by simp, ?_⟩
        simp only [Matrix.of_apply, Matrix.map_apply]
        rw [if_pos ⟨Fin.castSucc_lt_succ, trivial⟩, h0]
        exact nf_div_zero _
      · rcases luElim_finite (col := col.castSucc) hf hl L U (U col.castSucc) with h | ⟨e1, e2⟩
        · exact Or.inl h
        · refine Or.inr ⟨(forUp (n + 1) (col.castSucc.val + 1) (fun row => Fl.luElim fl₀ op₀ col.castSucc row (U col.castSucc)) ⟨L, U⟩).L,
            (forUp (n + 1) (col.castSucc.val + 1) (fun row => Fl.luElim fl₀ op₀ col.castSucc row (U col.castSucc)) ⟨L, U⟩).U, ?_, ?_⟩
          · rw [Option.bind_some]
            simp only [h0, if_false]
            rfl
          · rw [← e1, ← e2]; rfl

private theorem maxElementIdx_fin (a : Fin n → ℝ) (lo : Fin n) : maxElementIdx (fun i => .fin (a i)) lo = Mathter.maxElementIdx a lo := by
  unfold maxElementIdx Mathter.maxElementIdx
  refine forUp_congr fun i b => ?_
  simp only [Fx.lt, decide_eq_true_eq]

/-- If all elements of the factors are finite, the rounded `DecomposeLUP` has the same factors and the same permutation. -/
theorem decomposeLUP_finite (hf : Overflows fl fl₀) (hop : IsMulSub fl op)
    (hl : ∀ a b d x y z, Tracks a x → Tracks b y → Tracks d z → Tracks (op a b d) (op₀ x y z)) (A : Matrix (Fin (n + 1)) (Fin (n + 1)) ℝ)
    (hx : ¬LuNf (decomposeLUP fl op (A.map Fx.fin)).L (decomposeLUP fl op (A.map Fx.fin)).U n) :
    decomposeLUP fl op (A.map Fx.fin)
      = ⟨(Fl.decomposeLUP fl₀ op₀ A).L.map Fx.fin, (Fl.decomposeLUP fl₀ op₀ A).U.map Fx.fin, (Fl.decomposeLUP fl₀ op₀ A).P⟩ := by
  have := forUp_rel_idx (n := n) (lo := 0) (body := fun col => lupStep fl op col.castSucc) (body' := fun col => Fl.lupStep fl₀ op₀ col.castSucc)
    (s := ⟨one, A.map Fx.fin, id⟩) (t := ⟨1, A, id⟩)
    (fun k s t => LuNf s.L s.U k ∨ s = ⟨t.L.map Fx.fin, t.U.map Fx.fin, t.P⟩) (Nat.zero_le _) ?_ ?_
  · exact this.resolve_left hx
  · exact Or.inr (by rw [one_map])
  · rintro col s t - (h | rfl)
    · left
      have hge := maxElementIdx_ge (fun i => (s.U i col.castSucc).abs) col.castSucc
      unfold lupStep
      dsimp only
      generalize maxElementIdx (fun i => (s.U i col.castSucc).abs) col.castSucc = piv at hge ⊢
      split
      · rcases h with h | ⟨i, j, h1, h2, h3⟩
        · exact Or.inl h
        · exact Or.inr ⟨i, j, h1, by omega, h3⟩
      · have hU : (s.U.updateRow piv (s.U col.castSucc)).updateRow col.castSucc (s.U piv) = Matrix.of fun i j => s.U (Equiv.swap col.castSucc piv i) j := by
          ext i j
          simp only [Matrix.updateRow_apply, Matrix.of_apply]
          by_cases h1 : i = col.castSucc
          · simp [h1]
          · by_cases h2 : i = piv
            · simp [h2]
              intro h3; rw [h3]
            · simp [h1, h2, Equiv.swap_apply_of_ne_of_ne h1 h2]
        rw [hU, swapL_loop]
        refine LuNf.step (s := ⟨_, _⟩) (col := col.castSucc) hop ?_ _
        rcases h with ⟨i, j, h⟩ | ⟨i, j, h1, h2, h3⟩
        · exact Or.inl ⟨Equiv.swap col.castSucc piv i, j, by simpa using h⟩
        · have h2' : j < col.castSucc := Fin.lt_def.2 h2
          refine Or.inr ⟨Equiv.swap col.castSucc piv i, j, ?_, h2, ?_⟩
          · by_cases e1 : i = col.castSucc
            · rw [e1, Equiv.swap_apply_left]; exact lt_of_lt_of_le h2' hge
            · by_cases e2 : i = piv
              · rw [e2, Equiv.swap_apply_right]; exact h2'
              · rw [Equiv.swap_apply_of_ne_of_ne e1 e2]; exact h1
          · simp only [Matrix.of_apply]
            rw [if_pos (Fin.lt_def.1 h2'), Equiv.swap_apply_self]
            exact h3
    · have em : maxElementIdx (fun i => ((t.U.map Fx.fin) i col.castSucc).abs) col.castSucc = Mathter.maxElementIdx (fun i => |t.U i col.castSucc|) col.castSucc :=
        maxElementIdx_fin _ _
      unfold lupStep Fl.lupStep
      dsimp only
      rw [em]
      generalize Mathter.maxElementIdx (fun i => |t.U i col.castSucc|) col.castSucc = piv
      by_cases h0 : t.U piv col.castSucc = 0
      · right
        rw [if_pos (by simp [Fx.isZero, h0]), if_neg (by simp [h0])]
      · rw [if_neg (by simp [Fx.isZero, h0]), if_pos h0]
        have e1 : ((t.U.map Fx.fin).updateRow piv ((t.U.map Fx.fin) col.castSucc)).updateRow col.castSucc ((t.U.map Fx.fin) piv)
            = ((t.U.updateRow piv (t.U col.castSucc)).updateRow col.castSucc (t.U piv)).map Fx.fin := by
          ext i j
          simp only [Matrix.updateRow_apply, Matrix.map_apply]
          split
          · rfl
          · split <;> rfl
        rw [e1, swapL_loop, swapL_loop]
        have e2 : (Matrix.of fun r c : Fin (n + 1) => if c.val < col.castSucc.val then (t.L.map Fx.fin) (Equiv.swap col.castSucc piv r) c else (t.L.map Fx.fin) r c)
            = (Matrix.of fun r c : Fin (n + 1) => if c.val < col.castSucc.val then t.L (Equiv.swap col.castSucc piv r) c else t.L r c).map Fx.fin := by
          ext i j
          simp only [Matrix.of_apply, Matrix.map_apply]
          split <;> rfl
        rw [e2]
        rcases luElim_finite (col := col.castSucc) hf hl
          (Matrix.of fun r c : Fin (n + 1) => if c.val < col.castSucc.val then t.L (Equiv.swap col.castSucc piv r) c else t.L r c)
          ((t.U.updateRow piv (t.U col.castSucc)).updateRow col.castSucc (t.U piv)) (t.U piv) with h | ⟨e3, e4⟩
        · exact Or.inl h
        · right
          rw [← e3, ← e4]
          rfl

/-- All elements of the factors are numbers of the format. -/
theorem luElim_rep (hf : Overflows fl fl₀) (hop : IsMulSub fl op) (f0 : fl 0 = .fin 0) {s : LU Fx n} {col : Fin n} (pr : Fin n → Fx)
    (h : (∀ i j, Rep fl (s.L i j)) ∧ ∀ i j, Rep fl (s.U i j)) :
    (∀ i j, Rep fl ((forUp n (col.val + 1) (fun row => luElim fl op col row pr) s).L i j)) ∧
      ∀ i j, Rep fl ((forUp n (col.val + 1) (fun row => luElim fl op col row pr) s).U i j) := by
  rw [luElim_loop]
  constructor
  · intro i j
    simp only [Matrix.of_apply]
    split
    · exact rep_div hf f0 _ _
    · exact h.1 i j
  · intro i j
    simp only [Matrix.of_apply]
    split
    · split
      · intro z e; cases e; exact f0
      · exact hop.rep hf _ _ _
    · exact h.2 i j

private theorem one_rep (f0 : fl 0 = .fin 0) (f1 : fl 1 = .fin 1) (i j : Fin n) : Rep fl ((one : Matrix (Fin n) (Fin n) Fx) i j) := by
  unfold one
  simp only [Matrix.of_apply]
  split
  · intro z e; cases e; exact f1
  · intro z e; cases e; exact f0

theorem decomposeLU_rep (hf : Overflows fl fl₀) (hop : IsMulSub fl op) (f0 : fl 0 = .fin 0) (f1 : fl 1 = .fin 1) {A : Matrix (Fin (n + 1)) (Fin (n + 1)) Fx}
    (hA : ∀ i j, Rep fl (A i j)) : (∀ i j, Rep fl ((decomposeLU fl op A).L i j)) ∧ ∀ i j, Rep fl ((decomposeLU fl op A).U i j) := by
  unfold decomposeLU
  exact forUp_inv (n := n) (lo := 0) (s := (⟨one, A⟩ : LU Fx (n + 1))) (fun _ s => (∀ i j, Rep fl (s.L i j)) ∧ ∀ i j, Rep fl (s.U i j)) (Nat.zero_le _)
    ⟨one_rep f0 f1, hA⟩ fun col s _ hs => luElim_rep (col := col.castSucc) hf hop f0 _ hs

theorem decomposeLUP_rep (hf : Overflows fl fl₀) (hop : IsMulSub fl op) (f0 : fl 0 = .fin 0) (f1 : fl 1 = .fin 1) {A : Matrix (Fin (n + 1)) (Fin (n + 1)) Fx}
    (hA : ∀ i j, Rep fl (A i j)) : (∀ i j, Rep fl ((decomposeLUP fl op A).L i j)) ∧ ∀ i j, Rep fl ((decomposeLUP fl op A).U i j) := by
  unfold decomposeLUP
  refine forUp_inv (n := n) (lo := 0) (body := fun col => lupStep fl op col.castSucc) (s := (⟨one, A, id⟩ : LUP Fx (n + 1)))
    (fun _ s => (∀ i j, Rep fl (s.L i j)) ∧ ∀ i j, Rep fl (s.U i j)) (Nat.zero_le _) ⟨one_rep f0 f1, hA⟩ fun col s _ hs => ?_
  unfold lupStep
  dsimp only
  split
  · exact hs
  · rw [swapL_loop]
    refine luElim_rep (col := col.castSucc) (s := ⟨_, _⟩) hf hop f0 _ ⟨fun i j => ?_, fun i j => ?_⟩
    · simp only [Matrix.of_apply]
      split <;> exact hs.1 _ _
    · simp only [Matrix.updateRow_apply]
      split
      · exact hs.2 _ _
      · split <;> exact hs.2 _ _

/-! ## Determinants and adjugates -/

theorem stripeMul_tracks (hf : Overflows fl fl₀) {a b : Fin n → Fx} {a₀ b₀ : Fin n → ℝ} (ha : ∀ i, Tracks (a i) (a₀ i)) (hb : ∀ i, Tracks (b i) (b₀ i)) (i : Fin n) :
    Tracks (stripeMul fl a b i) (Fl.stripeMul fl₀ a₀ b₀ i) := (ha i).mul hf (hb i)

section
variable {pd : Fx → Fx → Fx → Fx → Fx} {pd₀ : ℝ → ℝ → ℝ → ℝ → ℝ} {madd msub : Fx → Fx → Fx → Fx} {madd₀ msub₀ : ℝ → ℝ → ℝ → ℝ}

theorem vpd_tracks (hpd : ∀ a b c d x y z w, Tracks a x → Tracks b y → Tracks c z → Tracks d w → Tracks (pd a b c d) (pd₀ x y z w)) {a b d e : Fin n → Fx}
    {a₀ b₀ d₀ e₀ : Fin n → ℝ} (ha : ∀ i, Tracks (a i) (a₀ i)) (hb : ∀ i, Tracks (b i) (b₀ i)) (hd : ∀ i, Tracks (d i) (d₀ i)) (he : ∀ i, Tracks (e i) (e₀ i))
    (i : Fin n) : Tracks (vpd pd a b d e i) (Fl.vpd pd₀ a₀ b₀ d₀ e₀ i) := hpd _ _ _ _ _ _ _ _ (ha i) (hb i) (hd i) (he i)

theorem sw_tracks {k : ℕ} {v : Fin n → Fx} {w : Fin n → ℝ} (h : ∀ i, Tracks (v i) (w i)) (idx : Fin k → Fin n) (i : Fin k) : Tracks (sw v idx i) (sw w idx i) := h _

theorem det3_tracks (hf : Overflows fl fl₀) (hpd : ∀ a b c d x y z w, Tracks a x → Tracks b y → Tracks c z → Tracks d w → Tracks (pd a b c d) (pd₀ x y z w))
    (tb : RTree (batchSize 3 false)) (ts : RTree (3 + 1)) {s : Fin 3 → Fin 3 → Fx} {s₀ : Fin 3 → Fin 3 → ℝ} (hs : ∀ i j, Tracks (s i j) (s₀ i j)) :
    Tracks (det3Stripes c p fl pd tb ts s) (Fl.det3Stripes c p fl₀ pd₀ tb ts s₀) :=
  vsum_tracks hf tb ts (stripeMul_tracks hf (sw_tracks (hs 0) _)
    (vpd_tracks hpd (sw_tracks (hs 1) _) (sw_tracks (hs 2) _) (sw_tracks (hs 1) _) (sw_tracks (hs 2) _)))

private theorem signs_tracks {e : Fin 4 → ℝ} (i : Fin 4) : Tracks ((![.fin (e 0), .fin (e 1), .fin (e 2), .fin (e 3)] : Fin 4 → Fx) i) ((![e 0, e 1, e 2, e 3] : Fin 4 → ℝ) i) := by
  fin_cases i <;> exact tracks_fin _

theorem det4_tracks (hf : Overflows fl fl₀) (hpd : ∀ a b c d x y z w, Tracks a x → Tracks b y → Tracks c z → Tracks d w → Tracks (pd a b c d) (pd₀ x y z w))
    (hadd : ∀ a b d x y z, Tracks a x → Tracks b y → Tracks d z → Tracks (madd a b d) (madd₀ x y z))
    (tb3 : RTree (batchSize 3 false)) (ts3 : RTree (3 + 1)) (tb4 : RTree (batchSize 4 false)) (ts4 : RTree (4 + 1)) {s : Fin 4 → Fin 4 → Fx}
    {s₀ : Fin 4 → Fin 4 → ℝ} (hs : ∀ i j, Tracks (s i j) (s₀ i j)) :
    Tracks (det4Stripes c p fl pd madd tb3 ts3 tb4 ts4 s) (Fl.det4Stripes c p fl₀ pd₀ madd₀ tb3 ts3 tb4 ts4 s₀) := by
  have q : ∀ (e : Fin 4 → ℝ) (i0 i1 i2 i3 : Fin 4 → Fin 4),
      Tracks (vsum c p fl tb4 ts4 (stripeMul fl ![.fin (e 0), .fin (e 1), .fin (e 2), .fin (e 3)]
          (stripeMul fl (stripeMul fl (stripeMul fl (sw (s 0) i0) (sw (s 1) i1)) (sw (s 2) i2)) (sw (s 3) i3))))
        (Fl.vsum c p fl₀ tb4 ts4 (Fl.stripeMul fl₀ ![e 0, e 1, e 2, e 3]
          (Fl.stripeMul fl₀ (Fl.stripeMul fl₀ (Fl.stripeMul fl₀ (sw (s₀ 0) i0) (sw (s₀ 1) i1)) (sw (s₀ 2) i2)) (sw (s₀ 3) i3)))) := fun e i0 i1 i2 i3 =>
    vsum_tracks hf tb4 ts4 (stripeMul_tracks hf signs_tracks (stripeMul_tracks hf (stripeMul_tracks hf (stripeMul_tracks hf (sw_tracks (hs 0) _) (sw_tracks (hs 1) _))
      (sw_tracks (hs 2) _)) (sw_tracks (hs 3) _)))
  have t : ∀ i1 i2 i3 i2' i3' : Fin 3 → Fin 4,
      Tracks (vsum c p fl tb3 ts3 (stripeMul fl (sw (s 1) i1) (vpd pd (sw (s 2) i2) (sw (s 3) i3) (sw (s 2) i2') (sw (s 3) i3'))))
        (Fl.vsum c p fl₀ tb3 ts3 (Fl.stripeMul fl₀ (sw (s₀ 1) i1) (Fl.vpd pd₀ (sw (s₀ 2) i2) (sw (s₀ 3) i3) (sw (s₀ 2) i2') (sw (s₀ 3) i3')))) := fun i1 i2 i3 i2' i3' =>
    vsum_tracks hf tb3 ts3 (stripeMul_tracks hf (sw_tracks (hs 1) _) (vpd_tracks hpd (sw_tracks (hs 2) _) (sw_tracks (hs 3) _) (sw_tracks (hs 2) _) (sw_tracks (hs 3) _)))
  unfold det4Stripes Fl.det4Stripes
  exact hadd _ _ _ _ _ _ (hs 0 2) (t _ _ _ _ _) (hadd _ _ _ _ _ _ (hs 0 3) (t _ _ _ _ _)
    (((q ![1, -1, -1, 1] _ _ _ _).add hf (q ![-1, 1, 1, -1] _ _ _ _)).add hf (q ![1, -1, -1, 1] _ _ _ _)))

theorem cof3_tracks (hpd : ∀ a b c d x y z w, Tracks a x → Tracks b y → Tracks c z → Tracks d w → Tracks (pd a b c d) (pd₀ x y z w))
    {s : Fin 3 → Fin 3 → Fx} {s₀ : Fin 3 → Fin 3 → ℝ} (hs : ∀ i j, Tracks (s i j) (s₀ i j)) (i j : Fin 3) :
    Tracks (cof3Stripes pd s i j) (Fl.cof3Stripes pd₀ s₀ i j) := by
  have v : ∀ (a b : Fin 3) (i0 i1 i2 i3 : Fin 3 → Fin 3) (k : Fin 3),
      Tracks (vpd pd (sw (s a) i0) (sw (s b) i1) (sw (s a) i2) (sw (s b) i3) k) (Fl.vpd pd₀ (sw (s₀ a) i0) (sw (s₀ b) i1) (sw (s₀ a) i2) (sw (s₀ b) i3) k) :=
    fun a b i0 i1 i2 i3 => vpd_tracks hpd (sw_tracks (hs a) _) (sw_tracks (hs b) _) (sw_tracks (hs a) _) (sw_tracks (hs b) _)
  fin_cases i <;> fin_cases j <;> exact v _ _ _ _ _ _ _

theorem six_tracks (hf : Overflows fl fl₀) (hpd : ∀ a b c d x y z w, Tracks a x → Tracks b y → Tracks c z → Tracks d w → Tracks (pd a b c d) (pd₀ x y z w))
    (hadd : ∀ a b d x y z, Tracks a x → Tracks b y → Tracks d z → Tracks (madd a b d) (madd₀ x y z))
    (hsub : ∀ a b d x y z, Tracks a x → Tracks b y → Tracks d z → Tracks (msub a b d) (msub₀ x y z))
    {e a0 b0 a1 b1 a2 b2 a3 b3 a4 b4 a5 b5 : Fin 4 → Fx} {e' a0' b0' a1' b1' a2' b2' a3' b3' a4' b4' a5' b5' : Fin 4 → ℝ}
    (he : ∀ i, Tracks (e i) (e' i)) (ha0 : ∀ i, Tracks (a0 i) (a0' i)) (hb0 : ∀ i, Tracks (b0 i) (b0' i)) (ha1 : ∀ i, Tracks (a1 i) (a1' i))
    (hb1 : ∀ i, Tracks (b1 i) (b1' i)) (ha2 : ∀ i, Tracks (a2 i) (a2' i)) (hb2 : ∀ i, Tracks (b2 i) (b2' i)) (ha3 : ∀ i, Tracks (a3 i) (a3' i))
    (hb3 : ∀ i, Tracks (b3 i) (b3' i)) (ha4 : ∀ i, Tracks (a4 i) (a4' i)) (hb4 : ∀ i, Tracks (b4 i) (b4' i)) (ha5 : ∀ i, Tracks (a5 i) (a5' i))
    (hb5 : ∀ i, Tracks (b5 i) (b5' i)) (i : Fin 4) :
    Tracks (six fl pd madd msub e a0 b0 a1 b1 a2 b2 a3 b3 a4 b4 a5 b5 i) (Fl.six fl₀ pd₀ madd₀ msub₀ e' a0' b0' a1' b1' a2' b2' a3' b3' a4' b4' a5' b5' i) :=
  (he i).mul hf (hsub _ _ _ _ _ _ (hadd _ _ _ _ _ _ (ha4 i) (hb4 i) (hadd _ _ _ _ _ _ (ha3 i) (hb3 i)
    (hsub _ _ _ _ _ _ (hpd _ _ _ _ _ _ _ _ (ha0 i) (hb0 i) (ha1 i) (hb1 i)) (ha2 i) (hb2 i)))) (ha5 i) (hb5 i))

theorem cof4_tracks (hf : Overflows fl fl₀) (hpd : ∀ a b c d x y z w, Tracks a x → Tracks b y → Tracks c z → Tracks d w → Tracks (pd a b c d) (pd₀ x y z w))
    (hadd : ∀ a b d x y z, Tracks a x → Tracks b y → Tracks d z → Tracks (madd a b d) (madd₀ x y z))
    (hsub : ∀ a b d x y z, Tracks a x → Tracks b y → Tracks d z → Tracks (msub a b d) (msub₀ x y z))
    {s : Fin 4 → Fin 4 → Fx} {s₀ : Fin 4 → Fin 4 → ℝ} (hs : ∀ i j, Tracks (s i j) (s₀ i j)) (i j : Fin 4) :
    Tracks (cof4Stripes fl pd madd msub s i j) (Fl.cof4Stripes fl₀ pd₀ madd₀ msub₀ s₀ i j) := by
  have w : ∀ (k : Fin 4) (idx : Fin 4 → Fin 4) (i : Fin 4), Tracks (sw (s k) idx i) (sw (s₀ k) idx i) := fun k => sw_tracks (hs k)
  have v : ∀ (a b : Fin 4) (i0 i1 : Fin 4 → Fin 4) (i : Fin 4), Tracks (stripeMul fl (sw (s a) i0) (sw (s b) i1) i) (Fl.stripeMul fl₀ (sw (s₀ a) i0) (sw (s₀ b) i1) i) :=
    fun a b i0 i1 => stripeMul_tracks hf (w a i0) (w b i1)
  have c0 := six_tracks hf hpd hadd hsub (signs_tracks (e := ![-1, 1, -1, 1])) (w 1 ![3, 3, 3, 2]) (v 2 3 ![2, 2, 1, 1] ![1, 0, 0, 0]) (w 1 ![2, 2, 1, 1])
    (v 2 3 ![3, 3, 3, 2] ![1, 0, 0, 0]) (w 1 ![3, 3, 3, 2]) (v 2 3 ![1, 0, 0, 0] ![2, 2, 1, 1]) (w 1 ![1, 0, 0, 0]) (v 2 3 ![3, 3, 3, 2] ![2, 2, 1, 1])
    (w 1 ![2, 2, 1, 1]) (v 2 3 ![1, 0, 0, 0] ![3, 3, 3, 2]) (w 1 ![1, 0, 0, 0]) (v 2 3 ![2, 2, 1, 1] ![3, 3, 3, 2])
  have c1 := six_tracks hf hpd hadd hsub (signs_tracks (e := ![1, -1, 1, -1])) (w 0 ![3, 3, 3, 2]) (v 2 3 ![2, 2, 1, 1] ![1, 0, 0, 0]) (w 0 ![2, 2, 1, 1])
    (v 2 3 ![3, 3, 3, 2] ![1, 0, 0, 0]) (w 0 ![3, 3, 3, 2]) (v 2 3 ![1, 0, 0, 0] ![2, 2, 1, 1]) (w 0 ![1, 0, 0, 0]) (v 2 3 ![3, 3, 3, 2] ![2, 2, 1, 1])
    (w 0 ![2, 2, 1, 1]) (v 2 3 ![1, 0, 0, 0] ![3, 3, 3, 2]) (w 0 ![1, 0, 0, 0]) (v 2 3 ![2, 2, 1, 1] ![3, 3, 3, 2])
  have c2 := six_tracks hf hpd hadd hsub (signs_tracks (e := ![-1, 1, -1, 1])) (v 0 1 ![3, 3, 3, 2] ![2, 2, 1, 1]) (w 3 ![1, 0, 0, 0]) (v 0 1 ![2, 2, 1, 1] ![3, 3, 3, 2])
    (w 3 ![1, 0, 0, 0]) (v 0 1 ![3, 3, 3, 2] ![1, 0, 0, 0]) (w 3 ![2, 2, 1, 1]) (v 0 1 ![1, 0, 0, 0] ![3, 3, 3, 2]) (w 3 ![2, 2, 1, 1])
    (v 0 1 ![2, 2, 1, 1] ![1, 0, 0, 0]) (w 3 ![3, 3, 3, 2]) (v 0 1 ![1, 0, 0, 0] ![2, 2, 1, 1]) (w 3 ![3, 3, 3, 2])
  have c3 := six_tracks hf hpd hadd hsub (signs_tracks (e := ![1, -1, 1, -1])) (v 0 1 ![3, 3, 3, 2] ![2, 2, 1, 1]) (w 2 ![1, 0, 0, 0]) (v 0 1 ![2, 2, 1, 1] ![3, 3, 3, 2])
    (w 2 ![1, 0, 0, 0]) (v 0 1 ![3, 3, 3, 2] ![1, 0, 0, 0]) (w 2 ![2, 2, 1, 1]) (v 0 1 ![1, 0, 0, 0] ![3, 3, 3, 2]) (w 2 ![2, 2, 1, 1])
    (v 0 1 ![2, 2, 1, 1] ![1, 0, 0, 0]) (w 2 ![3, 3, 3, 2]) (v 0 1 ![1, 0, 0, 0] ![2, 2, 1, 1]) (w 2 ![3, 3, 3, 2])
  fin_cases j
  · fin_cases i
    exacts [c0 0, c0 1, c0 2, c0 3]
  · fin_cases i
    exacts [c1 0, c1 1, c1 2, c1 3]
  · fin_cases i
    exacts [c2 0, c2 1, c2 2, c2 3]
  · fin_cases i
    exacts [c3 0, c3 1, c3 2, c3 3]

end

end Ie
end Mathter
