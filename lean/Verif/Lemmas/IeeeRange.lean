import Verif.Lemmas.IeeeFinite
import Verif.Lemmas.IeeeSVD
import Verif.Lemmas.RoundedSVD
import Verif.Lemmas.Tree
import Verif.Spec.IeeeRange

/-! # Lemmas about computations that do not leave the range of the format -/

namespace Mathter

namespace Fx
variable {fl : ℝ → Fx} {fl₀ : ℝ → ℝ} {M u : ℝ}

/-- `x` is the number `y` of magnitude at most `B`. -/
def Fits (x : Fx) (y B : ℝ) : Prop := x = .fin y ∧ |y| ≤ B

theorem fits_fin (y : ℝ) : Fits (.fin y) y |y| := ⟨rfl, le_rfl⟩
theorem Fits.mono {x : Fx} {y B C : ℝ} (h : Fits x y B) (hC : B ≤ C) : Fits x y C := ⟨h.1, h.2.trans hC⟩
theorem Fits.neg {x : Fx} {y B : ℝ} (h : Fits x y B) : Fits x.neg (-y) B := ⟨by rw [h.1]; rfl, by rw [abs_neg]; exact h.2⟩
theorem Fits.abs {x : Fx} {y B : ℝ} (h : Fits x y B) : Fits x.abs |y| B := ⟨by rw [h.1]; rfl, by rw [abs_abs]; exact h.2⟩

theorem abs_round (h : Rounding fl₀ u) {y B : ℝ} (hy : |y| ≤ B) : |fl₀ y| ≤ (1 + u) * B :=
  (Fl.abs_fl_le h y).2.trans (mul_le_mul_of_nonneg_left hy (by linarith [h.u_nonneg]))

theorem fits_round (h : Rounding fl₀ u) (hM : FitsBelow M fl fl₀) {y B : ℝ} (hy : |y| ≤ B) (hB : B ≤ M) : Fits (fl y) (fl₀ y) ((1 + u) * B) :=
  ⟨hM y (hy.trans hB), abs_round h hy⟩

theorem Fits.add (h : Rounding fl₀ u) (hM : FitsBelow M fl fl₀) {x x' : Fx} {y y' B B' : ℝ} (hx : Fits x y B) (hx' : Fits x' y' B') (hB : B + B' ≤ M) :
    Fits (Fx.add fl x x') (fl₀ (y + y')) ((1 + u) * (B + B')) := by
  rw [hx.1, hx'.1]
  exact fits_round h hM ((abs_add_le _ _).trans (add_le_add hx.2 hx'.2)) hB

theorem Fits.sub (h : Rounding fl₀ u) (hM : FitsBelow M fl fl₀) {x x' : Fx} {y y' B B' : ℝ} (hx : Fits x y B) (hx' : Fits x' y' B') (hB : B + B' ≤ M) :
    Fits (Fx.sub fl x x') (fl₀ (y - y')) ((1 + u) * (B + B')) := by
  rw [sub_eq_add_neg]; exact hx.add h hM hx'.neg hB

theorem Fits.mul (h : Rounding fl₀ u) (hM : FitsBelow M fl fl₀) {x x' : Fx} {y y' B B' : ℝ} (hx : Fits x y B) (hx' : Fits x' y' B') (hB : B * B' ≤ M) :
    Fits (Fx.mul fl x x') (fl₀ (y * y')) ((1 + u) * (B * B')) := by
  rw [hx.1, hx'.1]
  exact fits_round h hM (by rw [abs_mul]; exact mul_le_mul hx.2 hx'.2 (abs_nonneg _) ((abs_nonneg _).trans hx.2)) hB

theorem Fits.div (h : Rounding fl₀ u) (hM : FitsBelow M fl fl₀) {y y' B : ℝ} (hy : y' ≠ 0) (hq : |y / y'| ≤ B) (hB : B ≤ M) :
    Fits (Fx.div fl (.fin y) (.fin y')) (fl₀ (y / y')) ((1 + u) * B) := by
  unfold Fx.div
  dsimp only
  rw [if_neg hy]
  exact fits_round h hM hq hB

/-- The sum of two products, fused or not. -/
theorem IsProdSum.fits (h : Rounding fl₀ u) (hM : FitsBelow M fl fl₀) {ps : Fx → Fx → Fx → Fx → Fx} (hps : IsProdSum fl ps) :
    ∃ ps₀, Fl.IsProdSum fl₀ ps₀ ∧ ∀ x y z w, (1 + u) * (|x * y| + |z * w|) ≤ M → ps (.fin x) (.fin y) (.fin z) (.fin w) = .fin (ps₀ x y z w) := by
  have hu := h.u_nonneg
  have key : ∀ x y z w, ∃ v, (v = fl₀ (fl₀ (x * y) + fl₀ (z * w)) ∨ v = fl₀ (x * y + fl₀ (z * w)) ∨ v = fl₀ (fl₀ (x * y) + z * w)) ∧
      ((1 + u) * (|x * y| + |z * w|) ≤ M → ps (.fin x) (.fin y) (.fin z) (.fin w) = .fin v) := by
    intro x y z w
    by_cases hb : (1 + u) * (|x * y| + |z * w|) ≤ M
    · have hx : fl (x * y) = .fin (fl₀ (x * y)) := hM _ (by nlinarith [abs_nonneg (x * y), abs_nonneg (z * w)])
      have hz : fl (z * w) = .fin (fl₀ (z * w)) := hM _ (by nlinarith [abs_nonneg (x * y), abs_nonneg (z * w)])
      have h1 := abs_round h (le_refl |x * y|)
      have h2 := abs_round h (le_refl |z * w|)
      rcases hps (.fin x) (.fin y) (.fin z) (.fin w) with e | e | e
      · exact ⟨_, Or.inl rfl, fun _ => by
          rw [e]; unfold Fx.mul; dsimp only; rw [hx, hz]; exact hM _ ((abs_add_le _ _).trans (by linarith))⟩
      · exact ⟨_, Or.inr (Or.inl rfl), fun _ => by
          rw [e]; unfold Fx.mul; dsimp only; rw [hz]; exact hM _ ((abs_add_le _ _).trans (by nlinarith [abs_nonneg (x * y)]))⟩
      · exact ⟨_, Or.inr (Or.inr rfl), fun _ => by
          rw [e]; unfold Fx.mul; dsimp only; rw [hx]; exact hM _ ((abs_add_le _ _).trans (by nlinarith [abs_nonneg (z * w)]))⟩
    · exact ⟨_, Or.inl rfl, fun hb' => absurd hb' hb⟩
  choose ps₀ h1 h2 using key
  exact ⟨ps₀, h1, h2⟩

theorem IsProdDiff.fits (h : Rounding fl₀ u) (hM : FitsBelow M fl fl₀) {pd : Fx → Fx → Fx → Fx → Fx} (hpd : IsProdDiff fl pd) :
    ∃ pd₀, Fl.IsProdDiff fl₀ pd₀ ∧ ∀ x y z w, (1 + u) * (|x * y| + |z * w|) ≤ M → pd (.fin x) (.fin y) (.fin z) (.fin w) = .fin (pd₀ x y z w) := by
  have hu := h.u_nonneg
  have key : ∀ x y z w, ∃ v, (v = fl₀ (fl₀ (x * y) - fl₀ (z * w)) ∨ v = fl₀ (x * y - fl₀ (z * w)) ∨ v = fl₀ (fl₀ (x * y) - z * w)) ∧
      ((1 + u) * (|x * y| + |z * w|) ≤ M → pd (.fin x) (.fin y) (.fin z) (.fin w) = .fin v) := by
    intro x y z w
    by_cases hb : (1 + u) * (|x * y| + |z * w|) ≤ M
    · have hx : fl (x * y) = .fin (fl₀ (x * y)) := hM _ (by nlinarith [abs_nonneg (x * y), abs_nonneg (z * w)])
      have hz : fl (z * w) = .fin (fl₀ (z * w)) := hM _ (by nlinarith [abs_nonneg (x * y), abs_nonneg (z * w)])
      have h1 := abs_round h (le_refl |x * y|)
      have h2 := abs_round h (le_refl |z * w|)
      have ab : ∀ a b : ℝ, |a - b| ≤ |a| + |b| := fun a b => by rw [sub_eq_add_neg]; simpa using abs_add_le a (-b)
      rcases hpd (.fin x) (.fin y) (.fin z) (.fin w) with e | e | e
      · exact ⟨_, Or.inl rfl, fun _ => by
          rw [e]; unfold Fx.mul; dsimp only; rw [hx, hz, sub_eq_add_neg]; exact hM _ ((ab _ _).trans (by linarith))⟩
      · exact ⟨_, Or.inr (Or.inl rfl), fun _ => by
          rw [e]; unfold Fx.mul; dsimp only; rw [hz, sub_eq_add_neg]; exact hM _ ((ab _ _).trans (by nlinarith [abs_nonneg (x * y)]))⟩
      · exact ⟨_, Or.inr (Or.inr rfl), fun _ => by
          rw [e]; unfold Fx.mul; dsimp only; rw [hx, sub_eq_add_neg]; exact hM _ ((ab _ _).trans (by nlinarith [abs_nonneg (z * w)]))⟩
    · exact ⟨_, Or.inl rfl, fun hb' => absurd hb' hb⟩
  choose pd₀ h1 h2 using key
  exact ⟨pd₀, h1, h2⟩

end Fx

theorem Fl.pd_abs {fl₀ : ℝ → ℝ} {u : ℝ} (h : Rounding fl₀ u) {pd₀ : ℝ → ℝ → ℝ → ℝ → ℝ} (hpd : Fl.IsProdDiff fl₀ pd₀) (x y z w : ℝ) :
    |pd₀ x y z w| ≤ (1 + u) ^ 2 * (|x * y| + |z * w|) := by
  have hu := h.u_nonneg
  have h1 := Fx.abs_round h (le_refl |x * y|)
  have h2 := Fx.abs_round h (le_refl |z * w|)
  have ab : ∀ a b : ℝ, |a - b| ≤ |a| + |b| := fun a b => by rw [sub_eq_add_neg]; simpa using abs_add_le a (-b)
  have e1 : |x * y| ≤ (1 + u) * |x * y| := le_mul_of_one_le_left (abs_nonneg _) (by linarith)
  have e2 : |z * w| ≤ (1 + u) * |z * w| := le_mul_of_one_le_left (abs_nonneg _) (by linarith)
  rw [sq, mul_assoc, mul_add (1 + u)]
  rcases hpd x y z w with e | e | e <;> rw [e] <;> exact Fx.abs_round h ((ab _ _).trans (by linarith))

namespace Ie
open Fx Red
variable {c : Cfg} {r n dim : ℕ} {p p1 p2 : Bool} {fl : ℝ → Fx} {fl₀ : ℝ → ℝ} {M u : ℝ}

/-! ## Sums of products -/

theorem eval_fits (h : Rounding fl₀ u) (hM : FitsBelow M fl fl₀) {k : ℕ} (b : Fin k → ℝ) (hb : ∀ i, fl₀ (b i) = b i) (t : RTree k)
    (hB : (1 + u) ^ (nz b t.leaves) * (t.leaves.map fun i => |b i|).sum ≤ M) :
    t.eval (Fx.add fl) (fun i => .fin (b i)) = .fin (t.eval (fun x y => fl₀ (x + y)) b) ∧
    fl₀ (t.eval (fun x y => fl₀ (x + y)) b) = t.eval (fun x y => fl₀ (x + y)) b ∧
    |t.eval (fun x y => fl₀ (x + y)) b| ≤ (1 + u) ^ (nz b t.leaves) * (t.leaves.map fun i => |b i|).sum := by
  have hu := h.u_nonneg
  have h0 : fl₀ 0 = 0 := by simpa using h.err 0
  have sn : ∀ l : List (Fin k), 0 ≤ (l.map fun i => |b i|).sum := fun l => List.sum_nonneg (by
    intro x hx
    obtain ⟨i, -, rfl⟩ := List.mem_map.1 hx
    exact abs_nonneg _)
  induction t with
  | leaf i =>
    refine ⟨rfl, hb i, ?_⟩
    simp only [RTree.eval, RTree.leaves, List.map_cons, List.map_nil, List.sum_cons, List.sum_nil, add_zero]
    exact le_mul_of_one_le_left (abs_nonneg _) (one_le_pow₀ (by linarith))
  | node l r hl hr =>
    rw [nz_node, RTree.leaves, List.map_append, List.sum_append] at hB ⊢
    have pl : (1 + u) ^ nz b l.leaves ≤ (1 + u) ^ (nz b l.leaves + nz b r.leaves) := pow_le_pow_right₀ (by linarith) (by omega)
    have pr : (1 + u) ^ nz b r.leaves ≤ (1 + u) ^ (nz b l.leaves + nz b r.leaves) := pow_le_pow_right₀ (by linarith) (by omega)
    have bl := mul_le_mul_of_nonneg_right pl (sn l.leaves)
    have br := mul_le_mul_of_nonneg_right pr (sn r.leaves)
    have nl := mul_nonneg (by positivity : (0 : ℝ) ≤ (1 + u) ^ (nz b l.leaves + nz b r.leaves)) (sn l.leaves)
    have nr := mul_nonneg (by positivity : (0 : ℝ) ≤ (1 + u) ^ (nz b l.leaves + nz b r.leaves)) (sn r.leaves)
    rw [mul_add] at hB ⊢
    obtain ⟨el, il, al⟩ := hl (by linarith)
    obtain ⟨er, ir, ar⟩ := hr (by linarith)
    set L := l.eval (fun x y => fl₀ (x + y)) b
    set R := r.eval (fun x y => fl₀ (x + y)) b
    have ab : |L + R| ≤ M := (abs_add_le _ _).trans (by linarith)
    refine ⟨?_, h.idem _, ?_⟩
    · change Fx.add fl (l.eval _ _) (r.eval _ _) = _
      rw [el, er]
      exact hM _ ab
    · change |fl₀ (L + R)| ≤ _
      rcases Nat.eq_zero_or_pos (nz b l.leaves) with z | z
      · have zl : L = 0 := by
          have := al
          rw [(sum_zero b _ z).2, mul_zero] at this
          exact abs_nonpos_iff.1 this
        rw [zl, zero_add, ir]
        linarith
      rcases Nat.eq_zero_or_pos (nz b r.leaves) with z' | z'
      · have zr : R = 0 := by
          have := ar
          rw [(sum_zero b _ z').2, mul_zero] at this
          exact abs_nonpos_iff.1 this
        rw [zr, add_zero, il]
        linarith
      · have pl' : (1 + u) * (1 + u) ^ nz b l.leaves ≤ (1 + u) ^ (nz b l.leaves + nz b r.leaves) := by
          rw [← pow_succ']; exact pow_le_pow_right₀ (by linarith) (by omega)
        have pr' : (1 + u) * (1 + u) ^ nz b r.leaves ≤ (1 + u) ^ (nz b l.leaves + nz b r.leaves) := by
          rw [← pow_succ']; exact pow_le_pow_right₀ (by linarith) (by omega)
        refine (abs_round h (abs_add_le L R)).trans ?_
        have q1 := mul_le_mul_of_nonneg_left al (by linarith : 0 ≤ 1 + u)
        have q2 := mul_le_mul_of_nonneg_left ar (by linarith : 0 ≤ 1 + u)
        have q3 := mul_le_mul_of_nonneg_right pl' (sn l.leaves)
        have q4 := mul_le_mul_of_nonneg_right pr' (sn r.leaves)
        rw [mul_assoc] at q3 q4
        linarith

theorem sum_fits (h : Rounding fl₀ u) (hM : FitsBelow M fl fl₀) (tb : RTree (batchSize dim false)) (ts : RTree (dim + 1)) (htb : tb.Valid) (hts : ts.Valid)
    {v : Vec c Fx dim p} {w : Vec c ℝ dim p} (hv : ∀ i, v.get i = .fin (w.get i)) (hw : ∀ i, fl₀ (w.get i) = w.get i) {B : ℝ}
    (hB : (1 + u) ^ dim * ∑ i, |w.get i| ≤ B) (hBM : B ≤ M) : Fits (sum fl tb ts v) (Fl.sum fl₀ tb ts w) B := by
  have h0 : fl₀ 0 = 0 := by simpa using h.err 0
  have hu := h.u_nonneg
  have key : ∀ (k : ℕ) (hd : dim ≤ k) (t : RTree k) (ht : t.Valid) (b : Fin k → ℝ) (hb : ∀ l, b l = if h : l.val < dim then w.get ⟨l.val, h⟩ else 0),
      Fits (t.eval (Fx.add fl) fun i => .fin (b i)) (t.eval (fun x y => fl₀ (x + y)) b) B := by
    intro k hd t ht b hb
    have hs := sum_padded hd b w.get hb t ht abs abs_zero
    have hn := nz_padded b w.get hb t ht
    have hle : (1 + u) ^ (nz b t.leaves) * (t.leaves.map fun i => |b i|).sum ≤ B := by
      rw [hs]
      exact (mul_le_mul_of_nonneg_right (pow_le_pow_right₀ (by linarith) hn) (Finset.sum_nonneg fun i _ => abs_nonneg _)).trans hB
    obtain ⟨e, -, a⟩ := eval_fits h hM b (fun i => by
      rw [hb]; split
      · exact hw _
      · exact h0) t (hle.trans hBM)
    exact ⟨e, a.trans hle⟩
  unfold sum Fl.sum
  split
  · rename_i hbt
    have hm : ∀ l, Vec.fillMasked dim (w.load hbt) 0 l = if h : l.val < dim then w.get ⟨l.val, h⟩ else 0 := fun l => by
      unfold Vec.fillMasked
      split
      · rw [dif_pos (by omega)]; rfl
      · dsimp only
        split <;> rfl
    have := key _ (le_batchSize dim false) tb htb _ hm
    have e : (Vec.fillMasked dim (v.load hbt) (.fin 0) : Fin (batchSize dim false) → Fx) = fun l => .fin (Vec.fillMasked dim (w.load hbt) 0 l) := funext fun l => by
      rw [hm]
      unfold Vec.fillMasked
      split
      · rw [dif_pos (by omega)]; exact hv ⟨l.val, by omega⟩
      · dsimp only
        split
        · rename_i hl
          exact hv ⟨l.val, hl⟩
        · rfl
    rw [e]
    exact this
  · have := key _ (Nat.le_succ dim) ts hts (fun i => if h : i.val < dim then w.get ⟨i.val, h⟩ else 0) fun l => rfl
    have e : (fun i : Fin (dim + 1) => if h : i.val < dim then v.get ⟨i.val, h⟩ else .fin 0) = fun i => .fin (if h : i.val < dim then w.get ⟨i.val, h⟩ else 0) :=
      funext fun i => by
        split
        · exact hv _
        · rfl
    rw [e]
    exact this

theorem dot_fits (h : Rounding fl₀ u) (hM : FitsBelow M fl fl₀) (conv : Bool) (tb : RTree (batchSize dim false)) (ts : RTree (dim + 1)) (htb : tb.Valid)
    (hts : ts.Valid) {a : Vec c Fx dim p1} {b : Vec c Fx dim p2} {a₀ : Vec c ℝ dim p1} {b₀ : Vec c ℝ dim p2} (ha : ∀ i, a.get i = .fin (a₀.get i))
    (hb : ∀ i, b.get i = .fin (b₀.get i)) {B : ℝ} (hB : (1 + u) ^ (dim + 1) * ∑ i, |a₀.get i * b₀.get i| ≤ B) (hBM : B ≤ M) :
    Fits (dot fl conv tb ts a b) (Fl.dot fl₀ conv tb ts a₀ b₀) B := by
  have hu := h.u_nonneg
  have hS : 0 ≤ ∑ i, |a₀.get i * b₀.get i| := Finset.sum_nonneg fun i _ => abs_nonneg _
  refine sum_fits h hM tb ts htb hts (fun i => ?_) (fun i => ?_) ?_ hBM
  · simp only [Fl.mul, Vec.get_doBinary]
    rw [ha, hb]
    refine hM _ ?_
    have h1 : |a₀.get i * b₀.get i| ≤ ∑ i, |a₀.get i * b₀.get i| := Finset.single_le_sum (f := fun i => |a₀.get i * b₀.get i|) (fun i _ => abs_nonneg _) (Finset.mem_univ i)
    have h2 : 1 * ∑ i, |a₀.get i * b₀.get i| ≤ (1 + u) ^ (dim + 1) * ∑ i, |a₀.get i * b₀.get i| :=
      mul_le_mul_of_nonneg_right (one_le_pow₀ (by linarith)) hS
    linarith
  · simp only [Fl.mul, Vec.get_doBinary]
    exact h.idem _
  · refine le_trans ?_ hB
    rw [pow_succ, mul_assoc]
    refine mul_le_mul_of_nonneg_left ?_ (by positivity)
    rw [Finset.mul_sum]
    refine Finset.sum_le_sum fun i _ => ?_
    simp only [Fl.mul, Vec.get_doBinary]
    exact (Fl.abs_fl_le h _).2

/-! ## One rotation of the one-sided decomposition -/

/-- A state of finite numbers. -/
noncomputable def lift (s : OneState ℝ r n) : OneState Fx r n := ⟨Matrix.of fun i j => .fin (s.X i j), Matrix.of fun i j => .fin (s.V i j)⟩

theorem copysign_fin (neg : Bool) (d z : ℝ) : Fx.copysign neg (.fin d) (.fin z) = .fin (copysignR neg d z) := by
  unfold Fx.copysign copysignR Fx.abs Fx.neg
  dsimp only
  by_cases hz : z = 0
  · subst hz
    cases neg <;> simp
  · rw [if_neg hz]
    by_cases h : z < 0
    · rw [if_pos (decide_eq_true h), if_pos (Or.inl h)]
    · rw [if_neg (by simpa using h), if_neg (by rintro (h' | ⟨h', -⟩) <;> contradiction)]

theorem fin_beq (x y : ℝ) : ((Fx.fin x == Fx.fin y) = true) ↔ x = y := by
  change decide (x = y) = true ↔ x = y
  exact decide_eq_true_iff

theorem unitErr_le (h : Rounding fl₀ u) (hu : 100 * u ≤ 1) : Fl.unitErr u ≤ 1 / 20 := by
  have h0 := h.u_nonneg
  unfold Fl.unitErr
  rw [sub_le_iff_le_add, div_le_iff₀ (by have : 0 < 1 - u := by linarith
                                         positivity)]
  nlinarith

theorem nearUnit_abs {η a b : ℝ} (h : Fl.NearUnit η a b) : |a| ≤ 1 + η ∧ |b| ≤ 1 + η := by
  have := (abs_le.1 h).2
  constructor
  · exact (Real.abs_le_sqrt (by nlinarith [sq_nonneg b] : a ^ 2 ≤ a ^ 2 + b ^ 2)).trans (by linarith)
  · exact (Real.abs_le_sqrt (by nlinarith [sq_nonneg a] : b ^ 2 ≤ a ^ 2 + b ^ 2)).trans (by linarith)

theorem minimize_fits (h : Rounding fl₀ u) (hM : FitsBelow M fl fl₀) (hu : 100 * u ≤ 1) (hM2 : 2 ≤ M) {a b : ℝ} (ha : |a| ≤ 3 / 2) (hb : |b| ≤ 3 / 2)
    (hab : a ≠ 0 ∨ b ≠ 0) :
    minimizeRotation fl (.fin a) (.fin b) = (.fin (Fl.minimizeRotation fl₀ a b).1, .fin (Fl.minimizeRotation fl₀ a b).2) := by
  have h0 := h.u_nonneg
  have key : ∀ x y : ℝ, x ≠ 0 → |x| ≤ 3 / 2 → |y| ≤ 3 / 2 → Fx.div fl (.fin x) (.fin |x|) = .fin (fl₀ (x / |x|)) ∧
      Fx.mul fl (.fin (fl₀ (x / |x|))) (.fin x) = .fin (fl₀ (fl₀ (x / |x|) * x)) ∧ Fx.mul fl (.fin (fl₀ (x / |x|))) (.fin y) = .fin (fl₀ (fl₀ (x / |x|) * y)) := by
    intro x y hx hxb hyb
    have h1 : abs (x / |x|) ≤ 1 := by rw [abs_div, abs_abs, div_self (abs_ne_zero.2 hx)]
    have hd := Fits.div h hM (abs_ne_zero.2 hx) h1 (by linarith)
    have hq : |fl₀ (x / |x|)| ≤ 11 / 10 := hd.2.trans (by linarith)
    refine ⟨hd.1, hM _ ?_, hM _ ?_⟩
    · rw [abs_mul]; exact (mul_le_mul hq hxb (abs_nonneg _) (by norm_num)).trans (by linarith)
    · rw [abs_mul]; exact (mul_le_mul hq hyb (abs_nonneg _) (by norm_num)).trans (by linarith)
  unfold minimizeRotation Fl.minimizeRotation
  simp only [Fx.abs, Fx.lt, Fx.neg, decide_eq_true_eq]
  by_cases hlt : |a| < |b|
  · simp only [if_pos hlt]
    have hb0 : b ≠ 0 := fun e => by rw [e, abs_zero] at hlt; exact absurd (abs_nonneg a) (by linarith)
    obtain ⟨e1, e2, e3⟩ := key (-b) a (neg_ne_zero.2 hb0) (by rwa [abs_neg]) ha
    rw [abs_neg] at e1 e2 e3
    rw [e1, e2, e3]
  · simp only [if_neg hlt]
    have ha0 : a ≠ 0 := fun e => by
      rw [e, abs_zero] at hlt
      have := abs_nonpos_iff.1 (not_lt.1 hlt)
      exact hab.elim (fun q => q e) fun q => q this
    obtain ⟨e1, e2, e3⟩ := key a b ha0 ha hb
    rw [e1, e2, e3]

section
variable {ps pd : Fx → Fx → Fx → Fx → Fx} {ps₀ pd₀ : ℝ → ℝ → ℝ → ℝ → ℝ} {hyp : Fx → Fx → Fx → Fx} {hyp₀ : ℝ → ℝ → ℝ → ℝ} {w G : ℝ}

theorem copysignR_abs (neg : Bool) (d z : ℝ) : |copysignR neg d z| = |d| := by
  unfold copysignR
  split <;> simp

theorem normalize_fits (h : Rounding fl₀ u) (hM : FitsBelow M fl fl₀) (hu : 100 * u ≤ 1)
    (hps : ∀ x y z w, (1 + u) * (|x * y| + |z * w|) ≤ M → ps (.fin x) (.fin y) (.fin z) (.fin w) = .fin (ps₀ x y z w)) (hps₀ : Fl.IsProdSum fl₀ ps₀)
    {cv : ℝ} (bcv : |cv| ≤ 21 / 10) (hM8 : 8 ≤ M) :
    (Fx.div fl (.fin cv) (Fx.sqrt fl (ps (.fin cv) (.fin cv) (.fin 1) (.fin 1))), Fx.div fl (.fin 1) (Fx.sqrt fl (ps (.fin cv) (.fin cv) (.fin 1) (.fin 1)))) =
      (.fin (fl₀ (cv / fl₀ (Real.sqrt (ps₀ cv cv 1 1)))), .fin (fl₀ (1 / fl₀ (Real.sqrt (ps₀ cv cv 1 1))))) ∧
    |fl₀ (cv / fl₀ (Real.sqrt (ps₀ cv cv 1 1)))| ≤ 3 / 2 ∧ |fl₀ (1 / fl₀ (Real.sqrt (ps₀ cv cv 1 1)))| ≤ 3 / 2 ∧
    (fl₀ (cv / fl₀ (Real.sqrt (ps₀ cv cv 1 1))) ≠ 0 ∨ fl₀ (1 / fl₀ (Real.sqrt (ps₀ cv cv 1 1))) ≠ 0) := by
  have h0 := h.u_nonneg
  have bcv2 : cv ^ 2 ≤ 9 / 2 := by
    rw [← sq_abs]
    exact (pow_le_pow_left₀ (abs_nonneg _) bcv 2).trans (by norm_num)
  have hcv0 := sq_nonneg cv
  have hp : ps (.fin cv) (.fin cv) (.fin 1) (.fin 1) = .fin (ps₀ cv cv 1 1) := hps _ _ _ _ (by
    rw [abs_mul_self, ← sq, mul_one, abs_one]
    have : u * (cv ^ 2 + 1) ≤ 1 / 100 * (9 / 2 + 1) := mul_le_mul (by linarith) (by linarith) (by linarith) (by norm_num)
    linarith)
  rw [hp]
  obtain ⟨pl, pu⟩ := Fl.ps_sq h (by linarith) hps₀ cv 1
  have hunit := Fl.pair_unit h (by linarith) hps₀ (a := cv) (b := 1) (Or.inr one_ne_zero)
  have q1 : (98 : ℝ) / 100 ≤ (1 - u) ^ 2 := by nlinarith
  have q2 : (1 + u) ^ 2 ≤ 103 / 100 := by nlinarith
  have pl' : 98 / 100 ≤ ps₀ cv cv 1 1 := by
    have : 98 / 100 * 1 ≤ (1 - u) ^ 2 * (cv ^ 2 + 1 ^ 2) := mul_le_mul q1 (by linarith) (by norm_num) (by positivity)
    linarith
  have pu' : ps₀ cv cv 1 1 ≤ 6 := by
    have : (1 + u) ^ 2 * (cv ^ 2 + 1 ^ 2) ≤ 103 / 100 * (9 / 2 + 1) := mul_le_mul q2 (by linarith) (by positivity) (by norm_num)
    linarith
  set P := ps₀ cv cv 1 1
  clear_value P
  have hsq : Real.sqrt P ≤ 3 := by
    rw [Real.sqrt_le_left (by norm_num)]; linarith
  have hsq0 : 98 / 100 ≤ Real.sqrt P := by
    apply Real.le_sqrt_of_sq_le; linarith
  have hsc : Fx.sqrt fl (.fin P) = .fin (fl₀ (Real.sqrt P)) := by
    unfold Fx.sqrt
    dsimp only
    rw [if_neg (by linarith)]
    exact hM _ (by rw [abs_of_nonneg (by linarith)]; linarith)
  rw [hsc]
  have hscl := (Fl.fl_le h (by linarith : 0 ≤ Real.sqrt P)).1
  have hS : 97 / 100 ≤ fl₀ (Real.sqrt P) := by
    have : 99 / 100 * (98 / 100) ≤ (1 - u) * Real.sqrt P := mul_le_mul (by linarith) hsq0 (by norm_num) (by linarith)
    linarith
  set S := fl₀ (Real.sqrt P)
  clear_value S
  have hS0 : S ≠ 0 := by linarith
  have b1 : |cv / S| ≤ 3 := by
    rw [abs_div, abs_of_pos (by linarith : 0 < S), div_le_iff₀ (by linarith)]; linarith
  have b2 : |1 / S| ≤ 3 := by
    rw [abs_div, abs_of_pos (by linarith : 0 < S), abs_one, div_le_iff₀ (by linarith)]; linarith
  rw [(Fits.div h hM hS0 b1 (by linarith)).1, (Fits.div h hM hS0 b2 (by linarith)).1]
  have hη := unitErr_le h hu
  obtain ⟨n1, n2⟩ := nearUnit_abs hunit
  exact ⟨rfl, n1.trans (by linarith), n2.trans (by linarith), Fl.ne_zero_of_nearUnit (by linarith) hunit⟩

theorem diagonalize_fits (h : Rounding fl₀ u) (hM : FitsBelow M fl fl₀) (hu : 100 * u ≤ 1)
    (hps : ∀ x y z w, (1 + u) * (|x * y| + |z * w|) ≤ M → ps (.fin x) (.fin y) (.fin z) (.fin w) = .fin (ps₀ x y z w)) (hps₀ : Fl.IsProdSum fl₀ ps₀)
    (hw : w ≤ 1) (hhyp : ∀ x y z, (1 + w) * Real.sqrt (x ^ 2 + y ^ 2 + z ^ 2) ≤ M → hyp (.fin x) (.fin y) (.fin z) = .fin (hyp₀ x y z))
    (hhyp₀ : Fl.IsHypot w hyp₀) (hw0 : 0 ≤ w) (neg : Bool) {a11 aoff a22 : ℝ} (h1 : |a11| ≤ G) (h2 : |aoff| ≤ G) (h3 : |a22| ≤ G) (hG : 16 * G ≤ M) (hM8 : 8 ≤ M)
    (hroot : aoff ≠ 0 → |aoff| < 2 * |Fl.hermitianRoot fl₀ hyp₀ neg a11 aoff a22|) :
    diagonalizeHermitian fl ps hyp neg (.fin a11) (.fin aoff) (.fin a22) =
      (.fin (Fl.diagonalizeHermitian fl₀ ps₀ hyp₀ neg a11 aoff a22).1, .fin (Fl.diagonalizeHermitian fl₀ ps₀ hyp₀ neg a11 aoff a22).2) ∧
    |(Fl.diagonalizeHermitian fl₀ ps₀ hyp₀ neg a11 aoff a22).1| ≤ 3 / 2 ∧ |(Fl.diagonalizeHermitian fl₀ ps₀ hyp₀ neg a11 aoff a22).2| ≤ 3 / 2 ∧
    ((Fl.diagonalizeHermitian fl₀ ps₀ hyp₀ neg a11 aoff a22).1 ≠ 0 ∨ (Fl.diagonalizeHermitian fl₀ ps₀ hyp₀ neg a11 aoff a22).2 ≠ 0) := by
  have h0 := h.u_nonneg
  have hG0 : 0 ≤ G := (abs_nonneg _).trans h1
  unfold diagonalizeHermitian Fl.diagonalizeHermitian
  by_cases ha : aoff = 0
  · rw [if_pos ((fin_beq _ _).2 ha), if_pos ha]
    simp
    norm_num
  rw [if_neg (fun e => ha ((fin_beq _ _).1 e)), if_neg ha]
  have hroot := hroot ha
  unfold Fl.hermitianRoot at hroot ⊢
  simp only at hroot ⊢
  have hz : Fits (Fx.sub fl (.fin a22) (.fin a11)) (fl₀ (a22 - a11)) ((1 + u) * (G + G)) :=
    Fits.sub h hM ⟨rfl, h3⟩ ⟨rfl, h1⟩ (by linarith)
  have hy : Fits (Fx.mul fl (.fin 2) (.fin aoff)) (fl₀ (2 * aoff)) ((1 + u) * (2 * G)) :=
    Fits.mul h hM ⟨rfl, by simp⟩ ⟨rfl, h2⟩ (by linarith)
  rw [hz.1, hy.1]
  have bz := hz.2
  have by' := hy.2
  set z := fl₀ (a22 - a11)
  set y := fl₀ (2 * aoff)
  clear_value z y
  have bz2 : |z| ≤ 21 / 10 * G := bz.trans (by nlinarith)
  have by2 : |y| ≤ 21 / 10 * G := by'.trans (by nlinarith)
  have hs : Real.sqrt (z ^ 2 + y ^ 2 + 0 ^ 2) ≤ 3 * G := by
    rw [Real.sqrt_le_left (by linarith)]
    have := sq_le_sq' (by linarith [abs_nonneg z]) (bz2)
    have := sq_le_sq' (by linarith [abs_nonneg y]) (by2)
    rw [sq_abs] at *
    nlinarith
  have hd := hhyp z y 0 (by nlinarith [Real.sqrt_nonneg (z ^ 2 + y ^ 2 + 0 ^ 2)])
  rw [hd, copysign_fin]
  have bd : |hyp₀ z y 0| ≤ 6 * G := by
    have := hhyp₀ z y 0
    have := abs_sub_abs_le_abs_sub (hyp₀ z y 0) (Real.sqrt (z ^ 2 + y ^ 2 + 0 ^ 2))
    rw [abs_of_nonneg (Real.sqrt_nonneg _)] at this
    nlinarith [Real.sqrt_nonneg (z ^ 2 + y ^ 2 + 0 ^ 2)]
  have hr1 : Fits (Fx.add fl (.fin z) (.fin (copysignR neg (hyp₀ z y 0) z))) (fl₀ (z + copysignR neg (hyp₀ z y 0) z)) ((1 + u) * (21 / 10 * G + 6 * G)) :=
    Fits.add h hM ⟨rfl, bz2⟩ ⟨rfl, by rw [copysignR_abs]; exact bd⟩ (by linarith)
  rw [hr1.1]
  have br1 := hr1.2
  set t := fl₀ (z + copysignR neg (hyp₀ z y 0) z)
  clear_value t
  have hr2 : Fits (Fx.mul fl (.fin (1 / 2)) (.fin t)) (fl₀ (1 / 2 * t)) ((1 + u) * (1 / 2 * ((1 + u) * (21 / 10 * G + 6 * G)))) :=
    Fits.mul h hM ⟨rfl, by rw [abs_of_nonneg (by norm_num)]⟩ ⟨rfl, br1⟩ (by nlinarith)
  rw [hr2.1]
  set L := fl₀ (1 / 2 * t)
  clear_value L
  have hL0 : L ≠ 0 := fun e => by rw [e, abs_zero, mul_zero] at hroot; exact absurd (abs_nonneg aoff) (by linarith)
  have hq : |aoff / L| ≤ 2 := by
    rw [abs_div, div_le_iff₀ (abs_pos.2 hL0)]; exact hroot.le
  have hcv := Fits.div h hM hL0 hq (by linarith)
  rw [hcv.1]
  have bcv : |fl₀ (aoff / L)| ≤ 21 / 10 := hcv.2.trans (by linarith)
  set cv := fl₀ (aoff / L)
  clear_value cv
  exact normalize_fits h hM hu hps hps₀ bcv hM8

theorem givens_fits (h : Rounding fl₀ u) (hM : FitsBelow M fl fl₀) (hu : 100 * u ≤ 1)
    (hps : ∀ x y z w, (1 + u) * (|x * y| + |z * w|) ≤ M → ps (.fin x) (.fin y) (.fin z) (.fin w) = .fin (ps₀ x y z w)) (hps₀ : Fl.IsProdSum fl₀ ps₀)
    (hpd : ∀ x y z w, (1 + u) * (|x * y| + |z * w|) ≤ M → pd (.fin x) (.fin y) (.fin z) (.fin w) = .fin (pd₀ x y z w)) (hpd₀ : Fl.IsProdDiff fl₀ pd₀)
    {K cv sv : ℝ} (hc : |cv| ≤ 3 / 2) (hs : |sv| ≤ 3 / 2) (hK : 4 * K ≤ M) :
    (∀ {r n : ℕ} (m : Matrix (Fin r) (Fin n) ℝ) (_ : ∀ i j, |m i j| ≤ K) (p q : Fin n),
      givensRight fl ps pd (Matrix.of fun i j => .fin (m i j)) p q (.fin cv) (.fin sv) (.fin 1) = Matrix.of fun i j => .fin (Fl.givensRight fl₀ ps₀ pd₀ m p q cv sv 1 i j)) ∧
    (∀ {r n : ℕ} (m : Matrix (Fin r) (Fin n) ℝ) (_ : ∀ i j, |m i j| ≤ K) (p q : Fin r),
      givensLeft fl ps pd (Matrix.of fun i j => .fin (m i j)) p q (.fin cv) (.fin sv) (.fin 1) = Matrix.of fun i j => .fin (Fl.givensLeft fl₀ ps₀ pd₀ m p q cv sv 1 i j)) := by
  have h0 := h.u_nonneg
  have key : ∀ {x y : ℝ}, |x| ≤ 11 / 10 * K → |y| ≤ 11 / 10 * K → (1 + u) * (|x * cv| + |y * sv|) ≤ 7 / 2 * K := by
    intro x y hx hy
    have hK0 : 0 ≤ 11 / 10 * K := (abs_nonneg _).trans hx
    have e1 : |x * cv| ≤ 11 / 10 * K * (3 / 2) := by rw [abs_mul]; exact mul_le_mul hx hc (abs_nonneg _) hK0
    have e2 : |y * sv| ≤ 11 / 10 * K * (3 / 2) := by rw [abs_mul]; exact mul_le_mul hy hs (abs_nonneg _) hK0
    nlinarith
  constructor
  · intro r n m hm p q
    ext i j
    unfold givensRight Fl.givensRight
    simp only [Matrix.of_apply]
    have hK0 : 0 ≤ K := (abs_nonneg _).trans (hm i j)
    have e : ∀ i j, |m i j| ≤ 11 / 10 * K := fun i j => (hm i j).trans (by linarith)
    split
    · have hb := key (e i q) (e i p)
      rw [hpd _ _ _ _ (hb.trans (by linarith))]
      have hv : |pd₀ (m i q) cv (m i p) sv| ≤ 4 * K := by
        refine (Fl.pd_abs h hpd₀ _ _ _ _).trans ?_
        rw [sq, mul_assoc]
        exact (mul_le_mul_of_nonneg_left hb (by linarith)).trans (by nlinarith)
      unfold Fx.mul
      dsimp only
      exact hM _ (by rw [one_mul]; exact hv.trans hK)
    split
    · exact hps _ _ _ _ ((key (e i p) (e i q)).trans (by linarith))
    · rfl
  · intro r n m hm p q
    ext i j
    unfold givensLeft Fl.givensLeft
    simp only [Matrix.of_apply]
    have hK0 : 0 ≤ K := (abs_nonneg _).trans (hm i j)
    have e : ∀ i j, |m i j| ≤ 11 / 10 * K := fun i j => (hm i j).trans (by linarith)
    have hq : ∀ x, |x| ≤ K → Fx.mul fl (.fin 1) (.fin x) = .fin (fl₀ (1 * x)) ∧ |fl₀ (1 * x)| ≤ 11 / 10 * K := fun x hx =>
      have := Fits.mul h hM (fits_fin 1) ⟨rfl, hx⟩ (by rw [abs_one]; linarith)
      ⟨this.1, this.2.trans (by rw [abs_one]; nlinarith)⟩
    obtain ⟨q1, q2⟩ := hq (m q j) (hm q j)
    rw [q1]
    split
    · exact hps _ _ _ _ ((key q2 (e p j)).trans (by linarith))
    split
    · exact hpd _ _ _ _ ((key (e p j) q2).trans (by linarith))
    · rfl

theorem stdMax_fin (a b : ℝ) : Fx.stdMax (.fin a) (.fin b) = .fin (max a b) := by
  unfold Fx.stdMax Fx.lt
  simp only [decide_eq_true_eq]
  split
  · rename_i h; rw [max_eq_right h.le]
  · rename_i h; rw [max_eq_left (not_lt.1 h)]

theorem oneStep_fits (h : Rounding fl₀ u) (hM : FitsBelow M fl fl₀) (h1 : fl₀ 1 = 1) (hu : 100 * u ≤ 1)
    (hps : ∀ x y z w, (1 + u) * (|x * y| + |z * w|) ≤ M → ps (.fin x) (.fin y) (.fin z) (.fin w) = .fin (ps₀ x y z w)) (hps₀ : Fl.IsProdSum fl₀ ps₀)
    (hpd : ∀ x y z w, (1 + u) * (|x * y| + |z * w|) ≤ M → pd (.fin x) (.fin y) (.fin z) (.fin w) = .fin (pd₀ x y z w)) (hpd₀ : Fl.IsProdDiff fl₀ pd₀)
    (hw : w ≤ 1) (hhyp : ∀ x y z, (1 + w) * Real.sqrt (x ^ 2 + y ^ 2 + z ^ 2) ≤ M → hyp (.fin x) (.fin y) (.fin z) = .fin (hyp₀ x y z))
    (hhyp₀ : Fl.IsHypot w hyp₀) (hw0 : 0 ≤ w) (neg : Bool)
    (hroot : ∀ a11 aoff a22, aoff ≠ 0 → |aoff| < 2 * |Fl.hermitianRoot fl₀ hyp₀ neg a11 aoff a22|)
    {gram : (Fin r → Fx) → (Fin r → Fx) → Fx} {dot : (Fin r → ℝ) → (Fin r → ℝ) → ℝ} {K : ℝ} (hG : 16 * G ≤ M) (hK : 4 * K ≤ M) (hM8 : 8 ≤ M)
    (s : OneState ℝ r n × ℝ) (hX : ∀ i j, |s.1.X i j| ≤ K) (hV : ∀ i j, |s.1.V i j| ≤ K)
    (hgram : ∀ j k, Fits (gram (fun i => .fin (s.1.X i j)) fun i => .fin (s.1.X i k)) (dot (fun i => s.1.X i j) fun i => s.1.X i k) G) (p q : Fin n) :
    oneStep fl ps pd hyp gram neg p q (lift s.1, .fin s.2) =
      (lift (Fl.oneStep fl₀ ps₀ pd₀ hyp₀ dot neg p q s).1, .fin (Fl.oneStep fl₀ ps₀ pd₀ hyp₀ dot neg p q s).2) := by
  have h0 := h.u_nonneg
  unfold oneStep Fl.oneStep
  simp only [lift, Matrix.of_apply]
  simp only [(hgram p q).1, (hgram p p).1, (hgram q q).1]
  by_cases he : dot (fun i => s.1.X i p) (fun i => s.1.X i q) = 0
  · rw [if_neg (by simp only [Fx.abs, Bool.not_eq_true', Bool.not_eq_false]; exact (fin_beq _ _).2 (by rw [he, abs_zero])),
      if_neg (by rw [he, abs_zero]; simp)]
  rw [if_pos (by
    rw [Bool.not_eq_true', Bool.eq_false_iff]
    exact fun e => he (abs_eq_zero.1 ((fin_beq _ _).1 e))), if_pos (abs_ne_zero.2 he)]
  obtain ⟨d1, d2, d3, d4⟩ := diagonalize_fits h hM hu hps hps₀ hw hhyp hhyp₀ hw0 neg (hgram p p).2 (hgram p q).2 (hgram q q).2 hG hM8 (hroot _ _ _)
  have hη : Fl.unitErr u < 1 := by have := unitErr_le h hu; linarith
  have hun := (Fl.hermitian_unit h h1 hη (by linarith) hps₀ hyp₀ neg (dot (fun i => s.1.X i p) fun i => s.1.X i p)
    (dot (fun i => s.1.X i p) fun i => s.1.X i q) (dot (fun i => s.1.X i q) fun i => s.1.X i q)).1
  unfold Fl.oneRotate
  simp only
  rw [d1]
  set v0 := Fl.diagonalizeHermitian fl₀ ps₀ hyp₀ neg (dot (fun i => s.1.X i p) fun i => s.1.X i p)
    (dot (fun i => s.1.X i p) fun i => s.1.X i q) (dot (fun i => s.1.X i q) fun i => s.1.X i q)
  clear_value v0
  simp only at hun ⊢
  rw [minimize_fits h hM hu (by linarith) d2 d3 d4]
  set v := Fl.minimizeRotation fl₀ v0.1 v0.2
  clear_value v
  obtain ⟨n1, n2⟩ := nearUnit_abs hun
  have hη := unitErr_le h hu
  have n1' : |v.1| ≤ 3 / 2 := n1.trans (by linarith)
  have n2' : |v.2| ≤ 3 / 2 := n2.trans (by linarith)
  have gr := (givens_fits h hM hu hps hps₀ hpd hpd₀ n1' n2' hK).1 s.1.X hX p q
  have gl := (givens_fits h hM hu hps hps₀ hpd hpd₀ n1' (by rwa [abs_neg] : |-v.2| ≤ 3 / 2) hK).2 s.1.V hV p q
  simp only [Fx.neg, Fx.abs]
  rw [gr, gl, stdMax_fin]

theorem forUp_prod {σ τ : Type*} {n lo : ℕ} (f : Fin n → σ → σ) (g : Fin n → τ → τ) (s : σ) (t : τ) :
    forUp n lo (fun i (x : σ × τ) => (f i x.1, g i x.2)) (s, t) = (forUp n lo f s, forUp n lo g t) :=
  forUp_rel (fun (x : σ × τ) (y : σ) => x.1 = y) rfl (fun i x y e => by rw [← e]) |> fun e1 =>
  forUp_rel (fun (x : σ × τ) (y : τ) => x.2 = y) rfl (fun i x y e => by rw [← e]) |> fun e2 => Prod.ext e1 e2

theorem pairs_link {σ τ : Type*} {body : Fin n → Fin n → σ → σ} {body' : Fin n → Fin n → τ → τ} {s : σ} {t : τ} (Q : ℕ → σ → τ → Prop) (k : ℕ)
    (h0 : Q k s t) (hs : ∀ (k : ℕ) (p q : Fin n) (s : σ) (t : τ), p < q → Q k s t → Q (k + 1) (body p q s) (body' p q t)) :
    Q (k + n * (n - 1) / 2) (forUp n 0 (fun p s => forUp n (p.val + 1) (fun q s => body p q s) s) s)
      (forUp n 0 (fun p s => forUp n (p.val + 1) (fun q s => body' p q s) s) t) := by
  have := Fl.pairs_count (body := fun p q (x : σ × τ) => (body p q x.1, body' p q x.2)) (s := (s, t)) (fun k x => Q k x.1 x.2) k h0
    fun k p q x hpq hq => hs k p q x.1 x.2 hpq hq
  rw [show (fun p (x : σ × τ) => forUp n (p.val + 1) (fun q (x : σ × τ) => (body p q x.1, body' p q x.2)) x) =
    fun p x => (forUp n (p.val + 1) (fun q s => body p q s) x.1, forUp n (p.val + 1) (fun q s => body' p q s) x.2) from
      funext fun p => funext fun x => forUp_prod _ _ x.1 x.2, forUp_prod] at this
  exact this

/-- The bounds that hold for the states reached in a small number of rotations. -/
theorem oneErr_bounds {ε : ℝ} {A : Matrix (Fin r) (Fin (n + 1)) ℝ} {s : OneState ℝ r (n + 1)} {k : ℕ} {P : Matrix (Fin (n + 1)) (Fin (n + 1)) ℝ}
    (h : Fl.OneErr ε A s k P) (hk : (1 + ε) ^ k ≤ 2) : (∀ i, norm2 (s.X i) ≤ 2 * norm2 (A i)) ∧ ∀ i j, |s.V i j| ≤ 2 := by
  constructor
  · intro i
    have h1 := norm2_add_le (fun j => s.X i j - (P * A.transpose) j i) fun j => (P * A.transpose) j i
    simp only [sub_add_cancel] at h1
    have h2 : (norm2 fun j => (P * A.transpose) j i) = norm2 (A i) := Fl.norm2_mul_col h.unit A.transpose i
    have h3 : ((1 + ε) ^ k - 1) * norm2 (A i) ≤ 1 * norm2 (A i) := mul_le_mul_of_nonneg_right (by linarith) (norm2_nonneg _)
    have h4 := h.X i
    change norm2 (fun j => s.X i j) ≤ _
    linarith
  · intro i j
    have h1 : |P i j| ≤ 1 := by
      refine (abs_le_norm2 (fun i => P i j) i).trans (le_of_eq ?_)
      have := Fl.norm2_mul_col h.unit (1 : Matrix (Fin (n + 1)) (Fin (n + 1)) ℝ) j
      rw [mul_one, Fl.norm2_one_col] at this
      exact this
    have h2 := (abs_le_norm2 (fun i => s.V i j - P i j) i).trans (h.V j)
    have h3 := abs_add_le (s.V i j - P i j) (P i j)
    rw [sub_add_cancel] at h3
    linarith

/-- The loops of the one-sided decomposition on finite numbers are those without overflow. -/
theorem one_link {c : Cfg} {p1 : Bool} (h : Rounding fl₀ u) (hM : FitsBelow M fl fl₀) (h1 : fl₀ 1 = 1) (hu : 100 * u ≤ 1)
    (hps : ∀ x y z w, (1 + u) * (|x * y| + |z * w|) ≤ M → ps (.fin x) (.fin y) (.fin z) (.fin w) = .fin (ps₀ x y z w)) (hps₀ : Fl.IsProdSum fl₀ ps₀)
    (hpd : ∀ x y z w, (1 + u) * (|x * y| + |z * w|) ≤ M → pd (.fin x) (.fin y) (.fin z) (.fin w) = .fin (pd₀ x y z w)) (hpd₀ : Fl.IsProdDiff fl₀ pd₀)
    (hw : w ≤ 1) (hhyp : ∀ x y z, (1 + w) * Real.sqrt (x ^ 2 + y ^ 2 + z ^ 2) ≤ M → hyp (.fin x) (.fin y) (.fin z) = .fin (hyp₀ x y z))
    (hhyp₀ : Fl.IsHypot w hyp₀) (hw0 : 0 ≤ w) (neg : Bool)
    (hroot : ∀ a11 aoff a22, aoff ≠ 0 → |aoff| < 2 * |Fl.hermitianRoot fl₀ hyp₀ neg a11 aoff a22|)
    (conv : Bool) (tb : RTree (batchSize (r + 1) false)) (ts : RTree (r + 1 + 1)) (htb : tb.Valid) (hts : ts.Valid) (hr : (1 + u) ^ (r + 2) ≤ 2)
    (hMr : 144 * ((r + 1 : ℕ) : ℝ) * ((n + 1 : ℕ) : ℝ) ≤ M) {A : Matrix (Fin (r + 1)) (Fin (n + 1)) ℝ} (hA : ∀ i j, |A i j| ≤ 101 / 100) {T : ℕ}
    (hT : (1 + Fl.rotErr u (Fl.unitErr u)) ^ T ≤ 2) :
    (∀ (k : ℕ) (s : OneState ℝ (r + 1) (n + 1)) (P : Matrix (Fin (n + 1)) (Fin (n + 1)) ℝ), Fl.OneErr (Fl.rotErr u (Fl.unitErr u)) A s k P → k ≤ T → ∀ j l,
      Fits (columnDot c p1 fl conv tb ts (fun i => .fin (s.X i j)) fun i => .fin (s.X i l))
        (Fl.dot fl₀ conv tb ts (Vec.ofFn (fun i => s.X i j) : Vec c ℝ (r + 1) p1) (Vec.ofFn (fun i => s.X i l) : Vec c ℝ (r + 1) p1))
        (9 * ((r + 1 : ℕ) : ℝ) * ((n + 1 : ℕ) : ℝ))) ∧
    ∀ (fuel k t : ℕ) (prev err : ℝ) (s : OneState ℝ (r + 1) (n + 1)), (∃ P, Fl.OneErr (Fl.rotErr u (Fl.unitErr u)) A s k P) → k + fuel * ((n + 1) * n / 2) ≤ T →
      jacobiLoop (oneSweep fl ps pd hyp (columnDot c p1 fl conv tb ts) neg) fuel (.fin prev) (.fin err) (lift s) =
        (Mathter.jacobiLoop (Fl.oneSweep fl₀ ps₀ pd₀ hyp₀ (fun a b => Fl.dot fl₀ conv tb ts (Vec.ofFn a : Vec c ℝ (r + 1) p1) (Vec.ofFn b : Vec c ℝ (r + 1) p1))
          fun _ _ _ => neg) fuel t prev err s).map fun x => lift x.1 := by
  have h0 := h.u_nonneg
  have hη : Fl.unitErr u < 1 := by have := unitErr_le h hu; linarith
  have hε := Fl.rotErr_nonneg h (Fl.unitErr_nonneg h (by linarith))
  have hn1 : (1 : ℝ) ≤ ((n + 1 : ℕ) : ℝ) := by exact_mod_cast Nat.succ_le_succ (Nat.zero_le n)
  have hr1 : (1 : ℝ) ≤ ((r + 1 : ℕ) : ℝ) := by exact_mod_cast Nat.succ_le_succ (Nat.zero_le r)
  have hprod : ((n + 1 : ℕ) : ℝ) ≤ ((r + 1 : ℕ) : ℝ) * ((n + 1 : ℕ) : ℝ) := le_mul_of_one_le_left (by linarith) hr1
  have hsq : Real.sqrt ((n + 1 : ℕ) : ℝ) ≤ ((n + 1 : ℕ) : ℝ) := Real.sqrt_le_iff.mpr ⟨by linarith, by nlinarith⟩
  have hAn : ∀ i, norm2 (A i) ≤ Real.sqrt ((n + 1 : ℕ) : ℝ) * (101 / 100) := fun i => norm2_le_sqrt (by norm_num) (hA i)
  have row : ∀ (k : ℕ) (s : OneState ℝ (r + 1) (n + 1)) (P : Matrix (Fin (n + 1)) (Fin (n + 1)) ℝ), Fl.OneErr (Fl.rotErr u (Fl.unitErr u)) A s k P → k ≤ T →
      (∀ i, norm2 (s.X i) ≤ Real.sqrt ((n + 1 : ℕ) : ℝ) * (202 / 100)) ∧ ∀ i j, |s.V i j| ≤ 2 := by
    intro k s P hP hk
    obtain ⟨b1, b2⟩ := oneErr_bounds hP ((pow_le_pow_right₀ (by linarith) hk).trans hT)
    exact ⟨fun i => (b1 i).trans (by have := hAn i; linarith), b2⟩
  have gramF : ∀ (k : ℕ) (s : OneState ℝ (r + 1) (n + 1)) (P : Matrix (Fin (n + 1)) (Fin (n + 1)) ℝ), Fl.OneErr (Fl.rotErr u (Fl.unitErr u)) A s k P → k ≤ T → ∀ j l,
      Fits (columnDot c p1 fl conv tb ts (fun i => .fin (s.X i j)) fun i => .fin (s.X i l))
        (Fl.dot fl₀ conv tb ts (Vec.ofFn (fun i => s.X i j) : Vec c ℝ (r + 1) p1) (Vec.ofFn (fun i => s.X i l) : Vec c ℝ (r + 1) p1))
        (9 * ((r + 1 : ℕ) : ℝ) * ((n + 1 : ℕ) : ℝ)) := by
    intro k s P hP hk j l
    obtain ⟨b1, -⟩ := row k s P hP hk
    refine dot_fits h hM conv tb ts htb hts (fun i => by simp only [Vec.get_ofFn]) (fun i => by simp only [Vec.get_ofFn]) ?_ (by
      have : 0 ≤ ((r + 1 : ℕ) : ℝ) * ((n + 1 : ℕ) : ℝ) := by positivity
      linarith)
    simp only [Vec.get_ofFn]
    have e : ∀ i, |s.X i j * s.X i l| ≤ 41 / 10 * ((n + 1 : ℕ) : ℝ) := fun i => by
      rw [abs_mul]
      have c1 := (abs_le_norm2 (s.X i) j).trans (b1 i)
      have c2 := (abs_le_norm2 (s.X i) l).trans (b1 i)
      refine (mul_le_mul c1 c2 (abs_nonneg _) ((abs_nonneg _).trans c1)).trans ?_
      have : Real.sqrt ((n + 1 : ℕ) : ℝ) * Real.sqrt ((n + 1 : ℕ) : ℝ) = ((n + 1 : ℕ) : ℝ) := Real.mul_self_sqrt (by linarith)
      nlinarith
    have e2 : ∑ i, |s.X i j * s.X i l| ≤ ((r + 1 : ℕ) : ℝ) * (41 / 10 * ((n + 1 : ℕ) : ℝ)) := by
      refine (Finset.sum_le_card_nsmul _ _ _ fun i _ => e i).trans ?_
      rw [Finset.card_univ, Fintype.card_fin, nsmul_eq_mul]
    have e3 := mul_le_mul hr e2 (Finset.sum_nonneg fun i _ => abs_nonneg _) (by norm_num)
    have : 0 ≤ ((r + 1 : ℕ) : ℝ) * ((n + 1 : ℕ) : ℝ) := by positivity
    linarith
  refine ⟨gramF, ?_⟩
  have sweep : ∀ (k t : ℕ) (s : OneState ℝ (r + 1) (n + 1)), (∃ P, Fl.OneErr (Fl.rotErr u (Fl.unitErr u)) A s k P) → k + (n + 1) * n / 2 ≤ T →
      oneSweep fl ps pd hyp (columnDot c p1 fl conv tb ts) neg (lift s) =
        (lift (Fl.oneSweep fl₀ ps₀ pd₀ hyp₀ (fun a b => Fl.dot fl₀ conv tb ts (Vec.ofFn a : Vec c ℝ (r + 1) p1) (Vec.ofFn b : Vec c ℝ (r + 1) p1)) (fun _ _ _ => neg) t s).1,
          .fin (Fl.oneSweep fl₀ ps₀ pd₀ hyp₀ (fun a b => Fl.dot fl₀ conv tb ts (Vec.ofFn a : Vec c ℝ (r + 1) p1) (Vec.ofFn b : Vec c ℝ (r + 1) p1)) (fun _ _ _ => neg) t s).2) := by
    intro k t s hs hk
    have := pairs_link (n := n + 1) (body := fun p q (s : OneState Fx (r + 1) (n + 1) × Fx) => oneStep fl ps pd hyp (columnDot c p1 fl conv tb ts) neg p q s)
      (body' := fun p q s => Fl.oneStep fl₀ ps₀ pd₀ hyp₀ (fun a b => Fl.dot fl₀ conv tb ts (Vec.ofFn a : Vec c ℝ (r + 1) p1) (Vec.ofFn b : Vec c ℝ (r + 1) p1)) neg p q s)
      (s := (lift s, .fin 0)) (t := (s, 0)) (fun k x y => (∃ P, Fl.OneErr (Fl.rotErr u (Fl.unitErr u)) A y.1 k P) ∧ (k ≤ T → x = (lift y.1, .fin y.2))) k ⟨hs, fun _ => rfl⟩ ?_
    · exact this.2 (by simpa using hk)
    · rintro k p q x y hpq ⟨⟨P, hP⟩, hx⟩
      refine ⟨?_, fun hk1 => ?_⟩
      · unfold Fl.oneStep
        simp only
        split
        · unfold Fl.oneRotate
          exact hP.rotate h hps₀ hpd₀ hη (Fl.hermitian_unit h h1 hη (by linarith) hps₀ hyp₀ neg _ _ _).1 p q hpq.ne
        · exact ⟨P, hP.mono hε (Nat.le_succ k)⟩
      · rw [hx (by omega)]
        obtain ⟨b1, b2⟩ := row k y.1 P hP (by omega)
        exact oneStep_fits h hM h1 hu hps hps₀ hpd hpd₀ hw hhyp hhyp₀ hw0 neg hroot (G := 9 * ((r + 1 : ℕ) : ℝ) * ((n + 1 : ℕ) : ℝ)) (K := 3 * ((n + 1 : ℕ) : ℝ))
          (by linarith) (by nlinarith) (by nlinarith) y (fun i j => ((abs_le_norm2 (y.1.X i) j).trans (b1 i)).trans (by linarith))
          (fun i j => (b2 i j).trans (by linarith)) (gramF k y.1 P hP (by omega)) p q
  intro fuel
  induction fuel with
  | zero => intros; rfl
  | succ fuel ih =>
    intro k t prev err s hs hk
    rw [jacobiLoop, Mathter.jacobiLoop]
    simp only [Fx.lt, decide_eq_true_eq]
    by_cases hlt : err < prev
    · rw [if_pos hlt, if_pos hlt]
      rw [Nat.succ_mul] at hk
      rw [sweep k t s hs (by omega)]
      exact ih (k + (n + 1) * n / 2) (t + 1) err _ _ (Fl.oneSweep_err h h1 (by linarith) hη hps₀ hpd₀ hyp₀ _ _ t hs) (by omega)
    · rw [if_neg hlt, if_neg hlt]; rfl

end

end Ie
end Mathter
