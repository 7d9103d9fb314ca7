import Verif.Model.RoundedComplexDeterminant
import Verif.Props.RoundedComplexLinear
import Verif.Props.RoundedDeterminant

/-!
# C147: rounding errors of the determinants and inverses of small complex matrices

The errors are relative to `normPerm`, the sum of the moduli of the terms of the determinant.
-/

namespace Mathter.Props
open Mathter
variable {n : ℕ} {fl : ℝ → ℝ} {u : ℝ} {ps pd : ℝ → ℝ → ℝ → ℝ → ℝ}

/-- Sum of the moduli of the terms of the determinant. -/
noncomputable def normPerm (A : Matrix (Fin n) (Fin n) ℂ) : ℝ := (A.map fun x => ‖x‖).permanent

private theorem normPerm_transpose (A : Matrix (Fin n) (Fin n) ℂ) : normPerm A.transpose = normPerm A := by
  unfold normPerm
  rw [← Matrix.permanent_transpose]; rfl

/-- `y` is `x` up to `k` rounding errors relative to `M`, a bound of `x`. -/
private structure NearC (u : ℝ) (k : ℕ) (y x : ℂ) (M : ℝ) : Prop where
  err : ‖y - x‖ ≤ ((1 + u) ^ k - 1) * M
  bound : ‖x‖ ≤ M

private theorem NearC.nonneg {k : ℕ} {y x : ℂ} {M : ℝ} (h : NearC u k y x M) : 0 ≤ M := (norm_nonneg _).trans h.bound

private theorem NearC.norm_le {k : ℕ} {y x : ℂ} {M : ℝ} (h : NearC u k y x M) : ‖y‖ ≤ (1 + u) ^ k * M := by
  have := norm_sub_norm_le y x
  linarith [h.err, h.bound]

private theorem NearC.exact (x : ℂ) : NearC u 0 x x ‖x‖ := ⟨by simp, le_rfl⟩

/-- The arithmetic. -/
private structure Ctx (fl : ℝ → ℝ) (ps pd : ℝ → ℝ → ℝ → ℝ → ℝ) (u : ℝ) : Prop where
  rnd : Rounding fl u
  le : u ≤ 1 / 16
  hps : Fl.IsProdSum fl ps
  hpd : Fl.IsProdDiff fl pd

private theorem Ctx.u_nonneg (h : Ctx fl ps pd u) : 0 ≤ 3 * u := by linarith [h.rnd.u_nonneg]

private theorem Ctx.one_le (h : Ctx fl ps pd u) (k : ℕ) : 1 ≤ (1 + 3 * u) ^ k := one_le_pow₀ (by linarith [h.u_nonneg])

private theorem Ctx.prod (h : Ctx fl ps pd u) (a b : ℂ) : ‖Fl.prodC ps pd a b - a * b‖ ≤ 3 * u * ‖a * b‖ := by
  refine (complex_norm_prod h.rnd h.hps h.hpd a b).trans (mul_le_mul_of_nonneg_right ?_ (norm_nonneg _))
  nlinarith [h.rnd.u_nonneg, h.le]

private theorem Ctx.round (h : Ctx fl ps pd u) (z : ℂ) : ‖Fl.flC fl z - z‖ ≤ 3 * u * ‖z‖ :=
  (complex_norm_fl h.rnd z).trans (mul_le_mul_of_nonneg_right (by linarith [h.rnd.u_nonneg]) (norm_nonneg _))

private theorem Ctx.fixed (h : Ctx fl ps pd u) (a b : ℂ) : fl (Fl.prodC ps pd a b).re = (Fl.prodC ps pd a b).re ∧ fl (Fl.prodC ps pd a b).im = (Fl.prodC ps pd a b).im := by
  constructor
  · show fl (pd _ _ _ _) = pd _ _ _ _
    rcases h.hpd a.re b.re a.im b.im with e | e | e <;> rw [e, h.rnd.idem]
  · show fl (ps _ _ _ _) = ps _ _ _ _
    rcases h.hps a.re b.im a.im b.re with e | e | e <;> rw [e, h.rnd.idem]

private theorem NearC.mono (h : Ctx fl ps pd u) {k l : ℕ} (hk : k ≤ l) {y x : ℂ} {M : ℝ} (a : NearC (3 * u) k y x M) : NearC (3 * u) l y x M :=
  ⟨a.err.trans (mul_le_mul_of_nonneg_right (by linarith [pow_le_pow_right₀ (by linarith [h.u_nonneg] : 1 ≤ 1 + 3 * u) hk]) a.nonneg), a.bound⟩

private theorem NearC.step {v : ℝ} (hv : 0 ≤ v) {k : ℕ} {y y' x : ℂ} {M : ℝ} (a : NearC v k y x M) (e : ‖y' - y‖ ≤ v * ‖y‖) : NearC v (k + 1) y' x M := by
  refine ⟨?_, a.bound⟩
  have t := norm_add_le (y' - y) (y - x)
  rw [sub_add_sub_cancel] at t
  have := mul_le_mul_of_nonneg_left a.norm_le hv
  have := a.err
  rw [pow_succ]
  linarith

private theorem NearC.round (h : Ctx fl ps pd u) {k : ℕ} {y x : ℂ} {M : ℝ} (a : NearC (3 * u) k y x M) : NearC (3 * u) (k + 1) (Fl.flC fl y) x M :=
  a.step h.u_nonneg (h.round y)

private theorem NearC.prod (h : Ctx fl ps pd u) {k l : ℕ} {y x y' x' : ℂ} {M M' : ℝ} (a : NearC (3 * u) k y x M) (b : NearC (3 * u) l y' x' M') :
    NearC (3 * u) (k + l) (y * y') (x * x') (M * M') := by
  have e : y * y' - x * x' = (y - x) * y' + x * (y' - x') := by ring
  refine ⟨?_, by rw [norm_mul]; exact mul_le_mul a.bound b.bound (norm_nonneg _) a.nonneg⟩
  rw [e]
  refine (norm_add_le _ _).trans ?_
  rw [norm_mul, norm_mul]
  have h1 := mul_le_mul a.err b.norm_le (norm_nonneg _) (mul_nonneg (by linarith [h.one_le k]) a.nonneg)
  have h2 := mul_le_mul a.bound b.err (norm_nonneg _) a.nonneg
  rw [pow_add]
  linarith

private theorem NearC.add {k : ℕ} {y x y' x' : ℂ} {M M' : ℝ} (a : NearC u k y x M) (b : NearC u k y' x' M') :
    NearC u k (y + y') (x + x') (M + M') := by
  have e : y + y' - (x + x') = (y - x) + (y' - x') := by ring
  refine ⟨?_, (norm_add_le _ _).trans (add_le_add a.bound b.bound)⟩
  rw [e]
  refine (norm_add_le _ _).trans ?_
  linarith [a.err, b.err]

private theorem NearC.sub {k : ℕ} {y x y' x' : ℂ} {M M' : ℝ} (a : NearC u k y x M) (b : NearC u k y' x' M') :
    NearC u k (y - y') (x - x') (M + M') := by
  have e : y - y' - (x - x') = (y - x) - (y' - x') := by ring
  refine ⟨?_, (norm_sub_le _ _).trans (add_le_add a.bound b.bound)⟩
  rw [e]
  refine (norm_sub_le _ _).trans ?_
  linarith [a.err, b.err]

private theorem NearC.mul (h : Ctx fl ps pd u) {k l : ℕ} {y x y' x' : ℂ} {M M' : ℝ} (a : NearC (3 * u) k y x M) (b : NearC (3 * u) l y' x' M') :
    NearC (3 * u) (k + l + 1) (Fl.prodC ps pd y y') (x * x') (M * M') := (a.prod h b).step h.u_nonneg (h.prod y y')

private theorem NearC.pdiff (h : Ctx fl ps pd u) {k l : ℕ} {a a' b b' c c' d d' : ℂ} {A B C D : ℝ} (ha : NearC (3 * u) k a a' A) (hb : NearC (3 * u) l b b' B)
    (hc : NearC (3 * u) k c c' C) (hd : NearC (3 * u) l d d' D) : NearC (3 * u) (k + l + 2) (Fl.pdC fl ps pd a b c d) (a' * b' - c' * d') (A * B + C * D) :=
  ((ha.mul h hb).sub (hc.mul h hd)).round h

private theorem NearC.madd (h : Ctx fl ps pd u) {k l m : ℕ} (hm : k + l + 1 ≤ m) {a a' b b' d d' : ℂ} {A B D : ℝ} (ha : NearC (3 * u) k a a' A)
    (hb : NearC (3 * u) l b b' B) (hd : NearC (3 * u) m d d' D) : NearC (3 * u) (m + 1) (Fl.maddC fl ps pd a b d) (a' * b' + d') (A * B + D) :=
  (((ha.mul h hb).mono h hm).add hd).round h

private theorem NearC.msub (h : Ctx fl ps pd u) {k l m : ℕ} (hm : k + l + 1 ≤ m) {a a' b b' d d' : ℂ} {A B D : ℝ} (ha : NearC (3 * u) k a a' A)
    (hb : NearC (3 * u) l b b' B) (hd : NearC (3 * u) m d d' D) : NearC (3 * u) (m + 1) (Fl.mulSubC fl ps pd d a b) (d' - a' * b') (D + A * B) :=
  (hd.sub ((ha.mul h hb).mono h hm)).round h

private theorem NearC.congr {k l : ℕ} {y x x' : ℂ} {M M' : ℝ} (a : NearC u k y x M) (hk : k = l) (hx : x = x') (hM : M = M') : NearC u l y x' M' := by
  subst hk hx hM; exact a

/-- Bounds of the parts by sums of parts are a bound of the modulus by the sum of the moduli. -/
private theorem norm_of_parts {m : ℕ} {z : ℂ} {g : ℝ} (hg : 0 ≤ g) (y : Fin m → ℂ) (h1 : |z.re| ≤ g * ∑ i, |(y i).re|) (h2 : |z.im| ≤ g * ∑ i, |(y i).im|) :
    ‖z‖ ≤ g * ∑ i, ‖y i‖ := by
  have a : ‖z‖ ≤ ‖(⟨g * ∑ i, |(y i).re|, g * ∑ i, |(y i).im|⟩ : ℂ)‖ := by
    rw [Complex.norm_eq_sqrt_sq_add_sq, Complex.norm_eq_sqrt_sq_add_sq]
    apply Real.sqrt_le_sqrt
    have e1 := pow_le_pow_left₀ (abs_nonneg _) h1 2
    have e2 := pow_le_pow_left₀ (abs_nonneg _) h2 2
    rw [sq_abs] at e1 e2
    exact add_le_add e1 e2
  have e : (⟨g * ∑ i, |(y i).re|, g * ∑ i, |(y i).im|⟩ : ℂ) = (g : ℂ) * ∑ i, (⟨|(y i).re|, |(y i).im|⟩ : ℂ) := by
    apply Complex.ext
    · rw [Complex.re_ofReal_mul, Complex.re_sum]
    · rw [Complex.im_ofReal_mul, Complex.im_sum]
  rw [e, norm_mul, Complex.norm_real, Real.norm_of_nonneg hg] at a
  refine a.trans (mul_le_mul_of_nonneg_left ((norm_sum_le _ _).trans (Finset.sum_le_sum fun i _ => le_of_eq ?_)) hg)
  rw [Complex.norm_eq_sqrt_sq_add_sq, Complex.norm_eq_sqrt_sq_add_sq, sq_abs, sq_abs]

private theorem near_sum (h : Ctx fl ps pd u) (c : Cfg) (p : Bool) {k : ℕ} (tb : RTree (batchSize (n + 1) false)) (ts : RTree (n + 1 + 1)) (htb : tb.Valid)
    (hts : ts.Valid) {y x : Fin (n + 1) → ℂ} {M : Fin (n + 1) → ℝ} (hy : ∀ i, fl (y i).re = (y i).re ∧ fl (y i).im = (y i).im)
    (a : ∀ i, NearC (3 * u) k (y i) (x i) (M i)) : NearC (3 * u) (k + n) (Fl.vsumC c p fl tb ts y) (∑ i, x i) (∑ i, M i) := by
  have s := C112_sum h.rnd tb ts htb hts (Vec.ofFn y : Vec c ℂ (n + 1) p) (fun i => by rw [Vec.get_ofFn]; exact hy i)
  simp only [Vec.get_ofFn] at s
  have u0 := h.rnd.u_nonneg
  have g1 : (1 : ℝ) ≤ (1 + u) ^ (n + 1 - 1) := h.rnd.one_le _
  have s' := norm_of_parts (by linarith) y s.1 s.2
  change ‖Fl.vsumC c p fl tb ts y - _‖ ≤ _ at s'
  refine ⟨?_, (norm_sum_le _ _).trans (Finset.sum_le_sum fun i _ => (a i).bound)⟩
  have t := norm_add_le (Fl.vsumC c p fl tb ts y - ∑ i, y i) (∑ i, y i - ∑ i, x i)
  rw [sub_add_sub_cancel] at t
  have t2 : ‖∑ i, y i - ∑ i, x i‖ ≤ ((1 + 3 * u) ^ k - 1) * ∑ i, M i := by
    rw [← Finset.sum_sub_distrib, Finset.mul_sum]
    exact (norm_sum_le _ _).trans (Finset.sum_le_sum fun i _ => (a i).err)
  have t3 : ∑ i, ‖y i‖ ≤ (1 + 3 * u) ^ k * ∑ i, M i := by
    rw [Finset.mul_sum]; exact Finset.sum_le_sum fun i _ => (a i).norm_le
  have g2 : (1 + u) ^ (n + 1 - 1) ≤ (1 + 3 * u) ^ n := by
    rw [Nat.add_sub_cancel]; exact pow_le_pow_left₀ (by linarith) (by linarith) n
  have t4 := mul_le_mul (by linarith : (1 + u) ^ (n + 1 - 1) - 1 ≤ (1 + 3 * u) ^ n - 1) t3 (Finset.sum_nonneg fun _ _ => norm_nonneg _)
    (by linarith [h.one_le n])
  rw [pow_add]
  linarith

private theorem normPerm_stripesOf (L : Layout) (A : Matrix (Fin n) (Fin n) ℂ) : normPerm (stripesOf L A) = normPerm A := by
  cases L
  · rfl
  · exact normPerm_transpose A

private theorem det_stripes (L : Layout) (A : Matrix (Fin n) (Fin n) ℂ) : (stripesOf L A).det = A.det := by
  cases L
  · rfl
  · exact Matrix.det_transpose A

/-- C147: the determinant of a 2×2 matrix. -/
theorem C147_det2 (h : Rounding fl u) (hu : u ≤ 1 / 16) (hps : Fl.IsProdSum fl ps) (hpd : Fl.IsProdDiff fl pd) (A : Matrix (Fin 2) (Fin 2) ℂ) :
    ‖Fl.det2C fl ps pd A - A.det‖ ≤ ((1 + 3 * u) ^ 2 - 1) * normPerm A := by
  have h : Ctx fl ps pd u := ⟨h, hu, hps, hpd⟩
  have := ((NearC.exact (u := 3 * u) (A 0 0)).pdiff h (NearC.exact (A 1 1)) (NearC.exact (A 1 0)) (NearC.exact (A 0 1))).err
  rw [Matrix.det_fin_two]
  unfold normPerm
  rw [permanent_two]
  simp only [Matrix.map_apply]
  rw [mul_comm (A 0 1)]
  exact this

private theorem minors_near (h : Ctx fl ps pd u) (c : Cfg) (p : Bool) (tb : RTree (batchSize 3 false))
    (ts : RTree (3 + 1)) (htb : tb.Valid) (hts : ts.Valid) (e a b a' b' : Fin 3 → ℂ) :
    NearC (3 * u) 5 (Fl.vsumC c p fl tb ts (Fl.stripeMulC ps pd e (Fl.vpdC fl ps pd a b a' b'))) (∑ i, e i * (a i * b i - a' i * b' i))
      (∑ i, ‖e i‖ * (‖a i‖ * ‖b i‖ + ‖a' i‖ * ‖b' i‖)) :=
  near_sum h c p tb ts htb hts (fun _ => h.fixed _ _) fun i =>
    (NearC.exact (u := 3 * u) (e i)).mul h ((NearC.exact (a i)).pdiff h (NearC.exact (b i)) (NearC.exact (a' i)) (NearC.exact (b' i)))

private theorem det3_near (h : Ctx fl ps pd u) (c : Cfg) (p : Bool) (tb : RTree (batchSize 3 false))
    (ts : RTree (3 + 1)) (htb : tb.Valid) (hts : ts.Valid) (s : Matrix (Fin 3) (Fin 3) ℂ) :
    NearC (3 * u) 5 (Fl.det3StripesC c p fl ps pd tb ts s) s.det (normPerm s) := by
  refine (minors_near h c p tb ts htb hts _ _ _ _ _).congr rfl ?_ ?_
  · rw [Matrix.det_fin_three, Fin.sum_univ_three]
    simp [sw]
    ring
  · unfold normPerm
    rw [permanent_three, Fin.sum_univ_three]
    simp [sw]
    ring

/-- C147: the determinant of a 3×3 matrix, either layout. -/
theorem C147_det3 (h : Rounding fl u) (hu : u ≤ 1 / 16) (hps : Fl.IsProdSum fl ps) (hpd : Fl.IsProdDiff fl pd) (c : Cfg) (p : Bool) (tb : RTree (batchSize 3 false))
    (ts : RTree (3 + 1)) (htb : tb.Valid) (hts : ts.Valid) (L : Layout) (A : Matrix (Fin 3) (Fin 3) ℂ) :
    ‖Fl.det3StripesC c p fl ps pd tb ts (stripesOf L A) - A.det‖ ≤ ((1 + 3 * u) ^ 5 - 1) * normPerm A := by
  have h : Ctx fl ps pd u := ⟨h, hu, hps, hpd⟩
  have := (det3_near h c p tb ts htb hts (stripesOf L A)).err
  rwa [normPerm_stripesOf, det_stripes] at this

private theorem quads_near (h : Ctx fl ps pd u) (c : Cfg) (p : Bool) (tb : RTree (batchSize 4 false))
    (ts : RTree (4 + 1)) (htb : tb.Valid) (hts : ts.Valid) (e a b a' b' : Fin 4 → ℂ) :
    NearC (3 * u) 7 (Fl.vsumC c p fl tb ts (Fl.stripeMulC ps pd e (Fl.stripeMulC ps pd (Fl.stripeMulC ps pd (Fl.stripeMulC ps pd a b) a') b'))) (∑ i, e i * (a i * b i * a' i * b' i))
      (∑ i, ‖e i‖ * (‖a i‖ * ‖b i‖ * ‖a' i‖ * ‖b' i‖)) :=
  near_sum h c p tb ts htb hts (fun _ => h.fixed _ _) fun i =>
    (NearC.exact (u := 3 * u) (e i)).mul h ((((NearC.exact (a i)).mul h (NearC.exact (b i))).mul h (NearC.exact (a' i))).mul h (NearC.exact (b' i)))

private theorem det4_near (h : Ctx fl ps pd u)
    (c : Cfg) (p : Bool) (tb3 : RTree (batchSize 3 false)) (ts3 : RTree (3 + 1)) (htb3 : tb3.Valid) (hts3 : ts3.Valid)
    (tb4 : RTree (batchSize 4 false)) (ts4 : RTree (4 + 1)) (htb4 : tb4.Valid) (hts4 : ts4.Valid) (s : Matrix (Fin 4) (Fin 4) ℂ) :
    NearC (3 * u) 11 (Fl.det4StripesC c p fl ps pd tb3 ts3 tb4 ts4 s) s.det (normPerm s) := by
  have q := quads_near h c p tb4 ts4 htb4 hts4
  have t := minors_near h c p tb3 ts3 htb3 hts3
  refine (NearC.madd h (k := 0) (l := 5) (m := 10) (by norm_num) (NearC.exact _) (t _ _ _ _ _)
    (NearC.madd h (k := 0) (l := 5) (m := 9) (by norm_num) (NearC.exact _) (t _ _ _ _ _)
      ((NearC.add (((q _ _ _ _ _).add (q _ _ _ _ _)).round h) ((q _ _ _ _ _).mono h (Nat.le_succ 7))).round h))).congr rfl ?_ ?_
  · rw [← C28_det4 .row s]
    simp only [Fin.sum_univ_three, Fin.sum_univ_four, det4Stripes, stripesOf, Mathter.vsum, Pi.mul_apply, Pi.sub_apply]
    ring
  · unfold normPerm
    rw [permanent_four]
    simp [Fin.sum_univ_three, Fin.sum_univ_four, sw]
    ring

/-- C147: the determinant of a 4×4 matrix, either layout. -/
theorem C147_det4 (h : Rounding fl u) (hu : u ≤ 1 / 16) (hps : Fl.IsProdSum fl ps) (hpd : Fl.IsProdDiff fl pd)
    (c : Cfg) (p : Bool) (tb3 : RTree (batchSize 3 false)) (ts3 : RTree (3 + 1)) (htb3 : tb3.Valid) (hts3 : ts3.Valid)
    (tb4 : RTree (batchSize 4 false)) (ts4 : RTree (4 + 1)) (htb4 : tb4.Valid) (hts4 : ts4.Valid) (L : Layout) (A : Matrix (Fin 4) (Fin 4) ℂ) :
    ‖Fl.det4StripesC c p fl ps pd tb3 ts3 tb4 ts4 (stripesOf L A) - A.det‖ ≤ ((1 + 3 * u) ^ 11 - 1) * normPerm A := by
  have h : Ctx fl ps pd u := ⟨h, hu, hps, hpd⟩
  have := (det4_near h c p tb3 ts3 htb3 hts3 tb4 ts4 htb4 hts4 (stripesOf L A)).err
  rwa [normPerm_stripesOf, det_stripes] at this

private theorem quotient (h : Ctx fl ps pd u) {dv : ℂ → ℂ → ℂ} (hdv : ∀ a b, b ≠ 0 → ‖dv a b - a / b‖ ≤ 6 * u * ‖a / b‖) {k : ℕ} {y x d D : ℂ} {N P : ℝ} (a : NearC (3 * u) k y x N) (b : NearC (3 * u) k d D P) (hD : ((1 + 3 * u) ^ k - 1) * P < ‖D‖) :
    d ≠ 0 ∧ ‖dv y d - x / D‖ ≤ inverseErr (6 * u) ((1 + 3 * u) ^ k - 1) N P ‖D‖ ‖x / D‖ := by
  unfold inverseErr
  rw [abs_norm, abs_norm]
  generalize hγ : (1 + 3 * u) ^ k - 1 = γ at *
  have hγ0 : 0 ≤ γ := by rw [← hγ]; linarith [h.one_le k]
  have ea : ‖y - x‖ ≤ γ * N := by rw [← hγ]; exact a.err
  have eb : ‖d - D‖ ≤ γ * P := by rw [← hγ]; exact b.err
  have hP := b.nonneg
  have hN := a.nonneg
  have hd1 : ‖D‖ - γ * P ≤ ‖d‖ := by
    have := norm_sub_norm_le D d
    rw [norm_sub_rev] at this; linarith
  have hpos : 0 < ‖D‖ - γ * P := by linarith
  have hd0 : d ≠ 0 := fun h0 => by rw [h0, norm_zero] at hd1; linarith
  have hD0 : D ≠ 0 := fun h0 => by rw [h0, norm_zero] at hD; linarith [mul_nonneg hγ0 hP]
  refine ⟨hd0, ?_⟩
  have e : y / d - x / D = ((y - x) + x / D * (D - d)) / d := by field_simp; ring
  have hx := norm_nonneg (x / D)
  have q : ‖y / d - x / D‖ ≤ γ * (N + P * ‖x / D‖) / (‖D‖ - γ * P) := by
    rw [e, norm_div]
    refine div_le_div₀ (by positivity) ((norm_add_le _ _).trans ?_) hpos hd1
    rw [norm_mul, norm_sub_rev D d]
    have := mul_le_mul_of_nonneg_left eb hx
    linarith
  have r := hdv y d hd0
  have t := norm_add_le (dv y d - y / d) (y / d - x / D)
  rw [sub_add_sub_cancel] at t
  have t2 := norm_sub_norm_le (y / d) (x / D)
  have t3 := mul_le_mul_of_nonneg_left (by linarith : ‖y / d‖ ≤ ‖x / D‖ + γ * (N + P * ‖x / D‖) / (‖D‖ - γ * P)) (by linarith [h.u_nonneg] : 0 ≤ 6 * u)
  rw [mul_assoc, mul_div_assoc]
  linarith

private theorem elements {K : ℕ} (h : Ctx fl ps pd u) {dv : ℂ → ℂ → ℂ} (hdv : ∀ a b, b ≠ 0 → ‖dv a b - a / b‖ ≤ 6 * u * ‖a / b‖) (L : Layout) (A : Matrix (Fin (n + 1)) (Fin (n + 1)) ℂ) (cof cof' : Fin (n + 1) → Fin (n + 1) → ℂ) (d : ℂ)
    (hc : ∀ i j, NearC (3 * u) K (cof i j) (cof' i j) (normPerm ((stripesOf L A).submatrix j.succAbove i.succAbove)))
    (hd : NearC (3 * u) K d A.det (normPerm A)) (hA : ((1 + 3 * u) ^ K - 1) * normPerm A < ‖A.det‖)
    (hinv : stripesOf L (Matrix.of fun i j => cof' i j / A.det) * A = 1) :
    d ≠ 0 ∧ ∀ i j, ‖stripesOf L (Matrix.of fun i j => dv (cof i j) d) i j - A⁻¹ i j‖ ≤
      inverseErr (6 * u) ((1 + 3 * u) ^ K - 1) (normPerm (A.submatrix j.succAbove i.succAbove)) (normPerm A) ‖A.det‖ ‖A⁻¹ i j‖ := by
  rw [Matrix.inv_eq_left_inv hinv]
  refine ⟨(quotient h hdv (hc 0 0) hd hA).1, fun i j => ?_⟩
  cases L
  · exact (quotient h hdv (hc i j) hd hA).2
  · have := (quotient h hdv (hc j i) hd hA).2
    have e : normPerm ((stripesOf .col A).submatrix i.succAbove j.succAbove) = normPerm (A.submatrix j.succAbove i.succAbove) := by
      rw [← normPerm_transpose]; rfl
    rw [e] at this
    exact this

private theorem normPerm_one (A : Matrix (Fin 1) (Fin 1) ℂ) : normPerm A = ‖A 0 0‖ := by
  unfold normPerm; rw [Matrix.permanent_unique]; rfl

/-- C147: the inverse of a 2×2 matrix, either layout, exists and is accurate unless the determinant is of the size of the rounding error. -/
theorem C147_inv2 (h : Rounding fl u) (hu : u ≤ 1 / 16) (hps : Fl.IsProdSum fl ps) (hpd : Fl.IsProdDiff fl pd) {dv : ℂ → ℂ → ℂ}
    (hdv : ∀ a b, b ≠ 0 → ‖dv a b - a / b‖ ≤ 6 * u * ‖a / b‖) (L : Layout) (A : Matrix (Fin 2) (Fin 2) ℂ)
    (hA : ((1 + 3 * u) ^ 2 - 1) * normPerm A < ‖A.det‖) :
    ∃ X, Fl.inv2C dv fl ps pd L A = some X ∧ ∀ i j, ‖X i j - A⁻¹ i j‖ ≤
      inverseErr (6 * u) ((1 + 3 * u) ^ 2 - 1) (normPerm (A.submatrix j.succAbove i.succAbove)) (normPerm A) ‖A.det‖ ‖A⁻¹ i j‖ := by
  have h : Ctx fl ps pd u := ⟨h, hu, hps, hpd⟩
  have hdet : A.det ≠ 0 := fun h0 => by
    rw [h0, norm_zero] at hA
    have : 0 ≤ normPerm A := by unfold normPerm; rw [permanent_two]; simp only [Matrix.map_apply]; positivity
    linarith [mul_nonneg (by linarith [h.one_le 2] : 0 ≤ (1 + 3 * u) ^ 2 - 1) this]
  have hd : NearC (3 * u) 2 (Fl.pdC fl ps pd (stripesOf L A 0 0) (stripesOf L A 1 1) (stripesOf L A 0 1) (stripesOf L A 1 0)) A.det (normPerm A) := by
    refine ((NearC.exact (u := 3 * u) _).pdiff h (NearC.exact _) (NearC.exact _) (NearC.exact _)).congr rfl ?_ ?_
    · rw [← det_stripes L A, Matrix.det_fin_two]
    · rw [← normPerm_stripesOf L A]
      unfold normPerm
      rw [permanent_two]
      simp only [Matrix.map_apply]
      ring
  have hi := (C30_inv2 L A).2 (stripesOf L (Matrix.of fun i j => Mathter.cof2Stripes (stripesOf L A) i j / A.det)) (by
    unfold Mathter.inv2 Mathter.inv2Stripes
    have e : stripesOf L A 0 0 * stripesOf L A 1 1 - stripesOf L A 0 1 * stripesOf L A 1 0 = A.det := by
      rw [← det_stripes L A, Matrix.det_fin_two]
    dsimp only
    rw [e, if_neg hdet]; rfl)
  obtain ⟨h1, h2⟩ := elements h hdv L A (Mathter.cof2Stripes (stripesOf L A)) _ _ (fun i j => NearC.mono h (Nat.zero_le 2) (by
    rw [normPerm_one]
    have e : ‖Mathter.cof2Stripes (stripesOf L A) i j‖ = ‖(stripesOf L A).submatrix j.succAbove i.succAbove 0 0‖ := by
      fin_cases i <;> fin_cases j <;> simp [Mathter.cof2Stripes]
    rw [← e]
    exact NearC.exact _)) hd hA hi.1
  exact ⟨_, by unfold Fl.inv2C Fl.inv2StripesC; dsimp only; rw [if_neg h1]; rfl, h2⟩

private theorem cof3_near (h : Ctx fl ps pd u) (s : Matrix (Fin 3) (Fin 3) ℂ) (i j : Fin 3) :
    NearC (3 * u) 2 (Fl.cof3StripesC fl ps pd s i j) (Mathter.cof3Stripes s i j) (normPerm (s.submatrix j.succAbove i.succAbove)) := by
  have q : ∀ a b c d : ℂ, NearC (3 * u) 2 (Fl.pdC fl ps pd a b c d) (a * b - c * d) (‖a‖ * ‖b‖ + ‖c‖ * ‖d‖) := fun a b c d =>
    (NearC.exact (u := 3 * u) a).pdiff h (NearC.exact b) (NearC.exact c) (NearC.exact d)
  unfold normPerm
  rw [permanent_two]
  fin_cases i <;> fin_cases j <;> refine (q _ _ _ _).congr rfl rfl ?_ <;> simp [sw, Fin.succAbove] <;> ring

/-- C147: the inverse of a 3×3 matrix. -/
theorem C147_inv3 (h : Rounding fl u) (hu : u ≤ 1 / 16) (hps : Fl.IsProdSum fl ps) (hpd : Fl.IsProdDiff fl pd) {dv : ℂ → ℂ → ℂ}
    (hdv : ∀ a b, b ≠ 0 → ‖dv a b - a / b‖ ≤ 6 * u * ‖a / b‖) (c : Cfg) (p : Bool) (tb : RTree (batchSize 3 false))
    (ts : RTree (3 + 1)) (htb : tb.Valid) (hts : ts.Valid) (L : Layout) (A : Matrix (Fin 3) (Fin 3) ℂ) (hA : ((1 + 3 * u) ^ 5 - 1) * normPerm A < ‖A.det‖) :
    ∃ X, Fl.inv3C c p dv fl ps pd tb ts L A = some X ∧ ∀ i j, ‖X i j - A⁻¹ i j‖ ≤
      inverseErr (6 * u) ((1 + 3 * u) ^ 5 - 1) (normPerm (A.submatrix j.succAbove i.succAbove)) (normPerm A) ‖A.det‖ ‖A⁻¹ i j‖ := by
  have h : Ctx fl ps pd u := ⟨h, hu, hps, hpd⟩
  have hd := (det3_near h c p tb ts htb hts (stripesOf L A)).congr rfl (det_stripes L A) (normPerm_stripesOf L A)
  have hdet : A.det ≠ 0 := fun h0 => by
    rw [h0, norm_zero] at hA
    linarith [mul_nonneg (by linarith [h.one_le 5] : 0 ≤ (1 + 3 * u) ^ 5 - 1) hd.nonneg]
  have hi := (C30_inv3 L A).2 (stripesOf L (Matrix.of fun i j => Mathter.cof3Stripes (stripesOf L A) i j / A.det)) (by
    unfold Mathter.inv3 Mathter.inv3Stripes
    dsimp only
    rw [C28_det3 L A, if_neg hdet]; rfl)
  obtain ⟨h1, h2⟩ := elements h hdv L A (Fl.cof3StripesC fl ps pd (stripesOf L A)) _ _ (fun i j => (cof3_near h _ i j).mono h (by norm_num)) hd hA hi.1
  exact ⟨_, by unfold Fl.inv3C Fl.inv3StripesC; dsimp only; rw [if_neg h1]; rfl, h2⟩

private theorem six_near (h : Ctx fl ps pd u) {k l : ℕ} (hkl : k + l = 1) {s a0 b0 a1 b1 a2 b2 a3 b3 a4 b4 a5 b5 x0 y0 x1 y1 x2 y2 x3 y3 x4 y4 x5 y5 : ℂ}
    {A0 B0 A1 B1 A2 B2 A3 B3 A4 B4 A5 B5 : ℝ}
    (ha0 : NearC (3 * u) k a0 x0 A0) (hb0 : NearC (3 * u) l b0 y0 B0) (ha1 : NearC (3 * u) k a1 x1 A1) (hb1 : NearC (3 * u) l b1 y1 B1) (ha2 : NearC (3 * u) k a2 x2 A2) (hb2 : NearC (3 * u) l b2 y2 B2)
    (ha3 : NearC (3 * u) k a3 x3 A3) (hb3 : NearC (3 * u) l b3 y3 B3) (ha4 : NearC (3 * u) k a4 x4 A4) (hb4 : NearC (3 * u) l b4 y4 B4) (ha5 : NearC (3 * u) k a5 x5 A5) (hb5 : NearC (3 * u) l b5 y5 B5) :
    NearC (3 * u) 8 (Fl.prodC ps pd s (Fl.mulSubC fl ps pd (Fl.maddC fl ps pd a4 b4 (Fl.maddC fl ps pd a3 b3 (Fl.mulSubC fl ps pd (Fl.pdC fl ps pd a0 b0 a1 b1) a2 b2))) a5 b5))
      (s * (x4 * y4 + (x3 * y3 + (x0 * y0 - x1 * y1 - x2 * y2)) - x5 * y5))
      (‖s‖ * (A4 * B4 + (A3 * B3 + (A0 * B0 + A1 * B1 + A2 * B2)) + A5 * B5)) := by
  have e1 := ha0.pdiff h hb0 ha1 hb1
  rw [hkl] at e1
  have e2 := NearC.msub h (m := 3) (by omega) ha2 hb2 e1
  have e3 := NearC.madd h (m := 4) (by omega) ha3 hb3 e2
  have e4 := NearC.madd h (m := 5) (by omega) ha4 hb4 e3
  have e5 := NearC.msub h (m := 6) (by omega) ha5 hb5 e4
  exact (NearC.exact s).mul h e5 |>.congr rfl rfl rfl

set_option maxHeartbeats 1000000 in
private theorem cof4_near (h : Ctx fl ps pd u) (s : Matrix (Fin 4) (Fin 4) ℂ) (i j : Fin 4) :
    NearC (3 * u) 8 (Fl.cof4StripesC fl ps pd s i j) (Mathter.cof4Stripes s i j) (normPerm (s.submatrix j.succAbove i.succAbove)) := by
  have x : ∀ a : ℂ, NearC (3 * u) 0 a a ‖a‖ := fun a => NearC.exact a
  have m : ∀ a b : ℂ, NearC (3 * u) 1 (Fl.prodC ps pd a b) (a * b) (‖a‖ * ‖b‖) := fun a b => (x a).mul h (x b)
  unfold normPerm
  rw [permanent_three]
  fin_cases j <;> fin_cases i
  all_goals first
    | refine (six_near (u := u) h (k := 0) (l := 1) rfl (x _) (m _ _) (x _) (m _ _) (x _) (m _ _) (x _) (m _ _) (x _) (m _ _) (x _) (m _ _)).congr rfl ?_ ?_
    | refine (six_near (u := u) h (k := 1) (l := 0) rfl (m _ _) (x _) (m _ _) (x _) (m _ _) (x _) (m _ _) (x _) (m _ _) (x _) (m _ _) (x _)).congr rfl ?_ ?_
  all_goals simp [Mathter.cof4Stripes, sw, Fin.succAbove]
  all_goals ring

/-- C147: the inverse of a 4×4 matrix. -/
theorem C147_inv4 (h : Rounding fl u) (hu : u ≤ 1 / 16) (hps : Fl.IsProdSum fl ps) (hpd : Fl.IsProdDiff fl pd) {dv : ℂ → ℂ → ℂ}
    (hdv : ∀ a b, b ≠ 0 → ‖dv a b - a / b‖ ≤ 6 * u * ‖a / b‖) (c : Cfg) (p : Bool) (tb3 : RTree (batchSize 3 false)) (ts3 : RTree (3 + 1)) (htb3 : tb3.Valid) (hts3 : ts3.Valid)
    (tb4 : RTree (batchSize 4 false)) (ts4 : RTree (4 + 1)) (htb4 : tb4.Valid) (hts4 : ts4.Valid) (L : Layout) (A : Matrix (Fin 4) (Fin 4) ℂ)
    (hA : ((1 + 3 * u) ^ 11 - 1) * normPerm A < ‖A.det‖) :
    ∃ X, Fl.inv4C c p dv fl ps pd tb3 ts3 tb4 ts4 L A = some X ∧ ∀ i j, ‖X i j - A⁻¹ i j‖ ≤
      inverseErr (6 * u) ((1 + 3 * u) ^ 11 - 1) (normPerm (A.submatrix j.succAbove i.succAbove)) (normPerm A) ‖A.det‖ ‖A⁻¹ i j‖ := by
  have h : Ctx fl ps pd u := ⟨h, hu, hps, hpd⟩
  have hd := (det4_near h c p tb3 ts3 htb3 hts3 tb4 ts4 htb4 hts4 (stripesOf L A)).congr rfl (det_stripes L A) (normPerm_stripesOf L A)
  have hdet : A.det ≠ 0 := fun h0 => by
    rw [h0, norm_zero] at hA
    linarith [mul_nonneg (by linarith [h.one_le 11] : 0 ≤ (1 + 3 * u) ^ 11 - 1) hd.nonneg]
  have hi := (C30_inv4 L A).2 (stripesOf L (Matrix.of fun i j => Mathter.cof4Stripes (stripesOf L A) i j / A.det)) (by
    unfold Mathter.inv4 Mathter.inv4Stripes
    dsimp only
    rw [C28_det4 L A, if_neg hdet]; rfl)
  obtain ⟨h1, h2⟩ := elements h hdv L A (Fl.cof4StripesC fl ps pd (stripesOf L A)) _ _ (fun i j => (cof4_near h _ i j).mono h (by norm_num)) hd hA hi.1
  exact ⟨_, by unfold Fl.inv4C Fl.inv4StripesC; dsimp only; rw [if_neg h1]; rfl, h2⟩

/-- The bounds are not vacuous: in single precision, a matrix whose determinant is far above its rounding error. -/
example : let fl := flAway 24
    let ps : ℝ → ℝ → ℝ → ℝ → ℝ := fun a b c d => fl (fl (a * b) + fl (c * d))
    let pd : ℝ → ℝ → ℝ → ℝ → ℝ := fun a b c d => fl (fl (a * b) - fl (c * d))
    let u := (2 : ℝ) ^ (-((24 : ℕ) : ℤ))
    let A : Matrix (Fin 3) (Fin 3) ℂ := !![2, 0, Complex.I; 1, -1, 0; 0, 4 * Complex.I, 1]
    Rounding fl u ∧ u ≤ 1 / 16 ∧ Fl.IsProdSum fl ps ∧ Fl.IsProdDiff fl pd ∧ (∀ a b, b ≠ 0 → ‖Fl.divC fl ps pd a b - a / b‖ ≤ 6 * u * ‖a / b‖) ∧
    A.det = -6 ∧ ((1 + 3 * u) ^ 5 - 1) * normPerm A < ‖A.det‖ := by
  intro fl ps pd u A
  have h : RoundsToNearest 24 fl := flAway_roundsToNearest (by norm_num)
  have hps : Fl.IsProdSum fl ps := fun _ _ _ _ => Or.inl rfl
  have hpd : Fl.IsProdDiff fl pd := fun _ _ _ _ => Or.inl rfl
  have hd : A.det = -6 := by
    rw [Matrix.det_fin_three]
    simp [A]
    linear_combination 4 * Complex.I_mul_I
  refine ⟨h.rounding (by norm_num), by norm_num [u], hps, hpd, fun a b hb => (C146_division (by norm_num) h hps hpd a b hb).2, hd, ?_⟩
  rw [hd]
  unfold normPerm
  rw [permanent_three]
  simp [A, u]
  norm_num

end Mathter.Props
