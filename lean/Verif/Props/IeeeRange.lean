import Verif.Lemmas.IeeeRange
import Verif.Props.IeeeSVD
import Verif.Props.RoundedSVD
import Verif.Spec.Frobenius

/-!
# C128: the one-sided singular value decomposition of matrices with large elements
-/

namespace Mathter.Props
open Mathter
variable {r n : ℕ} {fl : ℝ → Fx} {fl₀ : ℝ → ℝ} {u M w : ℝ} {ps pd : Fx → Fx → Fx → Fx → Fx} {hyp : Fx → Fx → Fx → Fx}

private theorem stripe_fin {c : Cfg} {p1 : Bool} {d : ℕ} (bmax : Fx → Fx → Fx) (hm : LaneMax bmax) (conv : Bool) (t : RTree (batchSize (d + 1) false)) (ht : t.Valid)
    (a : Fin (d + 1) → ℝ) : ∃ m, Ie.scaleElements bmax conv t (Vec.ofFn (fun i => .fin (a i)) : Vec c Fx (d + 1) p1) = .fin m ∧ (∃ i, m = |a i|) ∧
    ∀ i, |a i| ≤ m := by
  unfold Ie.scaleElements
  obtain ⟨⟨i, h1⟩, h2⟩ := C95_max_partial bmax hm t ht (Vec.doUnary conv Fx.abs (Vec.ofFn (fun i => .fin (a i)) : Vec c Fx (d + 1) p1) : Vec c Fx (d + 1) p1)
  simp only [Vec.get_doUnary, Vec.get_ofFn] at h1 h2
  have h3 := h2 fun i => by simp [Fx.abs]
  refine ⟨|a i|, h1, ⟨i, rfl⟩, fun j => ?_⟩
  have := h3 j
  rw [h1] at this
  simpa [Fx.abs, Fx.val] using this

private theorem fold_fin {m : ℕ} (f : Fin m → ℝ) :
    ∃ v, forUp m 0 (fun i scale => Fx.stdMax scale (.fin (f i))) (.fin 0) = .fin v ∧ (v = 0 ∨ ∃ i, v = f i) ∧ ∀ i, f i ≤ v := by
  obtain ⟨v, h1, h3, h2⟩ := forUp_inv (body := fun i scale => Fx.stdMax scale (.fin (f i))) (s := Fx.fin 0)
    (fun k s => ∃ v, s = Fx.fin v ∧ (v = 0 ∨ ∃ i, v = f i) ∧ ∀ i, i.val < k → f i ≤ v) (Nat.zero_le m)
    ⟨0, rfl, Or.inl rfl, fun i h => absurd h (Nat.not_lt_zero _)⟩ (by
      rintro k s hk ⟨v, rfl, h', h⟩
      refine ⟨max v (f k), Ie.stdMax_fin _ _, ?_, fun i hi => ?_⟩
      · rcases max_choice v (f k) with e | e <;> rw [e]
        · exact h'
        · exact Or.inr ⟨k, rfl⟩
      · rcases Nat.lt_succ_iff_lt_or_eq.1 hi with h' | h'
        · exact (h i h').trans (le_max_left _ _)
        · rw [Fin.ext h' (a := i) (b := k)]; exact le_max_right _ _)
  exact ⟨v, h1, h3, fun i => h2 i i.isLt⟩

/-- `ScaleElements` of a matrix of numbers is the largest magnitude of an element. -/
private theorem matScale_fin (c : Cfg) (p1 : Bool) (bmax : Fx → Fx → Fx) (hm : LaneMax bmax) (conv : Bool) (tr : RTree (batchSize (n + 1) false))
    (tc : RTree (batchSize (r + 1) false)) (htr : tr.Valid) (htc : tc.Valid) (L : Layout) (A : Matrix (Fin (r + 1)) (Fin (n + 1)) ℝ) :
    ∃ sc, Ie.matScale c p1 bmax conv tr tc L (Matrix.of fun i j => .fin (A i j)) = .fin sc ∧ (sc = 0 ∨ ∃ i j, sc = |A i j|) ∧ ∀ i j, |A i j| ≤ sc := by
  cases L with
  | row =>
    choose m h1 h2 h3 using fun i => stripe_fin (c := c) (p1 := p1) bmax hm conv tr htr (A i)
    obtain ⟨v, e, h4, hv⟩ := fold_fin m
    refine ⟨v, ?_, h4.imp_right fun ⟨i, hi⟩ => ⟨i, (h2 i).imp fun j hj => hi.trans hj⟩, fun i j => (h3 i j).trans (hv i)⟩
    rw [← e]
    unfold Ie.matScale
    simp only [← h1]
    rfl
  | col =>
    choose m h1 h2 h3 using fun j => stripe_fin (c := c) (p1 := p1) bmax hm conv tc htc fun i => A i j
    obtain ⟨v, e, h4, hv⟩ := fold_fin m
    refine ⟨v, ?_, h4.imp_right fun ⟨j, hj⟩ => (h2 j).imp fun i hi => ⟨j, hj.trans hi⟩, fun i j => (h3 j i).trans (hv j)⟩
    rw [← e]
    unfold Ie.matScale
    simp only [← h1]
    rfl

private theorem frob_cols (A : Matrix (Fin r) (Fin n) ℝ) : frob A = norm2 fun j => norm2 fun i => A i j := by
  rw [← frob_transpose, frob_rows]; rfl

private theorem norm2_rev (x y : Fin n → ℝ) : |norm2 x - norm2 y| ≤ norm2 fun i => x i - y i := by
  have h1 := norm2_add_le (fun i => x i - y i) y
  have h2 := norm2_add_le (fun i => y i - x i) x
  have h3 : (norm2 fun i => y i - x i) = norm2 fun i => x i - y i := by
    unfold norm2
    congr 1
    exact Finset.sum_congr rfl fun i _ => by ring
  simp only [sub_add_cancel] at h1 h2
  rw [abs_le]
  constructor <;> linarith

private theorem lens_sub (A B : Matrix (Fin r) (Fin n) ℝ) : (norm2 fun j => (norm2 fun i => A i j) - norm2 fun i => B i j) ≤ frob (A - B) := by
  rw [frob_cols]
  refine norm2_le_of_abs fun j => ?_
  exact norm2_rev _ _

/-- The errors of the scaling, of the rotations and of the lengths. -/
private theorem lens_err (hu : 0 ≤ u) {J g sc : ℝ} (hJ : 0 ≤ J) (hg : 0 ≤ g) (hsc : 0 < sc) {A A₀ X : Matrix (Fin r) (Fin n) ℝ} {P : Matrix (Fin n) (Fin n) ℝ}
    (hP : P.transpose * P = 1) (hA₀ : ∀ i j, |A₀ i j - A i j / sc| ≤ u * |A i j / sc|) (hX : ∀ i, norm2 (fun j => X i j - (P * A₀.transpose) j i) ≤ J * norm2 (A₀ i))
    {S : Fin n → ℝ} (hS : ∀ j, |S j - norm2 fun i => X i j| ≤ g * norm2 fun i => X i j) :
    (norm2 fun j => S j * sc - norm2 fun i => (A * P.transpose) i j) ≤ ((1 + u) * (1 + J) * (1 + g) - 1) * frob A := by
  have e0 : frob (sc⁻¹ • A) = sc⁻¹ * frob A := by rw [frob_smul, abs_of_pos (inv_pos.2 hsc)]
  have e1 : frob (A₀ - sc⁻¹ • A) ≤ u * frob (sc⁻¹ • A) := frob_le_mul hu fun i j => by
    have := hA₀ i j
    simpa [Matrix.sub_apply, Matrix.smul_apply, smul_eq_mul, div_eq_inv_mul] using this
  have e2 : frob A₀ ≤ (1 + u) * frob (sc⁻¹ • A) := by
    have := frob_add_le (A₀ - sc⁻¹ • A) (sc⁻¹ • A)
    rw [sub_add_cancel] at this
    linarith
  have hPP : P.transpose * P.transpose.transpose = 1 := by rw [Matrix.transpose_transpose]; exact hP
  have e3 : frob (X - A₀ * P.transpose) ≤ J * frob A₀ := frob_rows_le hJ fun i => by
    refine le_of_eq_of_le ?_ (hX i)
    congr 1
    funext j
    rw [Matrix.sub_apply, ← Matrix.transpose_apply (A₀ * P.transpose), Matrix.transpose_mul, Matrix.transpose_transpose]
  have e4 : frob X ≤ (1 + J) * frob A₀ := by
    have := frob_add_le (X - A₀ * P.transpose) (A₀ * P.transpose)
    rw [sub_add_cancel, frob_mul_orth hPP] at this
    linarith
  have s1 : (norm2 fun j => S j - norm2 fun i => X i j) ≤ g * frob X := by
    rw [frob_cols]
    refine norm2_le_mul hg fun j => ?_
    rw [abs_of_nonneg (norm2_nonneg _)]
    exact hS j
  have s2 : (norm2 fun j => (norm2 fun i => X i j) - norm2 fun i => ((sc⁻¹ • A) * P.transpose) i j) ≤ J * frob A₀ + u * frob (sc⁻¹ • A) := by
    refine (lens_sub _ _).trans ?_
    have : X - (sc⁻¹ • A) * P.transpose = (X - A₀ * P.transpose) + (A₀ - sc⁻¹ • A) * P.transpose := by
      rw [Matrix.sub_mul]; abel
    rw [this]
    refine (frob_add_le _ _).trans ?_
    rw [frob_mul_orth hPP]
    linarith
  have s3 : (norm2 fun j => S j - norm2 fun i => ((sc⁻¹ • A) * P.transpose) i j) ≤ ((1 + u) * (1 + J) * (1 + g) - 1) * (sc⁻¹ * frob A) := by
    have h := norm2_add_le (fun j => S j - norm2 fun i => X i j) fun j => (norm2 fun i => X i j) - norm2 fun i => ((sc⁻¹ • A) * P.transpose) i j
    simp only [sub_add_sub_cancel] at h
    rw [← e0]
    have t1 := mul_le_mul_of_nonneg_left e4 hg
    have t2 := mul_le_mul_of_nonneg_left e2 (by positivity : 0 ≤ g * (1 + J) + J)
    calc _ ≤ _ := h
      _ ≤ g * ((1 + J) * frob A₀) + (J * frob A₀ + u * frob (sc⁻¹ • A)) := add_le_add (s1.trans t1) s2
      _ = (g * (1 + J) + J) * frob A₀ + u * frob (sc⁻¹ • A) := by ring
      _ ≤ (g * (1 + J) + J) * ((1 + u) * frob (sc⁻¹ • A)) + u * frob (sc⁻¹ • A) := by linarith
      _ = _ := by ring
  have s4 : (fun j => S j * sc - norm2 fun i => (A * P.transpose) i j) = fun j => sc * (S j - norm2 fun i => ((sc⁻¹ • A) * P.transpose) i j) := by
    funext j
    have : (norm2 fun i => ((sc⁻¹ • A) * P.transpose) i j) = sc⁻¹ * norm2 fun i => (A * P.transpose) i j := by
      rw [Matrix.smul_mul, ← abs_of_pos (inv_pos.2 hsc), ← norm2_smul, abs_of_pos (inv_pos.2 hsc)]
      rfl
    rw [this, mul_sub, ← mul_assoc, mul_inv_cancel₀ hsc.ne', one_mul, mul_comm]
  rw [s4, norm2_smul, abs_of_pos hsc]
  calc _ ≤ _ := mul_le_mul_of_nonneg_left s3 hsc.le
    _ = _ := by field_simp

private theorem hypot_fits (hh : Fx.IsHypot M w hyp) (hw : 0 ≤ w) :
    ∃ hyp₀, Fl.IsHypot w hyp₀ ∧ ∀ x y z, (1 + w) * Real.sqrt (x ^ 2 + y ^ 2 + z ^ 2) ≤ M → hyp (.fin x) (.fin y) (.fin z) = .fin (hyp₀ x y z) := by
  have key : ∀ x y z, ∃ v, |v - Real.sqrt (x ^ 2 + y ^ 2 + z ^ 2)| ≤ w * Real.sqrt (x ^ 2 + y ^ 2 + z ^ 2) ∧
      ((1 + w) * Real.sqrt (x ^ 2 + y ^ 2 + z ^ 2) ≤ M → hyp (.fin x) (.fin y) (.fin z) = .fin v) := fun x y z => by
    by_cases hM : (1 + w) * Real.sqrt (x ^ 2 + y ^ 2 + z ^ 2) ≤ M
    · obtain ⟨v, h1, h2⟩ := hh x y z hM
      exact ⟨v, h2, fun _ => h1⟩
    · exact ⟨_, by rw [sub_self, abs_zero]; positivity, fun h => absurd h hM⟩
  choose hyp₀ h1 h2 using key
  exact ⟨hyp₀, h1, h2⟩

private theorem rotErr_rotation (u : ℝ) : Fl.rotErr u (Fl.unitErr u) = rotationErr u := by
  unfold Fl.rotErr Fl.unitErr rotationErr
  ring

private theorem norm2_perm (σ : Equiv.Perm (Fin n)) (x : Fin n → ℝ) : (norm2 fun i => x (σ i)) = norm2 x := by
  unfold norm2
  rw [Equiv.sum_comp σ fun i => x i ^ 2]

/-- C128: as long as no quotient, no rotated element and no element of the Gram matrix of a matrix with elements of magnitude 1 overflows (`M`), the
singular values are the rounded lengths of the columns of the matrix times an orthogonal one, up to rounding errors, however large the elements are: only the
last multiplication can overflow, and it does so only if such a length does. -/
theorem C128_one (h : Rounding fl₀ u) (hM : FitsBelow M fl fl₀) (h1 : fl₀ 1 = 1) (hu : 100 * u ≤ 1) (hps : Fx.IsProdSum fl ps) (hpd : Fx.IsProdDiff fl pd)
    (hw0 : 0 ≤ w) (hw : 1 < 2 * (1 - u) ^ 3 * (1 - w)) (hhyp : Fx.IsHypot M w hyp) (c : Cfg) (p1 conv : Bool) (tb : RTree (batchSize (r + 1) false))
    (ts : RTree (r + 1 + 1)) (htb : tb.Valid) (hts : ts.Valid) (hr : (1 + u) ^ (r + 2) ≤ 2) (hMr : 144 * ((r + 1 : ℕ) : ℝ) * ((n + 1 : ℕ) : ℝ) ≤ M) (neg : Bool)
    (big big' : ℝ) (bmax : Fx → Fx → Fx) (hm : LaneMax bmax) (tr : RTree (batchSize (n + 1) false)) (tc : RTree (batchSize (r + 1) false)) (htr : tr.Valid)
    (htc : tc.Valid) (L : Layout) (σ : Equiv.Perm (Fin (n + 1))) (qr : Bool) (sgn : Fin (n + 1) → Bool) (sweeps : ℕ)
    (hs : 24 * (sweeps * ((n + 1) * n / 2) : ℕ) * u ≤ 1) (A : Matrix (Fin (r + 1)) (Fin (n + 1)) ℝ) (hA : A ≠ 0) (T : Fin (n + 1) → Fx)
    (hT : Ie.svdOneSided fl ps pd hyp (Ie.columnDot c p1 fl conv tb ts) neg (.fin big) (.fin big')
      (Ie.matScale c p1 bmax conv tr tc L (Matrix.of fun i j => .fin (A i j))) σ qr sgn sweeps (Matrix.of fun i j => .fin (A i j)) = some T) :
    ∃ (s : Fin (n + 1) → ℝ) (W : Matrix (Fin (n + 1)) (Fin (n + 1)) ℝ), (∀ i, T i = fl (s i)) ∧ W.transpose * W = 1 ∧
      (norm2 fun j => |s j| - norm2 fun i => (A * W) i j) ≤ ((1 + u) ^ (r + 3) * (1 + jacobiErr u (sweeps * ((n + 1) * n / 2))) - 1) * frob A := by
  have h0 := h.u_nonneg
  obtain ⟨sc, hsc, -, hAsc⟩ := matScale_fin c p1 bmax hm conv tr tc htr htc L A
  rw [hsc] at hT
  have hsc0 : 0 < sc := by
    by_contra hn
    refine hA (Matrix.ext fun i j => ?_)
    have := hAsc i j
    exact abs_nonpos_iff.1 (this.trans (not_lt.1 hn))
  have hw1 : w ≤ 1 := by
    by_contra hn
    have : (1 - u) ^ 3 * (1 - w) ≤ 0 := mul_nonpos_of_nonneg_of_nonpos (pow_nonneg (by linarith) 3) (by linarith)
    linarith
  obtain ⟨ps₀, hps₀, hps'⟩ := hps.fits h hM
  obtain ⟨pd₀, hpd₀, hpd'⟩ := hpd.fits h hM
  obtain ⟨hyp₀, hhyp₀, hhyp'⟩ := hypot_fits hhyp hw0
  obtain ⟨J, hJ⟩ : ∃ J, J = jacobiErr u (sweeps * ((n + 1) * n / 2)) := ⟨_, rfl⟩
  have hJ1 := C104_size h0 hu hs
  rw [← hJ] at hJ1 ⊢
  have hA₀ : ∀ i j, |fl₀ (A i j / sc) - A i j / sc| ≤ u * |A i j / sc| := fun i j => h.err _
  have hA1 : ∀ i j, |A i j / sc| ≤ 1 := fun i j => by
    rw [abs_div, abs_of_pos hsc0]
    exact (div_le_one hsc0).2 (hAsc i j)
  have hn1 : (1 : ℝ) ≤ ((n + 1 : ℕ) : ℝ) := by exact_mod_cast Nat.succ_le_succ (Nat.zero_le n)
  have hr1 : (1 : ℝ) ≤ ((r + 1 : ℕ) : ℝ) := by exact_mod_cast Nat.succ_le_succ (Nat.zero_le r)
  have hrn : (1 : ℝ) ≤ ((r + 1 : ℕ) : ℝ) * ((n + 1 : ℕ) : ℝ) := one_le_mul_of_one_le_of_one_le hr1 hn1
  have hM1 : 144 ≤ M := by linarith
  have hpow : (1 + Fl.rotErr u (Fl.unitErr u)) ^ (sweeps * ((n + 1) * n / 2)) = 1 + J := by
    rw [hJ]; unfold jacobiErr; rw [rotErr_rotation]; ring
  obtain ⟨hgram, hloop⟩ := Ie.one_link (c := c) (p1 := p1) (A := Matrix.of fun i j => fl₀ (A i j / sc)) h hM h1 hu hps' hps₀ hpd' hpd₀ hw1 hhyp' hhyp₀ hw0 neg
    (fun a11 aoff a22 ha => C104_assertion h hhyp₀ hw (by linarith) neg a11 a22 ha) conv tb ts htb hts hr hMr
    (fun i j => by
      have := Fx.abs_round h (hA1 i j)
      simp only [Matrix.of_apply]
      linarith) (T := sweeps * ((n + 1) * n / 2)) (by rw [hpow]; linarith)
  have hinit : Ie.oneInit fl (Matrix.of fun i j => Fx.fin (A i j)) (.fin sc) = Ie.lift ⟨Matrix.of fun i j => fl₀ (A i j / sc), (1 : Matrix _ _ ℝ)⟩ := by
    unfold Ie.oneInit Ie.lift
    congr 1
    · ext i j
      simp only [Matrix.of_apply]
      exact (Fx.Fits.div h hM hsc0.ne' (hA1 i j) (by linarith)).1
    · ext i j
      simp only [Matrix.of_apply, Matrix.one_apply]
      split <;> rfl
  unfold Ie.svdOneSided Ie.oneLengths at hT
  rw [hinit, hloop sweeps 0 0 big big' _ ⟨1, by simp, fun i => by simp [norm2_zero], fun j => by simp [norm2_zero]⟩ (by omega), Option.map_map, Option.map_map] at hT
  obtain ⟨x, hx, rfl⟩ := Option.map_eq_some_iff.1 hT
  obtain ⟨P, hP⟩ := Fl.one_err h h1 (by linarith) (by have := Ie.unitErr_le h hu; linarith) hps₀ hpd₀ hyp₀ _ _ _ sweeps big big' x hx
  clear hT hloop hinit hx
  obtain ⟨S, hSdef⟩ : ∃ S : Fin (n + 1) → ℝ, S = fun j => Fl.length fl₀ conv tb ts (Vec.ofFn (fun i => x.1.X i j) : Vec c ℝ (r + 1) p1) := ⟨_, rfl⟩
  have hS : ∀ j, |S j - norm2 fun i => x.1.X i j| ≤ ((1 + u) ^ (r + 2) - 1) * norm2 fun i => x.1.X i j := fun j => by
    have := C76_length h conv tb ts htb hts (Vec.ofFn (fun i => x.1.X i j) : Vec c ℝ (r + 1) p1)
    simp only [Vec.get_ofFn] at this
    rw [hSdef]
    exact this
  have hS0 : ∀ j, 0 ≤ S j := fun j => by
    have h1 := (abs_le.1 (hS j)).1
    have := norm2_nonneg fun i => x.1.X i j
    nlinarith
  have hlen : ∀ j, Fx.sqrt fl (Ie.columnDot c p1 fl conv tb ts (fun i => (Ie.lift x.1).X i j) fun i => (Ie.lift x.1).X i j) = .fin (S j) := fun j => by
    have hg := hgram _ x.1 P hP (le_refl _) j j
    have e : (Ie.columnDot c p1 fl conv tb ts (fun i => (Ie.lift x.1).X i j) fun i => (Ie.lift x.1).X i j) = _ := hg.1
    rw [e]
    have hd := C76_lengthSquared h conv tb ts htb hts (Vec.ofFn (fun i => x.1.X i j) : Vec c ℝ (r + 1) p1)
    simp only [Vec.get_ofFn] at hd
    have hd0 : 0 ≤ Fl.dot fl₀ conv tb ts (Vec.ofFn (fun i => x.1.X i j) : Vec c ℝ (r + 1) p1) (Vec.ofFn (fun i => x.1.X i j) : Vec c ℝ (r + 1) p1) := by
      have h1 := (abs_le.1 hd).1
      have h2 : 0 ≤ ∑ i, x.1.X i j ^ 2 := Finset.sum_nonneg fun i _ => sq_nonneg _
      have h3 : (1 + u) ^ (r + 1) ≤ (1 + u) ^ (r + 2) := pow_le_pow_right₀ (by linarith) (by omega)
      change _ ≤ Fl.lengthSquared fl₀ conv tb ts _ - _ at h1
      change 0 ≤ Fl.lengthSquared fl₀ conv tb ts _
      nlinarith
    rw [Fx.sqrt, if_neg (not_lt.2 hd0), hSdef]
    refine hM _ ?_
    rw [abs_of_nonneg (Real.sqrt_nonneg _)]
    refine Real.sqrt_le_iff.2 ⟨by linarith, ?_⟩
    have := (le_abs_self _).trans hg.2
    nlinarith
  clear hSdef hgram
  refine ⟨fun i => (if qr then (if sgn i then -|S (σ i)| else |S (σ i)|) else S (σ i)) * sc, Matrix.of fun i j => P (σ j) i, fun i => ?_, ?_, ?_⟩
  · simp only [Function.comp, hlen]
    cases qr <;> cases sgn i <;> rfl
  · have hPP : P * P.transpose = 1 := mul_eq_one_comm.1 hP.unit
    ext i j
    have := congrFun (congrFun hPP (σ i)) (σ j)
    rw [Matrix.mul_apply] at this
    rw [Matrix.mul_apply]
    simp only [Matrix.transpose_apply, Matrix.of_apply] at this ⊢
    rw [this, Matrix.one_apply, Matrix.one_apply]
    simp only [EmbeddingLike.apply_eq_iff_eq]
  · have habs : ∀ i, |(if qr then (if sgn i then -|S (σ i)| else |S (σ i)|) else S (σ i)) * sc| = S (σ i) * sc := fun i => by
      rw [abs_mul, abs_of_pos hsc0]
      have := abs_of_nonneg (hS0 (σ i))
      cases qr <;> cases sgn i <;> simp [this]
    have hX := hP.X
    rw [hpow, add_sub_cancel_left] at hX
    have key := lens_err h0 hJ1.1 (by have := one_le_pow₀ (by linarith : 1 ≤ 1 + u) (n := r + 2); linarith) hsc0 hP.unit
      (A := A) (A₀ := Matrix.of fun i j => fl₀ (A i j / sc)) hA₀ hX hS
    simp only [habs]
    refine le_of_eq_of_le ?_ (key.trans (le_of_eq (by ring)))
    rw [← norm2_perm σ fun j => S j * sc - norm2 fun i => (A * P.transpose) i j]
    rfl

private theorem flSat_fits : FitsBelow 1000 flSat id := fun x hx => by
  have := abs_le.1 hx
  unfold flSat
  rw [if_neg (by linarith), if_neg (by linarith)]
  rfl

private theorem exact_rounding : Rounding (id : ℝ → ℝ) 0 where
  u_nonneg := le_refl _
  idem _ := rfl
  odd _ := rfl
  err x := by simp
  sub_exact := by intros; rfl
  err_exact := by intros; rfl

/-- `std::hypot` that overflows above 1000. -/
private noncomputable def hypSat : Fx → Fx → Fx → Fx
  | .fin x, .fin y, .fin z => flSat (Real.sqrt (x ^ 2 + y ^ 2 + z ^ 2))
  | _, _, _ => .nan

private theorem hypSat_ok : Fx.IsHypot 1000 0 hypSat := fun x y z h => by
  refine ⟨Real.sqrt (x ^ 2 + y ^ 2 + z ^ 2), flSat_fits _ ?_, by simp⟩
  rw [abs_of_nonneg (Real.sqrt_nonneg _)]
  linarith

private abbrev exampleA : Matrix (Fin 2) (Fin 2) ℝ := !![700, -700; 700, 700]

/-- Numbers overflow above 1000, and the squares of the elements do so: the singular values are found, as both of them are less than 1000. -/
example (tb tc : RTree (batchSize 2 false)) (ts : RTree 3) (htb : tb.Valid) (htc : tc.Valid) (hts : ts.Valid) (bmax : Fx → Fx → Fx) (hm : LaneMax bmax)
    (σ : Equiv.Perm (Fin 2)) :
    ∃ (T : Fin 2 → Fx) (s : Fin 2 → ℝ) (W : Matrix (Fin 2) (Fin 2) ℝ),
      Ie.svdOneSided flSat (fun a b c d => Fx.add flSat (Fx.mul flSat a b) (Fx.mul flSat c d)) (fun a b c d => Fx.sub flSat (Fx.mul flSat a b) (Fx.mul flSat c d))
        hypSat (Ie.columnDot Cfg.sse false flSat true tb ts) false (.fin 1000) (.fin 999)
        (Ie.matScale Cfg.sse false bmax true tc tc .col (Matrix.of fun i j => .fin (exampleA i j))) σ false (fun _ => false) 3
        (Matrix.of fun i j => .fin (exampleA i j)) = some T ∧
      (∀ i, T i = flSat (s i)) ∧ W.transpose * W = 1 ∧ (norm2 fun j => |s j| - norm2 fun i => (exampleA * W) i j) ≤ 0 := by
  have key := C128_one (r := 1) (n := 1) (w := 0) exact_rounding flSat_fits rfl (by norm_num) (ps := fun a b c d => Fx.add flSat (Fx.mul flSat a b) (Fx.mul flSat c d))
    (pd := fun a b c d => Fx.sub flSat (Fx.mul flSat a b) (Fx.mul flSat c d)) (fun _ _ _ _ => Or.inl rfl) (fun _ _ _ _ => Or.inl rfl) (le_refl _) (by norm_num) hypSat_ok
    Cfg.sse false true tb ts htb hts (by norm_num) (by norm_num) false 1000 999 bmax hm tc tc htc htc .col σ false (fun _ => false) 3 (by norm_num) exampleA
    (fun h => by have := congrFun (congrFun h 0) 0; norm_num [exampleA] at this)
  obtain ⟨sc, hsc, h1, h2⟩ := matScale_fin Cfg.sse false bmax hm true tc tc htc htc .col exampleA
  have e : sc = 700 := by
    have a := h2 0 0
    norm_num [exampleA] at a
    rcases h1 with rfl | ⟨i, j, h⟩
    · norm_num at a
    · rw [h]; fin_cases i <;> fin_cases j <;> norm_num [exampleA]
  subst e
  have hq : ∀ x : ℝ, |x| ≤ 1000 → Fx.div flSat (.fin (x * 700)) (.fin 700) = .fin x := fun x hx => by
    have := (Fx.Fits.div exact_rounding flSat_fits (y := x * 700) (y' := 700) (B := 1000) (by norm_num) (by rwa [mul_div_cancel_right₀ x (by norm_num)]) (le_refl _)).1
    rw [this, mul_div_cancel_right₀ x (by norm_num)]; rfl
  have hX : ∀ i j, (Ie.oneInit flSat (Matrix.of fun i j => Fx.fin (exampleA i j)) (.fin 700)).X i j = .fin ((!![1, -1; 1, 1] : Matrix (Fin 2) (Fin 2) ℝ) i j) := by
    intro i j
    have := hq ((!![1, -1; 1, 1] : Matrix (Fin 2) (Fin 2) ℝ) i j) (by fin_cases i <;> fin_cases j <;> norm_num)
    rw [← this]
    unfold Ie.oneInit
    simp only [Matrix.of_apply]
    congr 2
    fin_cases i <;> fin_cases j <;> norm_num [exampleA]
  have hd : Ie.columnDot Cfg.sse false flSat true tb ts (fun i => (Ie.oneInit flSat (Matrix.of fun i j => Fx.fin (exampleA i j)) (.fin 700)).X i 0)
      (fun i => (Ie.oneInit flSat (Matrix.of fun i j => Fx.fin (exampleA i j)) (.fin 700)).X i 1) = .fin 0 := by
    simp only [hX]
    have f := Ie.dot_fits exact_rounding flSat_fits true tb ts htb hts (a := (Vec.ofFn (fun i => Fx.fin ((!![1, -1; 1, 1] : Matrix (Fin 2) (Fin 2) ℝ) i 0)) : Vec Cfg.sse Fx 2 false))
      (b := (Vec.ofFn (fun i => Fx.fin ((!![1, -1; 1, 1] : Matrix (Fin 2) (Fin 2) ℝ) i 1)) : Vec Cfg.sse Fx 2 false))
      (a₀ := Vec.ofFn (fun i => (!![1, -1; 1, 1] : Matrix (Fin 2) (Fin 2) ℝ) i 0)) (b₀ := Vec.ofFn (fun i => (!![1, -1; 1, 1] : Matrix (Fin 2) (Fin 2) ℝ) i 1))
      (fun i => by simp only [Vec.get_ofFn]) (fun i => by simp only [Vec.get_ofFn]) (B := 2) (by simp only [Vec.get_ofFn, Fin.sum_univ_two]; norm_num) (by norm_num)
    have g := C76_dot exact_rounding true tb ts htb hts (Vec.ofFn (fun i => (!![1, -1; 1, 1] : Matrix (Fin 2) (Fin 2) ℝ) i 0) : Vec Cfg.sse ℝ 2 false)
      (Vec.ofFn (fun i => (!![1, -1; 1, 1] : Matrix (Fin 2) (Fin 2) ℝ) i 1) : Vec Cfg.sse ℝ 2 false)
    have z : ((1 : ℝ) + 0) ^ 2 - 1 = 0 := by norm_num
    rw [z, zero_mul] at g
    have g' := sub_eq_zero.1 (abs_nonpos_iff.1 g)
    unfold Ie.columnDot
    rw [f.1, g']
    simp only [Vec.get_ofFn, Fin.sum_univ_two]
    norm_num
  have hsw : ∀ ps pd, Ie.oneSweep flSat ps pd hypSat (Ie.columnDot Cfg.sse false flSat true tb ts) false (Ie.oneInit flSat (Matrix.of fun i j => Fx.fin (exampleA i j)) (.fin 700)) =
      (Ie.oneInit flSat (Matrix.of fun i j => Fx.fin (exampleA i j)) (.fin 700), .fin 0) := by
    intro ps pd
    unfold Ie.oneSweep
    rw [forUp_step (by decide), forUp_step (by decide), forUp_ge (le_refl 2)]
    simp only
    rw [forUp_ge (le_refl 2), forUp_step (by decide), forUp_ge (le_refl 2)]
    unfold Ie.oneStep
    simp only
    have hb : (!((Ie.columnDot Cfg.sse false flSat true tb ts (fun i => (Ie.oneInit flSat (Matrix.of fun i j => Fx.fin (exampleA i j)) (.fin 700)).X i 0)
      (fun i => (Ie.oneInit flSat (Matrix.of fun i j => Fx.fin (exampleA i j)) (.fin 700)).X i 1)).abs == Fx.fin 0)) = false := by
      rw [hd]
      simp [Fx.abs, Ie.fin_beq]
    exact if_neg (Bool.eq_false_iff.1 hb)
  have hl : ∀ ps pd, Ie.jacobiLoop (Ie.oneSweep flSat ps pd hypSat (Ie.columnDot Cfg.sse false flSat true tb ts) false) 3 (.fin 1000) (.fin 999)
      (Ie.oneInit flSat (Matrix.of fun i j => Fx.fin (exampleA i j)) (.fin 700)) = some (Ie.oneInit flSat (Matrix.of fun i j => Fx.fin (exampleA i j)) (.fin 700)) := by
    intro ps pd
    have e1 : Fx.lt (.fin 999) (.fin 1000) = true := by norm_num [Fx.lt]
    have e2 : Fx.lt (.fin 0) (.fin 999) = true := by norm_num [Fx.lt]
    have e3 : Fx.lt (.fin 0) (.fin 0) = false := by simp [Fx.lt]
    simp only [Ie.jacobiLoop, e1, hsw, e2, e3, if_true, Bool.false_eq_true, if_false]
  have hT : ∃ T, Ie.svdOneSided flSat (fun a b c d => Fx.add flSat (Fx.mul flSat a b) (Fx.mul flSat c d)) (fun a b c d => Fx.sub flSat (Fx.mul flSat a b) (Fx.mul flSat c d))
        hypSat (Ie.columnDot Cfg.sse false flSat true tb ts) false (.fin 1000) (.fin 999)
        (Ie.matScale Cfg.sse false bmax true tc tc .col (Matrix.of fun i j => .fin (exampleA i j))) σ false (fun _ => false) 3
        (Matrix.of fun i j => .fin (exampleA i j)) = some T := by
    rw [hsc]
    unfold Ie.svdOneSided Ie.oneLengths
    rw [hl]
    exact ⟨_, rfl⟩
  obtain ⟨T, hT⟩ := hT
  obtain ⟨s, W, a, b, d⟩ := key T hT
  exact ⟨T, s, W, hT, a, b, d.trans (le_of_eq (by norm_num [jacobiErr, rotationErr]))⟩

end Mathter.Props
