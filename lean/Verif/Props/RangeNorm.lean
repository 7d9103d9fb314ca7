import Verif.Lemmas.RangeNorm
import Verif.Props.Matrix
import Verif.Props.Elementwise
import Mathlib.Tactic.FinCases

/-!
# C131: `NormPrecise` of matrices neither overflows nor underflows
-/

namespace Mathter.Props
open Mathter
variable {c cR : Cfg} {r n : ℕ} {o : Order} {L : Layout} {pk : Bool} {p : ℕ} {emin : ℤ} {Ω : ℝ} {fl : ℝ → Option ℝ}

private theorem get_matDivScalar (conv : Bool) (m0 : Mat c FR r n o L (pk && pk)) (m : Mat c ℝ r n o L pk) (M : ℝ) (hM : M ≠ 0) (i : Fin r) (j : Fin n) :
    (Rg.matDivScalar fl conv m0 (Rg.liftMat m) (some M)).get i j = fl (m.get i j / M) := by
  have h1 := Mat.get_mapStripes (c := c) (o := o) (L := L) (p := pk) (p2 := pk && pk) (fun v => Rg.divScalar fl conv v (some M)) (fun y => Rg.divOp fl y (some M))
    (fun v i => by unfold Rg.divScalar; rw [Vec.get_doBinary, Vec.get_fill]) m0 (Rg.liftMat m) i j
  have h2 : (Rg.liftMat m).get i j = (some (m.get i j) : Option ℝ) := Mat.get_of_stripes (fun x => (some x : Option ℝ)) m (Rg.liftMat m) (fun _ _ => rfl) i j
  refine h1.trans ?_
  rw [h2]
  exact if_neg hM

private theorem get_matSquare (conv : Bool) (jr : Vec c FR n pk) (jc : Vec c FR r pk) (m0 : Mat c FR r n o L (pk && pk)) (m : Mat c FR r n o L pk) (i : Fin r)
    (j : Fin n) (x : ℝ) (hx : m.get i j = (some x : Option ℝ)) : (Rg.matSquare fl conv jr jc m0 m).get i j = fl (x * x) := by
  refine (Mat.elementwise_get _ (Rg.op fl (· * ·)) (fun v w i => by rw [Vec.get_doBinary]) jr jc m0 m m i j).trans ?_
  rw [hx]
  rfl

private theorem get_matAdd (conv : Bool) (jr : Vec c FR n pk) (jc : Vec c FR r pk) (m0 : Mat c FR r n o L (pk && pk)) (a b : Mat c FR r n o L pk) (i : Fin r)
    (j : Fin n) (x y : ℝ) (hx : a.get i j = (some x : Option ℝ)) (hy : b.get i j = (some y : Option ℝ)) : (Rg.matAdd fl conv jr jc m0 a b).get i j = fl (x + y) := by
  refine (Mat.elementwise_get _ (Rg.op fl (· + ·)) (fun v w i => by rw [Vec.get_doBinary]) jr jc m0 a b i j).trans ?_
  rw [hx, hy]
  rfl

private theorem get_to {A B : Type} (func : ∀ {d : ℕ}, Vec c A d pk → Vec cR B d pk) (f : A → B)
    (hf : ∀ {d : ℕ} (v : Vec c A d pk) (i : Fin d), (func v).get i = f (v.get i)) (m0 : Mat cR B r n o L pk) (m : Mat c A r n o L pk) (i : Fin r) (j : Fin n) :
    (Mat.mapStripesTo func m0 m).get i j = f (m.get i j) := by
  apply Mat.get_of_stripes f m
  intro s t
  unfold Mat.mapStripesTo
  rw [Mat.stripeLoopMat (fun s => func (m.stripes s)), hf]

private theorem get_abs (conv : Bool) (m0 : Mat c ℝ r n o L pk) (m : Mat c ℝ r n o L pk) (i : Fin r) (j : Fin n) : (Mat.abs conv m0 m).get i j = |m.get i j| :=
  get_to _ (fun x : ℝ => |x|) (fun v i => by simp [Vec.abs]) m0 m i j

private theorem dims_le (r n : ℕ) (L : Layout) (h : 1 ≤ r * n) : stripeDim L r n - 1 + (stripeCount L r n - 1) ≤ r * n - 1 := by
  have hr : 1 ≤ r := Nat.pos_of_ne_zero (by rintro rfl; simp at h)
  have hn : 1 ≤ n := Nat.pos_of_ne_zero (by rintro rfl; simp at h)
  obtain ⟨a, rfl⟩ := Nat.exists_eq_add_of_le hr
  obtain ⟨b, rfl⟩ := Nat.exists_eq_add_of_le hn
  have : (1 + a) * (1 + b) = 1 + a + b + a * b := by ring
  cases L <;> simp only [stripeDim, stripeCount] <;> rw [this] <;> generalize a * b = q <;> omega

/-- C131, real elements: `NormPrecise` returns a finite number with a small error whenever the Frobenius norm with its error margin is finite, although
the squares of the elements may overflow or underflow. `hfmt` says that the exponent range of the format is large compared with its precision, `hΩ` that
twice the number of elements is in range (both hold for `float` and `double` and all practical sizes). -/
theorem C131_real [NeZero (stripeCount L r n)] (hp : 3 ≤ p) (h : RoundsInRange p emin Ω fl) (conv : Bool) (tm : RTree (batchSize (stripeDim L r n) false))
    (tms : RTree (stripeDim L r n)) (tb : RTree (batchSize (stripeDim L r n) false)) (ts : RTree (stripeDim L r n + 1)) (htm : tm.Valid) (htms : tms.Valid)
    (htb : tb.Valid) (hts : ts.Valid) (hfmt : ((r * n : ℕ) : ℝ) * ((2 : ℝ) ^ emin / 2) * 4 ^ p ≤ (2 : ℝ) ^ (-(p : ℤ)))
    (hΩ : 2 * ((r * n : ℕ) : ℝ) * (1 + (2 : ℝ) ^ (-(p : ℤ))) ^ (r * n) ≤ Ω) (a0 b0 : Mat c ℝ r n o L pk) (d0 : Mat c FR r n o L (pk && pk))
    (q0 : Mat c FR r n o L ((pk && pk) && (pk && pk))) (jr : Vec c FR n (pk && pk)) (jc : Vec c FR r (pk && pk)) (m : Mat c ℝ r n o L pk)
    (hN : (1 + (2 : ℝ) ^ (-(p : ℤ))) ^ (r * n + 3) * Real.sqrt (∑ i, ∑ j, m.get i j ^ 2) ≤ Ω) :
    ∃ x : ℝ, Rg.normPreciseReal fl conv tm tms tb ts a0 b0 d0 q0 jr jc m = (some x : Option ℝ) ∧
      (1 - 6 * (2 : ℝ) ^ (-(p : ℤ))) * (1 - (2 : ℝ) ^ (-(p : ℤ))) ^ (r * n + 1) * Real.sqrt (∑ i, ∑ j, m.get i j ^ 2) - (2 : ℝ) ^ emin / 2 ≤ x ∧
      x ≤ (1 + (2 : ℝ) ^ (-(p : ℤ))) ^ (r * n + 4) * Real.sqrt (∑ i, ∑ j, m.get i j ^ 2) + (2 : ℝ) ^ emin / 2 := by
  have hre : ∀ i j, (Mat.abs conv a0 (Mat.real conv b0 m) : Mat c ℝ r n o L pk).get i j = |m.get i j| := fun i j => by
    rw [get_abs]
    congr 1
    exact get_to _ (fun x : ℝ => RCLike.re x) (fun v i => by simp [Vec.real]) b0 m i j
  obtain ⟨hM, i1, j1, hM1⟩ := C32_max tm tms htm htms (Mat.abs conv a0 (Mat.real conv b0 m) : Mat c ℝ r n o L pk)
  simp only [view, hre] at hM hM1
  unfold Rg.normPreciseReal
  simp only
  generalize hMe : Mat.maxElem tm tms (Mat.abs conv a0 (Mat.real conv b0 m) : Mat c ℝ r n o L pk) = M at *
  have hη := two_zpow_pos emin
  split
  · rename_i h0
    rw [h0] at hM
    have : ∀ i j, m.get i j = 0 := fun i j => abs_nonpos_iff.1 (hM i j)
    refine ⟨0, rfl, ?_⟩
    simp only [this]
    simp
    positivity
  · rename_i h0
    have hM0 : 0 < M := lt_of_le_of_ne (hM1 ▸ abs_nonneg _) (Ne.symm h0)
    have hrn : 1 ≤ r * n := Nat.mul_pos (i1.pos) (j1.pos)
    have hu0 := two_zpow_pos (-(p : ℤ))
    have hu1 : (2 : ℝ) ^ (-(p : ℤ)) ≤ 1 := zpow_le_one_of_nonpos₀ (by norm_num) (by omega)
    have es : ∀ f : Fin r × Fin n → ℝ, ∑ i, f i = ∑ i, ∑ j, f (i, j) := fun f => Fintype.sum_prod_type f
    obtain ⟨y, s, hy, hs, fs, hs0, hSΩ, hT⟩ := Rg.scaled_norm (ι := Fin r × Fin n) (dim := r * n) (by simp) hp h hfmt hΩ (fun i => |m.get i.1 i.2|) M hM0
      (fun i => by rw [abs_abs]; exact hM _ _) ⟨(i1, j1), by rw [abs_abs]; exact hM1⟩ (by rw [es]; simpa only [sq_abs] using hN)
    rw [es] at hSΩ
    simp only [es, sq_abs] at hT
    have hsn : 0 ≤ ∑ i, ∑ j, s (i, j) := Finset.sum_nonneg fun i _ => Finset.sum_nonneg fun j _ => hs0 _
    have hd := dims_le r n L hrn
    have hpw : (1 + (2 : ℝ) ^ (-(p : ℤ))) ^ (stripeDim L r n - 1 + (stripeCount L r n - 1)) ≤ (1 + (2 : ℝ) ^ (-(p : ℤ))) ^ (r * n - 1) :=
      pow_le_pow_right₀ (by linarith) hd
    have hpw' : (1 - (2 : ℝ) ^ (-(p : ℤ))) ^ (r * n - 1) ≤ (1 - (2 : ℝ) ^ (-(p : ℤ))) ^ (stripeDim L r n - 1 + (stripeCount L r n - 1)) :=
      pow_le_pow_of_le_one (by linarith) (by linarith) hd
    obtain ⟨T, eT, fT, lo, up⟩ := Rg.matSum_range (by omega) h tb ts htb hts
      (Rg.matSquare fl conv jr jc q0 (Rg.matDivScalar fl conv d0 (Rg.liftMat (Mat.abs conv a0 (Mat.real conv b0 m))) (some M)))
      (fun i j => s (i, j)) (fun i j => by
        rw [get_matSquare conv jr jc q0 _ i j (y (i, j)) (by rw [get_matDivScalar conv d0 _ M h0, hre]; exact hy (i, j))]
        exact hs (i, j)) (fun i j => fs _) (fun i j => hs0 _) ((mul_le_mul_of_nonneg_right hpw hsn).trans hSΩ)
    obtain ⟨R, hR, b⟩ := hT T fT ((mul_le_mul_of_nonneg_right hpw' hsn).trans lo) (up.trans (mul_le_mul_of_nonneg_right hpw hsn))
    refine ⟨R, ?_, b⟩
    rw [eT]
    exact hR

/-- C131, complex elements, with the sizes of both parts counted. -/
theorem C131_complex [NeZero (stripeCount L r n)] (hp : 3 ≤ p) (h : RoundsInRange p emin Ω fl) (conv convC : Bool)
    (tm : RTree (batchSize (stripeDim L r n) false)) (tms : RTree (stripeDim L r n)) (tb : RTree (batchSize (stripeDim L r n) false))
    (ts : RTree (stripeDim L r n + 1)) (htm : tm.Valid) (htms : tms.Valid) (htb : tb.Valid) (hts : ts.Valid)
    (hfmt : ((r * n * 2 : ℕ) : ℝ) * ((2 : ℝ) ^ emin / 2) * 4 ^ p ≤ (2 : ℝ) ^ (-(p : ℤ)))
    (hΩ : 2 * ((r * n * 2 : ℕ) : ℝ) * (1 + (2 : ℝ) ^ (-(p : ℤ))) ^ (r * n * 2) ≤ Ω) (a0 b0 a1 b1 : Mat cR ℝ r n o L pk)
    (d0 d1 : Mat cR FR r n o L (pk && pk)) (q0 q1 : Mat cR FR r n o L ((pk && pk) && (pk && pk)))
    (s0 : Mat cR FR r n o L (((pk && pk) && (pk && pk)) && ((pk && pk) && (pk && pk)))) (jr jr1 : Vec cR FR n (pk && pk)) (jc jc1 : Vec cR FR r (pk && pk))
    (jr2 : Vec cR FR n ((pk && pk) && (pk && pk))) (jc2 : Vec cR FR r ((pk && pk) && (pk && pk))) (m : Mat c ℂ r n o L pk)
    (hN : (1 + (2 : ℝ) ^ (-(p : ℤ))) ^ (r * n * 2 + 3) * Real.sqrt (∑ i, ∑ j, ‖m.get i j‖ ^ 2) ≤ Ω) :
    ∃ x : ℝ, Rg.normPreciseComplex fl conv convC tm tms tb ts a0 b0 a1 b1 d0 d1 q0 q1 s0 jr jr1 jc jc1 jr2 jc2 m = (some x : Option ℝ) ∧
      (1 - 6 * (2 : ℝ) ^ (-(p : ℤ))) * (1 - (2 : ℝ) ^ (-(p : ℤ))) ^ (r * n * 2 + 1) * Real.sqrt (∑ i, ∑ j, ‖m.get i j‖ ^ 2) - (2 : ℝ) ^ emin / 2 ≤ x ∧
      x ≤ (1 + (2 : ℝ) ^ (-(p : ℤ))) ^ (r * n * 2 + 4) * Real.sqrt (∑ i, ∑ j, ‖m.get i j‖ ^ 2) + (2 : ℝ) ^ emin / 2 := by
  have hre : ∀ i j, (Mat.abs conv a0 (Mat.real convC b0 m : Mat cR ℝ r n o L pk) : Mat cR ℝ r n o L pk).get i j = |(m.get i j).re| := fun i j => by
    rw [get_abs]
    congr 1
    exact get_to _ (fun x : ℂ => x.re) (fun v i => by simp [Vec.real]) b0 m i j
  have him : ∀ i j, (Mat.abs conv a1 (Mat.imag convC b1 m : Mat cR ℝ r n o L pk) : Mat cR ℝ r n o L pk).get i j = |(m.get i j).im| := fun i j => by
    rw [get_abs]
    congr 1
    exact get_to _ (fun x : ℂ => x.im) (fun v i => by simp [Vec.imag]) b1 m i j
  obtain ⟨hM, i1, j1, hM1⟩ := C32_max tm tms htm htms (Mat.abs conv a0 (Mat.real convC b0 m : Mat cR ℝ r n o L pk) : Mat cR ℝ r n o L pk)
  obtain ⟨hM', i2, j2, hM2⟩ := C32_max tm tms htm htms (Mat.abs conv a1 (Mat.imag convC b1 m : Mat cR ℝ r n o L pk) : Mat cR ℝ r n o L pk)
  simp only [view, hre, him] at hM hM1 hM' hM2
  unfold Rg.normPreciseComplex
  simp only
  generalize hMe : Mat.maxElem tm tms (Mat.abs conv a0 (Mat.real convC b0 m : Mat cR ℝ r n o L pk) : Mat cR ℝ r n o L pk) = Mr at *
  generalize hMe' : Mat.maxElem tm tms (Mat.abs conv a1 (Mat.imag convC b1 m : Mat cR ℝ r n o L pk) : Mat cR ℝ r n o L pk) = Mi at *
  have hη := two_zpow_pos emin
  have hnorm : ∀ z : ℂ, ‖z‖ ^ 2 = |z.re| ^ 2 + |z.im| ^ 2 := fun z => by
    rw [← Complex.normSq_eq_norm_sq, Complex.normSq_apply, sq_abs, sq_abs]; ring
  have hall : ∀ i j, |(m.get i j).re| ≤ max Mr Mi ∧ |(m.get i j).im| ≤ max Mr Mi := fun i j =>
    ⟨(hM i j).trans (le_max_left _ _), (hM' i j).trans (le_max_right _ _)⟩
  have hatt : ∃ (i : (Fin r × Fin n) × Bool), max Mr Mi = |if i.2 then (m.get i.1.1 i.1.2).re else (m.get i.1.1 i.1.2).im| := by
    rcases max_choice Mr Mi with e | e
    · exact ⟨((i1, j1), true), by rw [e]; exact hM1⟩
    · exact ⟨((i2, j2), false), by rw [e]; exact hM2⟩
  clear hM1 hM2 hM hM' hMe hMe' i2 j2
  generalize max Mr Mi = M at *
  split
  · rename_i h0
    rw [h0] at hall
    have : ∀ i j, m.get i j = 0 := fun i j => Complex.ext (abs_nonpos_iff.1 (hall i j).1) (abs_nonpos_iff.1 (hall i j).2)
    refine ⟨0, rfl, ?_⟩
    simp only [this]
    simp
    positivity
  · rename_i h0
    obtain ⟨ib, hib⟩ := hatt
    have hM0 : 0 < M := lt_of_le_of_ne (hib ▸ abs_nonneg _) (Ne.symm h0)
    have hrn : 1 ≤ r * n := Nat.mul_pos (i1.pos) (j1.pos)
    have hu0 := two_zpow_pos (-(p : ℤ))
    have hu1 : (2 : ℝ) ^ (-(p : ℤ)) ≤ 1 := zpow_le_one_of_nonpos₀ (by norm_num) (by omega)
    have es : ∀ f : (Fin r × Fin n) × Bool → ℝ, ∑ i, f i = ∑ i, ∑ j, (f ((i, j), true) + f ((i, j), false)) := fun f => by
      rw [Fintype.sum_prod_type, Fintype.sum_prod_type]
      simp only [Fintype.sum_bool]
    have e2 : ∑ i : (Fin r × Fin n) × Bool, |if i.2 then (m.get i.1.1 i.1.2).re else (m.get i.1.1 i.1.2).im| ^ 2 = ∑ i, ∑ j, ‖m.get i j‖ ^ 2 := by
      rw [es]; simp only [hnorm]; rfl
    obtain ⟨y, s, hy, hs, fs, hs0, hSΩ, hT⟩ := Rg.scaled_norm (ι := (Fin r × Fin n) × Bool) (dim := r * n * 2) (by simp) hp h hfmt hΩ
      (fun i => |if i.2 then (m.get i.1.1 i.1.2).re else (m.get i.1.1 i.1.2).im|) M hM0
      (fun i => by
        rw [abs_abs]
        split
        · exact (hall _ _).1
        · exact (hall _ _).2) ⟨ib, by rw [abs_abs]; exact hib⟩ (by rw [e2]; exact hN)
    rw [es] at hSΩ
    rw [e2] at hT
    simp only [es] at hT
    have hin : ∀ i j, |s ((i, j), true) + s ((i, j), false)| ≤ Ω := fun i j => by
      rw [abs_of_nonneg (add_nonneg (hs0 _) (hs0 _))]
      have h1 : s ((i, j), true) + s ((i, j), false) ≤ ∑ i, ∑ j, (s ((i, j), true) + s ((i, j), false)) := by
        refine le_trans ?_ (Finset.single_le_sum (f := fun i => ∑ j, (s ((i, j), true) + s ((i, j), false)))
          (fun i _ => Finset.sum_nonneg fun j _ => add_nonneg (hs0 _) (hs0 _)) (Finset.mem_univ i))
        exact Finset.single_le_sum (f := fun j => s ((i, j), true) + s ((i, j), false)) (fun j _ => add_nonneg (hs0 _) (hs0 _)) (Finset.mem_univ j)
      have h2 : (1 : ℝ) ≤ (1 + (2 : ℝ) ^ (-(p : ℤ))) ^ (r * n * 2 - 1) := one_le_pow₀ (by linarith)
      have h3 : 0 ≤ s ((i, j), true) + s ((i, j), false) := add_nonneg (hs0 _) (hs0 _)
      nlinarith
    choose t ht using fun i j => h.finite _ (hin i j)
    have hte : ∀ i j, (1 - (2 : ℝ) ^ (-(p : ℤ))) * (s ((i, j), true) + s ((i, j), false)) ≤ t i j ∧
        t i j ≤ (1 + (2 : ℝ) ^ (-(p : ℤ))) * (s ((i, j), true) + s ((i, j), false)) := fun i j => by
      have he := h.err_add (by omega) (fs ((i, j), true)) (fs ((i, j), false)) (ht i j)
      rw [abs_of_nonneg (add_nonneg (hs0 _) (hs0 _))] at he
      have := abs_le.1 he
      constructor <;> linarith [this.1, this.2]
    have ht0 : ∀ i j, 0 ≤ t i j := fun i j => le_trans (mul_nonneg (by linarith) (add_nonneg (hs0 _) (hs0 _))) (hte i j).1
    have hlo : (1 - (2 : ℝ) ^ (-(p : ℤ))) * ∑ i, ∑ j, (s ((i, j), true) + s ((i, j), false)) ≤ ∑ i, ∑ j, t i j := by
      rw [Finset.mul_sum]
      refine Finset.sum_le_sum fun i _ => ?_
      rw [Finset.mul_sum]
      exact Finset.sum_le_sum fun j _ => (hte i j).1
    have hup : ∑ i, ∑ j, t i j ≤ (1 + (2 : ℝ) ^ (-(p : ℤ))) * ∑ i, ∑ j, (s ((i, j), true) + s ((i, j), false)) := by
      rw [Finset.mul_sum]
      refine Finset.sum_le_sum fun i _ => ?_
      rw [Finset.mul_sum]
      exact Finset.sum_le_sum fun j _ => (hte i j).2
    have hsn : 0 ≤ ∑ i, ∑ j, (s ((i, j), true) + s ((i, j), false)) :=
      Finset.sum_nonneg fun i _ => Finset.sum_nonneg fun j _ => add_nonneg (hs0 _) (hs0 _)
    have hd := dims_le r n L hrn
    have hpw : (1 + (2 : ℝ) ^ (-(p : ℤ))) ^ (stripeDim L r n - 1 + (stripeCount L r n - 1)) * (1 + (2 : ℝ) ^ (-(p : ℤ))) ≤
        (1 + (2 : ℝ) ^ (-(p : ℤ))) ^ (r * n * 2 - 1) := by
      rw [← pow_succ]; exact pow_le_pow_right₀ (by linarith) (by omega)
    have hpw' : (1 - (2 : ℝ) ^ (-(p : ℤ))) ^ (r * n * 2 - 1) ≤
        (1 - (2 : ℝ) ^ (-(p : ℤ))) ^ (stripeDim L r n - 1 + (stripeCount L r n - 1)) * (1 - (2 : ℝ) ^ (-(p : ℤ))) := by
      rw [← pow_succ]; exact pow_le_pow_of_le_one (by linarith) (by linarith) (by omega)
    have hupT : (1 + (2 : ℝ) ^ (-(p : ℤ))) ^ (stripeDim L r n - 1 + (stripeCount L r n - 1)) * ∑ i, ∑ j, t i j ≤
        (1 + (2 : ℝ) ^ (-(p : ℤ))) ^ (r * n * 2 - 1) * ∑ i, ∑ j, (s ((i, j), true) + s ((i, j), false)) := by
      refine le_trans (mul_le_mul_of_nonneg_left hup (pow_nonneg (by linarith) _)) ?_
      rw [← mul_assoc]
      exact mul_le_mul_of_nonneg_right hpw hsn
    have hloT : (1 - (2 : ℝ) ^ (-(p : ℤ))) ^ (r * n * 2 - 1) * ∑ i, ∑ j, (s ((i, j), true) + s ((i, j), false)) ≤
        (1 - (2 : ℝ) ^ (-(p : ℤ))) ^ (stripeDim L r n - 1 + (stripeCount L r n - 1)) * ∑ i, ∑ j, t i j := by
      refine le_trans ?_ (mul_le_mul_of_nonneg_left hlo (pow_nonneg (by linarith) _))
      rw [← mul_assoc]
      exact mul_le_mul_of_nonneg_right hpw' hsn
    obtain ⟨T, eT, fT, lo, up⟩ := Rg.matSum_range (by omega) h tb ts htb hts
      (Rg.matAdd fl conv jr2 jc2 s0
        (Rg.matSquare fl conv jr jc q0 (Rg.matDivScalar fl conv d0 (Rg.liftMat (Mat.abs conv a0 (Mat.real convC b0 m : Mat cR ℝ r n o L pk))) (some M)))
        (Rg.matSquare fl conv jr1 jc1 q1 (Rg.matDivScalar fl conv d1 (Rg.liftMat (Mat.abs conv a1 (Mat.imag convC b1 m : Mat cR ℝ r n o L pk))) (some M))))
      t (fun i j => by
        rw [get_matAdd conv jr2 jc2 s0 _ _ i j (s ((i, j), true)) (s ((i, j), false))
          ((get_matSquare conv jr jc q0 _ i j (y ((i, j), true)) (by rw [get_matDivScalar conv d0 _ M h0, hre]; exact hy ((i, j), true))).trans (hs _))
          ((get_matSquare conv jr1 jc1 q1 _ i j (y ((i, j), false)) (by rw [get_matDivScalar conv d1 _ M h0, him]; exact hy ((i, j), false))).trans (hs _))]
        exact ht i j) (fun i j => h.mem _ _ (ht i j)) ht0 (hupT.trans hSΩ)
    obtain ⟨R, hR, b⟩ := hT T fT (hloT.trans lo) (up.trans hupT)
    refine ⟨R, ?_, b⟩
    rw [eT]
    exact hR

/-- Single precision, a matrix of two rows and three columns: the squares of the elements overflow, the norm does not. -/
example : NeZero (stripeCount .row 2 3) ∧ RoundsInRange 24 (-149) ((2 ^ 24 - 1) * 2 ^ 104) (flRange 24 (-149) ((2 ^ 24 - 1) * 2 ^ 104)) ∧
    (RTree.node (.node (.leaf ⟨0, by decide⟩) (.leaf ⟨2, by decide⟩)) (.node (.leaf ⟨1, by decide⟩) (.leaf ⟨3, by decide⟩)) :
      RTree (batchSize (stripeDim .row 2 3) false)).Valid ∧
    (RTree.node (.node (.leaf 0) (.leaf 1)) (.leaf 2) : RTree (stripeDim .row 2 3)).Valid ∧
    (RTree.node (.node (.node (.leaf 3) (.leaf 0)) (.leaf 1)) (.leaf 2) : RTree (stripeDim .row 2 3 + 1)).Valid ∧
    ((2 * 3 * 2 : ℕ) : ℝ) * ((2 : ℝ) ^ (-149 : ℤ) / 2) * 4 ^ 24 ≤ (2 : ℝ) ^ (-((24 : ℕ) : ℤ)) ∧
    2 * ((2 * 3 * 2 : ℕ) : ℝ) * (1 + (2 : ℝ) ^ (-((24 : ℕ) : ℤ))) ^ (2 * 3 * 2) ≤ (2 ^ 24 - 1) * 2 ^ 104 ∧
    (∃ m : Mat Cfg.sse ℝ 2 3 .follow .row false, m.get 0 0 = 3 * 2 ^ 100 ∧ m.get 1 1 = 4 * 2 ^ 100 ∧
      (1 + (2 : ℝ) ^ (-((24 : ℕ) : ℤ))) ^ (2 * 3 + 3) * Real.sqrt (∑ i, ∑ j, m.get i j ^ 2) ≤ (2 ^ 24 - 1) * 2 ^ 104) ∧
    (∃ m : Mat Cfg.sse ℂ 2 3 .follow .row false, m.get 0 0 = ⟨0, 3 * 2 ^ 100⟩ ∧ m.get 1 1 = ⟨4 * 2 ^ 100, 0⟩ ∧
      (1 + (2 : ℝ) ^ (-((24 : ℕ) : ℤ))) ^ (2 * 3 * 2 + 3) * Real.sqrt (∑ i, ∑ j, ‖m.get i j‖ ^ 2) ≤ (2 ^ 24 - 1) * 2 ^ 104) ∧
    ((3 : ℝ) * 2 ^ 100) ^ 2 > (2 ^ 24 - 1) * 2 ^ 104 := by
  have hs : Real.sqrt ((3 * 2 ^ 100) ^ 2 + (4 * 2 ^ 100) ^ 2) = 5 * 2 ^ 100 := by
    rw [show ((3 : ℝ) * 2 ^ 100) ^ 2 + (4 * 2 ^ 100) ^ 2 = (5 * 2 ^ 100) ^ 2 by norm_num]
    exact Real.sqrt_sq (by norm_num)
  refine ⟨⟨by decide⟩, flRange_roundsInRange (by norm_num) ⟨⟨2 ^ 24 - 1, 104, by norm_num, by norm_num⟩, (2 ^ 24 - 1) * 2 ^ 253, by norm_num [zpow_neg]⟩, ?_, ?_, ?_,
    by norm_num [zpow_neg], by norm_num [zpow_neg], ⟨⟨fun s => Vec.ofFn fun t => if s.val = 0 ∧ t.val = 0 then 3 * 2 ^ 100 else if s.val = 1 ∧ t.val = 1 then 4 * 2 ^ 100 else 0⟩, ?_, ?_, ?_⟩,
    ⟨⟨fun s => Vec.ofFn fun t => if s.val = 0 ∧ t.val = 0 then ⟨0, 3 * 2 ^ 100⟩ else if s.val = 1 ∧ t.val = 1 then ⟨4 * 2 ^ 100, 0⟩ else 0⟩, ?_, ?_, ?_⟩, by norm_num⟩
  · unfold RTree.Valid; decide
  · unfold RTree.Valid; decide
  · unfold RTree.Valid; decide
  · simp [Mat.get]
  · simp [Mat.get]
  · have e : Real.sqrt (∑ i : Fin 2, ∑ j : Fin 3, ((⟨fun s => Vec.ofFn fun t => if s.val = 0 ∧ t.val = 0 then 3 * 2 ^ 100 else if s.val = 1 ∧ t.val = 1 then 4 * 2 ^ 100 else 0⟩ :
        Mat Cfg.sse ℝ 2 3 .follow .row false).get i j) ^ 2) = 5 * 2 ^ 100 := by
      rw [← hs]
      congr 1
      simp [Mat.get, Fin.sum_univ_succ]
    rw [e]
    norm_num [zpow_neg]
  · simp [Mat.get]
  · simp [Mat.get]
  · have n1 : ‖(⟨0, 3 * 2 ^ 100⟩ : ℂ)‖ ^ 2 = (3 * 2 ^ 100) ^ 2 := by rw [← Complex.normSq_eq_norm_sq, Complex.normSq_apply]; norm_num
    have n2 : ‖(⟨4 * 2 ^ 100, 0⟩ : ℂ)‖ ^ 2 = (4 * 2 ^ 100) ^ 2 := by rw [← Complex.normSq_eq_norm_sq, Complex.normSq_apply]; norm_num
    have e : Real.sqrt (∑ i : Fin 2, ∑ j : Fin 3, ‖(⟨fun s => Vec.ofFn fun t => if s.val = 0 ∧ t.val = 0 then ⟨0, 3 * 2 ^ 100⟩ else
        if s.val = 1 ∧ t.val = 1 then ⟨4 * 2 ^ 100, 0⟩ else 0⟩ : Mat Cfg.sse ℂ 2 3 .follow .row false).get i j‖ ^ 2) = 5 * 2 ^ 100 := by
      rw [← hs, ← n1, ← n2]
      congr 1
      simp [Mat.get, Fin.sum_univ_succ]
    rw [e]
    norm_num [zpow_neg]

end Mathter.Props
