import Verif.Lemmas.RoundedConversion
import Verif.Lemmas.RoundedOne
import Verif.Props.Quaternion

/-!
# C111: rounding errors of the conversions between quaternions and matrices

The reference is the exact rotation: the orthogonal matrix that does to every vector what the exact `q(v)` does.
-/

namespace Mathter.Props
open Mathter Quat
variable {l l' : QLayout} {fl cast : ℝ → ℝ} {u v : ℝ}

/-- The upper left block as it acts on columns: transposed in the follow order. -/
def actingBlock {r c : ℕ} (o : Order) (m : Matrix (Fin (r + 3)) (Fin (c + 3)) ℝ) : Matrix (Fin 3) (Fin 3) ℝ :=
  match o with
  | .precede => block3 (by omega) (by omega) m
  | .follow => (block3 (by omega) (by omega) m).transpose

private theorem actingBlock_fl (ps pd : ℝ → ℝ → ℝ → ℝ → ℝ) (msub : ℝ → ℝ → ℝ → ℝ) {r c : ℕ} (o : Order) (m : Matrix (Fin (r + 3)) (Fin (c + 3)) ℝ) (q : Quat ℝ l) :
    actingBlock o (Fl.quatToMatrix fl cast ps pd msub o m q) = Fl.quatEntryFl fl cast ps pd msub q := by
  ext a b
  cases o
  · rw [actingBlock, Matrix.transpose_apply, block3, Matrix.submatrix_apply, Fl.quatToMatrix_entry, dif_pos ⟨b.isLt, a.isLt⟩]; rfl
  · rw [actingBlock, block3, Matrix.submatrix_apply, Fl.quatToMatrix_entry, dif_pos ⟨a.isLt, b.isLt⟩]; rfl

private theorem getElem3_acting {r c : ℕ} (o : Order) (m : Matrix (Fin (r + 3)) (Fin (c + 3)) ℝ) (a b : Fin 3) : getElem3 o m a b = actingBlock o m a b := by
  cases o <;> rfl

private theorem rotMat_unique {q : Quat ℝ l} (h : q.qLengthSquared ≠ 0) {R : Matrix (Fin 3) (Fin 3) ℝ} (hR : ∀ x, rotate q x = some (R.mulVec x)) : R = q.rotMat := by
  apply Matrix.ext_of_mulVec_single
  intro i
  have := (hR (Pi.single i 1)).symm.trans (rotate_eq_rotMat h (Pi.single i 1))
  exact Option.some.inj this

/-- C111: the matrix of a quaternion close to unit length is close to the rotation, element by element: the rounding errors are below
`((1 + v)(1 + u)⁴ - 1)·(1 + 2‖q‖²)` (`v` is the relative error of the final conversion of the type) and the length contributes
`2·|‖q‖² - 1|`. -/
theorem C111_to_matrix (h : Rounding fl u) {ps pd : ℝ → ℝ → ℝ → ℝ → ℝ} {msub : ℝ → ℝ → ℝ → ℝ} (hps : Fl.IsProdSum fl ps) (hpd : Fl.IsProdDiff fl pd)
    (hms : Fl.IsMulSub fl msub) (hv : 0 ≤ v) (hc : ∀ x, |cast x - x| ≤ v * |x|) {r c : ℕ} (o : Order) (m : Matrix (Fin (r + 3)) (Fin (c + 3)) ℝ)
    (q : Quat ℝ l) (hq : q ≠ mk4 l 0 0 0 0) :
    ∃ R : Matrix (Fin 3) (Fin 3) ℝ, R * R.transpose = 1 ∧ R.det = 1 ∧ (∀ x, rotate q x = some (R.mulVec x)) ∧
      ∀ a b, |actingBlock o (Fl.quatToMatrix fl cast ps pd msub o m q) a b - R a b| ≤
        ((1 + v) * (1 + u) ^ 4 - 1) * (1 + 2 * ‖q.toH‖ ^ 2) + 2 * |‖q.toH‖ ^ 2 - 1| := by
  have hN : q.qLengthSquared ≠ 0 := toH_ne_zero.2 fun e => hq (toH_inj (by rw [e, toH_mk4]; rfl))
  have e : ‖q.toH‖ ^ 2 = q.qLengthSquared := by rw [pow_two, ← Quaternion.normSq_eq_norm_mul_self, qLengthSquared_normSq]
  refine ⟨rotMat q, rotMat_orth hN, rotMat_det hN, rotate_eq_rotMat hN, fun a b => ?_⟩
  rw [actingBlock_fl, e]
  have h1 := Fl.quatEntryFl_err h hps hpd hms hv hc q a b
  have h2 := Fl.quatEntry_rotMat q hN a b
  have := abs_add_le (Fl.quatEntryFl fl cast ps pd msub q a b - quatEntry q a b) (quatEntry q a b - q.rotMat a b)
  rw [sub_add_sub_cancel] at this
  linarith

/-- C111: outside the block the matrix is exactly the identity. -/
theorem C111_rest (ps pd : ℝ → ℝ → ℝ → ℝ → ℝ) (msub : ℝ → ℝ → ℝ → ℝ) {r c : ℕ} (o : Order) (m : Matrix (Fin r) (Fin c) ℝ) (q : Quat ℝ l) (a : Fin r) (b : Fin c)
    (hab : 3 ≤ a.val ∨ 3 ≤ b.val) : Fl.quatToMatrix fl cast ps pd msub o m q a b = if a.val = b.val then 1 else 0 := by
  rw [Fl.quatToMatrix_entry, dif_neg (by omega)]

/-- C111: a matrix within `ε` of the rotation of a unit quaternion with scalar part `s > 0` is converted to a quaternion whose elements are
within `10·(u + ε)/s²` (plus the error `v` of the conversion of the type) of that one, if `(u + ε)/s² ≤ 1/1000`. Missing: rotations closer to
a half turn, where the conversion may fail (`C111_violated`). -/
theorem C111_from_matrix_partial (h : Rounding fl u) (hv : 0 ≤ v) (hc : ∀ x, |cast x - x| ≤ v * |x|) {r c : ℕ} (o : Order)
    (m : Matrix (Fin (r + 3)) (Fin (c + 3)) ℝ) (q₀ : Quat ℝ l) (hs : 0 < q₀.s) (hq : ‖q₀.toH‖ = 1) {R : Matrix (Fin 3) (Fin 3) ℝ}
    (hR : ∀ x, rotate q₀ x = some (R.mulVec x)) {ε : ℝ} (hε : ∀ a b, |actingBlock o m a b - R a b| ≤ ε) (hw : (u + ε) / q₀.s ^ 2 ≤ 1 / 1000) :
    ∃ q : Quat ℝ l', Fl.matrixToQuat fl cast o l' m = some q ∧
      ∀ t, |q.canonical t - q₀.canonical t| ≤ 10 * ((u + ε) / q₀.s ^ 2) + 101 / 100 * v := by
  have e : q₀.qLengthSquared = 1 := by rw [qLengthSquared_normSq, Quaternion.normSq_eq_norm_mul_self, hq, mul_one]
  have hN : q₀.qLengthSquared ≠ 0 := by rw [e]; norm_num
  refine Fl.matrixToQuat_err h hv hc o m hs e ((abs_nonneg _).trans (hε 0 0)) hw (fun a b => ?_) l'
  rw [getElem3_acting, quatEntry_eq_rotMat e, ← rotMat_unique hN hR]
  exact hε a b

/-- C111: a quaternion `q` with positive scalar part that is converted to a matrix and back is, up to a bounded error, `q/‖q‖`. Missing:
quaternions with a scalar part too small for the bound. -/
theorem C111_round_trip_partial (h : Rounding fl u) {ps pd : ℝ → ℝ → ℝ → ℝ → ℝ} {msub : ℝ → ℝ → ℝ → ℝ} (hps : Fl.IsProdSum fl ps)
    (hpd : Fl.IsProdDiff fl pd) (hms : Fl.IsMulSub fl msub) {r c : ℕ} (o : Order) (m : Matrix (Fin (r + 3)) (Fin (c + 3)) ℝ) (q : Quat ℝ l) (hs : 0 < q.s)
    {ε : ℝ} (hε : ((1 + u) ^ 4 - 1) * (1 + 2 * ‖q.toH‖ ^ 2) + 2 * |‖q.toH‖ ^ 2 - 1| ≤ ε) (hw : (u + ε) * ‖q.toH‖ ^ 2 / q.s ^ 2 ≤ 1 / 1000) :
    ∃ q' : Quat ℝ l', Fl.matrixToQuat fl id o l' (Fl.quatToMatrix fl id ps pd msub o m q) = some q' ∧
      ∀ t, |q'.canonical t - q.canonical t / ‖q.toH‖| ≤ 10 * ((u + ε) * ‖q.toH‖ ^ 2 / q.s ^ 2) := by
  have hq : q ≠ mk4 l 0 0 0 0 := by
    rintro rfl
    rw [s_eq, mk4, canonical_ofCanonical] at hs
    exact lt_irrefl _ hs
  have hH : q.toH ≠ 0 := fun e => hq (toH_inj (by rw [e, toH_mk4]; rfl))
  have hn : 0 < ‖q.toH‖ := norm_pos_iff.2 hH
  obtain ⟨R, -, -, hR, hb⟩ := C111_to_matrix (v := 0) (cast := id) h hps hpd hms le_rfl (by simp) o m q hq
  set q₀ : Quat ℝ l := scalarMul (‖q.toH‖⁻¹) q with hq₀
  have ht : ∀ t, q₀.canonical t = q.canonical t / ‖q.toH‖ := by
    intro t
    rw [div_eq_inv_mul]; rfl
  have hs0 : q₀.s = q.s / ‖q.toH‖ := by rw [s_eq, s_eq, ht]
  have hn0 : ‖q₀.toH‖ = 1 := by
    have e : q₀.qLengthSquared = 1 := by
      rw [qLengthSquared_eq, s_eq, i_eq, j_eq, k_eq, ht, ht, ht, ht, ← s_eq, ← i_eq, ← j_eq, ← k_eq, div_pow, div_pow, div_pow, div_pow, ← add_div, ← add_div,
        ← add_div, ← qLengthSquared_eq, qLengthSquared_normSq, Quaternion.normSq_eq_norm_mul_self, ← pow_two, div_self (by positivity)]
    rw [qLengthSquared_normSq, Quaternion.normSq_eq_norm_mul_self, ← pow_two] at e
    exact (pow_eq_one_iff_of_nonneg (norm_nonneg _) two_ne_zero).1 e
  have hw' : (u + ε) / q₀.s ^ 2 = (u + ε) * ‖q.toH‖ ^ 2 / q.s ^ 2 := by rw [hs0]; field_simp
  obtain ⟨q', e1, e2⟩ := C111_from_matrix_partial (l' := l') (v := 0) (cast := id) h le_rfl (by simp) o (Fl.quatToMatrix fl id ps pd msub o m q) q₀
    (by rw [hs0]; positivity) hn0 (R := R) (ε := ε) (fun x => by rw [hq₀, C46_scale _ _ (by positivity)]; exact hR x)
    (fun a b => (hb a b).trans (by simpa using hε)) (by rw [hw']; exact hw)
  refine ⟨q', e1, fun t => ?_⟩
  have := e2 t
  rwa [ht, hw', mul_zero, add_zero] at this

/-- A turn by the angle with tangent of the half `1/a`, about the first axis. -/
private noncomputable def turn (a : ℝ) : Matrix (Fin 3) (Fin 3) ℝ :=
  !![1, 0, 0; 0, -((1 - a ^ 2) / (1 + a ^ 2)), -(2 * a / (1 + a ^ 2)); 0, 2 * a / (1 + a ^ 2), -((1 - a ^ 2) / (1 + a ^ 2))]

private theorem turn_spec {a : ℝ} (ha : 0 < a) : turn a * (turn a).transpose = 1 ∧ (turn a).det = 1 ∧ (turn a).trace ≠ -1 := by
  have h1 : (0 : ℝ) < 1 + a ^ 2 := by positivity
  refine ⟨?_, ?_, ?_⟩
  · ext x y
    rw [Matrix.mul_apply, Fin.sum_univ_three]
    fin_cases x <;> fin_cases y <;> simp [turn] <;> field_simp <;> ring
  · rw [Matrix.det_fin_three]
    simp [turn]; field_simp; ring
  · rw [Matrix.trace_fin_three]
    simp only [turn, Matrix.of_apply, Matrix.cons_val', Matrix.cons_val_zero, Matrix.cons_val_one, Matrix.cons_val, Matrix.cons_val_fin_one]
    intro e
    have : (1 - a ^ 2) / (1 + a ^ 2) = 1 := by linarith
    rw [div_eq_one_iff_eq h1.ne'] at this
    nlinarith

/-- C111 does not hold near half turns: in every precision there is a rotation, not a half turn, whose correctly rounded matrix makes the
conversion divide by zero (the exact conversion of the rotation succeeds). -/
theorem C111_violated {p : ℕ} (hp : 2 ≤ p) (hfl : RoundsToNearest p fl) (cast : ℝ → ℝ) (o : Order) (l : QLayout) :
    ∃ R : Matrix (Fin (0 + 3)) (Fin (0 + 3)) ℝ, R * R.transpose = 1 ∧ R.det = 1 ∧ (∃ q, matrixToQuat o l R = some q ∧ q.qLength = 1) ∧
      Fl.matrixToQuat fl cast o l (R.map fl) = none := by
  set a : ℝ := (2 : ℝ) ^ (-(p : ℤ) - 1) with ha
  have ha0 : 0 < a := by positivity
  obtain ⟨h1, h2, h3⟩ := turn_spec ha0
  have hb : block3 (by omega) (by omega) (turn a : Matrix (Fin (0 + 3)) (Fin (0 + 3)) ℝ) = turn a := by ext x y; rfl
  obtain ⟨q, e1, e2, -⟩ := C48_roundtrip_partial (l := l) (r := 0) (c := 0) o (turn a) 0 (by rw [hb]; exact h1) (by rw [hb]; exact h2) (by rw [hb]; exact h3)
  refine ⟨turn a, h1, h2, ⟨q, e1, e2⟩, ?_⟩
  have hsmall : a ≤ 1 / 8 := by
    calc a ≤ (2 : ℝ) ^ (-3 : ℤ) := zpow_le_zpow_right₀ (by norm_num) (by omega)
      _ = 1 / 8 := by norm_num
  have hR := hfl.rounding (by omega)
  have f1 : fl 1 = 1 := round_to_one hp hfl (by rw [sub_self, abs_zero]; positivity)
  have fc : fl (-((1 - a ^ 2) / (1 + a ^ 2))) = -1 := by
    rw [hfl.odd, round_to_one hp hfl]
    have e : 1 - (1 - a ^ 2) / (1 + a ^ 2) = 2 * a ^ 2 / (1 + a ^ 2) := by field_simp; ring
    rw [e, abs_of_nonneg (by positivity), div_lt_iff₀ (by positivity), ← ha]
    nlinarith
  have f0 : fl 0 = 0 := by simpa using hR.err 0
  have f2 : fl (1 + 1) = 2 := by
    have h2 : IsFloat p 2 := ⟨1, 1, by norm_num, by rw [abs_one]; exact one_lt_pow₀ (by norm_num) (by omega)⟩
    have := hfl.nearest (1 + 1) 2 h2
    rw [show (2 : ℝ) - (1 + 1) = 0 by norm_num, abs_zero] at this
    have := abs_nonpos_iff.1 this
    linarith
  have g0 : getElem3 o ((turn a : Matrix (Fin (0 + 3)) (Fin (0 + 3)) ℝ).map fl) 0 0 = 1 := by cases o <;> exact f1
  have g1 : getElem3 o ((turn a : Matrix (Fin (0 + 3)) (Fin (0 + 3)) ℝ).map fl) 1 1 = -1 := by cases o <;> exact fc
  have g2 : getElem3 o ((turn a : Matrix (Fin (0 + 3)) (Fin (0 + 3)) ℝ).map fl) 2 2 = -1 := by cases o <;> exact fc
  have e3 : fl (fl (fl (1 + 1) + -1) + -1) = 0 := by
    rw [f2, show (2 : ℝ) + -1 = 1 by norm_num, f1, show (1 : ℝ) + -1 = 0 by norm_num, f0]
  unfold Fl.matrixToQuat
  simp only
  rw [g0, g1, g2, e3, if_neg (lt_irrefl _), Real.sqrt_zero, f0, zero_mul, f0, mul_zero, f0, if_pos rfl]

/-! ## The hypotheses are met -/

/-- Three fifths and four fifths in single precision satisfy the hypotheses of the round trip. -/
example : ∃ (fl : ℝ → ℝ) (u ε : ℝ) (q : Quat ℝ .scalarFirst), Rounding fl u ∧ 0 < u ∧ 0 < q.s ∧ q.k ≠ 0 ∧
    ((1 + u) ^ 4 - 1) * (1 + 2 * ‖q.toH‖ ^ 2) + 2 * |‖q.toH‖ ^ 2 - 1| ≤ ε ∧ (u + ε) * ‖q.toH‖ ^ 2 / q.s ^ 2 ≤ 1 / 1000 := by
  have hR := (flAway_roundsToNearest (p := 24) (by norm_num)).rounding (by norm_num)
  refine ⟨_, _, ((1 + (2 : ℝ) ^ (-((24 : ℕ) : ℤ))) ^ 4 - 1) * 3, mk4 .scalarFirst (3 / 5) 0 0 (4 / 5), hR, by positivity, ?_, ?_, ?_, ?_⟩
  all_goals
    have e : ‖(mk4 .scalarFirst (3 / 5 : ℝ) 0 0 (4 / 5)).toH‖ ^ 2 = 1 := by
      rw [pow_two, ← Quaternion.normSq_eq_norm_mul_self, ← qLengthSquared_normSq, qLengthSquared_eq, s_eq, i_eq, j_eq, k_eq, mk4, canonical_ofCanonical]
      simp only [Matrix.cons_val_zero, Matrix.cons_val_one, Matrix.cons_val]
      norm_num
  · simp [s_eq, mk4]
  · simp [k_eq, mk4]
  · rw [e]; norm_num
  · rw [e, s_eq, mk4, canonical_ofCanonical]; norm_num

end Mathter.Props
