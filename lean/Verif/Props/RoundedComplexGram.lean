import Verif.Lemmas.RoundedComplexGram
import Verif.Props.RoundedComplexQR

/-!
# Property C155: rounding errors of normalising and orthogonalising complex vectors

`u = 2^-p` is the rounding error of `p`-bit floats, `dv` is the division of a complex by a real number, `dq` that of complex numbers; the quotients of
`C150_division` and `C146_division` are accurate enough. All statements are for every dimension `d = n + 1` with `8100 (d + 3) u ≤ 1` and every reduction order.
-/

namespace Mathter.Props
open Mathter Mathter.FlC

variable {n : ℕ} {fl : ℝ → ℝ}

private theorem pow_le11' {u : ℝ} (hu : 0 ≤ u) : ∀ N : ℕ, N * u ≤ 1 / 11 → (1 + u) ^ N - 1 ≤ 11 / 10 * (N * u) := by
  intro N
  induction N with
  | zero => intro _; simp
  | succ k ih =>
    intro hk
    push_cast at hk ⊢
    have := ih (by linarith)
    rw [pow_succ]
    have : k * u * u ≤ 1 / 11 * u := mul_le_mul_of_nonneg_right (by linarith) hu
    nlinarith

private theorem quot_err {a b N L : ℝ} {x y : ℂ} (ha : 0 ≤ a) (hb0 : 0 ≤ b) (hb : b ≤ 1 / 100) (hN : 0 < N) (hL : |L - N| ≤ b * N)
    (hy : ‖y - x / (L : ℂ)‖ ≤ a * ‖x / (L : ℂ)‖) : ‖y - x / (N : ℂ)‖ ≤ 102 / 100 * (a + b) * (‖x‖ / N) := by
  have hl : 99 / 100 * N ≤ L := by have := (abs_le.1 hL).1; nlinarith
  have hL0 : 0 < L := by linarith
  have hLc : (L : ℂ) ≠ 0 := by exact_mod_cast hL0.ne'
  have hNc : (N : ℂ) ≠ 0 := by exact_mod_cast hN.ne'
  have e : ‖x / (L : ℂ) - x / (N : ℂ)‖ = ‖x‖ / L * (|L - N| / N) := by
    have : x / (L : ℂ) - x / (N : ℂ) = x / (L : ℂ) * (((N - L : ℝ) : ℂ) / (N : ℂ)) := by push_cast; field_simp
    rw [this, norm_mul, norm_div, norm_div, Complex.norm_of_nonneg hL0.le, Complex.norm_of_nonneg hN.le, Complex.norm_real, Real.norm_eq_abs, abs_sub_comm]
  have t := norm_add_le (y - x / (L : ℂ)) (x / (L : ℂ) - x / (N : ℂ))
  rw [sub_add_sub_cancel, e] at t
  rw [norm_div, Complex.norm_of_nonneg hL0.le] at hy
  have h1 : |L - N| / N ≤ b := by rwa [div_le_iff₀ hN]
  have hx : 0 ≤ ‖x‖ / L := by positivity
  have h2 : ‖x‖ / L ≤ 102 / 100 * (‖x‖ / N) := by
    rw [← mul_div_assoc, div_le_div_iff₀ hL0 hN]
    nlinarith [norm_nonneg x]
  have h3 := mul_le_mul_of_nonneg_left h1 hx
  have h4 := mul_le_mul_of_nonneg_left h2 (add_nonneg ha hb0)
  nlinarith

private theorem unit_err {k : ℝ} (hk : 0 ≤ k) {v w : Fin n → ℂ} (hv : v ≠ 0) (e : ∀ i, ‖w i - v i / (normC v : ℂ)‖ ≤ k * (‖v i‖ / normC v)) : |normC w - 1| ≤ k := by
  have hN := normC_pos hv
  have a : normC (fun i => v i / (normC v : ℂ)) = 1 := by
    have := normC_smul ((normC v : ℂ)⁻¹) v
    rw [norm_inv, Complex.norm_of_nonneg hN.le, inv_mul_cancel₀ hN.ne'] at this
    rw [← this]
    congr 1; funext i; rw [div_eq_inv_mul]
  have b := (normC_sub_le w (fun i => v i / (normC v : ℂ))).trans (normC_le_mul (c := k) (y := fun i => v i / (normC v : ℂ)) hk fun i => by
    rw [norm_div, Complex.norm_of_nonneg hN.le]; exact e i)
  rwa [a, mul_one] at b

/-- C155: `Normalize` of a complex vector that is not zero passes the assertion and has in every element a relative error of at most `4 (d + 3)` rounding
errors; the length of the result is 1 up to that. -/
theorem C155_normalize {p : ℕ} (hp : 8 ≤ p) (h : RoundsToNearest p fl) {ps pd : ℝ → ℝ → ℝ → ℝ → ℝ} (hps : Fl.IsProdSum fl ps) (hpd : Fl.IsProdDiff fl pd)
    {dv : ℂ → ℝ → ℂ} (hdv : AccurateDivR p dv) (c : Cfg) (pk conv : Bool) (tb : RTree (batchSize (n + 1) false)) (ts : RTree (n + 1 + 1)) (htb : tb.Valid)
    (hts : ts.Valid) (hsmall : 8100 * ((n + 1 : ℕ) + 3) * (2 : ℝ) ^ (-(p : ℤ)) ≤ 1) (v : Fin (n + 1) → ℂ) (hv : v ≠ 0) :
    ∃ w, Fl.normalizeC c pk fl ps pd dv conv tb ts v = some w ∧
      (∀ i, ‖w i - v i / (normC v : ℂ)‖ ≤ 4 * ((n + 1 : ℕ) + 3) * (2 : ℝ) ^ (-(p : ℤ)) * (‖v i‖ / normC v)) ∧
      |normC w - 1| ≤ 4 * ((n + 1 : ℕ) + 3) * (2 : ℝ) ^ (-(p : ℤ)) := by
  have hr := h.rounding (by omega : 1 ≤ p)
  have hl := C112_length hr hps hpd conv tb ts htb hts (Vec.ofFn v : Vec c ℂ (n + 1) pk)
  simp only [Vec.get_ofFn] at hl
  change |_ - normC v| ≤ _ * normC v at hl
  unfold AccurateDivR at hdv
  unfold Fl.normalizeC
  dsimp only
  have u0 := hr.u_nonneg
  set u := (2 : ℝ) ^ (-(p : ℤ))
  clear_value u
  generalize Fl.lengthC fl ps pd conv tb ts (Vec.ofFn v : Vec c ℂ (n + 1) pk) = L at *
  have hN := normC_pos hv
  push_cast at hsmall ⊢
  have n0 : (0 : ℝ) ≤ n := Nat.cast_nonneg n
  have nu : 0 ≤ (n : ℝ) * u := mul_nonneg n0 u0
  have k := pow_le11' u0 (n + 1 + 2) (by push_cast; nlinarith)
  push_cast at k
  have hb : |L - normC v| ≤ 11 / 10 * ((n + 1 + 2) * u) * normC v := hl.trans (mul_le_mul_of_nonneg_right k hN.le)
  have hL0 : L ≠ 0 := by
    rintro rfl
    rw [zero_sub, abs_neg, abs_of_pos hN] at hb
    nlinarith
  rw [if_neg hL0]
  have e : ∀ i, ‖dv (v i) L - v i / (normC v : ℂ)‖ ≤ 4 * ((n : ℝ) + 1 + 3) * u * (‖v i‖ / normC v) := by
    intro i
    refine (quot_err (by positivity) (by positivity) (by nlinarith) hN hb (hdv _ _ hL0)).trans (mul_le_mul_of_nonneg_right (by nlinarith) (by positivity))
  exact ⟨_, rfl, e, unit_err (by positivity) hv e⟩

/-- The library's operations have a relative error of at most `4 (d + 3)` rounding errors. -/
private theorem gramArith {p : ℕ} (hp : 8 ≤ p) (h : RoundsToNearest p fl) {ps pd : ℝ → ℝ → ℝ → ℝ → ℝ} (hps : Fl.IsProdSum fl ps) (hpd : Fl.IsProdDiff fl pd)
    {dv : ℂ → ℝ → ℂ} (hdv : AccurateDivR p dv) {dq : ℂ → ℂ → ℂ} (hdq : AccurateDivC p dq) (c : Cfg) (pk conv : Bool) (tb : RTree (batchSize (n + 1) false))
    (ts : RTree (n + 1 + 1)) (htb : tb.Valid) (hts : ts.Valid) (hsmall : 8100 * ((n + 1 : ℕ) + 3) * (2 : ℝ) ^ (-(p : ℤ)) ≤ 1) :
    GramArith (4 * ((n + 1 : ℕ) + 3) * (2 : ℝ) ^ (-(p : ℤ))) dq (fun a b d => Fl.flC fl (a - Fl.prodC ps pd b d))
      (fun x y => Fl.dotC fl ps pd conv tb ts (Vec.ofFn x : Vec c ℂ (n + 1) pk) (Vec.ofFn y : Vec c ℂ (n + 1) pk)) (Fl.normalizePreciseC c pk fl ps pd dv conv tb ts) := by
  have hr := h.rounding (by omega : 1 ≤ p)
  have hlen := fun y : Fin (n + 1) → ℂ => C112_length hr hps hpd conv tb ts htb hts (Vec.ofFn y : Vec c ℂ (n + 1) pk)
  have hdot := fun x y : Fin (n + 1) → ℂ => C112_dot hr hps hpd conv tb ts htb hts (Vec.ofFn x : Vec c ℂ (n + 1) pk) (Vec.ofFn y : Vec c ℂ (n + 1) pk)
  have hprod := complex_norm_prod hr hps hpd
  have hrnd := complex_norm_fl hr
  unfold AccurateDivR at hdv
  unfold AccurateDivC at hdq
  have u0 := hr.u_nonneg
  set u := (2 : ℝ) ^ (-(p : ℤ))
  clear_value u
  push_cast at hsmall ⊢
  simp only [Vec.get_ofFn] at hlen hdot
  have n0 : (0 : ℝ) ≤ n := Nat.cast_nonneg n
  have nu : 0 ≤ (n : ℝ) * u := mul_nonneg n0 u0
  have uu : u * u ≤ 1 / 8100 * u := mul_le_mul_of_nonneg_right (by nlinarith) u0
  have k2 := pow_le11' u0 (n + 2) (by push_cast; nlinarith)
  have k9 := pow_le11' u0 (n + 9) (by push_cast; nlinarith)
  have k6 := one_add_mul_le_pow (a := u) (by linarith) 6
  have g3 := hr.one_le (n + 1 + 2)
  have e9 : (1 + u) ^ (n + 9) = (1 + u) ^ (n + 1 + 2) * (1 + u) ^ 6 := by rw [← pow_add]
  push_cast at k2 k9 k6
  refine ⟨by positivity, fun a b hb => (hdq a b hb).2.trans (mul_le_mul_of_nonneg_right (by nlinarith) (norm_nonneg _)), fun a b d => ?_, fun x y => ?_, fun v hv => ?_⟩
  · have e1 := hprod b d
    have e2 := hrnd (a - Fl.prodC ps pd b d)
    have e3 := norm_sub_le (a - b * d) (Fl.prodC ps pd b d - b * d)
    rw [sub_sub_sub_cancel_right] at e3
    have e4 := norm_sub_le a (b * d)
    have t := norm_sub_le (Fl.flC fl (a - Fl.prodC ps pd b d) - (a - Fl.prodC ps pd b d)) (Fl.prodC ps pd b d - b * d)
    rw [show Fl.flC fl (a - Fl.prodC ps pd b d) - (a - Fl.prodC ps pd b d) - (Fl.prodC ps pd b d - b * d) = Fl.flC fl (a - Fl.prodC ps pd b d) - (a - b * d) by ring] at t
    have q : 283 / 200 * ((1 + u) ^ 2 - 1) ≤ 3 * u := by nlinarith
    have e1' := e1.trans (mul_le_mul_of_nonneg_right q (norm_nonneg _))
    have e5 := mul_le_mul_of_nonneg_left ((e3.trans (add_le_add e4 e1'))) u0
    have A := norm_nonneg a
    have B := norm_nonneg (b * d)
    generalize ‖a‖ = A' at *
    generalize ‖b * d‖ = B' at *
    have f1 : u * (3 * u * B') ≤ u * B' := by
      have := mul_le_mul_of_nonneg_right uu B
      have := mul_nonneg u0 B
      linarith
    have f2 : 0 ≤ (n : ℝ) * u * (A' + B') := mul_nonneg nu (by linarith)
    have f3 := mul_nonneg u0 A
    have f4 := mul_nonneg u0 B
    linarith
  · obtain ⟨a, b⟩ := hdot x y
    have t := Complex.norm_le_abs_re_add_abs_im (Fl.dotC fl ps pd conv tb ts (Vec.ofFn x : Vec c ℂ (n + 1) pk) (Vec.ofFn y : Vec c ℂ (n + 1) pk) - ∑ i, x i * star (y i))
    have S : 0 ≤ ∑ i, ‖x i‖ * ‖y i‖ := Finset.sum_nonneg fun i _ => by positivity
    refine (t.trans (add_le_add a b)).trans ?_
    rw [← two_mul, ← mul_assoc]
    refine mul_le_mul_of_nonneg_right ?_ S
    change 2 * ((1 + u) ^ (n + 2) - 1) ≤ _
    linarith
  · have hs : 0 < scaleElements v := lt_of_le_of_ne (scaleElements_nonneg v) fun e => hv ((scaleElements_eq_zero v).1 e.symm)
    unfold Fl.normalizePreciseC
    dsimp only
    rw [if_neg hs.ne']
    generalize scaleElements v = s at *
    have hN := normC_pos hv
    have e1 := hlen (fun i => dv (v i) s)
    change |_ - normC (fun i => dv (v i) s)| ≤ _ * normC (fun i => dv (v i) s) at e1
    have hsn : ‖(s : ℂ)‖ = s := Complex.norm_of_nonneg hs.le
    have e3 : |normC (fun i => dv (v i) s) - normC v / s| ≤ 6 * u * (normC v / s) := by
      have a : normC (fun i => v i / (s : ℂ)) = normC v / s := by
        have := normC_smul ((s : ℂ)⁻¹) v
        rw [norm_inv, hsn] at this
        rw [div_eq_inv_mul, ← this]
        congr 1; funext i; rw [div_eq_inv_mul]
      rw [← a]
      exact (normC_sub_le _ _).trans (normC_le_mul (by positivity) fun i => hdv _ _ hs.ne')
    generalize Fl.lengthC fl ps pd conv tb ts (Vec.ofFn (fun i => dv (v i) s) : Vec c ℂ (n + 1) pk) = l at *
    generalize normC (fun i => dv (v i) s) = Y at *
    obtain ⟨M, hM⟩ : ∃ M, M = normC v / s := ⟨_, rfl⟩
    have hXM : normC v = s * M := by rw [hM]; field_simp
    rw [← hM] at e3
    have hM0 : 0 < M := by rw [hM]; exact div_pos hN hs
    have a1 : Y ≤ (1 + 6 * u) * M := by have := (abs_le.1 e3).2; linarith
    have a2 : |l - M| ≤ 4 * ((n : ℝ) + 1 + 3) * u * M := by
      have t := abs_add_le (l - Y) (Y - M)
      rw [sub_add_sub_cancel] at t
      have b1 := mul_le_mul_of_nonneg_left a1 (by linarith : 0 ≤ (1 + u) ^ (n + 1 + 2) - 1)
      have b2 : (1 + u) ^ (n + 1 + 2) * (1 + 6 * u) ≤ (1 + u) ^ (n + 1 + 2) * (1 + u) ^ 6 := mul_le_mul_of_nonneg_left (by linarith) (by linarith)
      have b3 : (1 + u) ^ (n + 1 + 2) * (1 + 6 * u) - 1 ≤ 4 * ((n : ℝ) + 1 + 3) * u := by linarith
      have b4 := mul_le_mul_of_nonneg_right b3 hM0.le
      linarith
    have hl0 : 0 < l := by
      have := (abs_le.1 a2).1
      have : 4 * ((n : ℝ) + 1 + 3) * u * M ≤ 1 / 2 * M := mul_le_mul_of_nonneg_right (by linarith) hM0.le
      linarith
    have hln : ‖(l : ℂ)‖ = l := Complex.norm_of_nonneg hl0.le
    rw [if_pos hl0.ne']
    refine ⟨s * l, mul_pos hs hl0, ?_, fun i => ?_⟩
    · rw [hXM, ← mul_sub, abs_mul, abs_of_pos hs]
      have := mul_le_mul_of_nonneg_left a2 hs.le
      linarith
    · have b1 : ‖dv (v i) s / (l : ℂ) - v i / ((s * l : ℝ) : ℂ)‖ ≤ 6 * u * ‖v i / ((s * l : ℝ) : ℂ)‖ := by
        have := div_le_div_of_nonneg_right (hdv (v i) s hs.ne') hl0.le
        rw [Complex.ofReal_mul, ← div_div, ← sub_div, norm_div, norm_div _ (l : ℂ), hln, ← mul_div_assoc]
        exact this
      have b2 := hdv (dv (v i) s) l hl0.ne'
      refine (Fl.rel_transC (by positivity) b1 b2).trans (mul_le_mul_of_nonneg_right ?_ (norm_nonneg _))
      nlinarith

/-- C155: `NormalizePrecise` of a complex vector that is not zero has in every element a relative error of at most `9 (d + 3)` rounding errors; the length of
the result is 1 up to that. The zero vector gives the first unit vector. -/
theorem C155_normalizePrecise {p : ℕ} (hp : 8 ≤ p) (h : RoundsToNearest p fl) {ps pd : ℝ → ℝ → ℝ → ℝ → ℝ} (hps : Fl.IsProdSum fl ps) (hpd : Fl.IsProdDiff fl pd)
    {dv : ℂ → ℝ → ℂ} (hdv : AccurateDivR p dv) (c : Cfg) (pk conv : Bool) (tb : RTree (batchSize (n + 1) false)) (ts : RTree (n + 1 + 1)) (htb : tb.Valid)
    (hts : ts.Valid) (hsmall : 8100 * ((n + 1 : ℕ) + 3) * (2 : ℝ) ^ (-(p : ℤ)) ≤ 1) (v : Fin (n + 1) → ℂ) :
    (v ≠ 0 → (∀ i, ‖Fl.normalizePreciseC c pk fl ps pd dv conv tb ts v i - v i / (normC v : ℂ)‖ ≤ 9 * ((n + 1 : ℕ) + 3) * (2 : ℝ) ^ (-(p : ℤ)) * (‖v i‖ / normC v)) ∧
      |normC (Fl.normalizePreciseC c pk fl ps pd dv conv tb ts v) - 1| ≤ 9 * ((n + 1 : ℕ) + 3) * (2 : ℝ) ^ (-(p : ℤ))) ∧
    (v = 0 → Fl.normalizePreciseC c pk fl ps pd dv conv tb ts v = Pi.single 0 1) := by
  constructor
  · intro hv
    have hA := gramArith hp h hps hpd hdv (C146_division hp h hps hpd) c pk conv tb ts htb hts hsmall
    obtain ⟨L, -, hL, e⟩ := hA.norm v hv
    have u0 := (h.rounding (by omega : 1 ≤ p)).u_nonneg
    have hN := normC_pos hv
    set u := (2 : ℝ) ^ (-(p : ℤ))
    clear_value u
    have e' : ∀ i, ‖Fl.normalizePreciseC c pk fl ps pd dv conv tb ts v i - v i / (normC v : ℂ)‖ ≤ 9 * ((n + 1 : ℕ) + 3) * u * (‖v i‖ / normC v) := by
      intro i
      refine (quot_err (by positivity) (by positivity) (by linarith) hN hL (e i)).trans (mul_le_mul_of_nonneg_right ?_ (by positivity))
      have : 0 ≤ ((n + 1 : ℕ) + 3 : ℝ) * u := by positivity
      linarith
    exact ⟨e', unit_err (by positivity) hv e'⟩
  · rintro rfl
    unfold Fl.normalizePreciseC
    dsimp only
    rw [if_pos ((scaleElements_eq_zero _).2 rfl)]
    funext i
    rw [Pi.single_apply]

private theorem gsLoopC_done {m : ℕ} {dq : ℂ → ℂ → ℂ} {msub : ℂ → ℂ → ℂ → ℂ} {dot : (Fin m → ℂ) → (Fin m → ℂ) → ℂ} {norm : (Fin m → ℂ) → Fin m → ℂ} :
    ∀ (vs done out : List (Fin m → ℂ)), Fl.gsLoopC dq msub dot norm vs done = some out → ∃ l, out = done ++ l ∧ l.length = vs.length
  | [], done, out, h => by
    simp only [Fl.gsLoopC, Option.some.injEq] at h
    exact ⟨[], by simp [h], rfl⟩
  | v :: vs, done, out, h => by
    simp only [Fl.gsLoopC, Option.bind_eq_some_iff] at h
    obtain ⟨w, -, h⟩ := h
    obtain ⟨l, rfl, hl⟩ := gsLoopC_done vs _ _ h
    exact ⟨w :: l, by simp, by simp [hl]⟩

private theorem gsLoopC_append {m : ℕ} {dq : ℂ → ℂ → ℂ} {msub : ℂ → ℂ → ℂ → ℂ} {dot : (Fin m → ℂ) → (Fin m → ℂ) → ℂ} {norm : (Fin m → ℂ) → Fin m → ℂ} :
    ∀ (vs ws done : List (Fin m → ℂ)), Fl.gsLoopC dq msub dot norm (vs ++ ws) done = (Fl.gsLoopC dq msub dot norm vs done).bind (Fl.gsLoopC dq msub dot norm ws)
  | [], ws, done => by simp [Fl.gsLoopC]
  | v :: vs, ws, done => by
    simp only [List.cons_append, Fl.gsLoopC]
    cases Fl.gsInnerC dq msub dot norm done v with
    | none => rfl
    | some w => exact gsLoopC_append vs ws _

private theorem gsLoopC_split {m : ℕ} {dq : ℂ → ℂ → ℂ} {msub : ℂ → ℂ → ℂ → ℂ} {dot : (Fin m → ℂ) → (Fin m → ℂ) → ℂ} {norm : (Fin m → ℂ) → Fin m → ℂ}
    {pre post out : List (Fin m → ℂ)} {v : Fin m → ℂ} (h : Fl.gramSchmidtC dq msub dot norm (pre ++ v :: post) = some out) :
    ∃ us w rest, out = us ++ w :: rest ∧ us.length = pre.length ∧ rest.length = post.length ∧ Fl.gramSchmidtC dq msub dot norm pre = some us ∧
      Fl.gsInnerC dq msub dot norm us v = some w := by
  unfold Fl.gramSchmidtC at h
  rw [gsLoopC_append, Option.bind_eq_some_iff] at h
  obtain ⟨us, h1, h2⟩ := h
  simp only [Fl.gsLoopC, Option.bind_eq_some_iff] at h2
  obtain ⟨w, hw, h2⟩ := h2
  obtain ⟨l, hl, hl'⟩ := gsLoopC_done _ _ _ h1
  obtain ⟨r, hr, hr'⟩ := gsLoopC_done _ _ _ h2
  refine ⟨us, w, r, by simp [hr], ?_, hr', h1, hw⟩
  rw [hl]; simpa using hl'

private theorem gamma_le {δ : ℝ} (h0 : 0 ≤ δ) (h1 : δ ≤ 1 / 2025) : (1 + δ) ^ 2 - 1 ≤ 1 / 1000 ∧ 5 * ((1 + δ) ^ 2 - 1) ≤ 41 / 4 * δ := by
  constructor <;> nlinarith

/-- C155: of a list of complex vectors, the vector written for `v` is no longer than `v`, up to rounding, and `v` is, up to a small error, the sum of it and a
combination of the vectors written before, with coefficients that are not large. The error grows with the number of vectors and the dimension only. -/
theorem C155_span {p : ℕ} (hp : 8 ≤ p) (h : RoundsToNearest p fl) {ps pd : ℝ → ℝ → ℝ → ℝ → ℝ} (hps : Fl.IsProdSum fl ps) (hpd : Fl.IsProdDiff fl pd)
    {dv : ℂ → ℝ → ℂ} (hdv : AccurateDivR p dv) {dq : ℂ → ℂ → ℂ} (hdq : AccurateDivC p dq) (c : Cfg) (pk conv : Bool) (tb : RTree (batchSize (n + 1) false))
    (ts : RTree (n + 1 + 1)) (htb : tb.Valid) (hts : ts.Valid) (hsmall : 8100 * ((n + 1 : ℕ) + 3) * (2 : ℝ) ^ (-(p : ℤ)) ≤ 1) {ε : ℝ}
    (hε : ε = 41 * ((n + 1 : ℕ) + 3) * (2 : ℝ) ^ (-(p : ℤ))) (pre post : List (Fin (n + 1) → ℂ)) (v : Fin (n + 1) → ℂ) (out : List (Fin (n + 1) → ℂ))
    (ho : Fl.gramSchmidtLibC c pk fl ps pd dv dq conv tb ts (pre ++ v :: post) = some out) :
    ∃ us w rest, out = us ++ w :: rest ∧ us.length = pre.length ∧ rest.length = post.length ∧ normC w ≤ (1 + ε) ^ us.length * normC v ∧
      ∃ f : Fin us.length → ℂ, normC (fun i => v i - (w i + ∑ j, f j * us.get j i)) ≤ ((1 + ε) ^ us.length - 1) * normC v ∧
        ∀ j, ‖f j‖ * normC (us.get j) ≤ (1 + ε) ^ us.length * normC v := by
  have hA := gramArith hp h hps hpd hdv hdq c pk conv tb ts htb hts hsmall
  obtain ⟨us, w, rest, h1, h2, h3, -, h5⟩ := gsLoopC_split ho
  obtain ⟨g1, g2⟩ := gamma_le hA.nonneg (by linarith)
  obtain ⟨a, b, -⟩ := gsInner_err hA rfl g1 (ε := ε) (by rw [hε]; linarith) us v w h5
  exact ⟨us, w, rest, h1, h2, h3, a, b⟩

/-- C155: the vector written for `v` is orthogonal to every vector `q` written before, up to an error relative to the length of the *input* `v`, plus what `q` and
the later vectors `p` lack of orthogonality. -/
theorem C155_orthogonal {p : ℕ} (hp : 8 ≤ p) (h : RoundsToNearest p fl) {ps pd : ℝ → ℝ → ℝ → ℝ → ℝ} (hps : Fl.IsProdSum fl ps) (hpd : Fl.IsProdDiff fl pd)
    {dv : ℂ → ℝ → ℂ} (hdv : AccurateDivR p dv) {dq : ℂ → ℂ → ℂ} (hdq : AccurateDivC p dq) (c : Cfg) (pk conv : Bool) (tb : RTree (batchSize (n + 1) false))
    (ts : RTree (n + 1 + 1)) (htb : tb.Valid) (hts : ts.Valid) (hsmall : 8100 * ((n + 1 : ℕ) + 3) * (2 : ℝ) ^ (-(p : ℤ)) ≤ 1) {ε : ℝ}
    (hε : ε = 41 * ((n + 1 : ℕ) + 3) * (2 : ℝ) ^ (-(p : ℤ))) (pre post : List (Fin (n + 1) → ℂ)) (v : Fin (n + 1) → ℂ) (out : List (Fin (n + 1) → ℂ))
    (ho : Fl.gramSchmidtLibC c pk fl ps pd dv dq conv tb ts (pre ++ v :: post) = some out) :
    ∃ us w rest, out = us ++ w :: rest ∧ us.length = pre.length ∧ rest.length = post.length ∧ ∀ l q l', us = l ++ q :: l' →
      ‖∑ i, w i * star (q i)‖ ≤ normC v * (((1 + ε) ^ us.length - 1) * normC q + (1 + ε) ^ us.length * (l'.map fun p => ‖∑ i, p i * star (q i)‖ / normC p).sum) := by
  have hA := gramArith hp h hps hpd hdv hdq c pk conv tb ts htb hts hsmall
  obtain ⟨us, w, rest, h1, h2, h3, -, h5⟩ := gsLoopC_split ho
  obtain ⟨g1, g2⟩ := gamma_le hA.nonneg (by linarith)
  obtain ⟨-, -, b⟩ := gsInner_err hA rfl g1 (ε := ε) (by rw [hε]; linarith) us v w h5
  exact ⟨us, w, rest, h1, h2, h3, b⟩

/-- C155 for two vectors: the first is unchanged, and the inner product of the two results is small relative to the lengths of the inputs. -/
theorem C155_two {p : ℕ} (hp : 8 ≤ p) (h : RoundsToNearest p fl) {ps pd : ℝ → ℝ → ℝ → ℝ → ℝ} (hps : Fl.IsProdSum fl ps) (hpd : Fl.IsProdDiff fl pd)
    {dv : ℂ → ℝ → ℂ} (hdv : AccurateDivR p dv) {dq : ℂ → ℂ → ℂ} (hdq : AccurateDivC p dq) (c : Cfg) (pk conv : Bool) (tb : RTree (batchSize (n + 1) false))
    (ts : RTree (n + 1 + 1)) (htb : tb.Valid) (hts : ts.Valid) (hsmall : 8100 * ((n + 1 : ℕ) + 3) * (2 : ℝ) ^ (-(p : ℤ)) ≤ 1) (v0 v1 : Fin (n + 1) → ℂ)
    (h0 : v0 ≠ 0) :
    ∃ w, Fl.gramSchmidtLibC c pk fl ps pd dv dq conv tb ts [v0, v1] = some [v0, w] ∧
      ‖∑ i, w i * star (v0 i)‖ ≤ 41 * ((n + 1 : ℕ) + 3) * (2 : ℝ) ^ (-(p : ℤ)) * (normC v0 * normC v1) := by
  have hA := gramArith hp h hps hpd hdv hdq c pk conv tb ts htb hts hsmall
  obtain ⟨g1, g2⟩ := gamma_le hA.nonneg (by linarith)
  obtain ⟨f, hf, -⟩ := gsCoef_err hA rfl g1 h0 v1
  refine ⟨_, ?_, ((gsStep_err hA rfl g1 hf).2.2.2).trans (mul_le_mul_of_nonneg_right (by linarith) (mul_nonneg (normC_nonneg _) (normC_nonneg _)))⟩
  simp [Fl.gramSchmidtLibC, Fl.gramSchmidtC, Fl.gsLoopC, Fl.gsInnerC, hf]

private theorem gsInnerC_some {m : ℕ} {δ : ℝ} {dq : ℂ → ℂ → ℂ} {msub : ℂ → ℂ → ℂ → ℂ} {dot : (Fin m → ℂ) → (Fin m → ℂ) → ℂ} {norm : (Fin m → ℂ) → Fin m → ℂ}
    (hA : GramArith δ dq msub dot norm) (hg : (1 + δ) ^ 2 - 1 ≤ 1 / 1000) :
    ∀ (us : List (Fin m → ℂ)) (v : Fin m → ℂ), (∃ w, Fl.gsInnerC dq msub dot norm us v = some w) ↔ ∀ q ∈ us, q ≠ 0
  | [], v => by simp [Fl.gsInnerC]
  | q :: us, v => by
    constructor
    · rintro ⟨w, hw⟩
      simp only [Fl.gsInnerC, Option.bind_eq_some_iff] at hw
      obtain ⟨f, hf, hw⟩ := hw
      have := (gsInnerC_some hA hg us _).1 ⟨w, hw⟩
      intro p hp
      rcases List.mem_cons.1 hp with rfl | hp
      · exact gsCoef_ne hA hf
      · exact this p hp
    · intro hq
      obtain ⟨f, hf, -⟩ := gsCoef_err hA rfl hg (hq q (List.mem_cons_self ..)) v
      obtain ⟨w, hw⟩ := (gsInnerC_some hA hg us fun i => msub (v i) f (q i)).2 fun p hp => hq p (List.mem_cons_of_mem _ hp)
      exact ⟨w, by simp [Fl.gsInnerC, hf, hw]⟩

/-- C155: no division by zero occurs as long as the vectors written before are not zero; dependent inputs whose result is exactly zero are the only failures. -/
theorem C155_defined {p : ℕ} (hp : 8 ≤ p) (h : RoundsToNearest p fl) {ps pd : ℝ → ℝ → ℝ → ℝ → ℝ} (hps : Fl.IsProdSum fl ps) (hpd : Fl.IsProdDiff fl pd)
    {dv : ℂ → ℝ → ℂ} (hdv : AccurateDivR p dv) {dq : ℂ → ℂ → ℂ} (hdq : AccurateDivC p dq) (c : Cfg) (pk conv : Bool) (tb : RTree (batchSize (n + 1) false))
    (ts : RTree (n + 1 + 1)) (htb : tb.Valid) (hts : ts.Valid) (hsmall : 8100 * ((n + 1 : ℕ) + 3) * (2 : ℝ) ^ (-(p : ℤ)) ≤ 1) (vs : List (Fin (n + 1) → ℂ))
    (v : Fin (n + 1) → ℂ) :
    (∃ out, Fl.gramSchmidtLibC c pk fl ps pd dv dq conv tb ts (vs ++ [v]) = some out) ↔
      ∃ us, Fl.gramSchmidtLibC c pk fl ps pd dv dq conv tb ts vs = some us ∧ ∀ q ∈ us, q ≠ 0 := by
  have hA := gramArith hp h hps hpd hdv hdq c pk conv tb ts htb hts hsmall
  obtain ⟨g1, g2⟩ := gamma_le hA.nonneg (by linarith)
  unfold Fl.gramSchmidtLibC Fl.gramSchmidtC
  rw [gsLoopC_append]
  constructor
  · rintro ⟨out, ho⟩
    rw [Option.bind_eq_some_iff] at ho
    obtain ⟨us, h1, h2⟩ := ho
    simp only [Fl.gsLoopC, Option.bind_eq_some_iff] at h2
    obtain ⟨w, hw, -⟩ := h2
    exact ⟨us, h1, (gsInnerC_some hA g1 us v).1 ⟨w, hw⟩⟩
  · rintro ⟨us, h1, h2⟩
    obtain ⟨w, hw⟩ := (gsInnerC_some hA g1 us v).2 h2
    exact ⟨us ++ [w], by rw [h1]; simp [Fl.gsLoopC, hw]⟩

/-- Single precision and three dimensions with the textbook products and quotients: `(1, i, 0)` and `(1, 1, i)` are made orthogonal up to `246 * 2^-24` times
the product of their lengths. -/
example (c : Cfg) (pk conv : Bool) (tb : RTree (batchSize 3 false)) (ts : RTree 4) (htb : tb.Valid) (hts : ts.Valid) :
    let fl := flAway 24
    let ps := fun a b d e => fl (fl (a * b) + fl (d * e))
    let pd := fun a b d e => fl (fl (a * b) - fl (d * e))
    ∃ w, Fl.gramSchmidtLibC (n := 2) c pk fl ps pd (fun z s => Fl.flC fl (z / (s : ℂ))) (Fl.divC fl ps pd) conv tb ts [![1, Complex.I, 0], ![1, 1, Complex.I]] =
        some [![1, Complex.I, 0], w] ∧
      ‖∑ i, w i * star ((![1, Complex.I, 0] : Fin 3 → ℂ) i)‖ ≤ 246 * (2 : ℝ) ^ (-24 : ℤ) * (normC ![1, Complex.I, 0] * normC ![1, 1, Complex.I]) := by
  intro fl ps pd
  have hfl : RoundsToNearest 24 fl := flAway_roundsToNearest (by norm_num)
  have hps : Fl.IsProdSum fl ps := fun _ _ _ _ => Or.inl rfl
  have hpd : Fl.IsProdDiff fl pd := fun _ _ _ _ => Or.inl rfl
  obtain ⟨w, h1, h2⟩ := C155_two (n := 2) (by norm_num) hfl hps hpd (C150_division (by norm_num) hfl hps hpd).1 (C146_division (by norm_num) hfl hps hpd) c pk conv tb ts htb
    hts (by norm_num) ![1, Complex.I, 0] ![1, 1, Complex.I] (fun e => by simpa using congrFun e 0)
  refine ⟨w, h1, h2.trans (le_of_eq ?_)⟩
  norm_num

/-- Single precision and three dimensions: `Normalize` of `(1, i, 0)`. -/
example (c : Cfg) (pk conv : Bool) (tb : RTree (batchSize 3 false)) (ts : RTree 4) (htb : tb.Valid) (hts : ts.Valid) :
    let fl := flAway 24
    let ps := fun a b d e => fl (fl (a * b) + fl (d * e))
    let pd := fun a b d e => fl (fl (a * b) - fl (d * e))
    ∃ w, Fl.normalizeC (n := 3) c pk fl ps pd (fun z s => Fl.flC fl (z / (s : ℂ))) conv tb ts ![1, Complex.I, 0] = some w ∧ |normC w - 1| ≤ 24 * (2 : ℝ) ^ (-24 : ℤ) := by
  intro fl ps pd
  have hfl : RoundsToNearest 24 fl := flAway_roundsToNearest (by norm_num)
  have hps : Fl.IsProdSum fl ps := fun _ _ _ _ => Or.inl rfl
  have hpd : Fl.IsProdDiff fl pd := fun _ _ _ _ => Or.inl rfl
  obtain ⟨w, h1, -, h2⟩ := C155_normalize (n := 2) (by norm_num) hfl hps hpd (C150_division (by norm_num) hfl hps hpd).1 c pk conv tb ts htb hts (by norm_num)
    ![1, Complex.I, 0] (fun e => by simpa using congrFun e 0)
  refine ⟨w, h1, h2.trans (le_of_eq ?_)⟩
  norm_num

end Mathter.Props
