import Verif.Props.SVD
import Verif.Lemmas.SVDOne
import Mathlib.Algebra.Order.Floor.Semiring
import Mathlib.Algebra.Order.Archimedean.Basic

/-!
# Property C85: the Jacobi sweeps make progress and the loops end
-/

namespace Mathter.Props
open Mathter
universe u
variable {𝕜 : Type u} [RCLike 𝕜] {r n : ℕ}

/-- The sum of the squared magnitudes of the off-diagonal elements. -/
noncomputable def off2 (X : Matrix (Fin n) (Fin n) 𝕜) : ℝ := ∑ i, ∑ j, if i = j then 0 else ‖X i j‖ ^ 2

theorem off2_nonneg (X : Matrix (Fin n) (Fin n) 𝕜) : 0 ≤ off2 X :=
  Finset.sum_nonneg fun i _ => Finset.sum_nonneg fun j _ => by split <;> positivity

private theorem off2_add_diag (X : Matrix (Fin n) (Fin n) 𝕜) : off2 X + ∑ i, ‖X i i‖ ^ 2 = ∑ i, ∑ j, ‖X i j‖ ^ 2 := by
  unfold off2
  rw [← Finset.sum_add_distrib]
  refine Finset.sum_congr rfl fun i _ => ?_
  have : ∑ j, ‖X i j‖ ^ 2 = ∑ j, ((if i = j then 0 else ‖X i j‖ ^ 2) + if i = j then ‖X i j‖ ^ 2 else 0) :=
    Finset.sum_congr rfl fun j _ => by split <;> simp
  rw [this, Finset.sum_add_distrib, Finset.sum_ite_eq]
  simp

private theorem sum_split_two (p q : Fin n) (hpq : p ≠ q) (f : Fin n → ℝ) : ∑ i, f i = f p + f q + ∑ i, if i = p ∨ i = q then 0 else f i := by
  have : ∑ i, f i = ∑ i, ((if i = p ∨ i = q then f i else 0) + if i = p ∨ i = q then 0 else f i) :=
    Finset.sum_congr rfl fun i _ => by split <;> simp
  rw [this, Finset.sum_add_distrib, sum_two p q hpq]
  · simp
  · intro k h1 h2; simp [h1, h2]

/-- A pair of plane rotations that makes the block of `p`, `q` diagonal lowers the off-diagonal sum by the squares of the two elements. -/
private theorem off2_rotate (p q : Fin n) (hpq : p ≠ q) (X : Matrix (Fin n) (Fin n) 𝕜) (G H : Matrix (Fin 2) (Fin 2) 𝕜)
    (hG : G.conjTranspose * G = 1) (hH : H * H.conjTranspose = 1)
    (h01 : (G * block2 X p q * H) 0 1 = 0) (h10 : (G * block2 X p q * H) 1 0 = 0) :
    off2 (embed2 p q G * X * embed2 p q H) + ‖X p q‖ ^ 2 + ‖X q p‖ ^ 2 = off2 X := by
  set Y := embed2 p q G * X * embed2 p q H with hY
  have hGe := embed2_unitary p q hpq G hG
  have hHe : embed2 p q H * (embed2 p q H).conjTranspose = 1 := by
    rw [embed2_conjTranspose p q hpq, embed2_mul_embed2 p q hpq, hH, embed2_one]
  have hF : ∑ i, ∑ j, ‖Y i j‖ ^ 2 = ∑ i, ∑ j, ‖X i j‖ ^ 2 := by
    rw [hY, frob_right hHe, frob_left hGe]
  have hblk : block2 Y p q = G * block2 X p q * H := block2_mul X p q hpq G H
  have hB : ∑ i, ∑ j, ‖(G * block2 X p q * H) i j‖ ^ 2 = ∑ i, ∑ j, ‖block2 X p q i j‖ ^ 2 := by
    rw [frob_right hH, frob_left hG]
  rw [← hblk] at hB h01 h10
  simp only [Fin.sum_univ_two] at hB
  rw [h01, h10] at hB
  simp only [block2, Matrix.of_apply, Matrix.cons_val', Matrix.cons_val_zero, Matrix.cons_val_one, Matrix.cons_val_fin_one, norm_zero] at hB
  have hd : ∀ i, i ≠ p → i ≠ q → Y i i = X i i := by
    intro i h1 h2
    rw [hY, mul_embed2 _ p q hpq, if_neg h2, if_neg h1, embed2_mul _ p q hpq, if_neg h2, if_neg h1]
  have hD : (∑ i, if i = p ∨ i = q then 0 else ‖Y i i‖ ^ 2) = ∑ i, if i = p ∨ i = q then 0 else ‖X i i‖ ^ 2 := by
    refine Finset.sum_congr rfl fun i _ => ?_
    split
    · rfl
    · rename_i h
      rw [not_or] at h
      rw [hd i h.1 h.2]
  have e1 := off2_add_diag Y
  have e2 := off2_add_diag X
  rw [sum_split_two p q hpq (fun i => ‖Y i i‖ ^ 2)] at e1
  rw [sum_split_two p q hpq (fun i => ‖X i i‖ ^ 2)] at e2
  linarith

private theorem scale_sq_le (x y : 𝕜) : max (scaleElt x) (scaleElt y) ^ 2 ≤ ‖x‖ ^ 2 + ‖y‖ ^ 2 := by
  have h : ∀ z : 𝕜, scaleElt z ^ 2 ≤ ‖z‖ ^ 2 := by
    intro z
    rw [norm_sq_re_im]
    unfold scaleElt
    rcases max_choice |RCLike.re z| |RCLike.im z| with h | h <;> rw [h, sq_abs] <;> nlinarith [sq_nonneg (RCLike.re z), sq_nonneg (RCLike.im z)]
  rcases max_choice (scaleElt x) (scaleElt y) with h1 | h1 <;> rw [h1]
  · nlinarith [h x, sq_nonneg ‖y‖]
  · nlinarith [h y, sq_nonneg ‖x‖]

/-- C85: one rotation of the two-sided algorithm removes the two off-diagonal elements of its pair from the off-diagonal sum. -/
theorem C85_two_sided_rotation (zs : ZeroSigns 𝕜) (p q : Fin r) (hpq : p ≠ q) (s : TwoState 𝕜 r) :
    off2 (twoRotate zs p q s).X = off2 s.X - ‖s.X p q‖ ^ 2 - ‖s.X q p‖ ^ 2 := by
  obtain ⟨G, W, a, b, hG, hG', hW, hW', _, _, _, hblk, he⟩ := twoRotate_spec zs p q hpq s
  rw [he]
  have := off2_rotate p q hpq s.X G.conjTranspose W.conjTranspose (by rw [Matrix.conjTranspose_conjTranspose]; exact hG')
    (by rw [Matrix.conjTranspose_conjTranspose]; exact hW) (by rw [hblk]; rfl) (by rw [hblk]; rfl)
  simp only
  linarith

/-- C85: a sweep of the two-sided algorithm lowers the off-diagonal sum by at least the square of the error it reports, and that error is zero or
above the tolerance. -/
theorem C85_two_sided_sweep (tol : ℝ) (zs : ℕ → Fin r → Fin r → ZeroSigns 𝕜) (t : ℕ) (s : TwoState 𝕜 r) :
    off2 (twoSweep tol zs t s).1.X + (twoSweep tol zs t s).2 ^ 2 ≤ off2 s.X ∧ 0 ≤ (twoSweep tol zs t s).2 ∧
      ((twoSweep tol zs t s).2 = 0 ∨ tol < (twoSweep tol zs t s).2) := by
  unfold twoSweep
  refine pairs_inv (fun x : TwoState 𝕜 r × ℝ => off2 x.1.X + x.2 ^ 2 ≤ off2 s.X ∧ 0 ≤ x.2 ∧ (x.2 = 0 ∨ tol < x.2)) ⟨by simp, le_rfl, Or.inl rfl⟩ ?_
  intro p q x hpq hx
  unfold twoStep
  simp only
  split
  · rename_i hgt
    have h1 := C85_two_sided_rotation (zs t p q) p q (ne_of_lt hpq) x.1
    have h2 := scale_sq_le (x.1.X p q) (x.1.X q p)
    set e := max (scaleElt (x.1.X p q)) (scaleElt (x.1.X q p)) with he
    have he0 : 0 ≤ e := le_max_of_le_left (scaleElt_nonneg _)
    refine ⟨?_, le_max_of_le_left hx.2.1, Or.inr (lt_max_of_lt_right hgt)⟩
    have h3 : max x.2 e ^ 2 ≤ x.2 ^ 2 + e ^ 2 := by
      rcases max_choice x.2 e with h | h <;> rw [h] <;> nlinarith [sq_nonneg x.2, sq_nonneg e]
    have h4 := hx.1
    dsimp only
    rw [h1]
    linarith
  · exact hx

/-- The states and errors of successive sweeps. -/
def sweeps {σ : Type*} (sweep : ℕ → σ → σ × ℝ) (s : σ) : ℕ → σ
  | 0 => s
  | t + 1 => (sweep t (sweeps sweep s t)).1

/-- If each sweep lowers `E` by at least the square of its error, the squares of all errors together are at most `E` at the beginning. -/
private theorem sum_errors {σ : Type*} (sweep : ℕ → σ → σ × ℝ) (E : σ → ℝ) (hE : ∀ s, 0 ≤ E s)
    (hs : ∀ t s, E (sweep t s).1 + (sweep t s).2 ^ 2 ≤ E s) (s : σ) (T : ℕ) :
    ∑ t ∈ Finset.range T, (sweep t (sweeps sweep s t)).2 ^ 2 ≤ E s := by
  have : E (sweeps sweep s T) + ∑ t ∈ Finset.range T, (sweep t (sweeps sweep s t)).2 ^ 2 ≤ E s := by
    induction T with
    | zero => simp [sweeps]
    | succ T ih =>
      rw [Finset.sum_range_succ, sweeps]
      have := hs T (sweeps sweep s T)
      linarith
  linarith [hE (sweeps sweep s T)]

/-- C85: the errors of all sweeps of the two-sided algorithm, however many, have bounded squares: for the working matrix of `A` their sum is at
most the sum of the squares of its off-diagonal elements. So among `T` sweeps there is one with error at most `sqrt (off2 / T)`. -/
theorem C85_two_sided_errors (tol : ℝ) (zs : ℕ → Fin r → Fin r → ZeroSigns 𝕜) (s : TwoState 𝕜 r) (T : ℕ) :
    ∑ t ∈ Finset.range T, (twoSweep tol zs t (sweeps (twoSweep tol zs) s t)).2 ^ 2 ≤ off2 s.X :=
  sum_errors (twoSweep tol zs) (fun s => off2 s.X) (fun s => off2_nonneg s.X) (fun t s => (C85_two_sided_sweep tol zs t s).1) s T

/-- The `while` loop ends if every sweep whose error is not zero lowers a nonnegative quantity by at least `δ`. -/
private theorem loop_ends {σ : Type*} (sweep : ℕ → σ → σ × ℝ) (E : σ → ℝ) (hE : ∀ s, 0 ≤ E s) (δ : ℝ) (hδ : 0 < δ)
    (hs : ∀ t s, 0 ≤ (sweep t s).2 ∧ ((sweep t s).2 = 0 ∨ E (sweep t s).1 + δ ≤ E s) ∧ E (sweep t s).1 ≤ E s) :
    ∀ (fuel t : ℕ) (prev err : ℝ) (s : σ), 0 ≤ err → E s / δ + 3 < fuel → (jacobiLoop sweep fuel t prev err s).isSome
  | 0, t, prev, err, s, _, hf => by
      have : 0 ≤ E s / δ := div_nonneg (hE s) hδ.le
      norm_num at hf; linarith
  | fuel + 1, t, prev, err, s, he, hf => by
      rw [jacobiLoop]
      split
      · simp only
        obtain ⟨h1, h2, h3⟩ := hs t s
        rcases h2 with h2 | h2
        · -- an error of zero: at most one more sweep
          rw [h2]
          have h0 : 0 ≤ E s / δ := div_nonneg (hE s) hδ.le
          have hf2 : (2 : ℝ) < fuel := by push_cast at hf; linarith
          have hf2' : 2 < fuel := by exact_mod_cast hf2
          obtain ⟨f, rfl⟩ : ∃ f, fuel = f + 2 := ⟨fuel - 2, by omega⟩
          rw [jacobiLoop]
          split
          · simp only
            obtain ⟨g1, _, _⟩ := hs (t + 1) (sweep t s).1
            rw [jacobiLoop, if_neg (not_lt.2 g1)]
            rfl
          · rfl
        · refine loop_ends sweep E hE δ hδ hs fuel (t + 1) err _ _ h1 ?_
          have : E (sweep t s).1 / δ + 1 ≤ E s / δ := by
            rw [← sub_nonneg, show E s / δ - (E (sweep t s).1 / δ + 1) = (E s - (E (sweep t s).1 + δ)) / δ by field_simp]
            exact div_nonneg (by linarith) hδ.le
          push_cast at hf
          linarith
      · rfl

private theorem off2_init (hrn : n + 1 ≤ r) (A : Matrix (Fin r) (Fin (n + 1)) 𝕜) :
    off2 (twoInit A (matScaleElements A)).X ≤ 2 * (r * (n + 1)) := by
  have hs := (le_matScaleElements A).1
  have hle : ∀ i j, ‖(twoInit A (matScaleElements A)).X i j‖ ^ 2 ≤ if j.val < n + 1 then 2 else 0 := by
    intro i j
    simp only [twoInit, Matrix.of_apply]
    split
    · rename_i h
      rw [norm_div, RCLike.norm_ofReal, abs_of_nonneg hs, div_pow]
      have h1 := scaleElt_le_matScale A i ⟨j, h⟩
      have h2 : ‖A i ⟨j, h⟩‖ ^ 2 ≤ 2 * matScaleElements A ^ 2 := by
        rw [norm_sq_re_im]
        have a1 : |RCLike.re (A i ⟨j, h⟩)| ≤ matScaleElements A := (le_max_left _ _).trans h1
        have a2 : |RCLike.im (A i ⟨j, h⟩)| ≤ matScaleElements A := (le_max_right _ _).trans h1
        have b1 := sq_le_sq' (by linarith [abs_nonneg (RCLike.re (A i ⟨j, h⟩))]) a1
        have b2 := sq_le_sq' (by linarith [abs_nonneg (RCLike.im (A i ⟨j, h⟩))]) a2
        rw [sq_abs] at b1 b2
        linarith
      by_cases h0 : matScaleElements A = 0
      · rw [h0]; simp
      · have : 0 < matScaleElements A ^ 2 := by positivity
        rw [div_le_iff₀ this]; exact h2
    · simp
  have hrow : ∀ i : Fin r, ∑ j : Fin r, (if i = j then 0 else ‖(twoInit A (matScaleElements A)).X i j‖ ^ 2) ≤ 2 * (n + 1) := by
    intro i
    calc _ ≤ ∑ j : Fin r, (if j.val < n + 1 then (2 : ℝ) else 0) := Finset.sum_le_sum fun j _ => by
            split
            · split <;> norm_num
            · exact hle i j
      _ = ∑ j : Fin (n + 1), (if (Fin.castLE hrn j).val < n + 1 then (2 : ℝ) else 0) := by
            rw [sum_castLE hrn]
            intro k hk; rw [if_neg (by omega)]
      _ = ∑ j : Fin (n + 1), (2 : ℝ) := Finset.sum_congr rfl fun j _ => if_pos j.isLt
      _ = 2 * (n + 1) := by simp; ring
  calc off2 _ ≤ ∑ _i : Fin r, (2 * (n + 1) : ℝ) := Finset.sum_le_sum fun i _ => hrow i
    _ = 2 * (r * (n + 1)) := by simp; ring

/-- C85: the two-sided algorithm ends, for every matrix other than zero, after at most `2 * Rows * Columns / tolerance² + 3` sweeps. -/
theorem C85_two_sided_ends (tol big big' : ℝ) (htol : 0 < tol) (hb : 0 ≤ big') (zs : ℕ → Fin r → Fin r → ZeroSigns 𝕜) (hrn : n + 1 ≤ r)
    (A : Matrix (Fin r) (Fin (n + 1)) 𝕜) (hA : A ≠ 0) (fuel : ℕ) (hf : 2 * (r * (n + 1)) / tol ^ 2 + 3 < (fuel : ℝ)) :
    (svdTwoSided tol big big' zs hrn fuel A).isSome := by
  unfold svdTwoSided
  simp only
  rw [if_neg (fun h => hA ((matScaleElements_eq_zero A).1 h)), Option.isSome_map]
  refine loop_ends (twoSweep tol zs) (fun s => off2 s.X) (fun s => off2_nonneg s.X) (tol ^ 2) (by positivity) ?_ fuel 0 big big' _ hb ?_
  · intro t s
    obtain ⟨h1, h2, h3⟩ := C85_two_sided_sweep tol zs t s
    refine ⟨h2, ?_, by nlinarith [sq_nonneg (twoSweep tol zs t s).2]⟩
    rcases h3 with h3 | h3
    · exact Or.inl h3
    · right
      have : tol ^ 2 ≤ (twoSweep tol zs t s).2 ^ 2 := by gcongr
      linarith
  · have := off2_init hrn A
    have h1 : off2 (twoInit A (matScaleElements A)).X / tol ^ 2 ≤ 2 * (r * (n + 1)) / tol ^ 2 := by gcongr
    linarith

/-! ## One-sided -/

private theorem gram_eq (X : Matrix (Fin r) (Fin n) 𝕜) (p q : Fin n) : gramElt X p q = (X.conjTranspose * X) p q := by
  simp [gramElt, Matrix.mul_apply, Matrix.conjTranspose_apply]

/-- C85: one rotation of the one-sided algorithm removes the inner product of its pair of columns from the sum of the squares of all inner
products of different columns. -/
theorem C85_one_sided_rotation (neg : Bool) (p q : Fin n) (hpq : p ≠ q) (s : OneState 𝕜 r n) :
    off2 ((oneRotate neg p q s).X.conjTranspose * (oneRotate neg p q s).X) =
      off2 (s.X.conjTranspose * s.X) - 2 * ‖(s.X.conjTranspose * s.X) p q‖ ^ 2 := by
  obtain ⟨W, hW, hW', he, h0⟩ := oneRotate_spec neg p q hpq s
  have hX : (oneRotate neg p q s).X = s.X * embed2 p q W := by rw [he]
  have hg : (oneRotate neg p q s).X.conjTranspose * (oneRotate neg p q s).X =
      embed2 p q W.conjTranspose * (s.X.conjTranspose * s.X) * embed2 p q W := by
    rw [hX, Matrix.conjTranspose_mul, embed2_conjTranspose p q hpq]
    simp only [Matrix.mul_assoc]
  have hb := block2_mul (s.X.conjTranspose * s.X) p q hpq W.conjTranspose W
  rw [← hg] at hb
  rw [gram_eq] at h0
  have h0' : ((oneRotate neg p q s).X.conjTranspose * (oneRotate neg p q s).X) q p = 0 := by
    rw [← gram_eq, ← star_gramElt, gram_eq, h0, star_zero]
  have := off2_rotate p q hpq (s.X.conjTranspose * s.X) W.conjTranspose W (by rw [Matrix.conjTranspose_conjTranspose]; exact hW') hW'
    (by rw [← hb]; exact h0) (by rw [← hb]; exact h0')
  rw [← hg] at this
  have hs : ‖(s.X.conjTranspose * s.X) q p‖ = ‖(s.X.conjTranspose * s.X) p q‖ := by
    rw [← gram_eq, ← star_gramElt, norm_star, gram_eq]
  rw [hs] at this
  linarith

/-- C85: a sweep of the one-sided algorithm lowers that sum by at least twice the square of the error it reports. -/
theorem C85_one_sided_sweep (neg : ℕ → Fin n → Fin n → Bool) (t : ℕ) (s : OneState 𝕜 r n) :
    off2 ((oneSweep neg t s).1.X.conjTranspose * (oneSweep neg t s).1.X) + 2 * (oneSweep neg t s).2 ^ 2 ≤ off2 (s.X.conjTranspose * s.X) := by
  unfold oneSweep
  refine pairs_inv (fun x : OneState 𝕜 r n × ℝ => off2 (x.1.X.conjTranspose * x.1.X) + 2 * x.2 ^ 2 ≤ off2 (s.X.conjTranspose * s.X)) (by simp) ?_
  intro p q x hpq hx
  unfold oneStep
  simp only
  split
  · have h1 := C85_one_sided_rotation (neg t p q) p q (ne_of_lt hpq) x.1
    rw [gram_eq]
    set e := ‖(x.1.X.conjTranspose * x.1.X) p q‖ with he
    have h3 : max x.2 e ^ 2 ≤ x.2 ^ 2 + e ^ 2 := by
      rcases max_choice x.2 e with h | h <;> rw [h] <;> nlinarith [sq_nonneg x.2, sq_nonneg e]
    dsimp only
    rw [h1]
    linarith
  · exact hx

/-- C85: so are the squares of the errors of all sweeps together bounded. -/
theorem C85_one_sided_errors (neg : ℕ → Fin n → Fin n → Bool) (s : OneState 𝕜 r n) (T : ℕ) :
    2 * ∑ t ∈ Finset.range T, (oneSweep neg t (sweeps (oneSweep neg) s t)).2 ^ 2 ≤ off2 (s.X.conjTranspose * s.X) := by
  have := sum_errors (oneSweep neg) (fun s : OneState 𝕜 r n => off2 (s.X.conjTranspose * s.X) / 2) (fun s => div_nonneg (off2_nonneg _) (by norm_num))
    (fun t s => by have := C85_one_sided_sweep neg t s; linarith) s T
  linarith

/-! ## Termination in floating point -/

/-- C85: with a type that has finitely many values the loop of both algorithms ends whatever the sweeps compute: `F` is the set of the values
of the type, `maxError` being one of them after each sweep. -/
theorem C85_ends_finite {σ : Type*} (sweep : ℕ → σ → σ × ℝ) (F : Finset ℝ) (hF : ∀ t s, (sweep t s).2 ∈ F) (prev err : ℝ) (s : σ) (t : ℕ)
    (fuel : ℕ) (hf : F.card + 2 ≤ fuel) : (jacobiLoop sweep fuel t prev err s).isSome := by
  -- number of values below `err`
  have key : ∀ (fuel t : ℕ) (prev err : ℝ) (s : σ), (F.filter (· < err)).card + 2 ≤ fuel → (jacobiLoop sweep fuel t prev err s).isSome := by
    intro fuel
    induction fuel with
    | zero => intro t prev err s h; omega
    | succ fuel ih =>
      intro t prev err s h
      rw [jacobiLoop]
      split
      · simp only
        by_cases hlt : (sweep t s).2 < err
        · apply ih
          have : (F.filter (· < (sweep t s).2)).card < (F.filter (· < err)).card := by
            apply Finset.card_lt_card
            refine ⟨fun x hx => ?_, fun hsub => ?_⟩
            · rw [Finset.mem_filter] at hx ⊢
              exact ⟨hx.1, hx.2.trans hlt⟩
            · have := hsub (Finset.mem_filter.2 ⟨hF t s, hlt⟩)
              exact lt_irrefl _ (Finset.mem_filter.1 this).2
          omega
        · obtain ⟨f, rfl⟩ : ∃ f, fuel = f + 1 := ⟨fuel - 1, by omega⟩
          rw [jacobiLoop, if_neg hlt]
          rfl
      · rfl
  exact key fuel t prev err s (le_trans (by have := Finset.card_filter_le F (· < err); omega) hf)

/-! ## Non-vacuity -/

/-- A 3x2 matrix that is not zero; the bound on the sweeps is met by some number. -/
example (zs : ℕ → Fin 3 → Fin 3 → ZeroSigns ℝ) : ∃ fuel, (svdTwoSided (1 / 1000) 100 99 zs (by norm_num : 1 + 1 ≤ 3) fuel
    (!![1, 2; 3, 4; 5, 6] : Matrix (Fin 3) (Fin (1 + 1)) ℝ)).isSome := by
  obtain ⟨fuel, hf⟩ := exists_nat_gt ((2 : ℝ) * ((3 : ℕ) * ((1 : ℕ) + 1)) / (1 / 1000) ^ 2 + 3)
  refine ⟨fuel, C85_two_sided_ends _ _ _ (by norm_num) (by norm_num) zs _ _ ?_ fuel hf⟩
  intro h
  have := congrFun (congrFun h 0) 0
  simp at this

/-- The off-diagonal sum is not zero in general: there is something to lower. -/
example : off2 (!![1, 2; 3, 4] : Matrix (Fin 2) (Fin 2) ℝ) = 13 := by
  simp [off2, Fin.sum_univ_two]; norm_num

/-- A rotation that does lower it. -/
example (zs : ZeroSigns ℝ) : off2 (twoRotate zs 0 1 ⟨1, !![1, 2; 3, 4], 1⟩).X = 0 := by
  rw [C85_two_sided_rotation zs 0 1 (by decide)]
  simp [off2, Fin.sum_univ_two]

end Mathter.Props
