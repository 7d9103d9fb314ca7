import Verif.Lemmas.RoundedLook
import Verif.Props.RoundedGram
import Verif.Props.RoundedTriangle

/-!
# Property C134: rounding errors of the look-at transforms

`dot`, `norm`, `cross` and `msub` are functions with the errors proved of the ones of the library (`C116_dot`, `C133_normalize`, `C129_cross`); the example below
puts them together.
-/

namespace Mathter.Props
open Mathter

variable {fl : ℝ → ℝ} {u : ℝ}

/-- C134 in the plane: whenever eye and target differ, the columns are nearly unit vectors and nearly orthogonal, the second one points from the target to the
eye, the first one is perpendicular to that, and the target gets a first coordinate of nearly zero. -/
theorem C134_plane (h : Rounding fl u) {msub : ℝ → ℝ → ℝ → ℝ} (hms : Fl.IsMulSub fl msub) {dot : (Fin 2 → ℝ) → (Fin 2 → ℝ) → ℝ} (hd : Fl.IsDot u 2 dot)
    {norm : (Fin 2 → ℝ) → Fin 2 → ℝ} {k : ℕ} (hn : Fl.IsNormalize u k norm) (hk : k ≤ 4) {γ : ℝ} (hγ : γ = (1 + u) ^ 4 - 1) (hg : γ ≤ 1 / 1000)
    (eye target : Fin 2 → ℝ) (hE : eye - target ≠ 0) (positiveYForward flipX : Bool) :
    ∃ s l, Fl.lookColumns2D fl msub dot norm eye target positiveYForward flipX = some [if flipX then -s else s, if positiveYForward then -l else l] ∧
      |norm2 s - 1| ≤ 2 * γ ∧ |norm2 l - 1| ≤ 2 * γ ∧ |∑ i, s i * l i| ≤ 10 * γ ∧
      norm2 (fun i => l i - (eye - target) i / norm2 (eye - target)) ≤ 22 * γ ∧
      norm2 (fun i => s i - (![-(eye - target) 1, (eye - target) 0] : Fin 2 → ℝ) i / norm2 (eye - target)) ≤ 3 * γ ∧
      |∑ i, target i * (if flipX then -s else s) i + dot (-eye) (if flipX then -s else s)| ≤ 33 * γ * norm2 (eye - target) + 1.1 * γ * norm2 eye := by
  have hu := h.u_nonneg
  have hγ0 : 0 ≤ γ := by rw [hγ]; linarith [Fl.one_le_growth h 4]
  have huγ : 4 * u ≤ γ := by
    rw [hγ]; nlinarith [pow_nonneg hu 2, pow_nonneg hu 3, pow_nonneg hu 4]
  obtain ⟨hL, eL⟩ := Fl.look_axis h (by linarith) hE
  obtain ⟨L, hLd⟩ : ∃ L : Fin 2 → ℝ, (fun i => fl ((eye - target) i)) = L := ⟨_, rfl⟩
  have hLi : ∀ i, fl ((eye - target) i) = L i := fun i => congrFun hLd i
  rw [hLd] at hL
  simp only [hLi] at eL
  have nS : ∀ v : Fin 2 → ℝ, norm2 (![-v 1, v 0] : Fin 2 → ℝ) = norm2 v := fun v => by
    unfold norm2; congr 1; simp [Fin.sum_univ_two]; ring
  have hS : (![-L 1, L 0] : Fin 2 → ℝ) ≠ 0 := fun e => by
    have := nS L
    rw [e, show norm2 (0 : Fin 2 → ℝ) = 0 from norm2_zero] at this
    exact (Fl.norm2_pos hL).ne this
  obtain ⟨L1, g1, g2, g3⟩ := Fl.look_pair h hms hd hn (by norm_num) (by rw [← hγ]; exact hg) hS hL
    (by rw [show ∑ i, L i * (![-L 1, L 0] : Fin 2 → ℝ) i = 0 by simp [Fin.sum_univ_two]; ring, abs_zero]
        exact mul_nonneg (mul_nonneg (by norm_num) (by rw [← hγ]; exact hγ0)) (mul_nonneg (norm2_nonneg _) (norm2_nonneg _)))
  rw [show 2 + 2 = 4 from rfl, ← hγ] at g2 g3
  obtain ⟨lL, hL1⟩ := Fl.look_ne hg hL g2
  have c0 := Fl.normalize_err h hn hk (by norm_num) (by rw [← hγ]; exact hg) hS
  have c1 := Fl.normalize_err h hn hk (by norm_num) (by rw [← hγ]; exact hg) hL1
  rw [show 2 + 2 = 4 from rfl, ← hγ] at c0 c1
  have u0 := Fl.norm2_dir hS c0
  have d0 := Fl.dot_dir_le hS hL1 hγ0 hg (c := 5.06 * γ) (g3.trans (by
    have p1 := mul_nonneg hγ0 (norm2_nonneg (![-L 1, L 0] : Fin 2 → ℝ))
    have := mul_le_mul_of_nonneg_left lL p1
    have p2 := mul_nonneg p1 (norm2_nonneg L)
    linarith)) c0 c1
  have dl := Fl.look_dir hγ0 (by linarith) hE hL hL1 eL g2 c1
  refine ⟨norm ![-L 1, L 0], norm L1, ?_, u0, Fl.norm2_dir hL1 c1, by linarith, dl, ?_,
    Fl.target_side hγ0 hg (fun x y => (hd x y).trans (mul_le_mul_of_nonneg_right ?_ (Finset.sum_nonneg fun _ _ => abs_nonneg _))) hE u0 (by linarith) dl⟩
  · unfold Fl.lookColumns2D Fl.lookColumns
    dsimp only
    have hLd' : (fun i => fl (eye i - target i)) = L := hLd
    rw [hLd']
    have gs : Fl.gramSchmidt fl msub dot norm [![-L 1, L 0], L] = some [![-L 1, L 0], L1] := by
      have : Fl.gsInner fl msub dot norm [] ![-L 1, L 0] = some ![-L 1, L 0] := rfl
      simp only [Fl.gramSchmidt, Fl.gsLoop, this, Option.bind_some, List.nil_append, g1, List.cons_append]
    simp only [List.ofFn_zero, List.nil_append, List.rotate_zero, Fl.crossOf1, gs, Option.bind_some]
    simp [List.zipIdx]
    all_goals rfl
  · have t := Fl.norm2_dir_le (a := ![-L 1, L 0]) (b := ![-(eye - target) 1, (eye - target) 0]) (d := u) hS (fun e => by
      have := nS (eye - target)
      rw [e, show norm2 (0 : Fin 2 → ℝ) = 0 from norm2_zero] at this
      exact (Fl.norm2_pos hE).ne this) (by
      rw [nS]
      refine le_trans (le_of_eq ?_) eL
      rw [← nS fun i => L i - (eye - target) i]
      congr 1
      funext i
      fin_cases i <;> simp <;> ring)
    have t2 := norm2_add_le (fun i => norm ![-L 1, L 0] i - (![-L 1, L 0] : Fin 2 → ℝ) i / norm2 ![-L 1, L 0])
      (fun i => (![-L 1, L 0] : Fin 2 → ℝ) i / norm2 ![-L 1, L 0] -
        (![-(eye - target) 1, (eye - target) 0] : Fin 2 → ℝ) i / norm2 ![-(eye - target) 1, (eye - target) 0])
    rw [nS (eye - target)] at t t2
    have e : (fun i => norm ![-L 1, L 0] i - (![-L 1, L 0] : Fin 2 → ℝ) i / norm2 ![-L 1, L 0] + ((![-L 1, L 0] : Fin 2 → ℝ) i / norm2 ![-L 1, L 0] -
        (![-(eye - target) 1, (eye - target) 0] : Fin 2 → ℝ) i / norm2 (eye - target))) =
        fun i => norm ![-L 1, L 0] i - (![-(eye - target) 1, (eye - target) 0] : Fin 2 → ℝ) i / norm2 (eye - target) := funext fun i => by ring
    rw [e] at t2
    linarith
  · rw [hγ]
    have : (1 + u) ^ 2 ≤ (1 + u) ^ 4 := pow_le_pow_right₀ (by linarith) (by norm_num)
    linarith

/-- C134 in space: if the up vector is not parallel to the (rounded) look axis, then the first and the last column are nearly unit vectors and nearly orthogonal,
the last one points from the target to the eye, the first one is perpendicular to look axis and up vector, and the target gets a first coordinate of nearly zero.
The second column is nearly a unit vector and nearly orthogonal to the others if the angle between the up vector and the look axis is not too small, with an
error inversely proportional to the sine of the angle. Missing: an error that does not depend on the angle, see `C134_up_violated`. -/
theorem C134_space_partial (h : Rounding fl u) {msub : ℝ → ℝ → ℝ → ℝ} (hms : Fl.IsMulSub fl msub) {dot : (Fin 3 → ℝ) → (Fin 3 → ℝ) → ℝ}
    (hd : Fl.IsDot u 3 dot) {norm : (Fin 3 → ℝ) → Fin 3 → ℝ} {k : ℕ} (hn : Fl.IsNormalize u k norm) (hk : k ≤ 5)
    {cross : (Fin 3 → ℝ) → (Fin 3 → ℝ) → Fin 3 → ℝ} (hc : Fl.IsCross fl u cross) {γ : ℝ} (hγ : γ = (1 + u) ^ 5 - 1) (hg : γ ≤ 1 / 1000)
    (eye target up L : Fin 3 → ℝ) (hL : ∀ i, L i = fl (eye i - target i)) (hup : ∀ i, fl (up i) = up i) (hX : crossProduct up L ≠ 0)
    (positiveZForward flipX flipY : Bool) :
    ∃ s w l, Fl.lookColumns3D fl msub dot norm cross eye target up positiveZForward flipX flipY =
        some [if flipX then -s else s, if flipY then -w else w, if positiveZForward then -l else l] ∧
      |norm2 s - 1| ≤ 2 * γ ∧ |norm2 l - 1| ≤ 2 * γ ∧ |∑ i, s i * l i| ≤ 10 * γ ∧
      norm2 (fun i => l i - (eye - target) i / norm2 (eye - target)) ≤ 22 * γ ∧
      norm2 (fun i => s i - crossProduct up L i / norm2 (crossProduct up L)) ≤ 4 * γ ∧
      |∑ i, target i * (if flipX then -s else s) i + dot (-eye) (if flipX then -s else s)| ≤ 33 * γ * norm2 (eye - target) + 1.1 * γ * norm2 eye ∧
      (41 * γ * (norm2 up * norm2 L) ≤ norm2 (crossProduct up L) → |norm2 w - 1| ≤ 2 * γ ∧
        |∑ i, s i * w i| ≤ 36 * γ * (norm2 up * norm2 L / norm2 (crossProduct up L)) ∧
        |∑ i, l i * w i| ≤ 36 * γ * (norm2 up * norm2 L / norm2 (crossProduct up L))) := by
  have hu := h.u_nonneg
  have hγ0 : 0 ≤ γ := by rw [hγ]; linarith [Fl.one_le_growth h 5]
  have g5 : ∀ m, m ≤ 5 → (1 + u) ^ m - 1 ≤ γ := fun m hm => by
    rw [hγ]; exact sub_le_sub_right (pow_le_pow_right₀ (by linarith) hm) 1
  have huγ : 4 * u ≤ γ := by
    refine le_trans ?_ (g5 4 (by norm_num)); nlinarith [pow_nonneg hu 2, pow_nonneg hu 3, pow_nonneg hu 4]
  have hL0 : L ≠ 0 := by
    rintro rfl
    exact hX (by simp)
  have hE : eye - target ≠ 0 := fun e => hL0 (funext fun i => by
    rw [hL i, show eye i - target i = 0 from congrFun e i]
    have := h.err 0
    rw [abs_zero, mul_zero, sub_zero] at this
    exact abs_nonpos_iff.1 this)
  have eL : norm2 (fun i => L i - (eye - target) i) ≤ u * norm2 (eye - target) := by
    refine norm2_le_mul hu fun i => ?_
    rw [hL i]; exact h.err _
  have hS : ∀ i, |cross up L i - crossProduct up L i| ≤ γ * |crossProduct up L i| := fun i =>
    (hc up L hup (fun i => by rw [hL i, h.idem]) i).trans (mul_le_mul_of_nonneg_right (g5 4 (by norm_num)) (abs_nonneg _))
  obtain ⟨hS0, sk, sl, so⟩ := Fl.side_axis hγ0 hg hX hS
  generalize hSd : cross up L = S at *
  obtain ⟨L1, g1, g2, g3⟩ := Fl.look_pair h hms hd hn (by norm_num) (by rw [← hγ]; exact hg) hS0 hL0 (by rw [← hγ]; exact so)
  rw [show 3 + 2 = 5 from rfl, ← hγ] at g2 g3
  obtain ⟨lL, hL1⟩ := Fl.look_ne hg hL0 g2
  obtain ⟨W, hW⟩ : ∃ W, Fl.gsInner fl msub dot norm [S, L1] up = some W := by
    obtain ⟨f, hf, -⟩ := Fl.gsCoef_err h hd hn (by norm_num) (by rw [← hγ]; exact hg) hS0 up
    obtain ⟨f', hf', -⟩ := Fl.gsCoef_err h hd hn (by norm_num) (by rw [← hγ]; exact hg) hL1 fun i => msub (up i) f (S i)
    exact ⟨fun i => msub (msub (up i) f (S i)) f' (L1 i), by simp [Fl.gsInner, hf, hf']⟩
  obtain ⟨w1, w2, w3⟩ := Fl.look_up h hms hd hn hγ hg hX hS g2 g3 hW
  have c0 := Fl.normalize_err h hn hk (by norm_num) (by rw [← hγ]; exact hg) hS0
  have c1 := Fl.normalize_err h hn hk (by norm_num) (by rw [← hγ]; exact hg) hL1
  rw [show 3 + 2 = 5 from rfl, ← hγ] at c0 c1
  have u0 := Fl.norm2_dir hS0 c0
  have d0 := Fl.dot_dir_le hS0 hL1 hγ0 hg (c := 5.06 * γ) (g3.trans (by
    have p1 := mul_nonneg hγ0 (norm2_nonneg S)
    have := mul_le_mul_of_nonneg_left lL p1
    have p2 := mul_nonneg p1 (norm2_nonneg L)
    linarith)) c0 c1
  have dl := Fl.look_dir hγ0 (by linarith) hE hL0 hL1 eL g2 c1
  refine ⟨norm S, norm W, norm L1, ?_, u0, Fl.norm2_dir hL1 c1, by linarith, dl, ?_,
    Fl.target_side hγ0 hg (fun x y => (hd x y).trans (mul_le_mul_of_nonneg_right (g5 3 (by norm_num)) (Finset.sum_nonneg fun _ _ => abs_nonneg _))) hE u0
      (by linarith) dl, fun hσ => ?_⟩
  · unfold Fl.lookColumns3D Fl.lookColumns
    dsimp only
    have hLd' : (fun i => fl (eye i - target i)) = L := funext fun i => (hL i).symm
    rw [hLd']
    have gs : Fl.gramSchmidt fl msub dot norm [S, L, up] = some [S, L1, W] := by
      have : Fl.gsInner fl msub dot norm [] S = some S := rfl
      simp only [Fl.gramSchmidt, Fl.gsLoop, this, Option.bind_some, List.nil_append, g1, List.cons_append, hW]
    have e1 : List.ofFn ![up] ++ [L] = [up, L] := by simp
    have e2 : [up, L].rotate 1 = [L, up] := rfl
    rw [e1, e2]
    simp only [Fl.crossOf2, hSd, gs, Option.bind_some]
    simp [List.zipIdx]
    exact ⟨rfl, rfl, rfl⟩
  · have t := Fl.norm2_dir_le hS0 hX sk
    have t2 := norm2_add_le (fun i => norm S i - S i / norm2 S) (fun i => S i / norm2 S - crossProduct up L i / norm2 (crossProduct up L))
    have e : (fun i => norm S i - S i / norm2 S + (S i / norm2 S - crossProduct up L i / norm2 (crossProduct up L))) =
        fun i => norm S i - crossProduct up L i / norm2 (crossProduct up L) := funext fun i => by ring
    rw [e] at t2
    linarith
  · have pX := Fl.norm2_pos hX
    have pL := Fl.norm2_pos hL0
    have pS := Fl.norm2_pos hS0
    have pL1 := Fl.norm2_pos hL1
    have pa := norm2_nonneg up
    have hx : norm2 (crossProduct up L) ≤ 2 * (norm2 W * norm2 L) := by linarith
    have hW0 : W ≠ 0 := by
      rintro rfl
      rw [show norm2 (0 : Fin 3 → ℝ) = 0 from norm2_zero] at hx
      linarith
    have pW := Fl.norm2_pos hW0
    have c2 := Fl.normalize_err h hn hk (by norm_num) (by rw [← hγ]; exact hg) hW0
    rw [show 3 + 2 = 5 from rfl, ← hγ] at c2
    have k1 : 1 ≤ norm2 up * norm2 L / norm2 (crossProduct up L) := by
      rw [le_div_iff₀ pX, one_mul]
      simpa using Fl.norm2_cross_le up L 0
    have ka : norm2 up ≤ 2 * (norm2 up * norm2 L / norm2 (crossProduct up L)) * norm2 W := by
      rw [show 2 * (norm2 up * norm2 L / norm2 (crossProduct up L)) * norm2 W = norm2 up * (2 * (norm2 W * norm2 L)) / norm2 (crossProduct up L) by ring,
        le_div_iff₀ pX]
      exact mul_le_mul_of_nonneg_left hx pa
    generalize norm2 up * norm2 L / norm2 (crossProduct up L) = κ at *
    have d1 := Fl.dot_dir_le hS0 hW0 hγ0 hg (c := 31 * γ * κ) (w1.trans (by
      have := mul_le_mul_of_nonneg_left ka (mul_nonneg hγ0 pS.le)
      linarith)) c0 c2
    have d2 := Fl.dot_dir_le hL1 hW0 hγ0 hg (c := 31 * γ * κ) (w2.trans (by
      have := mul_le_mul_of_nonneg_left ka (mul_nonneg hγ0 pL1.le)
      have := mul_nonneg (mul_nonneg hγ0 pL1.le) pa
      linarith)) c1 c2
    have k2 : γ ≤ γ * κ := le_mul_of_one_le_right hγ0 k1
    exact ⟨Fl.norm2_dir hW0 c2, by linarith, by linarith⟩

/-- C134: the translation of a column is the inner product with the negated eye up to the rounding of the products and of the sum. -/
theorem C134_translation {n : ℕ} (h : Rounding fl u) {dot : (Fin n → ℝ) → (Fin n → ℝ) → ℝ} (hd : Fl.IsDot u n dot) (eye : Fin n → ℝ) (columns : List (Fin n → ℝ))
    (j : Fin columns.length) :
    ∃ t, (Fl.lookTranslation dot eye columns)[(j : ℕ)]? = some t ∧
      |t + ∑ i, eye i * columns.get j i| ≤ ((1 + u) ^ n - 1) * (norm2 eye * norm2 (columns.get j)) := by
  refine ⟨dot (-eye) (columns.get j), by simp [Fl.lookTranslation], ?_⟩
  have k := hd (-eye) (columns.get j)
  simp only [Pi.neg_apply, neg_mul, Finset.sum_neg_distrib, abs_neg, sub_neg_eq_add, abs_mul] at k
  exact k.trans (mul_le_mul_of_nonneg_left (abs_dot_le _ _) (by linarith [Fl.one_le_growth h n]))

/-- The functions of the library meet the hypotheses, in single precision, in every configuration and for every reduction order. -/
example (hfl : RoundsToNearest 24 fl) (c : Cfg) (p : Bool) (conv : Bool) (junk : ℕ → ℝ) (tb : RTree (batchSize 3 false)) (ts : RTree 4) (htb : tb.Valid)
    (hts : ts.Valid) :
    Rounding fl (2 ^ (-((24 : ℕ) : ℤ))) ∧ (1 + (2 : ℝ) ^ (-((24 : ℕ) : ℤ))) ^ 5 - 1 ≤ 1 / 1000 ∧ Fl.IsMulSub fl (fun a b d => fl (a - b * d)) ∧
      Fl.IsDot (2 ^ (-((24 : ℕ) : ℤ))) 3 (fun x y => Fl.dot fl conv tb ts (Vec.ofFn x : Vec c ℝ 3 p) (Vec.ofFn y : Vec c ℝ 3 p)) ∧
      Fl.IsNormalize (n := 3) (2 ^ (-((24 : ℕ) : ℤ))) 5 (Fl.normalizePrecise1 c p fl conv tb ts) ∧
      Fl.IsCross fl (2 ^ (-((24 : ℕ) : ℤ))) (fun a b => (Fl.cross3 fl conv junk (Vec.ofFn a : Vec c ℝ 3 p) (Vec.ofFn b : Vec c ℝ 3 p)).get) :=
  ⟨hfl.rounding (by norm_num), by norm_num, fun _ _ _ => Or.inr rfl, C116_dot (hfl.rounding (by norm_num)) conv tb ts htb hts,
    C133_normalize (n := 2) (hfl.rounding (by norm_num)) (by norm_num) c p conv tb ts htb hts, C129_cross (by norm_num) hfl conv junk⟩

/-- A camera at `(3, 4, 12)` that looks at the origin with the third axis as the up vector: the angle is large enough for the second column. -/
example : crossProduct (![0, 0, 1] : Fin 3 → ℝ) ![3, 4, 12] ≠ 0 ∧
    41 * (1 / 1000) * (norm2 (![0, 0, 1] : Fin 3 → ℝ) * norm2 (![3, 4, 12] : Fin 3 → ℝ)) ≤ norm2 (crossProduct (![0, 0, 1] : Fin 3 → ℝ) ![3, 4, 12]) := by
  have e : crossProduct (![0, 0, 1] : Fin 3 → ℝ) ![3, 4, 12] = ![-4, 3, 0] := by
    funext i; fin_cases i <;> simp [cross_apply]
  have n1 : norm2 (![0, 0, 1] : Fin 3 → ℝ) = 1 := by
    unfold norm2; rw [Fin.sum_univ_three, Real.sqrt_eq_iff_mul_self_eq (by simp) (by norm_num)]; simp
  have n2 : norm2 (![3, 4, 12] : Fin 3 → ℝ) = 13 := by
    unfold norm2; rw [show ∑ i, (![3, 4, 12] : Fin 3 → ℝ) i ^ 2 = 13 ^ 2 by simp [Fin.sum_univ_three]; norm_num, Real.sqrt_sq (by norm_num)]
  have n3 : norm2 (![-4, 3, 0] : Fin 3 → ℝ) = 5 := by
    unfold norm2; rw [show ∑ i, (![-4, 3, 0] : Fin 3 → ℝ) i ^ 2 = 5 ^ 2 by simp [Fin.sum_univ_three]; norm_num, Real.sqrt_sq (by norm_num)]
  rw [e, n1, n2, n3]
  refine ⟨fun h => ?_, by norm_num⟩
  have := congrFun h 1
  norm_num at this

/-! ## The up axis -/

/-- A projection on a vector along the third axis leaves vectors of floats without third element alone. -/
private theorem coef_zero (h : Rounding fl u) {dot : (Fin 3 → ℝ) → (Fin 3 → ℝ) → ℝ} (hd : Fl.IsDot u 3 dot) {norm : (Fin 3 → ℝ) → Fin 3 → ℝ} {k : ℕ}
    (hn : Fl.IsNormalize u k norm) (hg : (1 + u) ^ (3 + 2) - 1 ≤ 1 / 1000) {S v : Fin 3 → ℝ} (hS : S ≠ 0) (h0 : S 0 = 0) (h1 : S 1 = 0) (h2 : v 2 = 0) :
    Fl.gsCoef fl dot norm S v = some 0 := by
  obtain ⟨f, hf, -⟩ := Fl.gsCoef_err h hd hn (by norm_num) hg hS v
  obtain ⟨N, -, -, hN⟩ := hn S hS
  have n0 : norm S 0 = 0 := by have := hN 0; simpa [h0] using this
  have n1 : norm S 1 = 0 := by have := hN 1; simpa [h1] using this
  have d : dot v (norm S) = 0 := by
    have := hd v (norm S)
    simpa [Fin.sum_univ_three, n0, n1, h2] using this
  have fl0 : fl 0 = 0 := by simpa using h.err 0
  have hf' := hf
  unfold Fl.gsCoef at hf
  dsimp only at hf
  split_ifs at hf
  rw [d, zero_div, fl0, Option.some.injEq] at hf
  rw [hf', hf]

/-- C134 is violated: with the look axis `(1, 1, 0)` and the up vector `(1, 1 + 2^-23, 0)`, both exact in single precision and not parallel, the second and the
third column of the computed matrix enclose an angle of about 45° at most (the inner product of the unit vectors is at least 0.7). For every rounding to nearest
and every reduction order. -/
theorem C134_up_violated (hfl : RoundsToNearest 24 fl) {msub : ℝ → ℝ → ℝ → ℝ} (hms : Fl.IsMulSub fl msub) {dot : (Fin 3 → ℝ) → (Fin 3 → ℝ) → ℝ}
    (hd : Fl.IsDot (2 ^ (-((24 : ℕ) : ℤ))) 3 dot) {norm : (Fin 3 → ℝ) → Fin 3 → ℝ} {k : ℕ} (hn : Fl.IsNormalize (2 ^ (-((24 : ℕ) : ℤ))) k norm) (hk : k ≤ 5)
    {cross : (Fin 3 → ℝ) → (Fin 3 → ℝ) → Fin 3 → ℝ} (hc : Fl.IsCross fl (2 ^ (-((24 : ℕ) : ℤ))) cross) :
    ∃ s w l, Fl.lookColumns3D fl msub dot norm cross ![1, 1, 0] ![0, 0, 0] ![1, 1 + 1 / 2 ^ 23, 0] false false false = some [s, w, l] ∧
      crossProduct (![1, 1 + 1 / 2 ^ 23, 0] : Fin 3 → ℝ) ![1, 1, 0] ≠ 0 ∧ 0.999 ≤ norm2 w ∧ 0.999 ≤ norm2 l ∧ 0.7 ≤ |∑ i, l i * w i| := by
  have h := hfl.rounding (by norm_num : 1 ≤ 24)
  have hg : (1 + (2 : ℝ) ^ (-((24 : ℕ) : ℤ))) ^ (3 + 2) - 1 ≤ 1 / 10000 := by norm_num
  have hg' : (1 + (2 : ℝ) ^ (-((24 : ℕ) : ℤ))) ^ (3 + 2) - 1 ≤ 1 / 1000 := by norm_num
  have fl0 : fl 0 = 0 := by simpa using h.err 0
  have fl1 : fl 1 = 1 := hfl.fixed ⟨1, 0, by norm_num, by norm_num⟩
  have fl2 : fl (1 + 1 / 2 ^ 23) = 1 + 1 / 2 ^ 23 := hfl.fixed ⟨2 ^ 23 + 1, -23, by norm_num, by norm_num⟩
  obtain ⟨a, ha⟩ : ∃ a : Fin 3 → ℝ, a = ![1, 1 + 1 / 2 ^ 23, 0] := ⟨_, rfl⟩
  obtain ⟨L, hL⟩ : ∃ L : Fin 3 → ℝ, L = ![1, 1, 0] := ⟨_, rfl⟩
  have fa : ∀ i, fl (a i) = a i := by rw [ha]; intro i; fin_cases i <;> first | exact fl0 | exact fl1 | exact fl2
  have fL : ∀ i, fl (L i) = L i := by rw [hL]; intro i; fin_cases i <;> first | exact fl0 | exact fl1
  rw [← ha, ← hL]
  have eX : crossProduct a L = ![0, 0, -(1 / 2 ^ 23)] := by
    rw [ha, hL]; funext i; fin_cases i <;> simp [cross_apply]
  have hX : crossProduct a L ≠ 0 := fun e => by
    have := congrFun e 2
    rw [eX] at this
    change -(1 / 2 ^ 23 : ℝ) = 0 at this
    norm_num at this
  have hS := hc a L fa fL
  obtain ⟨S, hSd⟩ : ∃ S, cross a L = S := ⟨_, rfl⟩
  rw [hSd] at hS
  have hS0 : S ≠ 0 := (Fl.side_axis (γ := (1 + (2 : ℝ) ^ (-((24 : ℕ) : ℤ))) ^ 4 - 1) (by norm_num) (by norm_num) hX hS).1
  have s0 : S 0 = 0 := by have := hS 0; simpa [eX] using this
  have s1 : S 1 = 0 := by have := hS 1; simpa [eX] using this
  have sub0 : ∀ {v : Fin 3 → ℝ}, (∀ i, fl (v i) = v i) → (fun i => msub (v i) 0 (S i)) = v := fun {v} hv => by
    funext i
    rcases hms (v i) 0 (S i) with e | e
    · rw [e, zero_mul, fl0, sub_zero, hv]
    · rw [e, zero_mul, sub_zero, hv]
  have cL := coef_zero (v := L) h hd hn hg' hS0 s0 s1 (by rw [hL]; rfl)
  have ca := coef_zero (v := a) h hd hn hg' hS0 s0 s1 (by rw [ha]; rfl)
  have gL : Fl.gsInner fl msub dot norm [S] L = some L := by simp [Fl.gsInner, cL, sub0 fL]
  have hL0 : L ≠ 0 := fun e => by rw [hL] at e; simpa using congrFun e 0
  have nL : norm2 L = Real.sqrt 2 := by rw [hL]; unfold norm2; congr 1; simp [Fin.sum_univ_three]; norm_num
  have na : norm2 a ≤ 2 := by
    rw [ha]
    unfold norm2
    rw [Real.sqrt_le_left (by norm_num)]
    simp [Fin.sum_univ_three]
    norm_num
  obtain ⟨f, hf, hfe⟩ := Fl.gsCoef_err h hd hn (by norm_num) hg' hL0 a
  have hs2 : Real.sqrt 2 ≤ 2 := by rw [Real.sqrt_le_left (by norm_num)]; norm_num
  have hfm : IsFloat 24 f := by
    have hf := hf
    unfold Fl.gsCoef at hf
    dsimp only at hf
    split_ifs at hf
    rw [Option.some.injEq] at hf
    rw [← hf]
    exact hfl.mem _
  have hf1 : 3 / 4 ≤ f ∧ f ≤ 5 / 4 := by
    have hb : norm2 a * norm2 L ≤ 4 := by
      rw [nL]
      nlinarith [norm2_nonneg a, Real.sqrt_nonneg 2]
    have hb' := hfe.trans (mul_le_mul_of_nonneg_left hb (by norm_num))
    rw [nL, Real.sq_sqrt (by norm_num), ha, hL] at hb'
    simp only [Fin.sum_univ_three, Matrix.cons_val_zero, Matrix.cons_val_one, Matrix.cons_val_two, Matrix.tail_cons, Matrix.head_cons] at hb'
    rw [abs_le] at hb'
    norm_num at hb'
    constructor <;> linarith [hb'.1, hb'.2]
  obtain ⟨N, hN, hN1⟩ := Fl.float_near_one hfm hf1.1 hf1.2
  have hNb : 3 * 2 ^ 22 ≤ N ∧ N ≤ 5 * 2 ^ 22 := by
    rw [hN] at hf1
    have a : (3 * 2 ^ 22 : ℤ) ≤ N := by have := hf1.1; rw [le_div_iff₀ (by norm_num)] at this; norm_num at this ⊢; exact_mod_cast this
    have b : N ≤ (5 * 2 ^ 22 : ℤ) := by have := hf1.2; rw [div_le_iff₀ (by norm_num)] at this; norm_num at this ⊢; exact_mod_cast this
    exact ⟨a, b⟩
  have sub1 : ∀ M : ℤ, |M - N| < 2 ^ 24 → msub (M / 2 ^ 24) f 1 = (M - N) / 2 ^ 24 := by
    intro M hM
    have fx : fl ((M : ℝ) / 2 ^ 24 - f) = (M - N) / 2 ^ 24 := by
      rw [hN, ← sub_div]
      refine hfl.fixed ⟨M - N, -24, ?_, hM⟩
      norm_num
      ring
    rcases hms (M / 2 ^ 24) f 1 with e | e
    · rw [e, mul_one, hfl.fixed hfm, fx]
    · rw [e, mul_one, fx]
  have m0 := sub1 (2 ^ 24) (by rw [abs_lt]; constructor <;> omega)
  have m1 := sub1 (2 ^ 24 + 2) (by rw [abs_lt]; constructor <;> omega)
  have m2 : msub 0 f 0 = 0 := by rcases hms 0 f 0 with e | e <;> simp [e, fl0]
  obtain ⟨W, hW⟩ : ∃ W : Fin 3 → ℝ, W = ![((2 : ℝ) ^ 24 - N) / 2 ^ 24, ((2 : ℝ) ^ 24 + 2 - N) / 2 ^ 24, 0] := ⟨_, rfl⟩
  have ew : (fun i => msub (a i) f (L i)) = W := by
    rw [ha, hL, hW]
    funext i
    fin_cases i
    · norm_num at m0 ⊢; exact m0
    · norm_num at m1 ⊢; exact m1
    · exact m2
  have gW : Fl.gsInner fl msub dot norm [S, L] a = some W := by
    have sa : ∀ i, msub (a i) 0 (S i) = a i := fun i => congrFun (sub0 fa) i
    simp only [Fl.gsInner, ca, Option.bind_some, sa, hf, ew]
  have hint : (1 : ℝ) ≤ (2 ^ 24 + 1 - N) ^ 2 := by
    have : (1 : ℤ) ≤ (2 ^ 24 + 1 - N) ^ 2 := by
      have : 2 ^ 24 + 1 - N ≠ 0 := by omega
      nlinarith [sq_abs (2 ^ 24 + 1 - N), Int.one_le_abs this]
    exact_mod_cast this
  have hW0 : W ≠ 0 := fun e => by
    rw [hW] at e
    have e0 := congrFun e 0
    have e1 := congrFun e 1
    simp at e0 e1
    linarith
  have big : norm2 W ≤ |∑ i, L i * W i| := by
    rw [hL, hW]
    unfold norm2
    rw [Real.sqrt_le_left (abs_nonneg _), sq_abs]
    simp only [Fin.sum_univ_three, Matrix.cons_val_zero, Matrix.cons_val_one, Matrix.cons_val_two, Matrix.tail_cons, Matrix.head_cons, one_mul, mul_zero,
      add_zero, zero_pow two_ne_zero]
    rw [← add_div, div_pow, div_pow, div_pow, ← add_div]
    refine div_le_div_of_nonneg_right ?_ (by positivity)
    nlinarith
  have c1 := Fl.normalize_err h hn hk (by norm_num) hg' hL0
  have c2 := Fl.normalize_err h hn hk (by norm_num) hg' hW0
  have hγ0 : (0 : ℝ) ≤ (1 + (2 : ℝ) ^ (-((24 : ℕ) : ℤ))) ^ (3 + 2) - 1 := by norm_num
  have u1 := (abs_le.1 (Fl.norm2_dir hL0 c1)).1
  have u2 := (abs_le.1 (Fl.norm2_dir hW0 c2)).1
  have dd := Fl.dot_dir hL0 hW0 hγ0 hg' c1 c2
  generalize (1 + (2 : ℝ) ^ (-((24 : ℕ) : ℤ))) ^ (3 + 2) - 1 = γ at *
  refine ⟨norm S, norm W, norm L, ?_, hX, by linarith, by linarith, ?_⟩
  · unfold Fl.lookColumns3D Fl.lookColumns
    dsimp only
    have hLd' : (fun i => fl (L i - (![0, 0, 0] : Fin 3 → ℝ) i)) = L := by
      funext i
      rw [show (![0, 0, 0] : Fin 3 → ℝ) i = 0 by fin_cases i <;> rfl, sub_zero, fL]
    have gs : Fl.gramSchmidt fl msub dot norm [S, L, a] = some [S, L, W] := by
      have : Fl.gsInner fl msub dot norm [] S = some S := rfl
      simp only [Fl.gramSchmidt, Fl.gsLoop, this, Option.bind_some, List.nil_append, gL, List.cons_append, gW]
    have e1 : List.ofFn ![a] ++ [L] = [a, L] := by simp
    have e2 : [a, L].rotate 1 = [L, a] := rfl
    rw [hLd', e1, e2]
    simp only [Fl.crossOf2, hSd, gs, Option.bind_some]
    simp [List.zipIdx]
    all_goals rfl
  · have pW := Fl.norm2_pos hW0
    have hq : 0.701 ≤ |(∑ i, L i * W i) / (norm2 L * norm2 W)| := by
      have p2 : 0 < Real.sqrt 2 := Real.sqrt_pos.2 (by norm_num)
      have s2 : Real.sqrt 2 ≤ 1.42 := by rw [Real.sqrt_le_left (by norm_num)]; norm_num
      rw [abs_div, nL, abs_of_pos (mul_pos p2 pW), le_div_iff₀ (mul_pos p2 pW)]
      nlinarith
    have t := abs_sub_abs_le_abs_sub ((∑ i, L i * W i) / (norm2 L * norm2 W)) (∑ i, norm L i * norm W i)
    rw [abs_sub_comm] at dd
    linarith

end Mathter.Props
