import Verif.Model.RangeReduce
import Verif.Spec.Range
import Verif.Lemmas.Vector
import Verif.Lemmas.Tree

/-!
# Error analysis of `Length` in a format with overflow and underflow
-/

namespace Mathter.Rg
open Red
variable {c : Cfg} {dim n : ℕ} {pk : Bool} {p : ℕ} {emin : ℤ} {Ω u : ℝ} {fl : ℝ → Option ℝ}

theorem sum_nonneg' (b : Fin n → ℝ) (hb : ∀ i, 0 ≤ b i) (l : List (Fin n)) : 0 ≤ (l.map b).sum :=
  List.sum_nonneg fun x hx => by
    obtain ⟨i, -, rfl⟩ := List.mem_map.1 hx
    exact hb i

private theorem node_arith {u gl gr Gl Gr g G yl yr sl sr y : ℝ} (hu : 0 ≤ u) (hu1 : u ≤ 1) (hsl : 0 ≤ sl) (hsr : 0 ≤ sr) (l1 : gl * sl ≤ yl)
    (r1 : gr * sr ≤ yr) (l2 : yl ≤ Gl * sl) (r2 : yr ≤ Gr * sr) (h1 : g ≤ gl * (1 - u)) (h2 : g ≤ gr * (1 - u)) (h3 : Gl * (1 + u) ≤ G)
    (h4 : Gr * (1 + u) ≤ G) (hy0 : 0 ≤ yl + yr) (hy : |y - (yl + yr)| ≤ u * |yl + yr|) : g * (sl + sr) ≤ y ∧ y ≤ G * (sl + sr) := by
  rw [abs_of_nonneg hy0] at hy
  have a := (abs_le.1 hy).1
  have b := (abs_le.1 hy).2
  constructor
  · have e1 := mul_le_mul_of_nonneg_right h1 hsl
    have e2 := mul_le_mul_of_nonneg_right h2 hsr
    have e3 := mul_le_mul_of_nonneg_right l1 (by linarith : 0 ≤ 1 - u)
    have e4 := mul_le_mul_of_nonneg_right r1 (by linarith : 0 ≤ 1 - u)
    nlinarith
  · have e1 := mul_le_mul_of_nonneg_right h3 hsl
    have e2 := mul_le_mul_of_nonneg_right h4 hsr
    have e3 := mul_le_mul_of_nonneg_right l2 (by linarith : 0 ≤ 1 + u)
    have e4 := mul_le_mul_of_nonneg_right r2 (by linarith : 0 ≤ 1 + u)
    nlinarith

/-- Summing non-negative numbers: nothing overflows if the sum with its error margin is in range. -/
theorem tree_range (hp : 1 ≤ p) (h : RoundsInRange p emin Ω fl) (b : Fin n → ℝ) (hb : ∀ i, IsRFloat p emin (b i)) (hb0 : ∀ i, 0 ≤ b i) (t : RTree n)
    (hS : (1 + (2 : ℝ) ^ (-(p : ℤ))) ^ (nz b t.leaves - 1) * (t.leaves.map b).sum ≤ Ω) :
    ∃ y, t.eval (op fl (· + ·)) (fun i => some (b i)) = (some y : Option ℝ) ∧ IsRFloat p emin y ∧ 0 ≤ y ∧ (nz b t.leaves = 0 → y = 0) ∧
      (1 - (2 : ℝ) ^ (-(p : ℤ))) ^ (nz b t.leaves - 1) * (t.leaves.map b).sum ≤ y ∧
      y ≤ (1 + (2 : ℝ) ^ (-(p : ℤ))) ^ (nz b t.leaves - 1) * (t.leaves.map b).sum := by
  have hu0 : 0 < (2 : ℝ) ^ (-(p : ℤ)) := two_zpow_pos _
  have hu1 : (2 : ℝ) ^ (-(p : ℤ)) ≤ 1 := zpow_le_one_of_nonpos₀ (by norm_num) (by omega)
  generalize hu : (2 : ℝ) ^ (-(p : ℤ)) = u at *
  induction t with
  | leaf i =>
    refine ⟨b i, rfl, hb i, hb0 i, nz_leaf b i, ?_⟩
    rw [nz_leaf_le b i]
    simp [RTree.leaves]
  | node l r hl hr =>
    rw [nz_node] at hS ⊢
    rw [RTree.leaves, List.map_append, List.sum_append] at hS ⊢
    have sl := sum_nonneg' b hb0 l.leaves
    have sr := sum_nonneg' b hb0 r.leaves
    have mono : ∀ k, k ≤ nz b l.leaves + nz b r.leaves - 1 → (1 + u) ^ k ≤ (1 + u) ^ (nz b l.leaves + nz b r.leaves - 1) :=
      fun k hk => pow_le_pow_right₀ (by linarith) hk
    have ml := mono (nz b l.leaves - 1) (by omega)
    have mr := mono (nz b r.leaves - 1) (by omega)
    have p1 : (0 : ℝ) ≤ (1 + u) ^ (nz b l.leaves + nz b r.leaves - 1) := by positivity
    obtain ⟨yl, el, fl1, l0, zl, ll, lu⟩ := hl (by nlinarith)
    obtain ⟨yr, er, fr1, r0, zr, rl, ru⟩ := hr (by nlinarith)
    have ev : (RTree.node l r).eval (op fl (· + ·)) (fun i => some (b i)) = fl (yl + yr) := by
      change op fl (· + ·) (l.eval _ _) (r.eval _ _) = _
      rw [el, er]
      rfl
    rw [ev]
    rcases Nat.eq_zero_or_pos (nz b l.leaves) with h0 | h0
    · rw [zl h0, zero_add, (sum_zero b _ h0).1, h0, zero_add, zero_add]
      rw [(sum_zero b _ h0).1, h0, zero_add, zero_add] at hS
      refine ⟨yr, h.exact fr1 (by rw [abs_of_nonneg r0]; linarith), fr1, r0, zr, rl, ru⟩
    rcases Nat.eq_zero_or_pos (nz b r.leaves) with h1 | h1
    · rw [zr h1, add_zero, (sum_zero b _ h1).1, h1, add_zero, add_zero]
      rw [(sum_zero b _ h1).1, h1, add_zero, add_zero] at hS
      refine ⟨yl, h.exact fl1 (by rw [abs_of_nonneg l0]; linarith), fl1, l0, zl, ll, lu⟩
    have hin : |yl + yr| ≤ Ω := by
      rw [abs_of_nonneg (add_nonneg l0 r0)]
      have := mul_le_mul_of_nonneg_right ml sl
      have := mul_le_mul_of_nonneg_right mr sr
      linarith
    obtain ⟨y, hy⟩ := h.finite _ hin
    have he := h.err_add hp fl1 fr1 hy
    rw [hu] at he
    have low : ∀ k, k + 1 ≤ nz b l.leaves + nz b r.leaves - 1 → (1 - u) ^ (nz b l.leaves + nz b r.leaves - 1) ≤ (1 - u) ^ k * (1 - u) := fun k hk => by
      rw [← pow_succ]; exact pow_le_pow_of_le_one (by linarith) (by linarith) hk
    have up : ∀ k, k + 1 ≤ nz b l.leaves + nz b r.leaves - 1 → (1 + u) ^ k * (1 + u) ≤ (1 + u) ^ (nz b l.leaves + nz b r.leaves - 1) := fun k hk => by
      rw [← pow_succ]; exact mono _ hk
    have := node_arith hu0.le hu1 sl sr ll rl lu ru (low _ (by omega)) (low _ (by omega)) (up _ (by omega)) (up _ (by omega)) (add_nonneg l0 r0) he
    refine ⟨y, hy, h.mem _ _ hy, ?_, fun hz => by omega, this.1, this.2⟩
    have : 0 ≤ (1 - u) ^ (nz b l.leaves + nz b r.leaves - 1) := pow_nonneg (by linarith) _
    nlinarith

/-- `Sum` of non-negative numbers. -/
theorem sum_range (hp : 1 ≤ p) (h : RoundsInRange p emin Ω fl) (tb : RTree (batchSize dim false)) (ts : RTree (dim + 1)) (htb : tb.Valid) (hts : ts.Valid)
    (v : Vec c FR dim pk) (s : Fin dim → ℝ) (hv : ∀ i, v.get i = (some (s i) : Option ℝ)) (hs : ∀ i, IsRFloat p emin (s i)) (hs0 : ∀ i, 0 ≤ s i)
    (hS : (1 + (2 : ℝ) ^ (-(p : ℤ))) ^ (dim - 1) * ∑ i, s i ≤ Ω) :
    ∃ y, sum fl tb ts v = (some y : Option ℝ) ∧ IsRFloat p emin y ∧ 0 ≤ y ∧
      (1 - (2 : ℝ) ^ (-(p : ℤ))) ^ (dim - 1) * ∑ i, s i ≤ y ∧ y ≤ (1 + (2 : ℝ) ^ (-(p : ℤ))) ^ (dim - 1) * ∑ i, s i := by
  have hu0 : 0 < (2 : ℝ) ^ (-(p : ℤ)) := two_zpow_pos _
  have hu1 : (2 : ℝ) ^ (-(p : ℤ)) ≤ 1 := zpow_le_one_of_nonpos₀ (by norm_num) (by omega)
  have hsum : 0 ≤ ∑ i, s i := Finset.sum_nonneg fun i _ => hs0 i
  have key : ∀ (n : ℕ) (hd : dim ≤ n) (t : RTree n) (ht : t.Valid), ∃ y, t.eval (op fl (· + ·)) (fun l => some (if h : l.val < dim then s ⟨l.val, h⟩ else 0)) =
      (some y : Option ℝ) ∧ IsRFloat p emin y ∧ 0 ≤ y ∧
      (1 - (2 : ℝ) ^ (-(p : ℤ))) ^ (dim - 1) * ∑ i, s i ≤ y ∧ y ≤ (1 + (2 : ℝ) ^ (-(p : ℤ))) ^ (dim - 1) * ∑ i, s i := by
    intro n hd t ht
    have hk := sum_padded hd (fun l => if h : l.val < dim then s ⟨l.val, h⟩ else 0) s (fun _ => rfl) t ht id rfl
    have hc := nz_padded (fun l => if h : l.val < dim then s ⟨l.val, h⟩ else 0) s (fun _ => rfl) t ht
    simp only [id] at hk
    have hup : (1 + (2 : ℝ) ^ (-(p : ℤ))) ^ (nz (fun l => if h : l.val < dim then s ⟨l.val, h⟩ else 0) t.leaves - 1) ≤ (1 + (2 : ℝ) ^ (-(p : ℤ))) ^ (dim - 1) :=
      pow_le_pow_right₀ (by linarith) (by omega)
    have hlo : (1 - (2 : ℝ) ^ (-(p : ℤ))) ^ (dim - 1) ≤ (1 - (2 : ℝ) ^ (-(p : ℤ))) ^ (nz (fun l => if h : l.val < dim then s ⟨l.val, h⟩ else 0) t.leaves - 1) :=
      pow_le_pow_of_le_one (by linarith) (by linarith) (by omega)
    obtain ⟨y, e, f, y0, -, lo, up⟩ := tree_range hp h (fun l => if h : l.val < dim then s ⟨l.val, h⟩ else 0)
      (fun i => by split; exacts [hs _, RoundsInRange.zero_mem])
      (fun i => by split; exacts [hs0 _, le_refl _]) t
      (by rw [hk]; exact (mul_le_mul_of_nonneg_right hup hsum).trans hS)
    rw [hk] at lo up
    exact ⟨y, e, f, y0, (mul_le_mul_of_nonneg_right hlo hsum).trans lo, up.trans (mul_le_mul_of_nonneg_right hup hsum)⟩
  unfold sum
  split
  · rename_i hb
    have e : (Vec.fillMasked dim (v.load hb) 0 : Fin (batchSize dim false) → FR) = fun l => (some (if h : l.val < dim then s ⟨l.val, h⟩ else 0) : Option ℝ) := by
      funext l
      unfold Vec.fillMasked
      split
      · rw [Vec.load_of_lt v hb l (by omega), hv, dif_pos]
      · dsimp only
        split
        · rename_i hl; rw [Vec.load_of_lt v hb l hl, hv]
        · rfl
    rw [e]
    exact key _ (le_batchSize dim false) tb htb
  · have e : (fun i : Fin (dim + 1) => if h : i.val < dim then v.get ⟨i.val, h⟩ else 0) = fun l => (some (if h : l.val < dim then s ⟨l.val, h⟩ else 0) : Option ℝ) := by
      funext l
      split
      · exact hv _
      · rfl
    rw [e]
    exact key _ (Nat.le_succ _) ts hts

private theorem sq_err {u η z y : ℝ} (hu : 0 ≤ u) (hu8 : u ≤ 1 / 8) (hη : 0 ≤ η) (hη8 : η ≤ 1 / 8) (hz : |z| ≤ 1) (hy : |y - z| ≤ u * |z| + η) :
    |y ^ 2 - z ^ 2| ≤ (2 * u + u ^ 2) * z ^ 2 + 3 * η := by
  have hz0 := abs_nonneg z
  have e : y ^ 2 - z ^ 2 = (y - z) * (y + z) := by ring
  have h1 : |y + z| ≤ (2 + u) * |z| + η := by
    have := abs_add_le (y - z) (2 * z)
    rw [show y - z + 2 * z = y + z by ring, abs_mul, abs_two] at this
    linarith
  rw [e, abs_mul, ← sq_abs z]
  have h2 : |y - z| * |y + z| ≤ (u * |z| + η) * ((2 + u) * |z| + η) := mul_le_mul hy h1 (abs_nonneg _) (by positivity)
  have h3 : u * |z| ≤ 1 / 8 := by nlinarith
  have h4 : (u * |z| + η) * ((2 + u) * |z| + η) = (2 * u + u ^ 2) * |z| ^ 2 + η * ((2 + u) * |z| + u * |z| + η) := by ring
  have h5 : (2 + u) * |z| + u * |z| + η ≤ 3 := by nlinarith
  nlinarith

private theorem low_arith {u Z S T L : ℝ} (hu0 : 0 < u) (hu8 : u ≤ 1 / 8) (hdim : 1 ≤ dim) (hZ0 : 0 < Z) (hSlo : (1 - 6 * u) * Z ≤ S)
    (Tlo : (1 - u) ^ (dim - 1) * S ≤ T) (hLT : |L - Real.sqrt T| ≤ u * Real.sqrt T) :
    (1 - 6 * u) * (1 - u) ^ dim * Real.sqrt Z ≤ L := by
  have hq0 : 0 < (1 - u) ^ (dim - 1) := pow_pos (by linarith) _
  have hl := (abs_le.1 hLT).1
  have hsq : (1 - 6 * u) * (1 - u) ^ (dim - 1) * Real.sqrt Z ≤ Real.sqrt T := by
    have a0 : 0 ≤ (1 - 6 * u) * (1 - u) ^ (dim - 1) := mul_nonneg (by linarith) hq0.le
    have a1 : (1 - 6 * u) * (1 - u) ^ (dim - 1) ≤ 1 := by
      have : (1 - u) ^ (dim - 1) ≤ 1 := pow_le_one₀ (by linarith) (by linarith)
      nlinarith
    rw [show (1 - 6 * u) * (1 - u) ^ (dim - 1) * Real.sqrt Z = Real.sqrt (((1 - 6 * u) * (1 - u) ^ (dim - 1)) ^ 2 * Z) by
      rw [Real.sqrt_mul (sq_nonneg _), Real.sqrt_sq a0]]
    apply Real.sqrt_le_sqrt
    refine le_trans ?_ Tlo
    have b1 : (1 - u) ^ (dim - 1) * ((1 - 6 * u) * Z) ≤ (1 - u) ^ (dim - 1) * S := mul_le_mul_of_nonneg_left hSlo hq0.le
    refine le_trans ?_ b1
    have b2 : ((1 - 6 * u) * (1 - u) ^ (dim - 1)) ^ 2 ≤ (1 - 6 * u) * (1 - u) ^ (dim - 1) := by nlinarith
    calc _ ≤ (1 - 6 * u) * (1 - u) ^ (dim - 1) * Z := mul_le_mul_of_nonneg_right b2 hZ0.le
      _ = _ := by ring
  have hd : (1 - u) ^ dim = (1 - u) ^ (dim - 1) * (1 - u) := by rw [← pow_succ, Nat.sub_add_cancel hdim]
  rw [hd]
  have := mul_le_mul_of_nonneg_right hsq (by linarith : 0 ≤ 1 - u)
  nlinarith

private theorem up_arith {u Z S T L : ℝ} (hu0 : 0 < u) (hdim : 1 ≤ dim) (hZ0 : 0 < Z) (hSup : S ≤ (1 + 6 * u) * Z)
    (Tup : T ≤ (1 + u) ^ (dim - 1) * S) (hLT : |L - Real.sqrt T| ≤ u * Real.sqrt T) : L ≤ (1 + u) ^ (dim + 3) * Real.sqrt Z := by
  have hpm1 : 1 ≤ (1 + u) ^ (dim - 1) := one_le_pow₀ (by linarith)
  have hl := (abs_le.1 hLT).2
  have hsq : Real.sqrt T ≤ (1 + u) ^ (dim - 1) * (1 + u) ^ 3 * Real.sqrt Z := by
    have a0 : 0 ≤ (1 + u) ^ (dim - 1) * (1 + u) ^ 3 := by positivity
    rw [show (1 + u) ^ (dim - 1) * (1 + u) ^ 3 * Real.sqrt Z = Real.sqrt (((1 + u) ^ (dim - 1) * (1 + u) ^ 3) ^ 2 * Z) by
      rw [Real.sqrt_mul (sq_nonneg _), Real.sqrt_sq a0]]
    apply Real.sqrt_le_sqrt
    refine Tup.trans ?_
    have b1 : (1 + u) ^ (dim - 1) * S ≤ (1 + u) ^ (dim - 1) * ((1 + 6 * u) * Z) := mul_le_mul_of_nonneg_left hSup (by linarith)
    refine b1.trans ?_
    have b2 : 1 + 6 * u ≤ ((1 + u) ^ 3) ^ 2 := by
      have := one_add_mul_le_pow (by linarith : -2 ≤ u) 6
      rw [← pow_mul]
      push_cast at this
      norm_num
      linarith
    have b3 : (1 + u) ^ (dim - 1) ≤ ((1 + u) ^ (dim - 1)) ^ 2 := by nlinarith
    calc _ = (1 + u) ^ (dim - 1) * (1 + 6 * u) * Z := by ring
      _ ≤ ((1 + u) ^ (dim - 1)) ^ 2 * ((1 + u) ^ 3) ^ 2 * Z :=
        mul_le_mul_of_nonneg_right (mul_le_mul b3 b2 (by linarith) (by positivity)) hZ0.le
      _ = _ := by ring
  have hd : (1 + u) ^ (dim + 3) = (1 + u) ^ (dim - 1) * (1 + u) ^ 3 * (1 + u) := by
    rw [← pow_add, ← pow_succ]; congr 1; omega
  rw [hd]
  have := mul_le_mul_of_nonneg_right hsq (by linarith : 0 ≤ 1 + u)
  nlinarith


private theorem y_arith {u η d Z Y Ω g : ℝ} (hu0 : 0 < u) (hu8 : u ≤ 1 / 8) (hd : 1 ≤ d) (hdη : d * η ≤ u * Z / 4) (hZ0 : 0 < Z) (hZup : Z ≤ d)
    (hYZ : |Y - Z| ≤ (2 * u + u ^ 2) * Z + 3 * (d * η)) (hg : 1 ≤ g) (hΩ : 2 * d * g ≤ Ω) : Y ≤ (1 + 3 * u) * Z ∧ (1 - 3 * u) * Z ≤ Y ∧ Y ≤ Ω := by
  have h1 := (abs_le.1 hYZ).1
  have h2 := (abs_le.1 hYZ).2
  have h3 := mul_pos hu0 hZ0
  have h4 : u ^ 2 * Z ≤ 1 / 8 * (u * Z) := by nlinarith
  have h5 : u * Z ≤ 1 / 8 * Z := by nlinarith
  have h6 : 2 * d ≤ 2 * d * g := by nlinarith
  refine ⟨by linarith, by linarith, by linarith⟩

private theorem s_arith {u η d Z Y S Ω g : ℝ} (hu0 : 0 < u) (hu8 : u ≤ 1 / 8) (hd : 1 ≤ d) (hdη : d * η ≤ u * Z / 4) (hZ0 : 0 < Z) (hZup : Z ≤ d)
    (hYup : Y ≤ (1 + 3 * u) * Z) (hYlo : (1 - 3 * u) * Z ≤ Y) (hSY : |S - Y| ≤ u * Y + d * η) (hg : 1 ≤ g) (hΩ : 2 * d * (g * (1 + u)) ≤ Ω) :
    S ≤ (1 + 6 * u) * Z ∧ (1 - 6 * u) * Z ≤ S ∧ g * S ≤ Ω ∧ 1 ≤ Ω := by
  have h1 := (abs_le.1 hSY).1
  have h2 := (abs_le.1 hSY).2
  have h3 := mul_pos hu0 hZ0
  have h4 : u * (u * Z) ≤ 1 / 8 * (u * Z) := by nlinarith
  have h5 : u * Z ≤ 1 / 8 * Z := by nlinarith
  have h6 : u * Y ≤ u * Z + 3 * (u * (u * Z)) := by nlinarith
  have h7 : S ≤ (1 + 6 * u) * Z := by linarith
  have h8 : S ≤ 2 * d := by linarith
  have h9 : g * S ≤ g * (2 * d) := mul_le_mul_of_nonneg_left h8 (by linarith)
  have h10 : g * (2 * d) ≤ 2 * d * (g * (1 + u)) := by
    have : 0 ≤ g * d := by nlinarith
    nlinarith
  have h11 : 2 * d ≤ g * (2 * d) := by nlinarith
  refine ⟨h7, by linarith, by linarith, by linarith⟩

private theorem sqrt_big {T Ω : ℝ} (h : T ≤ Ω) (h1 : 1 ≤ Ω) : Real.sqrt T ≤ Ω := Real.sqrt_le_iff.2 ⟨by linarith, by nlinarith⟩

/-- The numbers of the analysis: scaled elements, their squares, the sum and its root. -/
theorem root_range {ι : Type*} [Fintype ι] (hcard : Fintype.card ι = dim) (hp : 3 ≤ p) (h : RoundsInRange p emin Ω fl)
    (hfmt : (dim : ℝ) * ((2 : ℝ) ^ emin / 2) * 4 ^ p ≤ (2 : ℝ) ^ (-(p : ℤ))) (hΩ : 2 * (dim : ℝ) * (1 + (2 : ℝ) ^ (-(p : ℤ))) ^ dim ≤ Ω)
    (z y : ι → ℝ) (hyz : ∀ i, fl (z i) = some (y i)) (hz1 : ∀ i, |z i| ≤ 1) (hzz : ∃ i, 2 * (2 : ℝ) ^ (-(p : ℤ)) ≤ |z i|) :
    ∃ s : ι → ℝ, (∀ i, fl (y i * y i) = some (s i)) ∧ (∀ i, IsRFloat p emin (s i)) ∧ (∀ i, 0 ≤ s i) ∧ (1 + (2 : ℝ) ^ (-(p : ℤ))) ^ (dim - 1) * ∑ i, s i ≤ Ω ∧
      ∀ T, IsRFloat p emin T → (1 - (2 : ℝ) ^ (-(p : ℤ))) ^ (dim - 1) * ∑ i, s i ≤ T → T ≤ (1 + (2 : ℝ) ^ (-(p : ℤ))) ^ (dim - 1) * ∑ i, s i →
        ∃ L, fl (Real.sqrt T) = some L ∧ IsRFloat p emin L ∧
          (1 - 6 * (2 : ℝ) ^ (-(p : ℤ))) * (1 - (2 : ℝ) ^ (-(p : ℤ))) ^ dim * Real.sqrt (∑ i, z i ^ 2) ≤ L ∧
          L ≤ (1 + (2 : ℝ) ^ (-(p : ℤ))) ^ (dim + 3) * Real.sqrt (∑ i, z i ^ 2) := by
  have hp1 : 1 ≤ p := by omega
  obtain ⟨i0, hi0⟩ := hzz
  have hdim : 1 ≤ dim := by rw [← hcard]; exact Fintype.card_pos_iff.2 ⟨i0⟩
  have hdimR : (1 : ℝ) ≤ dim := by exact_mod_cast hdim
  have hu0 : 0 < (2 : ℝ) ^ (-(p : ℤ)) := two_zpow_pos _
  have hu8 : (2 : ℝ) ^ (-(p : ℤ)) ≤ 1 / 8 := by
    have : (2 : ℝ) ^ (-(p : ℤ)) ≤ (2 : ℝ) ^ (-3 : ℤ) := zpow_le_zpow_right₀ (by norm_num) (by omega)
    norm_num at this ⊢
    exact this
  have hη0 := two_zpow_pos emin
  have h4u : (4 : ℝ) ^ p * ((2 : ℝ) ^ (-(p : ℤ))) ^ 2 = 1 := by
    rw [zpow_neg, zpow_natCast, show (4 : ℝ) = 2 ^ 2 by norm_num, ← pow_mul, inv_pow, ← pow_mul, mul_comm 2 p]
    exact mul_inv_cancel₀ (by positivity)
  -- squares
  have eq4 : (dim : ℝ) * ((2 : ℝ) ^ emin / 2) ≤ ((2 : ℝ) ^ (-(p : ℤ))) ^ 3 := by
    have := mul_le_mul_of_nonneg_right hfmt (sq_nonneg ((2 : ℝ) ^ (-(p : ℤ))))
    rw [mul_assoc, h4u, mul_one] at this
    calc _ ≤ _ := this
      _ = _ := by ring
  have hroot : ((2 : ℝ) ^ ((p : ℤ) - 1 + emin)) ^ 2 ≤ (2 : ℝ) ^ emin := by
    have e1 : (2 : ℝ) ^ emin ≤ (2 : ℝ) ^ (1 - 3 * (p : ℤ)) := by
      have e : (2 : ℝ) ^ (1 - 3 * (p : ℤ)) = 2 * ((2 : ℝ) ^ (-(p : ℤ))) ^ 3 := by
        rw [← zpow_natCast, ← zpow_mul, show (1 : ℤ) - 3 * p = -p * ((3 : ℕ) : ℤ) + 1 by push_cast; ring, zpow_add_one₀ (by norm_num)]
        ring
      rw [e]
      nlinarith
    have e2 : emin ≤ 1 - 3 * (p : ℤ) := (zpow_le_zpow_iff_right₀ (by norm_num)).1 e1
    rw [← zpow_natCast, ← zpow_mul]
    apply zpow_le_zpow_right₀ (by norm_num)
    push_cast
    omega
  have herr : ∀ i, |y i - z i| ≤ (2 : ℝ) ^ (-(p : ℤ)) * |z i| + (2 : ℝ) ^ emin / 2 := fun i => h.err hp1 (hyz i)
  have hmulerr : ∀ i s, fl (y i * y i) = some s → |s - y i * y i| ≤ (2 : ℝ) ^ (-(p : ℤ)) * |y i * y i| + (2 : ℝ) ^ emin / 2 := fun i s hs => h.err hp1 hs
  have hsqrt : ∀ T L, fl (Real.sqrt T) = some L → (2 : ℝ) ^ emin ≤ T → |L - Real.sqrt T| ≤ (2 : ℝ) ^ (-(p : ℤ)) * Real.sqrt T := by
    intro T L hL hT
    have := h.err_normal hp1 hL (by
      rw [abs_of_nonneg (Real.sqrt_nonneg _)]
      exact Real.le_sqrt_of_sq_le (hroot.trans hT))
    rwa [abs_of_nonneg (Real.sqrt_nonneg _)] at this
  have hη : 0 < (2 : ℝ) ^ emin / 2 := by positivity
  generalize hue : (2 : ℝ) ^ (-(p : ℤ)) = u at *
  generalize hηe : (2 : ℝ) ^ emin / 2 = η at *
  set Z := ∑ i, z i ^ 2 with hZ
  have hZlow : 4 * u ^ 2 ≤ Z := by
    have h1 : z i0 ^ 2 ≤ Z := Finset.single_le_sum (f := fun i => z i ^ 2) (fun i _ => sq_nonneg _) (Finset.mem_univ i0)
    have h2 := mul_self_le_mul_self (by linarith) hi0
    rw [abs_mul_abs_self] at h2
    nlinarith
  have hZup : Z ≤ dim := by
    have : Z ≤ ∑ _i : ι, (1 : ℝ) := Finset.sum_le_sum fun i _ => by
      rw [← sq_abs]; exact pow_le_one₀ (abs_nonneg _) (hz1 i)
    simpa [hcard] using this
  have hZ0 : 0 < Z := by nlinarith
  have hnη : (dim : ℝ) * η ≤ u * Z / 4 := by nlinarith
  have hη8 : η ≤ 1 / 8 := by
    have : η ≤ u ^ 3 := by nlinarith
    nlinarith [mul_nonneg hu0.le hu0.le]
  set Y := ∑ i, y i ^ 2 with hY
  have hYZ : |Y - Z| ≤ (2 * u + u ^ 2) * Z + 3 * (dim * η) := by
    rw [hY, hZ, ← Finset.sum_sub_distrib]
    refine (Finset.abs_sum_le_sum_abs _ _).trans ((Finset.sum_le_sum fun i _ => sq_err hu0.le hu8 hη.le hη8 (hz1 i) (herr i)).trans (le_of_eq ?_))
    rw [Finset.sum_add_distrib, ← Finset.mul_sum, Finset.sum_const, Finset.card_univ, hcard, nsmul_eq_mul]
    ring
  have hY0 : 0 ≤ Y := Finset.sum_nonneg fun i _ => sq_nonneg _
  have hpow1 : 1 ≤ (1 + u) ^ dim := one_le_pow₀ (by linarith)
  obtain ⟨hYup, hYlo, hYΩ⟩ := y_arith hu0 hu8 hdimR hnη hZ0 hZup hYZ hpow1 hΩ
  have hex : ∀ i, ∃ s, fl (y i * y i) = some s := fun i => h.finite _ (by
    rw [abs_of_nonneg (mul_self_nonneg _)]
    refine le_trans ?_ hYΩ
    rw [← sq]
    exact Finset.single_le_sum (f := fun i => y i ^ 2) (fun i _ => sq_nonneg _) (Finset.mem_univ i))
  choose s hs using hex
  have hs0 : ∀ i, 0 ≤ s i := fun i => by
    by_contra hneg
    push Not at hneg
    have := h.nearest _ _ (hs i) 0 RoundsInRange.zero_mem
    have hyy := mul_self_nonneg (y i)
    rw [zero_sub, abs_neg, abs_of_nonneg hyy, abs_of_neg (by linarith)] at this
    linarith
  set S := ∑ i, s i with hS
  have hSY : |S - Y| ≤ u * Y + dim * η := by
    rw [hS, hY, ← Finset.sum_sub_distrib]
    refine (Finset.abs_sum_le_sum_abs _ _).trans ((Finset.sum_le_sum fun i _ => ?_).trans (le_of_eq ?_ : ∑ i, (u * y i ^ 2 + η) ≤ _))
    · have := hmulerr i (s i) (hs i)
      rw [abs_of_nonneg (mul_self_nonneg (y i)), ← sq] at this
      exact this
    · rw [Finset.sum_add_distrib, ← Finset.mul_sum, Finset.sum_const, Finset.card_univ, hcard, nsmul_eq_mul]
  have hpm : (1 + u) ^ dim = (1 + u) ^ (dim - 1) * (1 + u) := by rw [← pow_succ, Nat.sub_add_cancel hdim]
  have hpm1 : 1 ≤ (1 + u) ^ (dim - 1) := one_le_pow₀ (by linarith)
  rw [hpm] at hΩ
  obtain ⟨hSup, hSlo, hSΩ, h1Ω⟩ := s_arith hu0 hu8 hdimR hnη hZ0 hZup hYup hYlo hSY hpm1 hΩ
  have hS0 : 0 ≤ S := Finset.sum_nonneg fun i _ => hs0 i
  refine ⟨s, hs, fun i => h.mem _ _ (hs i), hs0, hSΩ, fun T fT Tlo Tup => ?_⟩
  have hq0 : 0 < (1 - u) ^ (dim - 1) := pow_pos (by linarith) _
  have hTpos : 0 < T := lt_of_lt_of_le (mul_pos hq0 (lt_of_lt_of_le (mul_pos (by linarith) hZ0) hSlo)) Tlo
  have hTmin := RoundsInRange.le_abs fT hTpos.ne'
  rw [abs_of_pos hTpos] at hTmin
  have hTΩ : T ≤ Ω := Tup.trans hSΩ
  have hrΩ : Real.sqrt T ≤ Ω := sqrt_big hTΩ h1Ω
  obtain ⟨L, hL⟩ := h.finite (Real.sqrt T) (by rw [abs_of_nonneg (Real.sqrt_nonneg _)]; exact hrΩ)
  refine ⟨L, hL, h.mem _ _ hL, ?_, ?_⟩
  · exact low_arith hu0 hu8 hdim hZ0 hSlo Tlo (hsqrt T L hL hTmin)
  · exact up_arith hu0 hdim hZ0 hSup Tup (hsqrt T L hL hTmin)

/-- The length of a vector of scaled elements. -/
theorem length_range (hp : 3 ≤ p) (h : RoundsInRange p emin Ω fl) (conv : Bool) (tb : RTree (batchSize dim false)) (ts : RTree (dim + 1)) (htb : tb.Valid)
    (hts : ts.Valid) (hfmt : (dim : ℝ) * ((2 : ℝ) ^ emin / 2) * 4 ^ p ≤ (2 : ℝ) ^ (-(p : ℤ))) (hΩ : 2 * (dim : ℝ) * (1 + (2 : ℝ) ^ (-(p : ℤ))) ^ dim ≤ Ω)
    (w : Vec c FR dim pk) (z y : Fin dim → ℝ) (hw : ∀ i, w.get i = (some (y i) : Option ℝ)) (hyz : ∀ i, fl (z i) = some (y i)) (hz1 : ∀ i, |z i| ≤ 1)
    (hzz : ∃ i, 2 * (2 : ℝ) ^ (-(p : ℤ)) ≤ |z i|) :
    ∃ L, length fl conv tb ts w = (some L : Option ℝ) ∧ IsRFloat p emin L ∧
      (1 - 6 * (2 : ℝ) ^ (-(p : ℤ))) * (1 - (2 : ℝ) ^ (-(p : ℤ))) ^ dim * Real.sqrt (∑ i, z i ^ 2) ≤ L ∧
      L ≤ (1 + (2 : ℝ) ^ (-(p : ℤ))) ^ (dim + 3) * Real.sqrt (∑ i, z i ^ 2) := by
  obtain ⟨s, hs, fs, hs0, hSΩ, hT⟩ := root_range (Fintype.card_fin dim) hp h hfmt hΩ z y hyz hz1 hzz
  obtain ⟨T, eT, fT, -, Tlo, Tup⟩ := sum_range (pk := (pk && pk)) (by omega) h tb ts htb hts
    (Vec.doBinary conv (op fl (· * ·)) w w : Vec c FR dim (pk && pk)) s (fun i => by
      rw [Vec.get_doBinary, hw]
      exact hs i) fs hs0 hSΩ
  obtain ⟨L, hL, r⟩ := hT T fT Tlo Tup
  refine ⟨L, ?_, r⟩
  change Option.bind (sum fl tb ts (Vec.doBinary conv (op fl (· * ·)) w w : Vec c FR dim (pk && pk))) (fun q => fl (Real.sqrt q)) = _
  rw [eT]
  exact hL

end Mathter.Rg
