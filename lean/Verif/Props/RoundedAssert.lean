import Verif.Model.RoundedAssert
import Verif.Lemmas.RoundedLook
import Verif.Props.RoundedSegment

/-!
# C149: the assertions on unit vectors accept the unit vectors that the library computes
-/

namespace Mathter.Props
open Mathter
variable {n : ℕ} {fl : ℝ → ℝ} {u : ℝ}

/-- `Length` up to `k` rounding errors. -/
def IsLength (u : ℝ) (k : ℕ) (len : (Fin n → ℝ) → ℝ) : Prop := ∀ v, |len v - norm2 v| ≤ ((1 + u) ^ k - 1) * norm2 v

/-- `NormalizePrecise` of the zero vector is the first unit vector. -/
def FirstIfNull (norm : (Fin (n + 1) → ℝ) → Fin (n + 1) → ℝ) : Prop := norm 0 = fun i => if i = 0 then 1 else 0

/-- A vector that is a unit vector up to `e` passes every assertion with a limit above that and the rounding errors. -/
private theorem check_of_near (h : Rounding fl u) {len : (Fin n → ℝ) → ℝ} {γ e lim : ℝ} {v : Fin n → ℝ} (hlen : |len v - norm2 v| ≤ γ * norm2 v) (hγ : γ ≤ 1 / 50000)
    (hu : u ≤ 1 / 50000) (he : |norm2 v - 1| ≤ e) (hl : 101 / 100 * (e + 1 / 50000 + e / 50000) < lim) : Fl.unitCheck fl len lim v := by
  have e0 : 0 ≤ e := (abs_nonneg _).trans he
  have n0 : norm2 v ≤ 1 + e := by have := (abs_le.1 he).2; linarith
  have np : 0 ≤ norm2 v := Real.sqrt_nonneg _
  have a : |len v - norm2 v| ≤ 1 / 50000 + e / 50000 := by
    refine hlen.trans ((mul_le_mul_of_nonneg_right hγ np).trans ?_)
    linarith
  have b : |1 - len v| ≤ e + 1 / 50000 + e / 50000 := by
    have t := abs_add_le (1 - norm2 v) (norm2 v - len v)
    rw [sub_add_sub_cancel] at t
    rw [abs_sub_comm 1 (norm2 v), abs_sub_comm (norm2 v) (len v)] at t
    linarith
  have c := h.err (1 - len v)
  have t := abs_add_le (fl (1 - len v) - (1 - len v)) (1 - len v)
  rw [sub_add_cancel] at t
  have d : u * |1 - len v| ≤ 1 / 50000 * (e + 1 / 50000 + e / 50000) := mul_le_mul hu b (abs_nonneg _) (by norm_num)
  unfold Fl.unitCheck
  linarith

private theorem near_of_check (h : Rounding fl u) {len : (Fin n → ℝ) → ℝ} {γ e : ℝ} {v : Fin n → ℝ} (hlen : |len v - norm2 v| ≤ γ * norm2 v) (hγ : γ ≤ 1 / 50000)
    (hu : u ≤ 1 / 50000) (he : e ≤ 1 / 100) (hc : Fl.unitCheck fl len e v) : |norm2 v - 1| ≤ 51 / 50 * e + 1 / 40000 := by
  unfold Fl.unitCheck at hc
  have np : 0 ≤ norm2 v := Real.sqrt_nonneg _
  have c := h.err (1 - len v)
  have u0 := h.u_nonneg
  have e0 : 0 < e := (abs_nonneg _).trans_lt hc
  have t := abs_sub_abs_le_abs_sub (1 - len v) (fl (1 - len v))
  rw [abs_sub_comm (1 - len v) (fl _)] at t
  have b : |1 - len v| ≤ 101 / 100 * e := by
    have : u * |1 - len v| ≤ 1 / 50000 * |1 - len v| := mul_le_mul_of_nonneg_right hu (abs_nonneg _)
    linarith
  have a := hlen.trans (mul_le_mul_of_nonneg_right hγ np)
  have b' := abs_le.1 b
  have a' := abs_le.1 a
  rw [abs_le]
  constructor <;> linarith

private theorem null_dir (h : Rounding fl u) {norm : (Fin (n + 1) → ℝ) → Fin (n + 1) → ℝ} (hz : FirstIfNull norm) (a : Fin (n + 1) → ℝ) :
    norm (fun i => fl (a i - a i)) = fun i => if i = 0 then 1 else 0 := by
  have e : (fun i => fl (a i - a i)) = 0 := by
    funext i
    rw [sub_self]
    have := h.err 0
    simpa using this
  rw [e, hz]

private theorem direction_near (h : Rounding fl u) {norm : (Fin (n + 1) → ℝ) → Fin (n + 1) → ℝ} {k : ℕ} (hn : Fl.IsNormalize u k norm) (hk : k ≤ n + 3)
    (hz : FirstIfNull norm) (hg : (1 + u) ^ (n + 4) - 1 ≤ 1 / 50000) (a b : Fin (n + 1) → ℝ) : |norm2 (norm fun i => fl (b i - a i)) - 1| ≤ 1 / 25000 := by
  by_cases hab : a = b
  · rw [hab, null_dir h hz]
    unfold norm2
    have : ∑ i : Fin (n + 1), (if i = 0 then (1 : ℝ) else 0) ^ 2 = 1 := by simp [ite_pow]
    rw [this]
    norm_num
  · have d := (C137_direction h hn hk (by omega) (by linarith) hab).2.2
    refine (Fl.norm2_dir (fun e => hab (funext fun i => (sub_eq_zero.1 (congrFun e i)).symm)) (d.trans ?_))
    linarith

variable {norm : (Fin (n + 1) → ℝ) → Fin (n + 1) → ℝ} {len : (Fin (n + 1) → ℝ) → ℝ} {k l : ℕ} {lim : ℝ}

private theorem small (h : Rounding fl u) {m l : ℕ} (hg : (1 + u) ^ m - 1 ≤ 1 / 50000) (hl : l ≤ m) : (1 + u) ^ l - 1 ≤ 1 / 50000 :=
  (sub_le_sub_right (pow_le_pow_right₀ (by linarith [h.u_nonneg]) hl) 1).trans hg

private theorem u_small (h : Rounding fl u) (hg : (1 + u) ^ (n + 4) - 1 ≤ 1 / 50000) : u ≤ 1 / 50000 := by
  have := small h hg (l := 1) (by omega)
  linarith

/-- C149: every normalised difference of points is accepted, with every tolerance used in the library, down to `0.0001f`. -/
theorem C149_accepted (h : Rounding fl u) (hn : Fl.IsNormalize u k norm) (hk : k ≤ n + 3) (hz : FirstIfNull norm) (hlen : IsLength u l len) (hl : l ≤ n + 4)
    (hg : (1 + u) ^ (n + 4) - 1 ≤ 1 / 50000) (hlim : 9 / 100000 ≤ lim) (a b : Fin (n + 1) → ℝ) : Fl.unitCheck fl len lim (norm fun i => fl (b i - a i)) :=
  check_of_near h (hlen _) (small h hg hl) (u_small h hg) (direction_near h hn hk hz hg a b) (by norm_num; linarith)

/-- C149: `Line::Through`, which rays inherit, never fails, even if the points are equal. -/
theorem C149_through (h : Rounding fl u) (hn : Fl.IsNormalize u k norm) (hk : k ≤ n + 3) (hz : FirstIfNull norm) (hlen : IsLength u l len) (hl : l ≤ n + 4)
    (hg : (1 + u) ^ (n + 4) - 1 ≤ 1 / 50000) (hlim : 9 / 100000 ≤ lim) (a b : Fin (n + 1) → ℝ) :
    ∃ r, Fl.throughNew fl len norm lim a b = some r ∧ r.base = a ∧ |norm2 r.direction - 1| ≤ 1 / 25000 ∧
      (a ≠ b → norm2 (fun i => r.direction i - (b i - a i) / norm2 (fun i => b i - a i)) ≤ 1 / 25000) ∧ (a = b → r.direction = fun i => if i = 0 then 1 else 0) :=
  ⟨_, if_pos (C149_accepted h hn hk hz hlen hl hg hlim a b), rfl, direction_near h hn hk hz hg a b,
    fun hab => ((C137_direction h hn hk (by omega) (by linarith) hab).2.2).trans (by linarith), fun hab => by rw [hab]; exact null_dir h hz b⟩

/-- C149: the line of a segment never fails, even if the segment is a point. -/
theorem C149_segment (h : Rounding fl u) (hn : Fl.IsNormalize u k norm) (hk : k ≤ n + 3) (hz : FirstIfNull norm) (hlen : IsLength u l len) (hl : l ≤ n + 4)
    (hg : (1 + u) ^ (n + 4) - 1 ≤ 1 / 50000) (hlim : 9 / 100000 ≤ lim) (s : GSegment (n + 1)) :
    ∃ r, Fl.segLineNew fl len norm lim s = some r ∧ r.base = s.point1 ∧ |norm2 r.direction - 1| ≤ 1 / 25000 ∧
      (s.point1 ≠ s.point2 → norm2 (fun i => r.direction i - (s.point2 i - s.point1 i) / norm2 (fun i => s.point2 i - s.point1 i)) ≤ 1 / 25000) ∧ (s.point1 = s.point2 → r.direction = fun i => if i = 0 then 1 else 0) :=
  ⟨_, if_pos (C149_accepted h hn hk hz hlen hl hg hlim s.point1 s.point2), rfl, direction_near h hn hk hz hg _ _,
    fun hab => ((C137_direction h hn hk (by omega) (by linarith) hab).2.2).trans (by linarith), fun hab => by rw [hab]; exact null_dir h hz _⟩

/-- C149: the direction of such a line is accepted as the normal of a plane. -/
theorem C149_plane (h : Rounding fl u) (hn : Fl.IsNormalize u k norm) (hk : k ≤ n + 3) (hz : FirstIfNull norm) (hlen : IsLength u l len) (hl : l ≤ n + 4)
    (hg : (1 + u) ^ (n + 4) - 1 ≤ 1 / 50000) (hlim : 9 / 100000 ≤ lim) (dot : (Fin (n + 1) → ℝ) → (Fin (n + 1) → ℝ) → ℝ) (r : GLine (n + 1)) {lim' : ℝ}
    (a b base : Fin (n + 1) → ℝ) (hr : Fl.throughNew fl len norm lim' a b = some r) :
    ∃ p, Fl.planeNew fl len dot lim base r.direction = some p ∧ p.normal = r.direction ∧ p.scalar = dot r.direction base := by
  have e : r.direction = norm fun i => fl (b i - a i) := by
    unfold Fl.throughNew Fl.lineNew at hr
    split at hr
    · rw [← Option.some.inj hr]
    · exact absurd hr (by simp)
  refine ⟨_, if_pos ?_, rfl, rfl⟩
  rw [e]
  exact C149_accepted h hn hk hz hlen hl hg hlim a b

/-- C149: every plane that is accepted can be converted to a line, since the tolerance of lines is larger. Missing: the reverse
(`C149_tolerance_violated`). -/
theorem C149_to_line_partial (h : Rounding fl u) {len : (Fin 2 → ℝ) → ℝ} (hlen : IsLength u l len) (hl : l ≤ 5) (hg : (1 + u) ^ 5 - 1 ≤ 1 / 50000) {lim lim' : ℝ}
    (hlim : lim ≤ 1 / 5000) (hlim' : 9 / 10000 ≤ lim') (dot : (Fin 2 → ℝ) → (Fin 2 → ℝ) → ℝ) (base normal : Fin 2 → ℝ) (p : GPlane 2)
    (hp : Fl.planeNew fl len dot lim base normal = some p) : ∃ r, Fl.toLineNew fl len lim' p = some r ∧
      r.direction = ![-p.normal 1, p.normal 0] ∧ r.base = fun i => fl (p.normal i * p.scalar) := by
  unfold Fl.planeNew at hp
  split at hp
  · rename_i hc
    have hu := u_small (n := 1) h hg
    have e := near_of_check h (hlen normal) (small h hg hl) hu (by linarith) hc
    have e2 : norm2 (cross2 normal) = norm2 normal := by
      unfold norm2 cross2
      simp [Fin.sum_univ_two]
      rw [add_comm]
    refine ⟨_, if_pos ?_, rfl, rfl⟩
    rw [← Option.some.inj hp]
    refine check_of_near (e := 1 / 4000) h (hlen _) (small h hg hl) hu ?_ (by norm_num; linarith)
    rw [e2]
    refine e.trans (by linarith)
  · exact absurd hp (by simp)

/-- C149: a ray along the line through two points can be converted to any other precision. Missing: other directions (`C149_convert_violated`). -/
theorem C149_convert_partial (h : Rounding fl u) (hn : Fl.IsNormalize u k norm) (hk : k ≤ n + 3) (hz : FirstIfNull norm) (hg : (1 + u) ^ (n + 4) - 1 ≤ 1 / 50000)
    {fl' : ℝ → ℝ} {u' : ℝ} (h' : Rounding fl' u') {len' : (Fin (n + 1) → ℝ) → ℝ} (hlen : IsLength u' l len') (hl : l ≤ n + 4)
    (hg' : (1 + u') ^ (n + 4) - 1 ≤ 1 / 50000) {lim' : ℝ} (hlim : 9 / 10000 ≤ lim') (a b : Fin (n + 1) → ℝ) (r : GLine (n + 1))
    (hr : Fl.throughNew fl len norm lim a b = some r) :
    Fl.rayConvert fl' len' lim' r = some ⟨fun i => fl' (r.direction i), fun i => fl' (r.base i)⟩ ∧
      Fl.lineConvert fl' r = ⟨fun i => fl' (r.direction i), fun i => fl' (r.base i)⟩ := by
  have e : |norm2 r.direction - 1| ≤ 1 / 25000 := by
    unfold Fl.throughNew Fl.lineNew at hr
    split at hr
    · rw [← Option.some.inj hr]; exact direction_near h hn hk hz hg a b
    · exact absurd hr (by simp)
  have hu' := u_small h' hg'
  refine ⟨if_pos (check_of_near (e := 1 / 10000) h' (hlen _) (small h' hg' hl) hu' ?_ (by norm_num; linarith)), rfl⟩
  have d : norm2 (fun i => fl' (r.direction i) - r.direction i) ≤ u' * norm2 r.direction := norm2_le_mul h'.u_nonneg fun i => h'.err _
  have t := norm2_sub_le (fun i => fl' (r.direction i)) r.direction
  have t2 := abs_add_le (norm2 (fun i => fl' (r.direction i)) - norm2 r.direction) (norm2 r.direction - 1)
  rw [sub_add_sub_cancel] at t2
  have n1 : norm2 r.direction ≤ 2 := by have := (abs_le.1 e).2; linarith
  have d2 : u' * norm2 r.direction ≤ 1 / 50000 * 2 := mul_le_mul hu' n1 (Real.sqrt_nonneg _) (by norm_num)
  linarith

/-- `Length` of a plane vector, separately rounded. -/
noncomputable def length2 (fl : ℝ → ℝ) (v : Fin 2 → ℝ) : ℝ := fl (Real.sqrt (fl (fl (v 0 * v 0) + fl (v 1 * v 1))))

/-- C149 is violated at the edge of the tolerance: a `Ray<double, 2>` that its constructor accepts stops the program when converted to `Ray<float, 2>`. -/
theorem C149_convert_violated {fl fl' : ℝ → ℝ} (h : RoundsToNearest 53 fl) (h' : RoundsToNearest 24 fl') : ∃ r : GLine 2,
    (∀ i, IsFloat 53 (r.direction i)) ∧ Fl.lineNew fl (length2 fl) (fl (1 / 1000)) r.base r.direction = some r ∧
    Fl.rayConvert fl' (length2 fl') (fl' (1 / 1000)) r = none := by
  have r' := h'.rounding (by norm_num)
  have r := h.rounding (by norm_num)
  have z : fl 0 = 0 := h.fixed ⟨0, 0, by norm_num, by norm_num⟩
  have z' : fl' 0 = 0 := h'.fixed ⟨0, 0, by norm_num, by norm_num⟩
  refine ⟨⟨![0, 1 + 134217 / 2 ^ 27], 0⟩, fun i => ?_, ?_, ?_⟩
  · fin_cases i
    · exact ⟨0, 0, by norm_num, by norm_num⟩
    · exact ⟨134351945, -27, by norm_num, by norm_num⟩
  · refine if_pos ?_
    unfold Fl.unitCheck length2
    simp only [Matrix.cons_val_zero, Matrix.cons_val_one]
    rw [mul_zero, z, zero_add, r.idem]
    have e1 := r.err ((1 + 134217 / 2 ^ 27) * (1 + 134217 / 2 ^ 27))
    set s := fl ((1 + 134217 / 2 ^ 27) * (1 + 134217 / 2 ^ 27)) with hs
    clear_value s
    have e1' := abs_le.1 e1
    rw [abs_of_pos (by norm_num)] at e1'
    have s1 : Real.sqrt s ≤ 1 + 134217 / 2 ^ 27 + 1 / 2 ^ 40 := by
      rw [Real.sqrt_le_left (by norm_num)]
      norm_num at e1' ⊢
      linarith
    have s2 : 1 ≤ Real.sqrt s := by
      rw [Real.one_le_sqrt]
      norm_num at e1' ⊢
      linarith
    set t := Real.sqrt s with ht
    clear_value t
    have e2 := abs_le.1 (r.err t)
    rw [abs_of_pos (show 0 < t by linarith)] at e2
    set q := fl t with hq
    clear_value q
    norm_num at s1 e2
    have b : |1 - q| ≤ 999996 / 1000000000 := by
      rw [abs_le]; constructor <;> linarith [e2.1, e2.2]
    have e3 := r.err (1 - q)
    have e4 := abs_le.1 (r.err (1 / 1000))
    have t2 := abs_add_le (fl (1 - q) - (1 - q)) (1 - q)
    rw [sub_add_cancel] at t2
    norm_num at e3 e4 ⊢
    linarith [e4.1]
  · refine if_neg ?_
    unfold Fl.unitCheck length2
    have x : fl' (1 + 134217 / 2 ^ 27) = 8396997 * 2 ^ (-23 : ℤ) := Fl.round_to_grid (by norm_num) h' (-23) 8396997 (by norm_num) (by norm_num) (by norm_num)
    have y : fl' ((8396997 * 2 ^ (-23 : ℤ)) * (8396997 * 2 ^ (-23 : ℤ))) = 8405394 * 2 ^ (-23 : ℤ) :=
      Fl.round_to_grid (by norm_num) h' (-23) 8405394 (by norm_num) (by norm_num) (by norm_num)
    have w : fl' (Real.sqrt (8405394 * 2 ^ (-23 : ℤ))) = 8396997 * 2 ^ (-23 : ℤ) := by
      have a : 8396997 * (2 : ℝ) ^ (-23 : ℤ) - 2 ^ (-25 : ℤ) ≤ Real.sqrt (8405394 * 2 ^ (-23 : ℤ)) := Real.le_sqrt_of_sq_le (by norm_num)
      have b : Real.sqrt (8405394 * 2 ^ (-23 : ℤ)) ≤ 8396997 * (2 : ℝ) ^ (-23 : ℤ) + 2 ^ (-25 : ℤ) := Real.sqrt_le_iff.2 ⟨by norm_num, by norm_num⟩
      refine Fl.round_to_grid (by norm_num) h' (-23) 8396997 (by norm_num) ?_ ?_
      · rw [abs_of_nonneg (Real.sqrt_nonneg _)]
        refine le_trans ?_ a
        norm_num
      · rw [abs_lt]
        norm_num at a b ⊢
        constructor <;> linarith
    simp only [Matrix.cons_val_zero, Matrix.cons_val_one]
    rw [z', mul_zero, z', zero_add, x, r'.idem, y, w]
    have v : fl' (1 - 8396997 * 2 ^ (-23 : ℤ)) = 1 - 8396997 * 2 ^ (-23 : ℤ) := h'.fixed ⟨-8389, -23, by norm_num, by norm_num⟩
    have e4 := abs_le.1 (r'.err (1 / 1000))
    rw [v]
    norm_num at e4 ⊢
    linarith [e4.2]

/-- C149 is violated between the classes: for directions up to `0.001` away from length 1 the assertion of `Line` passes and that of `Hyperplane` fails. -/
theorem C149_tolerance_violated {p : ℕ} {fl fl' : ℝ → ℝ} (hp : 24 ≤ p) (h : RoundsToNearest p fl) (h' : RoundsToNearest 24 fl') (dot : (Fin 2 → ℝ) → (Fin 2 → ℝ) → ℝ) :
    ∃ r : GLine 2, (∀ i, IsFloat p (r.direction i)) ∧ Fl.lineNew fl (length2 fl) (fl (1 / 1000)) r.base r.direction = some r ∧
      Fl.planeNew fl (length2 fl) dot (fl' (1 / 10000)) r.base r.direction = none := by
  have r' := h'.rounding (by norm_num)
  have r := h.rounding (by omega)
  have hpp : (2 : ℤ) ^ 24 ≤ 2 ^ p := pow_le_pow_right₀ (by norm_num) hp
  have fx : ∀ m k : ℤ, |m| < 2 ^ 24 → fl (m * 2 ^ k) = m * 2 ^ k := fun m k hm => h.fixed ⟨m, k, rfl, hm.trans_le hpp⟩
  have z : fl 0 = 0 := by simpa using fx 0 0 (by norm_num)
  have e : fl ((1 + 1 / 2048) * (1 + 1 / 2048)) = (1 + 1 / 2048) * (1 + 1 / 2048) := by
    have := fx 4198401 (-22) (by norm_num)
    norm_num at this ⊢
    exact this
  have e1 : fl (1 + 1 / 2048) = 1 + 1 / 2048 := by
    have := fx 2049 (-11) (by norm_num)
    norm_num at this ⊢
    exact this
  have e2 : fl (1 - (1 + 1 / 2048)) = -(1 / 2048) := by
    have := fx (-1) (-11) (by norm_num)
    norm_num at this ⊢
    exact this
  have l : length2 fl ![0, 1 + 1 / 2048] = 1 + 1 / 2048 := by
    unfold length2
    simp only [Matrix.cons_val_zero, Matrix.cons_val_one]
    rw [mul_zero, z, zero_add, e, e, Real.sqrt_mul_self (by norm_num), e1]
  refine ⟨⟨![0, 1 + 1 / 2048], 0⟩, fun i => ?_, if_pos ?_, if_neg ?_⟩
  · fin_cases i
    · exact ⟨0, 0, by norm_num, by rw [abs_zero]; positivity⟩
    · exact ⟨2049, -11, by norm_num, lt_of_lt_of_le (by norm_num) hpp⟩
  · unfold Fl.unitCheck
    have a := abs_le.1 (r.err (1 / 1000))
    have u1 : (2 : ℝ) ^ (-(p : ℤ)) ≤ 2 ^ (-24 : ℤ) := zpow_le_zpow_right₀ (by norm_num) (by omega)
    rw [l, e2]
    rw [abs_of_pos (show (0 : ℝ) < 1 / 1000 by norm_num)] at a
    norm_num at a u1 ⊢
    linarith [a.1]
  · unfold Fl.unitCheck
    have a := abs_le.1 (r'.err (1 / 10000))
    rw [l, e2]
    norm_num at a ⊢
    linarith [a.2]

/-- C149: `Length` of the library, in any order of the sum, meets the hypothesis of the theorems above. -/
theorem C149_length (h : Rounding fl u) (c : Cfg) (pk conv : Bool) (tb : RTree (batchSize (n + 1) false)) (ts : RTree (n + 1 + 1)) (htb : tb.Valid) (hts : ts.Valid) :
    IsLength u (n + 2) fun v => Fl.length fl conv tb ts (Vec.ofFn v : Vec c ℝ (n + 1) pk) := by
  intro v
  have := C76_length h conv tb ts htb hts (Vec.ofFn v : Vec c ℝ (n + 1) pk)
  simp only [Vec.get_ofFn] at this
  exact this

/-- C149: `NormalizePrecise` of the library meets the hypothesis on the zero vector. -/
theorem C149_null (c : Cfg) (pk conv : Bool) (tb : RTree (batchSize (n + 1) false)) (ts : RTree (n + 1 + 1)) :
    FirstIfNull (Fl.normalizePrecise1 c pk fl conv tb ts) := by
  have : scaleElements (0 : Fin (n + 1) → ℝ) = 0 := (scaleElements_eq_zero _).2 rfl
  unfold FirstIfNull Fl.normalizePrecise1
  simp only [this, if_true]

/-- The hypotheses are met in single precision and three dimensions, by the functions of the library, in every configuration. -/
example {fl : ℝ → ℝ} (h : RoundsToNearest 24 fl) (c : Cfg) (pk conv : Bool) (tb : RTree (batchSize 3 false)) (ts : RTree 4) (htb : tb.Valid) (hts : ts.Valid) (a b : Fin 3 → ℝ) :
    ∃ r, Fl.throughNew fl (fun v => Fl.length fl conv tb ts (Vec.ofFn v : Vec c ℝ 3 pk)) (Fl.normalizePrecise1 c pk fl conv tb ts) (fl (1 / 1000)) a b = some r := by
  have r := h.rounding (by norm_num)
  have e := abs_le.1 (r.err (1 / 1000))
  obtain ⟨x, hx, -⟩ := C149_through (n := 2) (lim := fl (1 / 1000)) r (C133_normalize r (by norm_num) c pk conv tb ts htb hts) (by norm_num) (C149_null c pk conv tb ts)
    (C149_length r c pk conv tb ts htb hts) (by norm_num) (by norm_num) (by norm_num at e ⊢; linarith [e.1]) a b
  exact ⟨x, hx⟩

end Mathter.Props
