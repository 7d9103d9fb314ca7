import Verif.Lemmas.RoundedSegment
import Verif.Props.RoundedGram

/-!
# Property C137: rounding of lines and segments through points and of their intersections in the plane

The reported intersection of two segments is a point near both of them, up to rounding errors relative to the coordinates of their ends. The intersection
is not always reported: two segments with a common end in small integer coordinates may miss each other.
-/

namespace Mathter.Props
open Mathter

variable {n : ℕ} {fl : ℝ → ℝ} {u : ℝ}

/-- C137: the direction of a line through two points and of a segment. -/
theorem C137_direction (h : Rounding fl u) {norm : (Fin n → ℝ) → Fin n → ℝ} {k : ℕ} (hn : Fl.IsNormalize u k norm) (hk : k ≤ n + 2) (hn1 : 1 ≤ n)
    (hg : (1 + u) ^ (n + 3) - 1 ≤ 1 / 1000) {a b : Fin n → ℝ} (hab : a ≠ b) :
    (Fl.through fl norm a b).base = a ∧ Fl.segLine fl norm ⟨a, b⟩ = Fl.through fl norm a b ∧
      norm2 (fun i => (Fl.through fl norm a b).direction i - (b i - a i) / norm2 (fun i => b i - a i)) ≤ 2 * ((1 + u) ^ (n + 3) - 1) :=
  ⟨rfl, rfl, Fl.direction_err h hn hk hn1 hg hab⟩

/-- C137: the length of a segment. -/
theorem C137_length (h : Rounding fl u) {len : (Fin n → ℝ) → ℝ} {k : ℕ} (hlen : ∀ v, |len v - norm2 v| ≤ ((1 + u) ^ k - 1) * norm2 v) (s : GSegment n) :
    |Fl.segLength fl len s - norm2 (fun i => s.point2 i - s.point1 i)| ≤ ((1 + u) ^ (k + 1) - 1) * norm2 (fun i => s.point2 i - s.point1 i) :=
  Fl.len_sub h hlen s.point2 s.point1

/-- C137: the interpolation parameter of the foot of the perpendicular from a point. -/
theorem C137_interpol_of (h : Rounding fl u) {dot : (Fin n → ℝ) → (Fin n → ℝ) → ℝ} (hd : Fl.IsDot u n dot) {len : (Fin n → ℝ) → ℝ} {k : ℕ}
    (hlen : ∀ v, |len v - norm2 v| ≤ ((1 + u) ^ k - 1) * norm2 v) {γ : ℝ} {m : ℕ} (hγ : γ = (1 + u) ^ m - 1) (hm : n + 4 ≤ m) (hm2 : k + 1 ≤ m)
    (hg : γ ≤ 1 / 1000) (s : GSegment n) (hs : s.point1 ≠ s.point2) (x : Fin n → ℝ) :
    ∃ t, Fl.interpolOf fl dot len s x = some t ∧
      |t - (∑ i, (x i - s.point1 i) * (s.point2 i - s.point1 i)) / norm2 (fun i => s.point2 i - s.point1 i) ^ 2| ≤
        4 * γ * (norm2 (fun i => x i - s.point1 i) / norm2 (fun i => s.point2 i - s.point1 i)) := by
  have hu := h.u_nonneg
  have hw0 : (fun i => s.point2 i - s.point1 i) ≠ 0 := fun e => hs (funext fun i => (sub_eq_zero.1 (congrFun e i)).symm)
  have hL := Fl.norm2_pos hw0
  have e1 := C137_length h hlen s
  unfold Fl.segLength at e1
  have mono : ∀ {j}, j ≤ m → (1 + u) ^ j - 1 ≤ γ := fun hj => by rw [hγ]; exact sub_le_sub_right (pow_le_pow_right₀ (by linarith) hj) 1
  have e2 := e1.trans (mul_le_mul_of_nonneg_right (mono hm2) hL.le)
  unfold Fl.interpolOf
  dsimp only
  generalize len (fun i => fl (s.point2 i - s.point1 i)) = l at *
  have hw : ∀ i, Near u 1 (fl (s.point2 i - s.point1 i)) (s.point2 i - s.point1 i) |s.point2 i - s.point1 i| := fun i => (Near.exact _).round h
  have ho : ∀ i, Near u 1 (fl (x i - s.point1 i)) (x i - s.point1 i) |x i - s.point1 i| := fun i => (Near.exact _).round h
  set w : Fin n → ℝ := fun i => s.point2 i - s.point1 i with hwd
  set o : Fin n → ℝ := fun i => x i - s.point1 i with hod
  set L := norm2 w with hLd
  have l0 : 0.999 * L ≤ l := by have := (abs_le.1 e2).1; nlinarith
  have lp : 0 < l := by linarith
  rw [if_neg lp.ne']
  refine ⟨_, rfl, ?_⟩
  have hl : Near u 0 l⁻¹ l⁻¹ l⁻¹ := ⟨by simp, by rw [abs_of_pos (inv_pos.2 lp)]⟩
  have hq : ∀ i, Near u 2 (fl (fl (s.point2 i - s.point1 i) / l)) (w i * l⁻¹) (|w i| * l⁻¹) := fun i => by
    rw [div_eq_mul_inv]; exact ((hw i).prod h hl).round h
  have hp : ∀ i, Near u 3 (fl (x i - s.point1 i) * fl (fl (s.point2 i - s.point1 i) / l)) (o i * (w i * l⁻¹)) (|o i| * (|w i| * l⁻¹)) := fun i =>
    ((ho i).prod h (hq i)).congr (by norm_num) rfl rfl
  have hb : |∑ i, o i * (w i * l⁻¹)| ≤ ∑ i, |o i| * (|w i| * l⁻¹) :=
    (Finset.abs_sum_le_sum_abs _ _).trans (Finset.sum_le_sum fun i _ => (hp i).bound)
  have hdot : Near u (n + 3) (dot (fun i => fl (x i - s.point1 i)) fun i => fl (fl (s.point2 i - s.point1 i) / l)) (∑ i, o i * (w i * l⁻¹))
      (∑ i, |o i| * (|w i| * l⁻¹)) := by
    refine ⟨?_, hb⟩
    have k1 := hd (fun i => fl (x i - s.point1 i)) fun i => fl (fl (s.point2 i - s.point1 i) / l)
    have k2 : ∑ i, |fl (x i - s.point1 i) * fl (fl (s.point2 i - s.point1 i) / l)| ≤ (1 + u) ^ 3 * ∑ i, |o i| * (|w i| * l⁻¹) := by
      rw [Finset.mul_sum]
      exact Finset.sum_le_sum fun i _ => (hp i).abs_le
    have k3 : |∑ i, fl (x i - s.point1 i) * fl (fl (s.point2 i - s.point1 i) / l) - ∑ i, o i * (w i * l⁻¹)| ≤ ((1 + u) ^ 3 - 1) * ∑ i, |o i| * (|w i| * l⁻¹) := by
      rw [← Finset.sum_sub_distrib, Finset.mul_sum]
      exact (Finset.abs_sum_le_sum_abs _ _).trans (Finset.sum_le_sum fun i _ => (hp i).err)
    have k4 := mul_le_mul_of_nonneg_left k2 (by linarith [h.one_le n] : 0 ≤ (1 + u) ^ n - 1)
    have t := abs_add_le (dot (fun i => fl (x i - s.point1 i)) (fun i => fl (fl (s.point2 i - s.point1 i) / l)) -
      ∑ i, fl (x i - s.point1 i) * fl (fl (s.point2 i - s.point1 i) / l))
      (∑ i, fl (x i - s.point1 i) * fl (fl (s.point2 i - s.point1 i) / l) - ∑ i, o i * (w i * l⁻¹))
    rw [sub_add_sub_cancel] at t
    rw [pow_add]
    nlinarith
  have hfin := ((hdot.prod h hl).round h).err
  rw [← div_eq_mul_inv, Nat.add_zero] at hfin
  have s1 : ∑ i, o i * (w i * l⁻¹) = (∑ i, o i * w i) * l⁻¹ := by rw [Finset.sum_mul]; exact Finset.sum_congr rfl fun i _ => by ring
  have s2 : ∑ i, |o i| * (|w i| * l⁻¹) = (∑ i, |o i| * |w i|) * l⁻¹ := by rw [Finset.sum_mul]; exact Finset.sum_congr rfl fun i _ => by ring
  have cs := abs_dot_le o w
  have cs2 := dot_abs_le o w
  rw [← hLd] at cs cs2
  rw [s1, s2] at hfin
  have hD0 : 0 ≤ ∑ i, |o i| * |w i| := Finset.sum_nonneg fun _ _ => by positivity
  have hγ0 : 0 ≤ γ := by rw [hγ]; linarith [h.one_le m]
  have hfin2 := hfin.trans (mul_le_mul_of_nonneg_right (mono (j := n + 3 + 1) (by omega)) (by positivity))
  generalize fl (dot (fun i => fl (x i - s.point1 i)) (fun i => fl (fl (s.point2 i - s.point1 i) / l)) / l) = t at *
  generalize ∑ i, o i * w i = P at *
  generalize ∑ i, |o i| * |w i| = D at *
  have hO := norm2_nonneg o
  generalize norm2 o = O at *
  clear_value L
  clear hfin hdot hb hp hq hw ho hl s1 s2 e1
  -- replace the computed length
  have a1 : t - P / L ^ 2 = (t - P * l⁻¹ * l⁻¹) + P * ((L - l) * (L + l)) / (l ^ 2 * L ^ 2) := by field_simp; ring
  have a2 : γ * (D * l⁻¹ * l⁻¹) ≤ γ * (1.003 * (O / L)) := by
    refine mul_le_mul_of_nonneg_left ?_ hγ0
    rw [mul_assoc, ← mul_inv, ← div_eq_mul_inv, div_le_iff₀ (by positivity)]
    have : L * L ≤ 1.003 * (l * l) := by nlinarith
    calc D ≤ O * L := cs
      _ = O / L * (L * L) := by field_simp
      _ ≤ O / L * (1.003 * (l * l)) := mul_le_mul_of_nonneg_left this (by positivity)
      _ = _ := by ring
  have a3 : |P * ((L - l) * (L + l)) / (l ^ 2 * L ^ 2)| ≤ γ * (2.5 * (O / L)) := by
    rw [abs_div, abs_mul, abs_mul, abs_of_pos (by positivity : 0 < l ^ 2 * L ^ 2), abs_of_pos (by positivity : 0 < L + l), div_le_iff₀ (by positivity)]
    have l1 : l ≤ 1.001 * L := by have := (abs_le.1 e2).2; nlinarith
    have b1 : |L - l| * (L + l) ≤ γ * L * (2.001 * L) := by
      rw [abs_sub_comm]
      exact mul_le_mul e2 (by linarith) (by positivity) (by positivity)
    have b2 : |P| * (|L - l| * (L + l)) ≤ O * L * (γ * L * (2.001 * L)) := mul_le_mul cs2 b1 (by positivity) (by positivity)
    refine b2.trans ?_
    have b3 : 2.001 * L ^ 2 ≤ 2.5 * l ^ 2 := by nlinarith
    calc O * L * (γ * L * (2.001 * L)) = γ * (O / L) * L ^ 2 * (2.001 * L ^ 2) := by field_simp
      _ ≤ γ * (O / L) * L ^ 2 * (2.5 * l ^ 2) := mul_le_mul_of_nonneg_left b3 (by positivity)
      _ = _ := by ring
  rw [a1]
  refine (abs_add_le _ _).trans ?_
  have : 0 ≤ γ * (O / L) := by positivity
  linarith

/-- C137: the reported intersection of two lines through points is near both lines, up to rounding errors relative to the coordinates of the first points
and of the intersection. -/
theorem C137_lines (h : Rounding fl u) {γ : ℝ} (hγ : γ = (1 + u) ^ 5 - 1) (hg : γ ≤ 1 / 1000) {madd : ℝ → ℝ → ℝ → ℝ} (hma : Fl.IsMulAdd fl madd)
    {dot : (Fin 2 → ℝ) → (Fin 2 → ℝ) → ℝ} (hdot : Fl.IsDot u 2 dot) {norm : (Fin 2 → ℝ) → Fin 2 → ℝ} {k : ℕ} (hn : Fl.IsNormalize u k norm) (hk : k ≤ 4)
    {p1 p2 q1 q2 x : Fin 2 → ℝ} (hp : p1 ≠ p2) (hq : q1 ≠ q2)
    (hx : Fl.intersectLineLine fl madd dot (Fl.through fl norm p1 p2) (Fl.through fl norm q1 q2) = some x) :
    (∃ s : ℝ, norm2 (fun i => x i - (p1 i + s * (p2 i - p1 i))) ≤ 12 * γ * (norm2 p1 + norm2 q1 + norm2 x)) ∧
      ∃ s : ℝ, norm2 (fun i => x i - (q1 i + s * (q2 i - q1 i))) ≤ 12 * γ * (norm2 p1 + norm2 q1 + norm2 x) := by
  have hu := h.u_nonneg
  have hγ0 : 0 ≤ γ := by rw [hγ]; linarith [h.one_le 5]
  have hwp : (fun i => p2 i - p1 i) ≠ 0 := fun e => hp (funext fun i => (sub_eq_zero.1 (congrFun e i)).symm)
  have hwq : (fun i => q2 i - q1 i) ≠ 0 := fun e => hq (funext fun i => (sub_eq_zero.1 (congrFun e i)).symm)
  have dp := Fl.direction_err h hn hk (by norm_num) (by rw [← hγ]; exact hg) hp
  have dq := Fl.direction_err h hn hk (by norm_num) (by rw [← hγ]; exact hg) hq
  rw [← hγ] at dp dq
  obtain ⟨t, ht, hl⟩ := Fl.lhs_dist h hγ hg hma hdot hwp dp (r := Fl.through fl norm q1 q2) hwq dq hx
  obtain ⟨n1, n2, hr1, hr⟩ := Fl.rhs_dist hg hwq dq ht
  change norm2 (fun e => x e - (q1 e + t * (Fl.through fl norm q1 q2).direction e)) ≤ γ * (norm2 q1 + |t| * norm2 (Fl.through fl norm q1 q2).direction) at hr1
  change |_| ≤ γ * (8.4 * norm2 p1 + 4.2 * norm2 q1 + 4.2 * |t|) * _ at hl
  change |(q2 0 - q1 0) * (x 1 - q1 1) - (q2 1 - q1 1) * (x 0 - q1 0)| ≤ γ * (norm2 q1 + 3.1 * |t|) * _ at hr
  have t0 := abs_nonneg t
  have ht1 : |t| ≤ 1.1 * (norm2 x + norm2 q1) := by
    set d := (Fl.through fl norm q1 q2).direction
    have e : (fun i => t * d i) = fun i => (fun i => x i + -q1 i) i + (fun i => -(x i - (q1 i + t * d i))) i := by funext i; dsimp only; ring
    have k1 := norm2_add_le (fun i => x i + -q1 i) (fun i => -(x i - (q1 i + t * d i)))
    rw [← e, norm2_smul, norm2_neg] at k1
    have k2 := norm2_add_le x (fun i => -q1 i)
    rw [norm2_neg] at k2
    have k3 : |t| * 0.998 ≤ |t| * norm2 d := mul_le_mul_of_nonneg_left n2 t0
    have k4 : |t| * norm2 d ≤ |t| * 1.002 := mul_le_mul_of_nonneg_left n1 t0
    have k5 : γ * (norm2 q1 + |t| * norm2 d) ≤ 0.001 * (norm2 q1 + |t| * 1.002) := mul_le_mul (by linarith) (by linarith)
      (by have := norm2_nonneg q1; linarith [mul_nonneg t0 (norm2_nonneg d)]) (by norm_num)
    linarith [norm2_nonneg q1, norm2_nonneg x]
  have P0 := norm2_nonneg p1
  have Q0 := norm2_nonneg q1
  have X0 := norm2_nonneg x
  constructor
  · obtain ⟨s, hs⟩ := Fl.foot_le (q := fun i => x i - p1 i) hwp hl
    refine ⟨s, ?_⟩
    rw [show (fun i => x i - (p1 i + s * (p2 i - p1 i))) = fun i => x i - p1 i - s * (p2 i - p1 i) from funext fun i => by ring]
    refine hs.trans ?_
    rw [mul_comm 12 γ, mul_assoc]
    exact mul_le_mul_of_nonneg_left (by linarith) hγ0
  · obtain ⟨s, hs⟩ := Fl.foot_le (q := fun i => x i - q1 i) hwq hr
    refine ⟨s, ?_⟩
    rw [show (fun i => x i - (q1 i + s * (q2 i - q1 i))) = fun i => x i - q1 i - s * (q2 i - q1 i) from funext fun i => by ring]
    refine hs.trans ?_
    rw [mul_comm 12 γ, mul_assoc]
    exact mul_le_mul_of_nonneg_left (by linarith) hγ0

/-- C137: the reported intersection of two proper segments is near a point of each, up to rounding errors relative to the coordinates of their ends.
Missing: that the intersection is reported, see `C137_shared_end_violated`. -/
theorem C137_segments_partial (h : Rounding fl u) {γ : ℝ} (hγ : γ = (1 + u) ^ 5 - 1) (hg : γ ≤ 1 / 1000) {madd : ℝ → ℝ → ℝ → ℝ} (hma : Fl.IsMulAdd fl madd)
    {dot : (Fin 2 → ℝ) → (Fin 2 → ℝ) → ℝ} (hdot : Fl.IsDot u 2 dot) {norm : (Fin 2 → ℝ) → Fin 2 → ℝ} {k : ℕ} (hn : Fl.IsNormalize u k norm) (hk : k ≤ 4)
    {neg1 neg2 : Bool} {lhs rhs : GSegment 2} {x : Fin 2 → ℝ} (hl : lhs.point1 ≠ lhs.point2) (hr : rhs.point1 ≠ rhs.point2)
    (hx : Fl.intersectSegmentSegment fl madd dot norm neg1 neg2 lhs rhs = some x) :
    (∃ y ∈ segPoints lhs, norm2 (fun i => x i - y i) ≤ 40 * γ * (norm2 lhs.point1 + norm2 lhs.point2 + norm2 rhs.point1 + norm2 rhs.point2)) ∧
      ∃ y ∈ segPoints rhs, norm2 (fun i => x i - y i) ≤ 40 * γ * (norm2 lhs.point1 + norm2 lhs.point2 + norm2 rhs.point1 + norm2 rhs.point2) := by
  have hu := h.u_nonneg
  have hγ0 : 0 ≤ γ := by rw [hγ]; linarith [h.one_le 5]
  have huγ : 5 * u ≤ γ := by
    have := one_add_mul_le_pow (a := u) (by linarith) 5
    rw [hγ]; push_cast at this; linarith
  unfold Fl.intersectSegmentSegment at hx
  split at hx
  · simp at hx
  rename_i x' hx'
  split at hx
  swap
  · simp at hx
  rename_i hwi
  rw [Option.some_inj] at hx
  subst hx
  have hwp : (fun i => lhs.point2 i - lhs.point1 i) ≠ 0 := fun e => hl (funext fun i => (sub_eq_zero.1 (congrFun e i)).symm)
  have hwq : (fun i => rhs.point2 i - rhs.point1 i) ≠ 0 := fun e => hr (funext fun i => (sub_eq_zero.1 (congrFun e i)).symm)
  have dp := Fl.direction_err h hn hk (by norm_num) (by rw [← hγ]; exact hg) hl
  have dq := Fl.direction_err h hn hk (by norm_num) (by rw [← hγ]; exact hg) hr
  rw [← hγ] at dp dq
  obtain ⟨t, ht, hle⟩ := Fl.lhs_dist h hγ hg hma hdot hwp dp (r := Fl.segLine fl norm rhs) hwq dq hx'
  obtain ⟨-, -, -, hre⟩ := Fl.rhs_dist hg hwq dq ht
  have ht1 := Fl.param_le h hg (by linarith) hr hwi.2 dq ht
  change |_| ≤ γ * (8.4 * norm2 lhs.point1 + 4.2 * norm2 rhs.point1 + 4.2 * |t|) * _ at hle
  change |(rhs.point2 0 - rhs.point1 0) * (x' 1 - rhs.point1 1) - (rhs.point2 1 - rhs.point1 1) * (x' 0 - rhs.point1 0)| ≤ γ * (norm2 rhs.point1 + 3.1 * |t|) * _ at hre
  obtain ⟨s1, a0, a1, a2⟩ := Fl.segment_dist h (by linarith) hl hwi.1 hle
  obtain ⟨s2, b0, b1, b2⟩ := Fl.segment_dist h (by linarith) hr hwi.2 hre
  have len : ∀ s : GSegment 2, norm2 (fun i => s.point2 i - s.point1 i) ≤ norm2 s.point1 + norm2 s.point2 := fun s => by
    have := norm2_add_le s.point2 fun i => -s.point1 i
    rw [norm2_neg] at this
    simpa only [sub_eq_add_neg, add_comm (norm2 s.point1)] using this
  have l1 := len lhs
  have l2 := len rhs
  have n1 := norm2_nonneg lhs.point1
  have n2 := norm2_nonneg lhs.point2
  have n3 := norm2_nonneg rhs.point1
  have n4 := norm2_nonneg rhs.point2
  have u1 : 6 * u * norm2 (fun i => lhs.point2 i - lhs.point1 i) ≤ γ * (2 * (norm2 lhs.point1 + norm2 lhs.point2)) := by
    have := mul_le_mul (show 6 * u ≤ 2 * γ by linarith) l1 (norm2_nonneg _) (by linarith)
    linarith
  have u2 : 6 * u * norm2 (fun i => rhs.point2 i - rhs.point1 i) ≤ γ * (2 * (norm2 rhs.point1 + norm2 rhs.point2)) := by
    have := mul_le_mul (show 6 * u ≤ 2 * γ by linarith) l2 (norm2_nonneg _) (by linarith)
    linarith
  constructor
  · refine ⟨_, ⟨s1, a0, a1, rfl⟩, a2.trans ?_⟩
    have k : γ * (1.5 * (8.4 * norm2 lhs.point1 + 4.2 * norm2 rhs.point1 + 4.2 * |t|) + 2 * (norm2 lhs.point1 + norm2 lhs.point2)) ≤
        γ * (40 * (norm2 lhs.point1 + norm2 lhs.point2 + norm2 rhs.point1 + norm2 rhs.point2)) := mul_le_mul_of_nonneg_left (by linarith) hγ0
    linarith
  · refine ⟨_, ⟨s2, b0, b1, rfl⟩, b2.trans ?_⟩
    have k : γ * (1.5 * (norm2 rhs.point1 + 3.1 * |t|) + 2 * (norm2 rhs.point1 + norm2 rhs.point2)) ≤
        γ * (40 * (norm2 lhs.point1 + norm2 lhs.point2 + norm2 rhs.point1 + norm2 rhs.point2)) := mul_le_mul_of_nonneg_left (by linarith) hγ0
    linarith

/-- C137: two segments that cross well inside are reported to intersect, at a point near the exact one: the margins are rounding errors divided by the sine of the
angle between the segments. Missing: segments that meet near an end, see `C137_shared_end_violated`. -/
theorem C137_found_partial (h : Rounding fl u) {γ : ℝ} (hγ : γ = (1 + u) ^ 5 - 1) (hg : γ ≤ 1 / 1000) {madd : ℝ → ℝ → ℝ → ℝ} (hma : Fl.IsMulAdd fl madd)
    {dot : (Fin 2 → ℝ) → (Fin 2 → ℝ) → ℝ} (hdot : Fl.IsDot u 2 dot) {norm : (Fin 2 → ℝ) → Fin 2 → ℝ} {k : ℕ} (hn : Fl.IsNormalize u k norm) (hk : k ≤ 4)
    (neg1 neg2 : Bool) {lhs rhs : GSegment 2} {s t sine M : ℝ} (hl : lhs.point1 ≠ lhs.point2) (hr : rhs.point1 ≠ rhs.point2)
    (hcross : lhs.interpol s = rhs.interpol t) (hs0 : 0 < sine)
    (hsine : sine * (norm2 (fun i => lhs.point2 i - lhs.point1 i) * norm2 (fun i => rhs.point2 i - rhs.point1 i)) =
      |(lhs.point2 0 - lhs.point1 0) * (rhs.point2 1 - rhs.point1 1) - (lhs.point2 1 - lhs.point1 1) * (rhs.point2 0 - rhs.point1 0)|)
    (hM : M = norm2 lhs.point1 + norm2 lhs.point2 + norm2 rhs.point1 + norm2 rhs.point2)
    (m1 : 200 * γ * M ≤ sine * (s * norm2 (fun i => lhs.point2 i - lhs.point1 i)))
    (m2 : 200 * γ * M ≤ sine * ((1 - s) * norm2 (fun i => lhs.point2 i - lhs.point1 i)))
    (m3 : 200 * γ * M ≤ sine * (t * norm2 (fun i => rhs.point2 i - rhs.point1 i)))
    (m4 : 200 * γ * M ≤ sine * ((1 - t) * norm2 (fun i => rhs.point2 i - rhs.point1 i))) :
    ∃ x, Fl.intersectSegmentSegment fl madd dot norm neg1 neg2 lhs rhs = some x ∧ norm2 (fun i => x i - lhs.interpol s i) ≤ 90 * γ * M / sine := by
  have hu := h.u_nonneg
  have hγ0 : 0 ≤ γ := by rw [hγ]; linarith [h.one_le 5]
  have huγ : 5 * u ≤ γ := by
    have := one_add_mul_le_pow (a := u) (by linarith) 5
    rw [hγ]; push_cast at this; linarith
  have hwp : (fun i => lhs.point2 i - lhs.point1 i) ≠ 0 := fun e => hl (funext fun i => (sub_eq_zero.1 (congrFun e i)).symm)
  have hwq : (fun i => rhs.point2 i - rhs.point1 i) ≠ 0 := fun e => hr (funext fun i => (sub_eq_zero.1 (congrFun e i)).symm)
  have dp := Fl.direction_err h hn hk (by norm_num) (by rw [← hγ]; exact hg) hl
  have dq := Fl.direction_err h hn hk (by norm_num) (by rw [← hγ]; exact hg) hr
  rw [← hγ] at dp dq
  have pL := Fl.norm2_pos hwp
  have pV := Fl.norm2_pos hwq
  have len : ∀ s : GSegment 2, norm2 (fun i => s.point2 i - s.point1 i) ≤ norm2 s.point1 + norm2 s.point2 := fun s => by
    have := norm2_add_le s.point2 fun i => -s.point1 i
    rw [norm2_neg] at this
    simpa only [sub_eq_add_neg, add_comm (norm2 s.point1)] using this
  have l1 := len lhs
  have l2 := len rhs
  have n1 := norm2_nonneg lhs.point1
  have n2 := norm2_nonneg lhs.point2
  have n3 := norm2_nonneg rhs.point1
  have n4 := norm2_nonneg rhs.point2
  have s1 : sine ≤ 1 := by
    have := Fl.cross_le (fun i => lhs.point2 i - lhs.point1 i) fun i => rhs.point2 i - rhs.point1 i
    rw [← hsine] at this
    exact le_of_mul_le_mul_right (by linarith) (mul_pos pL pV)
  have M0 : 0 < M := by linarith
  -- what the margins say about the parameters and the angle
  have par : ∀ {a L : ℝ}, 0 < L → L ≤ M → 200 * γ * M ≤ sine * (a * L) → 0 ≤ a ∧ 200 * γ ≤ a * sine := by
    intro a L hL hLM ha
    have a0 : 0 ≤ a := by
      by_contra hc
      have : a * L < 0 := mul_neg_of_neg_of_pos (not_le.1 hc) hL
      have := mul_neg_of_pos_of_neg hs0 this
      have : 0 ≤ 200 * γ * M := by positivity
      linarith
    refine ⟨a0, le_of_mul_le_mul_right ?_ M0⟩
    have := mul_le_mul_of_nonneg_left hLM (mul_nonneg a0 hs0.le)
    linarith
  obtain ⟨ps, ps'⟩ := par pL (by linarith) m1
  obtain ⟨ps1, ps1'⟩ := par pL (by linarith) m2
  obtain ⟨pt, -⟩ := par pV (by linarith) m3
  obtain ⟨pt1, pt1'⟩ := par pV (by linarith) m4
  have hsγ : 200 * γ ≤ sine := by
    have : s * sine ≤ 1 * sine := mul_le_mul_of_nonneg_right (by linarith) hs0.le
    linarith
  have big : ∀ {a : ℝ}, 0 ≤ a → 200 * γ ≤ a * sine → 10 * u ≤ a := by
    intro a ha hh
    have : a * sine ≤ a * 1 := mul_le_mul_of_nonneg_left s1 ha
    linarith
  -- the lines are not taken for parallel
  have found : ∃ x, Fl.intersectLineLine fl madd dot (Fl.segLine fl norm lhs) (Fl.segLine fl norm rhs) = some x := by
    rw [← Option.ne_none_iff_exists']
    intro hnone
    have hpar := C116_parallel hdot _ _ hnone
    obtain ⟨a1, -, -, -⟩ := Fl.rhs_dist (b := 0) (x := 0) (t := 0) hg hwp dp (fun e => by simp)
    obtain ⟨b1, -, -, -⟩ := Fl.rhs_dist (b := 0) (x := 0) (t := 0) hg hwq dq (fun e => by simp)
    set d : Fin 2 → ℝ := norm fun i => fl (lhs.point2 i - lhs.point1 i) with hd
    set e : Fin 2 → ℝ := norm fun i => fl (rhs.point2 i - rhs.point1 i) with he
    change |∑ i, cross2 d i * e i| ≤ ((1 + u) ^ 2 - 1) * ∑ i, |cross2 d i * e i| at hpar
    have nd : norm2 (cross2 d) = norm2 d := by unfold norm2 cross2; congr 1; simp [Fin.sum_univ_two]; ring
    have k1 := abs_dot_le (cross2 d) e
    rw [nd] at k1
    have k2 : norm2 d * norm2 e ≤ 1.002 * 1.002 := mul_le_mul a1 b1 (norm2_nonneg _) (by norm_num)
    have k3 : (1 + u) ^ 2 - 1 ≤ γ := by rw [hγ]; exact sub_le_sub_right (pow_le_pow_right₀ (by linarith) (by norm_num)) 1
    have k4 : |∑ i, cross2 d i * e i| ≤ γ * 1.01 := by
      refine hpar.trans (mul_le_mul k3 ?_ (Finset.sum_nonneg fun _ _ => abs_nonneg _) hγ0)
      simp only [abs_mul]
      linarith
    set L := norm2 fun i => lhs.point2 i - lhs.point1 i
    set V := norm2 fun i => rhs.point2 i - rhs.point1 i
    have c1 := Fl.cross_le (fun i => d i - (lhs.point2 i - lhs.point1 i) / L) e
    have c2 := Fl.cross_le (fun i => lhs.point2 i - lhs.point1 i) fun i => e i - (rhs.point2 i - rhs.point1 i) / V
    have e1 : (lhs.point2 0 - lhs.point1 0) * (rhs.point2 1 - rhs.point1 1) - (lhs.point2 1 - lhs.point1 1) * (rhs.point2 0 - rhs.point1 0) =
        L * V * ((∑ i, cross2 d i * e i) - ((d 0 - (lhs.point2 0 - lhs.point1 0) / L) * e 1 - (d 1 - (lhs.point2 1 - lhs.point1 1) / L) * e 0)) -
          V * ((lhs.point2 0 - lhs.point1 0) * (e 1 - (rhs.point2 1 - rhs.point1 1) / V) -
            (lhs.point2 1 - lhs.point1 1) * (e 0 - (rhs.point2 0 - rhs.point1 0) / V)) := by
      rw [Fin.sum_univ_two]
      simp only [cross2, Matrix.cons_val_zero, Matrix.cons_val_one]
      field_simp; ring
    have k5 : sine * (L * V) ≤ L * V * (γ * 1.01 + 2 * γ * 1.002) + V * (L * (2 * γ)) := by
      rw [hsine, e1]
      refine (abs_sub _ _).trans ?_
      rw [abs_mul, abs_mul V, abs_of_pos (mul_pos pL pV), abs_of_pos pV]
      refine add_le_add (mul_le_mul_of_nonneg_left ((abs_sub _ _).trans (add_le_add k4 (c1.trans ?_))) (mul_pos pL pV).le)
        (mul_le_mul_of_nonneg_left (c2.trans (mul_le_mul_of_nonneg_left dq pL.le)) pV.le)
      exact mul_le_mul dp b1 (norm2_nonneg _) (by linarith)
    have k6 : sine ≤ 5.1 * γ := by
      refine le_of_mul_le_mul_right ?_ (mul_pos pL pV)
      have : 0 ≤ γ * (L * V) := mul_nonneg hγ0 (mul_pos pL pV).le
      linarith
    linarith
  obtain ⟨x, hx⟩ := found
  obtain ⟨⟨σ, hσ⟩, τ, hτ⟩ := C137_lines h hγ hg hma hdot hn hk hl hr hx
  -- the distance from the exact intersection
  set z := lhs.interpol s with hz
  have zl : ∀ i, z i = lhs.point1 i + s * (lhs.point2 i - lhs.point1 i) := fun i => by rw [hz]; simp [GSegment.interpol]; ring
  have zr : ∀ i, z i = rhs.point1 i + t * (rhs.point2 i - rhs.point1 i) := fun i => by rw [hcross]; simp [GSegment.interpol]; ring
  have nz : norm2 z ≤ norm2 lhs.point1 + norm2 lhs.point2 := by
    have e : z = fun i => s * lhs.point2 i + (1 - s) * lhs.point1 i := by funext i; rw [zl]; ring
    have k1 := norm2_add_le (fun i => s * lhs.point2 i) fun i => (1 - s) * lhs.point1 i
    rw [← e, norm2_smul, norm2_smul, abs_of_nonneg ps, abs_of_nonneg ps1] at k1
    have k2 := mul_le_mul_of_nonneg_right (show s ≤ 1 by linarith) n2
    have k3 := mul_le_mul_of_nonneg_right (show 1 - s ≤ 1 by linarith) n1
    linarith
  have hd := Fl.near_crossing (a := σ - s) (b := τ - t) hwp hwq hsine.le hs0 hσ hτ (fun i => by have := zl i; have := zr i; linarith)
  have ez : (fun i => (σ - s) * (lhs.point2 i - lhs.point1 i) + (x i - (lhs.point1 i + σ * (lhs.point2 i - lhs.point1 i)))) = fun i => x i - z i := by
    funext i; rw [zl]; ring
  rw [ez] at hd
  have nx : norm2 x ≤ norm2 z + norm2 (fun i => x i - z i) := by
    have := norm2_add_le z fun i => x i - z i
    rwa [show (fun i => z i + (x i - z i)) = x from funext fun i => by ring] at this
  have hd2 : norm2 (fun i => x i - z i) ≤ 90 * γ * M / sine := by
    set D := norm2 fun i => x i - z i
    have D0 : 0 ≤ D := norm2_nonneg _
    rw [le_div_iff₀ hs0] at hd ⊢
    have k1 : γ * (norm2 lhs.point1 + norm2 rhs.point1 + norm2 x) ≤ γ * (2 * M + D) := mul_le_mul_of_nonneg_left (by linarith) hγ0
    have k2 : 200 * γ * D ≤ sine * D := mul_le_mul_of_nonneg_right hsγ D0
    have k3 : 0 ≤ γ * M := by positivity
    linarith
  refine ⟨x, ?_, hd2⟩
  have mar : ∀ {a L : ℝ}, 200 * γ * M ≤ sine * (a * L) → 90 * γ * M / sine ≤ 0.45 * a * L := by
    intro a L ha
    rw [div_le_iff₀ hs0]; linarith
  have w1 := Fl.isWithin_near h (by linarith) (neg := neg1) hl ps (by linarith) hd2 (mar m1) (mar m2) (big ps1 ps1')
  have hd3 : norm2 (fun i => x i - rhs.interpol t i) ≤ 90 * γ * M / sine := by rw [← hcross]; exact hd2
  have w2 := Fl.isWithin_near h (by linarith) (neg := neg2) hr pt (by linarith) hd3 (mar m3) (mar m4) (big pt1 pt1')
  unfold Fl.intersectSegmentSegment
  rw [hx]
  dsimp only
  rw [if_pos ⟨w1, w2⟩]

/-! ## Segments with a common end -/

/-- `Dot` is exact if the products are multiples of a power of two and the sum of their absolute values has at most `p` bits of that unit; whatever the order
of the sum. -/
def DotExact {n : ℕ} (p : ℕ) (dot : (Fin n → ℝ) → (Fin n → ℝ) → ℝ) : Prop :=
  ∀ (x y : Fin n → ℝ) (m : Fin n → ℤ) (e : ℤ), (∀ i, x i * y i = m i * (2 : ℝ) ^ e) → ∑ i, |m i| ≤ 2 ^ p → dot x y = ∑ i, x i * y i

/-- Multiples of a power of two with at most `p` bits are floats. -/
theorem float_grid {p : ℕ} (hp : 1 ≤ p) (hfl : RoundsToNearest p fl) (m e : ℤ) (hm : |m| ≤ 2 ^ p) : fl (m * (2 : ℝ) ^ e) = m * (2 : ℝ) ^ e := by
  refine hfl.fixed (isFloat_of_grid hp ⟨m, rfl⟩ ?_)
  have h2 := two_zpow_pos e
  rw [abs_mul, abs_of_pos h2, zpow_add₀ (by norm_num), zpow_natCast]
  exact mul_le_mul_of_nonneg_right (by exact_mod_cast hm) h2.le

private theorem abs_list_sum (l : List ℤ) : |l.sum| ≤ (l.map fun x => |x|).sum := by
  induction l with
  | nil => simp
  | cons a l ih => simp only [List.sum_cons, List.map_cons]; exact (abs_add_le _ _).trans (by linarith)

private theorem tree_grid {p N : ℕ} (hp : 1 ≤ p) (hfl : RoundsToNearest p fl) (b : Fin N → ℝ) (m : Fin N → ℤ) (e : ℤ) (hb : ∀ i, b i = m i * (2 : ℝ) ^ e) (t : RTree N)
    (hm : (t.leaves.map fun i => |m i|).sum ≤ 2 ^ p) : t.eval (fun x y => fl (x + y)) b = ((t.leaves.map m).sum : ℤ) * (2 : ℝ) ^ e := by
  induction t with
  | leaf i => simp [RTree.eval, RTree.leaves, hb]
  | node l r hl hr =>
    have nn : ∀ s : RTree N, 0 ≤ (s.leaves.map fun i => |m i|).sum := fun s => List.sum_nonneg (by simp)
    rw [RTree.leaves, List.map_append, List.sum_append] at hm
    rw [RTree.eval, hl (by linarith [nn r]), hr (by linarith [nn l]), ← add_mul, RTree.leaves, List.map_append, List.sum_append]
    have := float_grid hp hfl ((l.leaves.map m).sum + (r.leaves.map m).sum) e (by
      have h1 := abs_list_sum (l.leaves.map m)
      have h2 := abs_list_sum (r.leaves.map m)
      rw [List.map_map] at h1 h2
      exact (abs_add_le _ _).trans ((add_le_add h1 h2).trans hm))
    push_cast at this ⊢
    exact this

private theorem valid_grid {p N : ℕ} (hp : 1 ≤ p) (hfl : RoundsToNearest p fl) (b : Fin N → ℝ) (m : Fin N → ℤ) (e : ℤ) (hb : ∀ i, b i = m i * (2 : ℝ) ^ e)
    (hm : ∑ i, |m i| ≤ 2 ^ p) (t : RTree N) (ht : t.Valid) : t.eval (fun x y => fl (x + y)) b = ∑ i, b i := by
  have key : ∀ f : Fin N → ℤ, (t.leaves.map f).sum = ∑ i, f i := fun f => by
    rw [(ht.map f).sum_eq, ← List.ofFn_eq_map, List.sum_ofFn]
  rw [tree_grid hp hfl b m e hb t (by rw [key]; exact hm), key, Int.cast_sum, Finset.sum_mul]
  exact Finset.sum_congr rfl fun i _ => (hb i).symm

private theorem sum_pad {N n : ℕ} (hN : n ≤ N) (f : Fin n → ℝ) : ∑ l : Fin N, (if h : l.val < n then f ⟨l.val, h⟩ else 0) = ∑ i, f i := by
  obtain ⟨k, rfl⟩ := Nat.exists_eq_add_of_le hN
  rw [Fin.sum_univ_add]
  simp

private theorem sum_pad_int {N n : ℕ} (hN : n ≤ N) (f : Fin n → ℤ) : ∑ l : Fin N, |if h : l.val < n then f ⟨l.val, h⟩ else 0| = ∑ i, |f i| := by
  obtain ⟨k, rfl⟩ := Nat.exists_eq_add_of_le hN
  rw [Fin.sum_univ_add]
  simp

/-- `Dot` of vectors of any packing meets the hypothesis of `C137_shared_end_violated`. -/
theorem C137_dot {p : ℕ} (hp : 1 ≤ p) (hfl : RoundsToNearest p fl) {c : Cfg} {pk : Bool} (conv : Bool) (tb : RTree (batchSize n false)) (ts : RTree (n + 1))
    (htb : tb.Valid) (hts : ts.Valid) : DotExact p fun x y => Fl.dot fl conv tb ts (Vec.ofFn x : Vec c ℝ n pk) (Vec.ofFn y : Vec c ℝ n pk) := by
  intro x y m e hxy hm
  have hle : ∀ i, |m i| ≤ 2 ^ p := fun i => (Finset.single_le_sum (f := fun i => |m i|) (fun _ _ => abs_nonneg _) (Finset.mem_univ i)).trans hm
  have hg : ∀ j, (Fl.mul fl conv (Vec.ofFn x : Vec c ℝ n pk) (Vec.ofFn y : Vec c ℝ n pk)).get j = x j * y j := by
    intro j; simp only [Fl.mul, Vec.get_doBinary, Vec.get_ofFn]; rw [hxy, float_grid hp hfl _ _ (hle j)]
  have key : ∀ {N : ℕ} (_ : n ≤ N) (b : Fin N → ℝ) (_ : ∀ l : Fin N, b l = if h : l.val < n then x ⟨l.val, h⟩ * y ⟨l.val, h⟩ else 0) (t : RTree N),
      t.Valid → t.eval (fun x y => fl (x + y)) b = ∑ i, x i * y i := by
    intro N hN b hb t ht
    rw [valid_grid hp hfl b (fun l => if h : l.val < n then m ⟨l.val, h⟩ else 0) e (fun l => ?_) ?_ t ht, ← sum_pad hN fun i => x i * y i]
    · exact Finset.sum_congr rfl fun l _ => hb l
    · rw [sum_pad_int hN]; exact hm
    · rw [hb]
      split
      · exact hxy _
      · simp
  dsimp only [Fl.dot]
  unfold Fl.sum
  split
  · rename_i hb
    refine key (le_batchSize n false) _ (fun l => ?_) tb htb
    unfold Vec.fillMasked
    split
    · rw [dif_pos (by omega)]; exact hg ⟨l.val, by omega⟩
    · dsimp only
      split
      · rename_i hl; exact hg ⟨l.val, hl⟩
      · rfl
  · refine key (by omega) _ (fun l => ?_) ts hts
    split
    · rename_i hl; exact hg ⟨l.val, hl⟩
    · rfl

/-- `NormalizePrecise` of a vector whose scaled squares add up exactly to the square of a float. -/
theorem normalizePrecise_exact {q : ℕ} (hq : 1 ≤ q) (hfl : RoundsToNearest q fl) (c : Cfg) (pk : Bool) (conv : Bool) (tb : RTree (batchSize 2 false)) (ts : RTree 3) (htb : tb.Valid)
    (hts : ts.Valid) {v y : Fin 2 → ℝ} {s l : ℝ} (hs : scaleElements v = s) (hs0 : s ≠ 0) (hy : ∀ i, fl (v i / s) = y i) (m : Fin 2 → ℤ) (e : ℤ)
    (hm : ∀ i, y i * y i = m i * (2 : ℝ) ^ e) (hm2 : ∑ i, |m i| ≤ 2 ^ q) (hl : ∑ i, y i * y i = l ^ 2) (hl0 : 0 < l) (hfl2 : fl l = l) (i : Fin 2) :
    Fl.normalizePrecise1 (n := 1) c pk fl conv tb ts v i = fl (y i / l) := by
  unfold Fl.normalizePrecise1
  dsimp only
  rw [hs, if_neg hs0, show (fun i => fl (v i / s)) = y from funext hy]
  have e1 : Fl.length fl conv tb ts (Vec.ofFn y : Vec c ℝ (1 + 1) pk) = l := by
    unfold Fl.length Fl.lengthSquared
    have := C137_dot hq hfl (c := c) (pk := pk) conv tb ts htb hts y y m e hm hm2
    dsimp only at this
    rw [this, hl, Real.sqrt_sq hl0.le, hfl2]
  rw [e1, if_pos hl0.ne', hy]

/-- The scaling of `NormalizePrecise` in two dimensions. -/
theorem scaleElements_two (a b : ℝ) : scaleElements (![a, b] : Fin 2 → ℝ) = max |a| |b| := by
  unfold scaleElements
  apply le_antisymm
  · refine Finset.sup'_le _ _ fun i _ => ?_
    fin_cases i <;> simp
  · refine max_le ?_ ?_
    · exact le_trans (by simp) (Finset.le_sup' (fun i => max |RCLike.re ((![a, b] : Fin 2 → ℝ) i)| |RCLike.im ((![a, b] : Fin 2 → ℝ) i)|) (Finset.mem_univ 0))
    · exact le_trans (by simp) (Finset.le_sup' (fun i => max |RCLike.re ((![a, b] : Fin 2 → ℝ) i)| |RCLike.im ((![a, b] : Fin 2 → ℝ) i)|) (Finset.mem_univ 1))

/-- C137 is violated for outputs: two edges of a triangle with the common corner `(15, 20)` do not intersect in single precision, although their intersection in
exact arithmetic is the corner. In every configuration, for every reduction order, contracted or not. -/
theorem C137_shared_end_violated (hfl : RoundsToNearest 24 fl) {madd : ℝ → ℝ → ℝ → ℝ} (hma : Fl.IsMulAdd fl madd) {dot : (Fin 2 → ℝ) → (Fin 2 → ℝ) → ℝ}
    (hd : DotExact 24 dot) (c : Cfg) (pk : Bool) (conv : Bool) (tb : RTree (batchSize 2 false)) (ts : RTree 3) (htb : tb.Valid) (hts : ts.Valid) (neg1 neg2 : Bool) :
    intersectSegmentSegment neg1 neg2 ⟨![0, 20], ![15, 20]⟩ ⟨![0, 0], ![15, 20]⟩ = some ![15, 20] ∧
      Fl.intersectSegmentSegment fl madd dot (Fl.normalizePrecise1 (n := 1) c pk fl conv tb ts) neg1 neg2 ⟨![0, 20], ![15, 20]⟩ ⟨![0, 0], ![15, 20]⟩ = none := by
  constructor
  · refine ((C63_segments neg1 neg2 ⟨![0, 20], ![15, 20]⟩ ⟨![0, 0], ![15, 20]⟩ (fun e => by simpa using congrFun e 0) (fun e => by simpa using congrFun e 0)).2
      (by simp) _).2 ?_
    ext y
    simp only [Set.mem_inter_iff, segPoints, Set.mem_ofPred_eq, Set.mem_singleton_iff]
    constructor
    · rintro ⟨⟨s, -, -, rfl⟩, t, -, -, e⟩
      have e0 := congrFun e 0
      have e1 := congrFun e 1
      simp [GSegment.interpol] at e0 e1
      have : s = 1 := by linarith
      subst this
      simp [GSegment.interpol]
    · rintro rfl
      exact ⟨⟨1, by norm_num, le_rfl, by simp [GSegment.interpol]⟩, 1, by norm_num, le_rfl, by simp [GSegment.interpol]⟩
  have fi : ∀ (m e : ℤ) (x : ℝ), x = m * (2 : ℝ) ^ e → |m| ≤ 2 ^ 24 → fl x = x := fun m e x hx hm => by rw [hx]; exact float_grid (by norm_num) hfl m e hm
  have f0 : fl 0 = 0 := fi 0 0 0 (by simp) (by norm_num)
  have f1 : fl 1 = 1 := fi 1 0 1 (by simp) (by norm_num)
  have f15 : fl 15 = 15 := fi 15 0 15 (by simp) (by norm_num)
  have f20 : fl 20 = 20 := fi 20 0 20 (by simp) (by norm_num)
  -- the directions
  set A : ℝ := 10066330 * (2 : ℝ) ^ (-24 : ℤ) with hA
  set B : ℝ := 13421773 * (2 : ℝ) ^ (-24 : ℤ) with hB
  have fA : fl (3 / 5) = A := by
    have := Fl.round_to_grid (by norm_num) hfl (-24) 10066330 (x := 3 / 5) (by norm_num) (by norm_num [abs_of_pos]) (by norm_num [abs_lt])
    rw [this, hA]; norm_num
  have fB : fl (4 / 5) = B := by
    have := Fl.round_to_grid (by norm_num) hfl (-24) 13421773 (x := 4 / 5) (by norm_num) (by norm_num [abs_of_pos]) (by norm_num [abs_lt])
    rw [this, hB]; norm_num
  have w1 : (fun i => fl ((![15, 20] : Fin 2 → ℝ) i - (![0, 20] : Fin 2 → ℝ) i)) = ![15, 0] := by
    funext i; fin_cases i <;> simp [f15, f0]
  have w2 : (fun i => fl ((![15, 20] : Fin 2 → ℝ) i - (![0, 0] : Fin 2 → ℝ) i)) = ![15, 20] := by
    funext i; fin_cases i <;> simp [f15, f20]
  have d1 : Fl.normalizePrecise1 (n := 1) c pk fl conv tb ts ![15, 0] = ![1, 0] := by
    funext i
    rw [normalizePrecise_exact (by norm_num) hfl c pk conv tb ts htb hts (y := ![1, 0]) (l := 1) (scaleElements_two 15 0) (by norm_num) (fun i => by fin_cases i <;> simp [f0, f1])
      ![1, 0] 0 (fun i => by fin_cases i <;> simp) (by simp [Fin.sum_univ_two]) (by simp [Fin.sum_univ_two]) one_pos f1]
    fin_cases i <;> simp [f0, f1]
  have f34 : fl (3 / 4) = 3 / 4 := fi 3 (-2) _ (by norm_num) (by norm_num)
  have f54 : fl (5 / 4) = 5 / 4 := fi 5 (-2) _ (by norm_num) (by norm_num)
  have d2 : Fl.normalizePrecise1 (n := 1) c pk fl conv tb ts ![15, 20] = ![A, B] := by
    funext i
    rw [normalizePrecise_exact (by norm_num) hfl c pk conv tb ts htb hts (y := ![3 / 4, 1]) (l := 5 / 4) (s := 20) (by rw [scaleElements_two]; norm_num [abs_of_pos]) (by norm_num)
      (fun i => by
        fin_cases i
        · simp; rw [show (15 : ℝ) / 20 = 3 / 4 by norm_num, f34]
        · simp [f1])
      ![9, 16] (-4) (fun i => by fin_cases i <;> norm_num) (by simp [Fin.sum_univ_two]) (by simp [Fin.sum_univ_two]; norm_num) (by norm_num) f54]
    fin_cases i
    · simp; rw [show (3 : ℝ) / 4 / (5 / 4) = 3 / 5 by norm_num, fA]
    · simp; rw [show (4 : ℝ) / 5 = 4 / 5 by norm_num, fB]
  -- the line of the first segment as a plane
  have p0 : dot (cross2 ![1, 0]) ![0, 20] = 20 := by
    rw [hd _ _ ![0, 20] 0 (fun i => by fin_cases i <;> simp [cross2]) (by simp [Fin.sum_univ_two])]; simp [cross2, Fin.sum_univ_two]
  have p1 : dot (cross2 ![1, 0]) ![A, B] = B := by
    rw [hd _ _ ![0, 13421773] (-24) (fun i => by fin_cases i <;> simp [cross2, hB]) (by simp [Fin.sum_univ_two])]; simp [cross2, Fin.sum_univ_two]
  have hB0 : B ≠ 0 := by rw [hB]; norm_num
  have f25 : fl (20 / B) = 25 := by
    have := Fl.round_to_grid (by norm_num) hfl (-19) 13107200 (x := 20 / B) (by norm_num) (by rw [hB]; norm_num [abs_of_pos]) (by rw [hB]; norm_num [abs_lt])
    rw [this]; norm_num
  have hpl : Fl.planeLineParam fl dot (Fl.planeOfLine dot ⟨![1, 0], ![0, 20]⟩) ⟨![A, B], ![0, 0]⟩ = some 25 := by
    unfold Fl.planeLineParam Fl.planeOfLine
    dsimp only
    rw [p1, if_neg hB0, p0]
    have : (fun e => fl (Fl.planeBase fl ⟨cross2 ![1, 0], 20⟩ e - (![0, 0] : Fin 2 → ℝ) e)) = ![0, 20] := by
      funext i; fin_cases i <;> simp [Fl.planeBase, cross2, f0, f20]
    rw [this, p0, f25]
  have fx : fl (25 * A) = 15 + 1 / 2 ^ 20 := by
    have := Fl.round_to_grid (by norm_num) hfl (-20) 15728641 (x := 25 * A) (by norm_num) (by rw [hA]; norm_num [abs_of_pos]) (by rw [hA]; norm_num [abs_lt])
    rw [this]; norm_num
  have fx2 : fl (15 + 1 / 2 ^ 20) = 15 + 1 / 2 ^ 20 := fi 15728641 (-20) _ (by norm_num) (by norm_num)
  have hmx : madd 25 A 0 = 15 + 1 / 2 ^ 20 := by
    rcases hma 25 A 0 with e | e <;> rw [e, add_zero]
    · rw [fx, fx2]
    · exact fx
  unfold Fl.intersectSegmentSegment Fl.segLine Fl.segDirection Fl.intersectLineLine Fl.intersectPlaneLine
  dsimp only
  rw [w1, w2, d1, d2, hpl, Option.map_some]
  dsimp only
  rw [if_neg]
  rintro ⟨hw, -⟩
  unfold Fl.isWithin at hw
  dsimp only at hw
  have ha := C63_max_element (fun i => |fl ((![15, 20] : Fin 2 → ℝ) i - (![0, 20] : Fin 2 → ℝ) i)|) 0
  rw [show (fun i => |fl ((![15, 20] : Fin 2 → ℝ) i - (![0, 20] : Fin 2 → ℝ) i)|) = ![15, 0] by
    funext i; rw [congrFun w1 i]; fin_cases i <;> simp] at ha hw
  have ha0 : maxElementPos (![15, 0] : Fin 2 → ℝ) = 0 := by
    rcases (show maxElementPos (![15, 0] : Fin 2 → ℝ) = 0 ∨ maxElementPos (![15, 0] : Fin 2 → ℝ) = 1 by
      generalize maxElementPos (![15, 0] : Fin 2 → ℝ) = j; fin_cases j <;> simp) with h | h
    · exact h
    · rw [h] at ha; norm_num [f15, f0] at ha
  rw [ha0] at hw
  have h2 := hw.2
  have hx0 : Fl.pointAt madd ⟨![A, B], ![0, 0]⟩ 25 0 = 15 + 1 / 2 ^ 20 := by simpa [Fl.pointAt] using hmx
  rw [hx0] at h2
  have e1 : (![15, 20] : Fin 2 → ℝ) 0 - (![0, 20] : Fin 2 → ℝ) 0 = 15 := by simp
  have e2 : (15 + 1 / 2 ^ 20 : ℝ) - (![0, 20] : Fin 2 → ℝ) 0 = 15 + 1 / 2 ^ 20 := by simp
  have e3 : copysign1 neg1 15 = 1 := by unfold copysign1; rw [if_neg]; norm_num
  rw [e1, e2, f15, fx2, e3, one_mul, abs_of_pos (by norm_num : (0 : ℝ) < 15)] at h2
  norm_num at h2

/-- The functions of the library meet the hypotheses in single precision, in every configuration, for every reduction order. -/
example (hfl : RoundsToNearest 24 fl) (c : Cfg) (pk : Bool) (conv : Bool) (tb : RTree (batchSize 2 false)) (ts : RTree 3) (htb : tb.Valid) (hts : ts.Valid) :
    Rounding fl (2 ^ (-((24 : ℕ) : ℤ))) ∧ (1 + (2 : ℝ) ^ (-((24 : ℕ) : ℤ))) ^ 5 - 1 ≤ 1 / 1000 ∧ Fl.IsMulAdd fl (fun a b d => fl (a * b + d)) ∧
      Fl.IsDot (2 ^ (-((24 : ℕ) : ℤ))) 2 (fun x y => Fl.dot fl conv tb ts (Vec.ofFn x : Vec c ℝ 2 pk) (Vec.ofFn y : Vec c ℝ 2 pk)) ∧
      DotExact 24 (fun x y => Fl.dot fl conv tb ts (Vec.ofFn x : Vec c ℝ 2 pk) (Vec.ofFn y : Vec c ℝ 2 pk)) ∧
      Fl.IsNormalize (n := 2) (2 ^ (-((24 : ℕ) : ℤ))) 4 (Fl.normalizePrecise1 c pk fl conv tb ts) ∧
      (∀ v, |Fl.length fl conv tb ts (Vec.ofFn v : Vec c ℝ 2 pk) - norm2 v| ≤ ((1 + 2 ^ (-((24 : ℕ) : ℤ))) ^ 3 - 1) * norm2 v) ∧
      ∀ v, |Fl.lengthPrecise (r := 1) c pk fl (2 ^ (-126 : ℤ)) (2 ^ (127 : ℤ)) conv tb ts v - norm2 v| ≤ ((1 + 2 ^ (-((24 : ℕ) : ℤ))) ^ 5 - 1) * norm2 v := by
  have h := hfl.rounding (by norm_num)
  refine ⟨h, by norm_num, fun _ _ _ => Or.inr rfl, C116_dot h conv tb ts htb hts, C137_dot (by norm_num) hfl conv tb ts htb hts,
    C133_normalize (n := 1) h (by norm_num) c pk conv tb ts htb hts, fun v => ?_,
    Fl.lengthPrecise_err h c pk (by positivity) (zpow_le_zpow_right₀ (by norm_num) (by norm_num)) conv tb ts htb hts⟩
  have := C76_length h conv tb ts htb hts (Vec.ofFn v : Vec c ℝ 2 pk)
  simp only [Vec.get_ofFn] at this
  exact this

/-- The diagonals of the unit square meet the margins in single precision: the parameters are `1 / 2`, the sine is 1. -/
example : let l : GSegment 2 := ⟨![0, 0], ![1, 1]⟩; let r : GSegment 2 := ⟨![1, 0], ![0, 1]⟩
    l.interpol (1 / 2) = r.interpol (1 / 2) ∧
      1 * (norm2 (fun i => l.point2 i - l.point1 i) * norm2 (fun i => r.point2 i - r.point1 i)) =
        |(l.point2 0 - l.point1 0) * (r.point2 1 - r.point1 1) - (l.point2 1 - l.point1 1) * (r.point2 0 - r.point1 0)| ∧
      200 * ((1 + (2 : ℝ) ^ (-((24 : ℕ) : ℤ))) ^ 5 - 1) * (norm2 l.point1 + norm2 l.point2 + norm2 r.point1 + norm2 r.point2) ≤
        1 * (1 / 2 * norm2 (fun i => l.point2 i - l.point1 i)) := by
  have n1 : norm2 (fun i => (![1, 1] : Fin 2 → ℝ) i - (![0, 0] : Fin 2 → ℝ) i) = Real.sqrt 2 := by unfold norm2; congr 1; simp [Fin.sum_univ_two]; norm_num
  have n2 : norm2 (fun i => (![0, 1] : Fin 2 → ℝ) i - (![1, 0] : Fin 2 → ℝ) i) = Real.sqrt 2 := by unfold norm2; congr 1; simp [Fin.sum_univ_two]; norm_num
  have n3 : norm2 (![0, 0] : Fin 2 → ℝ) = 0 := by unfold norm2; simp [Fin.sum_univ_two]
  have n4 : norm2 (![1, 1] : Fin 2 → ℝ) = Real.sqrt 2 := by unfold norm2; congr 1; simp [Fin.sum_univ_two]; norm_num
  have n5 : norm2 (![1, 0] : Fin 2 → ℝ) = 1 := by unfold norm2; simp [Fin.sum_univ_two]
  have n6 : norm2 (![0, 1] : Fin 2 → ℝ) = 1 := by unfold norm2; simp [Fin.sum_univ_two]
  dsimp only
  refine ⟨by funext i; fin_cases i <;> norm_num [GSegment.interpol], ?_, ?_⟩
  · rw [n1, n2, one_mul, Real.mul_self_sqrt (by norm_num)]; norm_num
  · rw [n1, n3, n4, n5, n6]
    have : 1 ≤ Real.sqrt 2 := Real.one_le_sqrt.2 (by norm_num)
    norm_num
    linarith

end Mathter.Props
