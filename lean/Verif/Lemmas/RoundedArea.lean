import Verif.Lemmas.RoundedQR
import Verif.Lemmas.RoundedConversion
import Verif.Lemmas.RoundedOne
import Verif.Model.RoundedArea

/-! # Lemmas about the rounded area of a triangle -/

namespace Mathter.Fl
open Mathter
variable {n : ℕ} {fl : ℝ → ℝ} {u : ℝ}

/-- Heron's formula with relative errors of the half perimeter and of its differences with the sides. -/
theorem heron_err (h : Rounding fl u) (hu2 : u ≤ 1 / 1000) {s S l0 l1 l2 D0 D1 D2 : ℝ} (hS : 0 ≤ S) (h0 : 0 ≤ D0) (h1 : 0 ≤ D1) (h2 : 0 ≤ D2)
    (rs : Rel u 1 s S) (r0 : Rel u 2 (s - l0) D0) (r1 : Rel u 2 (s - l1) D1) (r2 : Rel u 2 (s - l2) D2) :
    0 ≤ fl (fl (fl (s * fl (s - l0)) * fl (s - l1)) * fl (s - l2)) ∧
      Rel u 15 (fl (Real.sqrt (fl (fl (fl (s * fl (s - l0)) * fl (s - l1)) * fl (s - l2))))) (Real.sqrt (S * D0 * D1 * D2)) := by
  have hu := h.u_nonneg
  have a0 := r0.round h hu2 (by norm_num) (m := 3.01) (by norm_num)
  have a1 := r1.round h hu2 (by norm_num) (m := 3.01) (by norm_num)
  have a2 := r2.round h hu2 (by norm_num) (m := 3.01) (by norm_num)
  have p0 := ((rs.mul hu hu2 (by norm_num) (by norm_num) a0 (m := 4.02) (by norm_num)).round h hu2 (by norm_num) (m := 5.03) (by norm_num))
  have p1 := ((p0.mul hu hu2 (by norm_num) (by norm_num) a1 (m := 8.06) (by norm_num)).round h hu2 (by norm_num) (m := 9.08) (by norm_num))
  have p2 := ((p1.mul hu hu2 (by norm_num) (by norm_num) a2 (m := 12.13) (by norm_num)).round h hu2 (by norm_num) (m := 13.15) (by norm_num))
  have hp : 0 ≤ S * D0 * D1 * D2 := mul_nonneg (mul_nonneg (mul_nonneg hS h0) h1) h2
  refine ⟨?_, (p2.sqrt (by nlinarith) hp).round h hu2 (by norm_num) (by norm_num)⟩
  have sg := p2.sign (by nlinarith)
  by_contra hc
  exact absurd (sg.1.1 (not_le.1 hc)) (not_lt.2 hp)

/-- The length of a rounded difference. -/
theorem len_sub (h : Rounding fl u) {len : (Fin n → ℝ) → ℝ} {k : ℕ} (hlen : ∀ v, |len v - norm2 v| ≤ ((1 + u) ^ k - 1) * norm2 v) (a b : Fin n → ℝ) :
    |len (fun i => fl (a i - b i)) - norm2 (a - b)| ≤ ((1 + u) ^ (k + 1) - 1) * norm2 (a - b) := by
  have hu := h.u_nonneg
  have e1 := hlen fun i => fl (a i - b i)
  have e2 : |norm2 (fun i => fl (a i - b i)) - norm2 (a - b)| ≤ u * |norm2 (a - b)| := by
    rw [abs_of_nonneg (norm2_nonneg _)]
    exact (norm2_sub_le _ _).trans (norm2_le_mul hu fun i => h.err _)
  have e1' : |len (fun i => fl (a i - b i)) - norm2 (fun i => fl (a i - b i))| ≤ ((1 + u) ^ k - 1) * |norm2 (fun i => fl (a i - b i))| := by
    rwa [abs_of_nonneg (norm2_nonneg fun i => fl (a i - b i))]
  have g : 0 ≤ (1 + u) ^ k - 1 := by linarith [one_le_growth h k]
  have := rel_trans hu g e2 e1'
  rw [abs_of_nonneg (norm2_nonneg (a - b))] at this
  refine this.trans (le_of_eq ?_)
  ring

/-- The half perimeter. -/
theorem half_perimeter (h : Rounding fl u) {k : ℕ} {l0 l1 l2 L0 L1 L2 : ℝ} (h0 : 0 ≤ L0) (h1 : 0 ≤ L1) (h2 : 0 ≤ L2)
    (e0 : |l0 - L0| ≤ ((1 + u) ^ k - 1) * L0) (e1 : |l1 - L1| ≤ ((1 + u) ^ k - 1) * L1) (e2 : |l2 - L2| ≤ ((1 + u) ^ k - 1) * L2) :
    |fl (1 / 2 * fl (fl (l0 + l1) + l2)) - 1 / 2 * (L0 + L1 + L2)| ≤ ((1 + u) ^ (k + 3) - 1) * (1 / 2 * (L0 + L1 + L2)) := by
  have n0 : Near u k l0 L0 L0 := ⟨e0, (abs_of_nonneg h0).le⟩
  have n1 : Near u k l1 L1 L1 := ⟨e1, (abs_of_nonneg h1).le⟩
  have n2 : Near u k l2 L2 L2 := ⟨e2, (abs_of_nonneg h2).le⟩
  have a := ((n0.add n1).round h).add (n2.mono h (Nat.le_succ k)) |>.round h
  have hh : Near u 0 (1 / 2 : ℝ) (1 / 2) (1 / 2) := ⟨by simp, by norm_num⟩
  have b := (hh.prod h a).round h
  exact (b.mono h (by omega)).err

/-! ## Roundings of concrete numbers -/

/-- The multiple of the spacing of floats that is nearer than half of the spacing. -/
theorem round_to_grid {p : ℕ} (hp : 1 ≤ p) (hfl : RoundsToNearest p fl) (k m : ℤ) {x : ℝ} (hm : |m| ≤ 2 ^ p) (hx : (2 : ℝ) ^ ((p : ℤ) - 1 + k) ≤ |x|)
    (hd : |m * (2 : ℝ) ^ k - x| < (2 : ℝ) ^ k / 2) : fl x = m * (2 : ℝ) ^ k := by
  have hpos := two_zpow_pos k
  have hg : Grid k ((m : ℝ) * (2 : ℝ) ^ k) := ⟨m, rfl⟩
  have hb : |(m : ℝ) * (2 : ℝ) ^ k| ≤ (2 : ℝ) ^ ((p : ℤ) + k) := by
    rw [abs_mul, abs_of_pos hpos, zpow_add₀ (by norm_num), zpow_natCast]
    exact mul_le_mul_of_nonneg_right (by exact_mod_cast hm) hpos.le
  have h1 := hfl.nearest x _ (isFloat_of_grid hp hg hb)
  obtain ⟨j, hj⟩ := grid_of_isFloat (hfl.mem x) (pow_le_fl hp hfl hx)
  rw [hj] at h1 ⊢
  have t := abs_sub ((j : ℝ) * (2 : ℝ) ^ k - x) (m * (2 : ℝ) ^ k - x)
  rw [show (j : ℝ) * (2 : ℝ) ^ k - x - (m * (2 : ℝ) ^ k - x) = ((j - m : ℤ) : ℝ) * (2 : ℝ) ^ k by push_cast; ring, abs_mul, abs_of_pos hpos] at t
  have h2 : |((j - m : ℤ) : ℝ)| * (2 : ℝ) ^ k < 1 * (2 : ℝ) ^ k := by linarith
  have h3 := lt_of_mul_lt_mul_right h2 hpos.le
  have h4 : |j - m| < 1 := by exact_mod_cast h3
  rw [show j = m by have := Int.abs_lt_one_iff.1 h4; omega]

/-- The sign of a rounded number. -/
theorem fl_pos (h : Rounding fl u) (hu : u < 1) {x : ℝ} (hx : 0 < x) : 0 < fl x := by
  have e := (_root_.abs_le.1 (h.err x)).1
  rw [abs_of_pos hx] at e
  nlinarith

theorem fl_neg (h : Rounding fl u) (hu : u < 1) {x : ℝ} (hx : x < 0) : fl x < 0 := by
  have := fl_pos h hu (neg_pos.2 hx)
  rw [h.odd] at this
  linarith

/-! ## Vectors that are long in one direction -/

/-- A reduction of lanes one of which absorbs the others. -/
theorem eval_absorb {m : ℕ} {q : ℝ} (h1 : fl (1 + q) = 1) (h1' : fl (q + 1) = 1) (h2 : fl 1 = 1) (h3 : fl q = q) (h4 : fl 0 = 0) (b : Fin m → ℝ)
    (i j : Fin m) (hi : b i = 1) (hj : b j = q) (hb : ∀ k, k ≠ i → k ≠ j → b k = 0) (t : RTree m) (ht : t.leaves.Nodup) :
    t.eval (fun x y => fl (x + y)) b = if i ∈ t.leaves then 1 else if j ∈ t.leaves then q else 0 := by
  induction t with
  | leaf k =>
    simp only [RTree.eval, RTree.leaves, List.mem_singleton]
    by_cases ki : i = k
    · rw [if_pos ki, ← ki, hi]
    by_cases kj : j = k
    · rw [if_neg ki, if_pos kj, ← kj, hj]
    rw [if_neg ki, if_neg kj, hb k (Ne.symm ki) (Ne.symm kj)]
  | node l r hl hr =>
    simp only [RTree.leaves, List.nodup_append] at ht
    obtain ⟨nl, nr, nd⟩ := ht
    simp only [RTree.eval, RTree.leaves, List.mem_append]
    rw [hl nl, hr nr]
    by_cases il : i ∈ l.leaves
    · have ir : i ∉ r.leaves := fun x => nd i il i x rfl
      by_cases jr : j ∈ r.leaves <;> simp only [il, ir, jr, if_true, if_false, or_false, add_zero, h1, h2]
    by_cases ir : i ∈ r.leaves
    · by_cases jl : j ∈ l.leaves <;> simp only [il, ir, jl, if_true, if_false, or_true, zero_add, h1', h2]
    by_cases jl : j ∈ l.leaves
    · have jr : j ∉ r.leaves := fun x => nd j jl j x rfl
      simp only [il, ir, jl, jr, if_true, if_false, or_false, add_zero, h3]
    by_cases jr : j ∈ r.leaves <;> simp only [il, ir, jl, jr, if_true, if_false, or_false, or_true, zero_add, h3, h4]

theorem valid_nodup {m : ℕ} {t : RTree m} (ht : t.Valid) : t.leaves.Nodup := ht.nodup_iff.2 (List.nodup_finRange m)

theorem valid_mem {m : ℕ} {t : RTree m} (ht : t.Valid) (i : Fin m) : i ∈ t.leaves := ht.mem_iff.2 (List.mem_finRange i)

/-- `LengthPrecise` of a planar vector that is long in the first direction. -/
theorem lengthPrecise_absorb {p : ℕ} (hp : 2 ≤ p) (hfl : RoundsToNearest p fl) (c : Cfg) (pk : Bool) {lo hi : ℝ} (conv : Bool)
    (tb : RTree (batchSize (1 + 1) false)) (ts : RTree (1 + 1 + 1)) (htb : tb.Valid) (hts : ts.Valid) (x : Fin (1 + 1) → ℝ) (hlo : lo ≤ |x 0|)
    (hhi : |x 0| ≤ hi) (hx : IsFloat p (x 0)) (h0 : x 0 ≠ 0) (hsm : |x 1| ≤ |x 0|)
    (hq : fl (fl (x 1 / |x 0|) * fl (x 1 / |x 0|)) < (2 : ℝ) ^ (-(p : ℤ) - 1)) :
    lengthPrecise c pk fl lo hi conv tb ts x = |x 0| := by
  have hr := hfl.rounding (by omega)
  have hsc : scaleElements x = |x 0| := by
    unfold scaleElements
    refine le_antisymm (Finset.sup'_le _ _ fun i _ => ?_) ?_
    · simp only [RCLike.re_to_real, RCLike.im_to_real, abs_zero]
      rw [max_eq_left (abs_nonneg _)]
      fin_cases i
      · exact le_rfl
      · exact hsm
    · refine le_trans ?_ (Finset.le_sup' _ (Finset.mem_univ 0))
      exact le_max_left _ _
  have hcl : stdClamp (scaleElements x) lo hi = |x 0| := by
    rw [hsc, stdClamp, if_neg (not_lt.2 hlo), if_neg (not_lt.2 hhi)]
  unfold lengthPrecise
  dsimp only
  rw [hcl]
  have one : fl 1 = 1 := hfl.fixed ⟨1, 0, by norm_num, by rw [abs_one]; exact one_lt_pow₀ (by norm_num) (by omega)⟩
  have zero : fl 0 = 0 := fl_zero hr
  have hsq : fl (fl (x 0 / |x 0|) * fl (x 0 / |x 0|)) = 1 := by
    rcases abs_choice (x 0) with hc | hc
    · rw [hc, div_self h0, one, mul_one, one]
    · rw [hc, div_neg, div_self h0, hr.odd, one, neg_mul_neg, mul_one, one]
  have hq0 : 0 ≤ fl (fl (x 1 / |x 0|) * fl (x 1 / |x 0|)) := by
    have e := hr.err (fl (x 1 / |x 0|) * fl (x 1 / |x 0|))
    have hn := mul_self_nonneg (fl (x 1 / |x 0|))
    rw [abs_of_nonneg hn] at e
    have := (abs_le.1 e).1
    have hu1 : (2 : ℝ) ^ (-(p : ℤ)) ≤ 1 := zpow_le_one_of_nonpos₀ (by norm_num) (by omega)
    nlinarith
  have hqf := hr.idem (fl (x 1 / |x 0|) * fl (x 1 / |x 0|))
  have habs : fl |x 0| = |x 0| := by
    rcases abs_choice (x 0) with hc | hc
    · rw [hc]; exact hfl.fixed hx
    · rw [hc, hr.odd, hfl.fixed hx]
  obtain ⟨q, hqe⟩ : ∃ q, fl (fl (x 1 / |x 0|) * fl (x 1 / |x 0|)) = q := ⟨_, rfl⟩
  rw [hqe] at hq hq0 hqf
  have a1 : fl (1 + q) = 1 := round_to_one hp hfl (by rw [show 1 - (1 + q) = -q by ring, abs_neg, abs_of_nonneg hq0]; exact hq)
  have a2 : fl (q + 1) = 1 := by rw [add_comm]; exact a1
  have key : lengthSquared fl conv tb ts (Vec.ofFn (fun i => fl (x i / |x 0|)) : Vec c ℝ (1 + 1) pk) = 1 := by
    unfold lengthSquared dot
    have hg : ∀ i, (mul fl conv (Vec.ofFn (fun i => fl (x i / |x 0|)) : Vec c ℝ (1 + 1) pk) (Vec.ofFn (fun i => fl (x i / |x 0|)) : Vec c ℝ (1 + 1) pk)).get i =
        fl (fl (x i / |x 0|) * fl (x i / |x 0|)) := fun i => by
      rw [mul, Vec.get_doBinary, Vec.get_ofFn]
    have tree : ∀ {m : ℕ} (hm : 2 ≤ m) (b : Fin m → ℝ) (_ : ∀ k : Fin m, b k = if k.val = 0 then 1 else if k.val = 1 then q else 0) (t : RTree m) (_ : t.Valid),
        t.eval (fun x y => fl (x + y)) b = 1 := by
      intro m hm b hb t ht
      rw [eval_absorb a1 a2 one hqf zero b ⟨0, by omega⟩ ⟨1, by omega⟩ (by rw [hb, if_pos rfl])
        (by rw [hb, if_neg one_ne_zero, if_pos rfl]) (fun k k0 k1 => by
          rw [hb, if_neg (fun e => k0 (Fin.ext e)), if_neg (fun e => k1 (Fin.ext e))]) t (valid_nodup ht), if_pos (valid_mem ht _)]
    unfold sum
    split
    · rename_i hb
      refine tree (le_batchSize _ _) _ (fun k => ?_) tb htb
      have hm : ∀ (B : Fin (batchSize (1 + 1) false) → ℝ), Vec.fillMasked (1 + 1) B 0 k = if k.val < 1 + 1 then B k else 0 := by
        intro B
        unfold Vec.fillMasked
        by_cases he : 1 + 1 = batchSize (1 + 1) false
        · rw [if_pos he, if_pos (lt_of_lt_of_eq k.isLt he.symm)]
        · rw [if_neg he]
      rw [hm]
      by_cases hk : k.val < 1 + 1
      · rw [if_pos hk, Vec.load_of_lt _ _ _ hk, hg]
        rcases (by omega : k.val = 0 ∨ k.val = 1) with e | e
        · rw [if_pos e, show (⟨k.val, hk⟩ : Fin (1 + 1)) = 0 from Fin.ext e]; exact hsq
        · rw [if_neg (by omega), if_pos e, show (⟨k.val, hk⟩ : Fin (1 + 1)) = 1 from Fin.ext e]; exact hqe
      · rw [if_neg hk, if_neg (by omega), if_neg (by omega)]
    · refine tree (by omega) _ (fun k => ?_) ts hts
      by_cases hk : k.val < 1 + 1
      · rw [dif_pos hk, hg]
        rcases (by omega : k.val = 0 ∨ k.val = 1) with e | e
        · rw [if_pos e, show (⟨k.val, hk⟩ : Fin (1 + 1)) = 0 from Fin.ext e]; exact hsq
        · rw [if_neg (by omega), if_pos e, show (⟨k.val, hk⟩ : Fin (1 + 1)) = 1 from Fin.ext e]; exact hqe
      · rw [dif_neg hk, if_neg (by omega), if_neg (by omega)]
  unfold length
  rw [key, Real.sqrt_one, one, one_mul, habs]

end Mathter.Fl
