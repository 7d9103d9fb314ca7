import Verif.Spec.Underflow
import Verif.Spec.Norm
import Verif.Props.RoundedLinear
import Verif.Props.RoundedQuaternion
import Verif.Props.Compensated
import Verif.Props.IeeeFinite
import Verif.Model.IeeeQuaternion

/-!
# C142: underflow

Results below the smallest normal number lose relative accuracy. For sums this has no effect at all; in sums of products it costs half of the smallest number
per product.
-/

namespace Mathter.Props
open Mathter Red Quat Fx
open scoped Quaternion
variable {c : Cfg} {dim p : ℕ} {q1 q2 q3 : Bool} {e : ℤ} {fl fl₀ : ℝ → ℝ}

private theorem tree_eq (hp : 1 ≤ p) (h₀ : RoundsToNearest p fl₀) (h : Underflows p e fl fl₀) {n : ℕ} (b : Fin n → ℝ) (hb : ∀ i, Grid e (b i)) (t : RTree n) :
    t.eval (fun x y => fl (x + y)) b = t.eval (fun x y => fl₀ (x + y)) b ∧ Grid e (t.eval (fun x y => fl (x + y)) b) := by
  induction t with
  | leaf i => exact ⟨rfl, hb i⟩
  | node l r hl hr =>
    simp only [RTree.eval]
    rw [← hl.1, ← hr.1]
    exact ⟨h.eq_of_grid hp h₀ (grid_add hl.2 hr.2), h.mem hp h₀ _⟩

private theorem sum_eq (hp : 1 ≤ p) (h₀ : RoundsToNearest p fl₀) (h : Underflows p e fl fl₀) (tb : RTree (batchSize dim false)) (ts : RTree (dim + 1))
    (v : Vec c ℝ dim q1) (hv : ∀ i, Grid e (v.get i)) : Fl.sum fl tb ts v = Fl.sum fl₀ tb ts v := by
  have h0 : Grid e 0 := ⟨0, by simp⟩
  unfold Fl.sum
  split
  · rename_i hb
    refine (tree_eq hp h₀ h _ (fun l => ?_) tb).1
    unfold Vec.fillMasked
    split
    · rename_i hl; exact hv ⟨l.val, by omega⟩
    · dsimp only
      split
      · rename_i hl; exact hv ⟨l.val, hl⟩
      · exact h0
  · refine (tree_eq hp h₀ h _ (fun l => ?_) ts).1
    split
    · exact hv _
    · exact h0

/-- C142: the sum of a vector of floats is the same as without underflow, so that its error is that of C76. -/
theorem C142_sum (hp : 1 ≤ p) (h₀ : RoundsToNearest p fl₀) (h : Underflows p e fl fl₀) (tb : RTree (batchSize dim false)) (ts : RTree (dim + 1))
    (htb : tb.Valid) (hts : ts.Valid) (v : Vec c ℝ dim q1) (hv : ∀ i, fl (v.get i) = v.get i) :
    Fl.sum fl tb ts v = Fl.sum fl₀ tb ts v ∧ |Fl.sum fl tb ts v - ∑ i, v.get i| ≤ ((1 + 2 ^ (-(p : ℤ))) ^ (dim - 1) - 1) * ∑ i, |v.get i| := by
  have hg := fun i => h.grid_of_fix hp h₀ (hv i)
  have he := sum_eq hp h₀ h tb ts v hg
  refine ⟨he, ?_⟩
  rw [he]
  exact C76_sum (h₀.rounding hp) tb ts htb hts v fun i => by rw [← h.eq_of_grid hp h₀ (hg i), hv]

/-- C142: the compensated sum of a vector of floats is the same as without underflow, so that its error is that of C19. -/
theorem C142_compensated (hp : 1 ≤ p) (h₀ : RoundsToNearest p fl₀) (h : Underflows p e fl fl₀) (v : Fin dim → ℝ) (hv : ∀ i, fl (v i) = v i) :
    sumCompFl fl v = sumCompFl fl₀ v ∧ |(sumCompFl fl v).1 - ∑ i, v i| ≤ 2 ^ (-(p : ℤ)) * |∑ i, v i| +
      (1 + 2 ^ (-(p : ℤ))) * (compBound dim (2 ^ (-(p : ℤ))) * ∑ i, |v i|) := by
  have add : ∀ {x y : ℝ}, Grid e x → Grid e y → fl (x + y) = fl₀ (x + y) ∧ Grid e (fl₀ (x + y)) := fun hx hy => by
    have := h.eq_of_grid hp h₀ (grid_add hx hy)
    exact ⟨this, this ▸ h.mem hp h₀ _⟩
  have sub : ∀ {x y : ℝ}, Grid e x → Grid e y → fl (x - y) = fl₀ (x - y) ∧ Grid e (fl₀ (x - y)) := fun hx hy => by
    have := h.eq_of_grid hp h₀ (grid_sub hx hy)
    exact ⟨this, this ▸ h.mem hp h₀ _⟩
  have step : ∀ (st : ℝ × ℝ) (x : ℝ), Grid e st.1 → Grid e st.2 → Grid e x →
      sumCompStep (fun a b => fl (a + b)) (fun a b => fl (a - b)) st x = sumCompStep (fun a b => fl₀ (a + b)) (fun a b => fl₀ (a - b)) st x ∧
      Grid e (sumCompStep (fun a b => fl₀ (a + b)) (fun a b => fl₀ (a - b)) st x).1 ∧ Grid e (sumCompStep (fun a b => fl₀ (a + b)) (fun a b => fl₀ (a - b)) st x).2 := by
    rintro ⟨s, k⟩ x hs hk hx
    dsimp only at hs hk
    have a := add hs hx
    have b := sub hs a.2
    have b' := sub hx a.2
    have d := add b.2 hx
    have d' := add b'.2 hs
    have f := add hk d.2
    have f' := add hk d'.2
    unfold sumCompStep
    dsimp only
    rw [a.1, b.1, d.1, f.1, b'.1, d'.1, f'.1]
    refine ⟨rfl, a.2, ?_⟩
    split
    exacts [f.2, f'.2]
  have fold : ∀ (l : List ℝ) (st : ℝ × ℝ), Grid e st.1 → Grid e st.2 → (∀ x ∈ l, Grid e x) →
      l.foldl (sumCompStep (fun a b => fl (a + b)) (fun a b => fl (a - b))) st = l.foldl (sumCompStep (fun a b => fl₀ (a + b)) (fun a b => fl₀ (a - b))) st ∧
      Grid e (l.foldl (sumCompStep (fun a b => fl₀ (a + b)) (fun a b => fl₀ (a - b))) st).1 ∧
      Grid e (l.foldl (sumCompStep (fun a b => fl₀ (a + b)) (fun a b => fl₀ (a - b))) st).2 := by
    intro l
    induction l with
    | nil => intro st h1 h2 _; exact ⟨rfl, h1, h2⟩
    | cons x l ih =>
      intro st h1 h2 hl
      have := step st x h1 h2 (hl x (by simp))
      rw [List.foldl_cons, List.foldl_cons, this.1]
      exact ih _ this.2.1 this.2.2 fun y hy => hl y (by simp [hy])
  have hg := fun i => h.grid_of_fix hp h₀ (hv i)
  have h0 : Grid e 0 := ⟨0, by simp⟩
  obtain ⟨e1, g1, g2⟩ := fold (List.ofFn v) (0, 0) h0 h0 (by simp only [List.mem_ofFn]; rintro _ ⟨i, rfl⟩; exact hg i)
  have he : sumCompFl fl v = sumCompFl fl₀ v := by
    unfold sumCompFl sumCompensated
    rw [e1]
    generalize (List.ofFn v).foldl (sumCompStep (fun a b => fl₀ (a + b)) (fun a b => fl₀ (a - b))) (0, 0) = st at *
    unfold fast2Sum
    dsimp only
    have a := add g1 g2
    have b := sub a.2 g1
    have d := sub g2 b.2
    rw [a.1, b.1, d.1]
  refine ⟨he, ?_⟩
  rw [he]
  exact (C19_error_bound (h₀.rounding hp) v fun i => by rw [← h.eq_of_grid hp h₀ (hg i), hv]).1

/-- From the sum of rounded products to the sum of products. -/
private theorem prod_arith {u g S T P η r x : ℝ} (hg : 0 ≤ g) (h1 : |r - S| ≤ g * T) (h2 : |S - x| ≤ u * P + η) (h3 : T ≤ (1 + u) * P + η) :
    |r - x| ≤ ((1 + g) * (1 + u) - 1) * P + (1 + g) * η := by
  have := abs_add_le (r - S) (S - x)
  rw [sub_add_sub_cancel] at this
  have := mul_le_mul_of_nonneg_left h3 hg
  nlinarith

/-- C142: the dot product: each product that underflows costs at most half of the smallest number. -/
theorem C142_dot (hp : 1 ≤ p) (h₀ : RoundsToNearest p fl₀) (h : Underflows p e fl fl₀) (conv : Bool) (tb : RTree (batchSize dim false)) (ts : RTree (dim + 1))
    (htb : tb.Valid) (hts : ts.Valid) (a : Vec c ℝ dim q1) (b : Vec c ℝ dim q2) :
    |Fl.dot fl conv tb ts a b - ∑ i, a.get i * b.get i| ≤
      ((1 + 2 ^ (-(p : ℤ))) ^ dim - 1) * ∑ i, |a.get i * b.get i| + (1 + 2 ^ (-(p : ℤ))) ^ dim * (dim * (2 ^ e / 2)) := by
  set u : ℝ := 2 ^ (-(p : ℤ)) with hu'
  have hu : 0 ≤ u := by positivity
  have h2 := two_zpow_pos e
  rcases Nat.eq_zero_or_pos dim with h0 | h0
  · subst h0
    have := (C142_sum hp h₀ h tb ts htb hts (Fl.mul fl conv a b) (fun i => i.elim0)).2
    simpa [Fl.dot] using this
  have hs := (C142_sum hp h₀ h tb ts htb hts (Fl.mul fl conv a b) (fun i => by simp only [Fl.mul, Vec.get_doBinary]; exact h.idem hp h₀ _)).2
  simp only [Fl.mul, Vec.get_doBinary] at hs
  change |Fl.dot fl conv tb ts a b - _| ≤ _ at hs
  have e1 : |∑ i, fl (a.get i * b.get i) - ∑ i, a.get i * b.get i| ≤ u * ∑ i, |a.get i * b.get i| + dim * (2 ^ e / 2) := by
    rw [← Finset.sum_sub_distrib]
    refine (Finset.abs_sum_le_sum_abs _ _).trans ((Finset.sum_le_sum fun i _ => h.err hp h₀ _).trans (le_of_eq ?_))
    rw [Finset.sum_add_distrib, ← Finset.mul_sum, Finset.sum_const, Finset.card_univ, Fintype.card_fin, nsmul_eq_mul]
  have e2 : ∑ i, |fl (a.get i * b.get i)| ≤ (1 + u) * ∑ i, |a.get i * b.get i| + dim * (2 ^ e / 2) := by
    refine (Finset.sum_le_sum (g := fun i => (1 + u) * |a.get i * b.get i| + 2 ^ e / 2) fun i _ => ?_).trans (le_of_eq ?_)
    · have := h.err hp h₀ (a.get i * b.get i)
      have := abs_sub_abs_le_abs_sub (fl (a.get i * b.get i)) (a.get i * b.get i)
      linarith
    · rw [Finset.sum_add_distrib, ← Finset.mul_sum, Finset.sum_const, Finset.card_univ, Fintype.card_fin, nsmul_eq_mul]
  have hg : 0 ≤ (1 + u) ^ (dim - 1) - 1 := sub_nonneg.2 (one_le_pow₀ (by linarith))
  have key := prod_arith hg hs e1 e2
  have ep : (1 + u) ^ dim = (1 + ((1 + u) ^ (dim - 1) - 1)) * (1 + u) := by
    rw [add_sub_cancel, ← pow_succ, Nat.sub_add_cancel h0]
  have hle : (1 + ((1 + u) ^ (dim - 1) - 1)) * (dim * (2 ^ e / 2)) ≤ (1 + u) ^ dim * (dim * (2 ^ e / 2)) := by
    refine mul_le_mul_of_nonneg_right ?_ (by positivity)
    rw [ep]
    nlinarith
  rw [ep] at hle ⊢
  linarith

/-- C142: the squared length. -/
theorem C142_length_squared (hp : 1 ≤ p) (h₀ : RoundsToNearest p fl₀) (h : Underflows p e fl fl₀) (conv : Bool) (tb : RTree (batchSize dim false))
    (ts : RTree (dim + 1)) (htb : tb.Valid) (hts : ts.Valid) (v : Vec c ℝ dim q1) :
    |Fl.lengthSquared fl conv tb ts v - ∑ i, v.get i ^ 2| ≤
      ((1 + 2 ^ (-(p : ℤ))) ^ dim - 1) * ∑ i, v.get i ^ 2 + (1 + 2 ^ (-(p : ℤ))) ^ dim * (dim * (2 ^ e / 2)) := by
  have := C142_dot hp h₀ h conv tb ts htb hts v v
  simp only [← sq, abs_sq] at this
  exact this

private theorem madd_step_under (hp : 1 ≤ p) (h₀ : RoundsToNearest p fl₀) (h : Underflows p e fl fl₀) {op : ℝ → ℝ → ℝ → ℝ} (hop : Fl.IsMulAdd fl op) {q : ℕ}
    {a b s T m η : ℝ} (hgm : Grid e m) (hm : |m - s| ≤ ((1 + 2 ^ (-(p : ℤ))) ^ (q + 1) - 1) * T + (1 + 2 ^ (-(p : ℤ))) ^ (q + 1) * η) (hs : |s| ≤ T) :
    Grid e (op a b m) ∧ |op a b m - (s + a * b)| ≤
      ((1 + 2 ^ (-(p : ℤ))) ^ (q + 2) - 1) * (T + |a * b|) + (1 + 2 ^ (-(p : ℤ))) ^ (q + 2) * (η + 2 ^ e / 2) := by
  set u : ℝ := 2 ^ (-(p : ℤ)) with hu'
  have hu : 0 ≤ u := by positivity
  have h2 := two_zpow_pos e
  set G := (1 + u) ^ (q + 1) with hG
  have hG1 : 1 + u ≤ G := by
    have : (1 + u) ^ 1 ≤ (1 + u) ^ (q + 1) := pow_le_pow_right₀ (by linarith) (by omega)
    linarith
  have ep : (1 + u) ^ (q + 2) = G * (1 + u) := by rw [hG, ← pow_succ]
  rw [ep]
  clear_value G
  have hmT : |m| ≤ G * T + G * η := by
    have := abs_sub_abs_le_abs_sub m s
    linarith
  have hT : 0 ≤ T := (abs_nonneg s).trans hs
  have hab := abs_nonneg (a * b)
  -- one rounding of `w + m` with absolute error `θ`, where `w` is near `a * b`
  have core : ∀ {r w θ : ℝ}, |w - a * b| ≤ u * |a * b| + (2 ^ e / 2 - θ) → 0 ≤ θ → θ ≤ 2 ^ e / 2 → |r - (w + m)| ≤ u * |w + m| + θ →
      |r - (s + a * b)| ≤ (G * (1 + u) - 1) * (T + |a * b|) + G * (1 + u) * (η + 2 ^ e / 2) := by
    intro r w θ hw hθ hθ' hr
    have a1 := abs_add_le w m
    have a2 : |w| ≤ (1 + u) * |a * b| + (2 ^ e / 2 - θ) := by
      have := abs_sub_abs_le_abs_sub w (a * b)
      linarith
    have a3 := abs_add_le (r - (w + m)) ((w - a * b) + (m - s))
    have a4 := abs_add_le (w - a * b) (m - s)
    rw [show r - (w + m) + ((w - a * b) + (m - s)) = r - (s + a * b) by ring] at a3
    have a5 : u * |w + m| ≤ u * ((1 + u) * |a * b| + (2 ^ e / 2 - θ) + (G * T + G * η)) := mul_le_mul_of_nonneg_left (by linarith) hu
    have a6 : (1 + u) * (1 + u) * |a * b| ≤ G * (1 + u) * |a * b| := mul_le_mul_of_nonneg_right (by nlinarith) hab
    have a7 : (1 + u) * (2 ^ e / 2) ≤ G * (1 + u) * (2 ^ e / 2) := mul_le_mul_of_nonneg_right (by nlinarith) (by positivity)
    have a8 : 0 ≤ u * θ := mul_nonneg hu hθ
    nlinarith
  rcases hop a b m with h1 | h1
  · rw [h1]
    refine ⟨h.mem hp h₀ _, core (w := fl (a * b)) (θ := 0) (by rw [sub_zero]; exact h.err hp h₀ _) le_rfl (by positivity) ?_⟩
    rw [add_zero]
    exact h.err_grid hp h₀ (grid_add (h.mem hp h₀ _) hgm)
  · rw [h1]
    refine ⟨h.mem hp h₀ _, core (w := a * b) (θ := 2 ^ e / 2) (by rw [sub_self, abs_zero, sub_self, add_zero]; positivity) (by positivity) le_rfl
      (h.err hp h₀ _)⟩

private theorem accum_under {k : ℕ} [NeZero k] (hp : 1 ≤ p) (h₀ : RoundsToNearest p fl₀) (h : Underflows p e fl fl₀) {op : ℝ → ℝ → ℝ → ℝ} (hop : Fl.IsMulAdd fl op)
    (x y : Fin k → ℝ) : |accum fl op x y - ∑ q, x q * y q| ≤
      ((1 + 2 ^ (-(p : ℤ))) ^ k - 1) * ∑ q, |x q * y q| + (1 + 2 ^ (-(p : ℤ))) ^ k * (k * (2 ^ e / 2)) := by
  have hk : 1 ≤ k := Nat.one_le_iff_ne_zero.2 (NeZero.ne k)
  have h2 := two_zpow_pos e
  have := forUp_inv (n := k) (lo := 1) (body := fun q s => op (x q) (y q) s) (s := fl (x 0 * y 0))
    (fun q s => ∃ q', q = q' + 1 ∧ Grid e s ∧ |s - psum (fun q => x q * y q) q| ≤ ((1 + 2 ^ (-(p : ℤ))) ^ (q' + 1) - 1) * psum (fun q => |x q * y q|) q +
      (1 + 2 ^ (-(p : ℤ))) ^ (q' + 1) * ((q : ℝ) * (2 ^ e / 2))) hk ?_ ?_
  · obtain ⟨q', e1, -, e2⟩ := this
    rw [psum_all, psum_all, ← e1] at e2
    exact e2
  · refine ⟨0, rfl, h.mem hp h₀ _, ?_⟩
    rw [psum_one', psum_one', zero_add, pow_one, add_sub_cancel_left]
    refine (h.err hp h₀ _).trans (add_le_add le_rfl ?_)
    have : (0 : ℝ) ≤ 2 ^ (-(p : ℤ)) := by positivity
    push_cast
    nlinarith
  · rintro q s - ⟨q', e1, h1, h3⟩
    have := madd_step_under hp h₀ h hop (a := x q) (b := y q) (η := (q : ℝ) * (2 ^ e / 2)) h1 h3 (psum_abs_le _ _)
    refine ⟨q' + 1, by omega, this.1, ?_⟩
    rw [psum_succ, psum_succ]
    refine this.2.trans (le_of_eq ?_)
    push_cast
    ring

variable {r k n : ℕ} {o : Order} {L L' : Layout}

/-- C142: products of matrices of floats, for every layout and with or without fused operations. -/
theorem C142_mul [NeZero k] (hp : 1 ≤ p) (h₀ : RoundsToNearest p fl₀) (h : Underflows p e fl fl₀) {op : ℝ → ℝ → ℝ → ℝ} (hop : Fl.IsMulAdd fl op) (conv : Bool)
    (tb : RTree (batchSize k false)) (ts : RTree (k + 1)) (htb : tb.Valid) (hts : ts.Valid) (m0 : Mat c ℝ r n o L (q1 && q2)) (a : Mat c ℝ r k o L q1)
    (b : Mat c ℝ k n o L' q2) (i : Fin r) (j : Fin n) :
    |(Fl.matMul fl op conv tb ts m0 a b).get i j - ∑ q, a.get i q * b.get q j| ≤
      ((1 + 2 ^ (-(p : ℤ))) ^ k - 1) * ∑ q, |a.get i q * b.get q j| + (1 + 2 ^ (-(p : ℤ))) ^ k * (k * (2 ^ e / 2)) := by
  cases L
  · cases L'
    · simp only [Fl.matMul]; rw [mulRR_get']; exact accum_under hp h₀ h hop _ _
    · simp only [Fl.matMul, Fl.mulRC, Mat.get_fillLoop]
      exact C142_dot hp h₀ h conv tb ts htb hts (a.stripes i) (b.stripes j)
  · simp only [Fl.matMul]; rw [mulC_get']; exact accum_under hp h₀ h hop _ _

/-- C142: vector × matrix of floats. -/
theorem C142_vec_mul [NeZero k] (hp : 1 ≤ p) (h₀ : RoundsToNearest p fl₀) (h : Underflows p e fl fl₀) {op : ℝ → ℝ → ℝ → ℝ} (hop : Fl.IsMulAdd fl op) (conv : Bool)
    (tb : RTree (batchSize k false)) (ts : RTree (k + 1)) (htb : tb.Valid) (hts : ts.Valid) (v0 : Vec c ℝ n (q1 && q2)) (v : Vec c ℝ k q1)
    (m : Mat c ℝ k n .follow L q2) (j : Fin n) :
    |Fl.vecMul fl op conv tb ts v0 v m j - ∑ q, v.get q * m.get q j| ≤
      ((1 + 2 ^ (-(p : ℤ))) ^ k - 1) * ∑ q, |v.get q * m.get q j| + (1 + 2 ^ (-(p : ℤ))) ^ k * (k * (2 ^ e / 2)) := by
  cases L
  · simp only [Fl.vecMul]; rw [vecMulR_get']; exact accum_under hp h₀ h hop _ _
  · simp only [Fl.vecMul, Fl.vecMulC, Vec.get_setLoop]
    exact C142_dot hp h₀ h conv tb ts htb hts v (m.stripes j)

/-- C142: matrix × vector of floats. -/
theorem C142_mul_vec [NeZero k] (hp : 1 ≤ p) (h₀ : RoundsToNearest p fl₀) (h : Underflows p e fl fl₀) {op : ℝ → ℝ → ℝ → ℝ} (hop : Fl.IsMulAdd fl op) (conv : Bool)
    (tb : RTree (batchSize k false)) (ts : RTree (k + 1)) (htb : tb.Valid) (hts : ts.Valid) (v0 : Vec c ℝ n (q2 && q1)) (f0 : Mat c ℝ k n .follow L.flip q1)
    (m : Mat c ℝ n k .precede L q1) (v : Vec c ℝ k q2) (i : Fin n) :
    |Fl.mulVec fl op conv tb ts v0 f0 m v i - ∑ q, m.get i q * v.get q| ≤
      ((1 + 2 ^ (-(p : ℤ))) ^ k - 1) * ∑ q, |m.get i q * v.get q| + (1 + 2 ^ (-(p : ℤ))) ^ k * (k * (2 ^ e / 2)) := by
  have := C142_vec_mul hp h₀ h hop conv tb ts htb hts v0 v (Mat.flipLayoutAndOrder (o := .precede) f0 m) i
  have e : ∀ q, (Mat.flipLayoutAndOrder (o := .precede) f0 m).get q i = m.get i q := fun q =>
    congrFun (congrFun (C21_convert_order (o := .precede) f0 m) q) i
  simp only [e, mul_comm (v.get _)] at this
  exact this

/-! ## Lengths -/

/-- The square root of a multiple of the smallest number is far above it. -/
private theorem sqrt_normal (hp : 1 ≤ p) (h₀ : RoundsToNearest p fl₀) (h : Underflows p e fl fl₀) (he : 2 * ((p : ℤ) - 1) + e ≤ 0) {x : ℝ} (hx : Grid e x) :
    fl (Real.sqrt x) = fl₀ (Real.sqrt x) := by
  rcases le_or_gt x 0 with h0 | h0
  · rw [Real.sqrt_eq_zero_of_nonpos h0]
    exact h.eq_of_grid hp h₀ ⟨0, by simp⟩
  · refine h.normal _ ?_
    rw [abs_of_nonneg (Real.sqrt_nonneg _)]
    apply Real.le_sqrt_of_sq_le
    obtain ⟨k, rfl⟩ := hx
    have h2 := two_zpow_pos e
    have hk : (1 : ℝ) ≤ k := by
      have : 0 < k := by
        by_contra hc
        have : (k : ℝ) ≤ 0 := by exact_mod_cast not_lt.1 hc
        nlinarith
      exact_mod_cast this
    calc ((2 : ℝ) ^ ((p : ℤ) - 1 + e)) ^ 2 = 2 ^ (2 * ((p : ℤ) - 1) + e) * 2 ^ e := by
          rw [← zpow_natCast, ← zpow_mul, ← zpow_add₀ (by norm_num)]; congr 1; push_cast; ring
      _ ≤ 1 * 2 ^ e := mul_le_mul_of_nonneg_right (zpow_le_one_of_nonpos₀ (by norm_num) he) h2.le
      _ ≤ k * 2 ^ e := mul_le_mul_of_nonneg_right hk h2.le

/-- From the squared length to the length. -/
private theorem sqrt_arith {g S E q : ℝ} (hg : 0 ≤ g) (hS : 0 ≤ S) (hE : 0 ≤ E) (h : |q - S| ≤ g * S + E) :
    |Real.sqrt q - Real.sqrt S| ≤ g * Real.sqrt S + Real.sqrt E := by
  have s0 := Real.sqrt_nonneg S
  have s1 := Real.sqrt_nonneg E
  have s2 := Real.sq_sqrt hS
  have s3 := Real.sq_sqrt hE
  obtain ⟨h1, h2⟩ := abs_le.1 h
  rw [abs_le]
  constructor
  · rcases le_or_gt (Real.sqrt S) (g * Real.sqrt S + Real.sqrt E) with hl | hl
    · have := Real.sqrt_nonneg q
      linarith
    · suffices Real.sqrt S - (g * Real.sqrt S + Real.sqrt E) ≤ Real.sqrt q by linarith
      apply Real.le_sqrt_of_sq_le
      -- with `d` for the margin: `(s - d)² ≤ s² - d s ≤ s² - g s² - E`
      have a : Real.sqrt E ≤ Real.sqrt S := by nlinarith [mul_nonneg hg s0]
      have b : Real.sqrt E * Real.sqrt E ≤ Real.sqrt S * Real.sqrt E := mul_le_mul_of_nonneg_right a s1
      have d0 : 0 ≤ g * Real.sqrt S + Real.sqrt E := by positivity
      have k : (Real.sqrt S - (g * Real.sqrt S + Real.sqrt E)) * (Real.sqrt S - (g * Real.sqrt S + Real.sqrt E)) ≤
          (Real.sqrt S - (g * Real.sqrt S + Real.sqrt E)) * Real.sqrt S := mul_le_mul_of_nonneg_left (by linarith) (by linarith)
      nlinarith
  · suffices Real.sqrt q ≤ Real.sqrt S + (g * Real.sqrt S + Real.sqrt E) by linarith
    rw [Real.sqrt_le_left (by positivity)]
    have a : 0 ≤ g * Real.sqrt S * Real.sqrt S := by positivity
    have b : 0 ≤ Real.sqrt S * Real.sqrt E := by positivity
    have d : 0 ≤ (g * Real.sqrt S + Real.sqrt E) * (g * Real.sqrt S + Real.sqrt E) - Real.sqrt E * Real.sqrt E := by
      have : 0 ≤ g * Real.sqrt S := by positivity
      nlinarith
    nlinarith

private theorem round_arith {u g s E L l : ℝ} (hu : 0 ≤ u) (hs : 0 ≤ s) (h1 : |L - l| ≤ u * |l|) (h2 : |l - s| ≤ g * s + E) :
    |L - s| ≤ ((1 + g) * (1 + u) - 1) * s + (1 + u) * E := by
  have a := abs_add_le (L - l) (l - s)
  rw [sub_add_sub_cancel] at a
  have b := abs_sub_abs_le_abs_sub l s
  rw [abs_of_nonneg hs] at b
  have := mul_le_mul_of_nonneg_left (show |l| ≤ s + (g * s + E) by linarith) hu
  nlinarith

/-- C142: `Length`. Missing: a bound relative to the length. `C142_length_violated` shows that there is none. -/
theorem C142_length_partial (hp : 1 ≤ p) (h₀ : RoundsToNearest p fl₀) (h : Underflows p e fl fl₀) (he : 2 * ((p : ℤ) - 1) + e ≤ 0) (conv : Bool)
    (tb : RTree (batchSize dim false)) (ts : RTree (dim + 1)) (htb : tb.Valid) (hts : ts.Valid) (v : Vec c ℝ dim q1) :
    |Fl.length fl conv tb ts v - norm2 v.get| ≤ ((1 + 2 ^ (-(p : ℤ))) ^ (dim + 1) - 1) * norm2 v.get +
      (1 + 2 ^ (-(p : ℤ))) * Real.sqrt ((1 + 2 ^ (-(p : ℤ))) ^ dim * (dim * (2 ^ e / 2))) := by
  have h2 := two_zpow_pos e
  have hu : (0 : ℝ) ≤ 2 ^ (-(p : ℤ)) := by positivity
  have hq := C142_length_squared hp h₀ h conv tb ts htb hts v
  have hG : Grid e (Fl.lengthSquared fl conv tb ts v) := by
    unfold Fl.lengthSquared Fl.dot Fl.sum
    have hm : ∀ i, Grid e ((Fl.mul fl conv v v).get i) := fun i => by simp only [Fl.mul, Vec.get_doBinary]; exact h.mem hp h₀ _
    have hz : Grid e 0 := ⟨0, by simp⟩
    split
    · rename_i hb
      refine (tree_eq hp h₀ h _ (fun l => ?_) tb).2
      unfold Vec.fillMasked
      split
      · rename_i hl; exact hm ⟨l.val, by omega⟩
      · dsimp only
        split
        · rename_i hl; exact hm ⟨l.val, hl⟩
        · exact hz
    · refine (tree_eq hp h₀ h _ (fun l => ?_) ts).2
      split
      · exact hm _
      · exact hz
  have hg : (0 : ℝ) ≤ (1 + 2 ^ (-(p : ℤ))) ^ dim - 1 := sub_nonneg.2 (one_le_pow₀ (by linarith))
  have hE : (0 : ℝ) ≤ (1 + 2 ^ (-(p : ℤ))) ^ dim * (dim * (2 ^ e / 2)) := by positivity
  have k := sqrt_arith hg (Finset.sum_nonneg fun i _ => sq_nonneg (v.get i)) hE hq
  have r : |Fl.length fl conv tb ts v - Real.sqrt (Fl.lengthSquared fl conv tb ts v)| ≤ 2 ^ (-(p : ℤ)) * |Real.sqrt (Fl.lengthSquared fl conv tb ts v)| := by
    unfold Fl.length
    rw [sqrt_normal hp h₀ h he hG]
    exact (h₀.rounding hp).err _
  have := round_arith hu (norm2_nonneg v.get) r k
  rw [add_sub_cancel, ← pow_succ] at this
  exact this

/-- C142: `Distance` of vectors of floats: the difference does not underflow. -/
theorem C142_distance_partial (hp : 1 ≤ p) (h₀ : RoundsToNearest p fl₀) (h : Underflows p e fl fl₀) (he : 2 * ((p : ℤ) - 1) + e ≤ 0) (conv : Bool)
    (tb : RTree (batchSize dim false)) (ts : RTree (dim + 1)) (htb : tb.Valid) (hts : ts.Valid) (a : Vec c ℝ dim q1) (b : Vec c ℝ dim q2)
    (ha : ∀ i, fl (a.get i) = a.get i) (hb : ∀ i, fl (b.get i) = b.get i) :
    |Fl.distance fl conv tb ts a b - norm2 (fun i => a.get i - b.get i)| ≤ ((1 + 2 ^ (-(p : ℤ))) ^ (dim + 2) - 1) * norm2 (fun i => a.get i - b.get i) +
      (1 + 2 ^ (-(p : ℤ))) * Real.sqrt ((1 + 2 ^ (-(p : ℤ))) ^ dim * (dim * (2 ^ e / 2))) := by
  have hu : (0 : ℝ) ≤ 2 ^ (-(p : ℤ)) := by positivity
  have k := C142_length_partial hp h₀ h he conv tb ts htb hts (Fl.sub fl conv a b)
  have n : |norm2 (Fl.sub fl conv a b).get - norm2 (fun i => a.get i - b.get i)| ≤ 2 ^ (-(p : ℤ)) * norm2 (fun i => a.get i - b.get i) := by
    refine (norm2_sub_le _ _).trans (norm2_le_mul hu fun i => ?_)
    simp only [Fl.sub, Vec.get_doBinary]
    exact h.err_grid hp h₀ (grid_sub (h.grid_of_fix hp h₀ (ha i)) (h.grid_of_fix hp h₀ (hb i)))
  change |Fl.distance fl conv tb ts a b - _| ≤ _ at k
  have g1 : (1 : ℝ) ≤ (1 + 2 ^ (-(p : ℤ))) ^ (dim + 1) := one_le_pow₀ (by linarith)
  have t := abs_add_le (Fl.distance fl conv tb ts a b - norm2 (Fl.sub fl conv a b).get) (norm2 (Fl.sub fl conv a b).get - norm2 (fun i => a.get i - b.get i))
  rw [sub_add_sub_cancel] at t
  have n1 := (abs_le.1 n).2
  rw [pow_succ _ (dim + 1)]
  have := mul_le_mul_of_nonneg_left (sub_le_iff_le_add.1 n1) (sub_nonneg.2 g1)
  nlinarith

/-- C142: when all squares underflow, `Length` is zero, although the vector is not. -/
theorem C142_length_violated (hp : 1 ≤ p) (h₀ : RoundsToNearest p fl₀) (h : Underflows p e fl fl₀) (conv : Bool) (tb : RTree (batchSize dim false))
    (ts : RTree (dim + 1)) (htb : tb.Valid) (hts : ts.Valid) (v : Vec c ℝ dim q1) (hv : ∀ i, v.get i ^ 2 < 2 ^ e / 2) : Fl.length fl conv tb ts v = 0 := by
  have h2 := two_zpow_pos e
  have z : ∀ x : ℝ, 0 ≤ x → x < 2 ^ e / 2 → fl x = 0 := fun x hx0 hx => by
    have hs : |x| < (2 : ℝ) ^ ((p : ℤ) - 1 + e) := by
      rw [abs_of_nonneg hx0]
      have : (2 : ℝ) ^ e ≤ 2 ^ ((p : ℤ) - 1 + e) := zpow_le_zpow_right₀ (by norm_num) (by omega)
      linarith
    obtain ⟨k, hk⟩ := h.grid x hs
    have hn := h.near x hs
    have hb : |fl x| < 2 ^ e := by
      have := abs_sub_abs_le_abs_sub (fl x) x
      rw [abs_of_nonneg hx0] at this
      linarith
    rw [hk, abs_mul, abs_of_pos h2] at hb
    have h3 : |(k : ℝ)| < 1 := by
      by_contra hc
      push Not at hc
      nlinarith
    have h4 : k = 0 := by
      have : |k| < 1 := by exact_mod_cast h3
      exact Int.abs_lt_one_iff.1 this
    rw [hk, h4]; simp
  have hs := (C142_sum hp h₀ h tb ts htb hts (Fl.mul fl conv v v) (fun i => by simp only [Fl.mul, Vec.get_doBinary]; exact h.idem hp h₀ _)).2
  have hm : ∀ i, (Fl.mul fl conv v v).get i = 0 := fun i => by
    simp only [Fl.mul, Vec.get_doBinary]
    have := hv i
    rw [sq] at this
    exact z _ (mul_self_nonneg _) this
  simp only [hm, abs_zero, Finset.sum_const_zero, mul_zero, sub_zero] at hs
  have e0 : Fl.lengthSquared fl conv tb ts v = 0 := abs_nonpos_iff.1 hs
  unfold Fl.length
  rw [e0, Real.sqrt_zero, h.zero hp h₀]

/-! ## Quaternions -/

variable {l1 l2 : QLayout}

/-- C142: every element of the product of two quaternions of floats. -/
theorem C142_qmul_elements (hp : 1 ≤ p) (h₀ : RoundsToNearest p fl₀) (h : Underflows p e fl fl₀) (x : Quat ℝ l1) (y : Quat ℝ l2)
    (hx : ∀ t, fl (x.canonical t) = x.canonical t) :
    let B := ((1 + (2 : ℝ) ^ (-(p : ℤ))) ^ 4 - 1) * (‖toH x‖ * ‖toH y‖) + (1 + 2 ^ (-(p : ℤ))) ^ 4 * (4 * (2 ^ e / 2))
    |(Fl.qmul fl x y).s - (toH x * toH y).re| ≤ B ∧ |(Fl.qmul fl x y).i - (toH x * toH y).imI| ≤ B ∧
    |(Fl.qmul fl x y).j - (toH x * toH y).imJ| ≤ B ∧ |(Fl.qmul fl x y).k - (toH x * toH y).imK| ≤ B := by
  intro B
  have hu : (0 : ℝ) ≤ 2 ^ (-(p : ℤ)) := by positivity
  have hg : (0 : ℝ) ≤ (1 + 2 ^ (-(p : ℤ))) ^ 4 - 1 := sub_nonneg.2 (one_le_pow₀ (by linarith))
  have hi : fl x.i = x.i := hx 1
  have hj : fl x.j = x.j := hx 2
  have hk : fl x.k = x.k := hx 3
  have n : ∀ {z : ℝ}, fl z = z → fl (-1 * z) = -z := fun hz => by rw [neg_one_mul]; exact h.neg hp h₀ hz
  have o : ∀ {z : ℝ}, fl z = z → fl (1 * z) = z := fun hz => by rw [one_mul, hz]
  have four : ∀ a b c d a' b' c' d' : ℝ, |fl (fl (fl (fl (a * a') + fl (b * b')) + fl (c * c')) + fl (d * d')) - (a * a' + b * b' + c * c' + d * d')| ≤
      ((1 + 2 ^ (-(p : ℤ))) ^ 4 - 1) * (Real.sqrt (a ^ 2 + b ^ 2 + c ^ 2 + d ^ 2) * Real.sqrt (a' ^ 2 + b' ^ 2 + c' ^ 2 + d' ^ 2)) +
        (1 + 2 ^ (-(p : ℤ))) ^ 4 * (4 * (2 ^ e / 2)) := fun a b c d a' b' c' d' => by
    have := accum_under (k := 4) hp h₀ h (op := fun x y s => fl (s + fl (x * y))) (fun x y s => Or.inl (by rw [add_comm])) ![a, b, c, d] ![a', b', c', d']
    have e1 : accum fl (fun x y s => fl (s + fl (x * y))) ![a, b, c, d] ![a', b', c', d'] =
        fl (fl (fl (fl (a * a') + fl (b * b')) + fl (c * c')) + fl (d * d')) := rfl
    rw [e1, Fin.sum_univ_four, Fin.sum_univ_four] at this
    refine this.trans (add_le_add (mul_le_mul_of_nonneg_left (cauchy4 a b c d a' b' c' d') hg) (le_of_eq (by push_cast; rfl)))
  have e0 : (Fl.qmul fl x y).s = fl (fl (fl (fl (x.s * y.s) + fl (-x.i * y.i)) + fl (-x.j * y.j)) + fl (-x.k * y.k)) := by
    rw [s_eq, Fl.qmul, canonical_ofCanonical, ← n hi, ← n hj, ← n hk]; rfl
  have e1 : (Fl.qmul fl x y).i = fl (fl (fl (fl (x.s * y.i) + fl (x.i * y.s)) + fl (x.j * y.k)) + fl (-x.k * y.j)) := by
    conv_rhs => rw [← n hk, ← o hi, ← o hj]
    rw [i_eq, Fl.qmul, canonical_ofCanonical]; rfl
  have e2 : (Fl.qmul fl x y).j = fl (fl (fl (fl (x.s * y.j) + fl (-x.i * y.k)) + fl (x.j * y.s)) + fl (x.k * y.i)) := by
    conv_rhs => rw [← n hi, ← o hj, ← o hk]
    rw [j_eq, Fl.qmul, canonical_ofCanonical]; rfl
  have e3 : (Fl.qmul fl x y).k = fl (fl (fl (fl (x.s * y.k) + fl (x.i * y.j)) + fl (-x.j * y.i)) + fl (x.k * y.s)) := by
    conv_rhs => rw [← n hj, ← o hi, ← o hk]
    rw [k_eq, Fl.qmul, canonical_ofCanonical]; rfl
  have hB : B = ((1 + (2 : ℝ) ^ (-(p : ℤ))) ^ 4 - 1) * (Real.sqrt (x.s ^ 2 + x.i ^ 2 + x.j ^ 2 + x.k ^ 2) * Real.sqrt (y.s ^ 2 + y.i ^ 2 + y.j ^ 2 + y.k ^ 2)) +
      (1 + 2 ^ (-(p : ℤ))) ^ 4 * (4 * (2 ^ e / 2)) := by
    show _ + _ = _
    rw [norm_eq, norm_eq]; rfl
  rw [e0, e1, e2, e3, hB, Quaternion.re_mul, Quaternion.imI_mul, Quaternion.imJ_mul, Quaternion.imK_mul]
  simp only [re_toH, imI_toH, imJ_toH, imK_toH]
  clear e0 e1 e2 e3 hB hi hj hk
  clear B
  generalize x.s = a at *; generalize x.i = b at *; generalize x.j = c at *; generalize x.k = d at *
  generalize y.s = a' at *; generalize y.i = b' at *; generalize y.j = c' at *; generalize y.k = d' at *
  refine ⟨?_, ?_, ?_, ?_⟩
  · have k := four a (-b) (-c) (-d) a' b' c' d'
    simp only [neg_sq] at k
    convert k using 3; ring
  · have k := four a b c (-d) b' a' d' c'
    rw [show b' ^ 2 + a' ^ 2 + d' ^ 2 + c' ^ 2 = a' ^ 2 + b' ^ 2 + c' ^ 2 + d' ^ 2 by ring] at k
    simp only [neg_sq] at k
    convert k using 3; ring
  · have k := four a (-b) c d c' d' a' b'
    rw [show c' ^ 2 + d' ^ 2 + a' ^ 2 + b' ^ 2 = a' ^ 2 + b' ^ 2 + c' ^ 2 + d' ^ 2 by ring] at k
    simp only [neg_sq] at k
    convert k using 3; ring
  · have k := four a b (-c) d d' c' b' a'
    rw [show d' ^ 2 + c' ^ 2 + b' ^ 2 + a' ^ 2 = a' ^ 2 + b' ^ 2 + c' ^ 2 + d' ^ 2 by ring] at k
    simp only [neg_sq] at k
    convert k using 3; ring

/-- C142: the product of two quaternions of floats. -/
theorem C142_qmul (hp : 1 ≤ p) (h₀ : RoundsToNearest p fl₀) (h : Underflows p e fl fl₀) (x : Quat ℝ l1) (y : Quat ℝ l2)
    (hx : ∀ t, fl (x.canonical t) = x.canonical t) :
    ‖toH (Fl.qmul fl x y) - toH x * toH y‖ ≤
      2 * (((1 + 2 ^ (-(p : ℤ))) ^ 4 - 1) * (‖toH x‖ * ‖toH y‖) + (1 + 2 ^ (-(p : ℤ))) ^ 4 * (4 * (2 ^ e / 2))) := by
  obtain ⟨e0, e1, e2, e3⟩ := C142_qmul_elements hp h₀ h x y hx
  exact norm_le_two ((abs_nonneg _).trans e0) e0 e1 e2 e3

/-! ## Together with overflow -/

variable {flx : ℝ → Fx}

/-- C142: a finite dot product, when products may underflow and anything may overflow. -/
theorem C142_ieee_dot (hf : Overflows flx fl) (hp : 1 ≤ p) (h₀ : RoundsToNearest p fl₀) (h : Underflows p e fl fl₀) (conv : Bool) (tb : RTree (batchSize dim false))
    (ts : RTree (dim + 1)) (htb : tb.Valid) (hts : ts.Valid) (a : Vec c Fx dim q1) (b : Vec c Fx dim q2) (x y : Fin dim → ℝ) (ha : ∀ i, a.get i = .fin (x i))
    (hb : ∀ i, b.get i = .fin (y i)) (z : ℝ) (hz : Ie.dot flx conv tb ts a b = .fin z) :
    |z - ∑ i, x i * y i| ≤ ((1 + 2 ^ (-(p : ℤ))) ^ dim - 1) * ∑ i, |x i * y i| + (1 + 2 ^ (-(p : ℤ))) ^ dim * (dim * (2 ^ e / 2)) := by
  have e1 := Ie.dot_tracks hf conv tb ts (a := a) (b := b) (a₀ := Vec.ofFn x) (b₀ := Vec.ofFn y) (fun i => by rw [ha, Vec.get_ofFn]; exact tracks_fin _)
    (fun i => by rw [hb, Vec.get_ofFn]; exact tracks_fin _) z hz
  have := C142_dot hp h₀ h conv tb ts htb hts (Vec.ofFn x : Vec c ℝ dim q1) (Vec.ofFn y : Vec c ℝ dim q2)
  simp only [Vec.get_ofFn] at this
  rwa [e1]

/-- C142: a finite length. -/
theorem C142_ieee_length_partial (hf : Overflows flx fl) (hp : 1 ≤ p) (h₀ : RoundsToNearest p fl₀) (h : Underflows p e fl fl₀) (he : 2 * ((p : ℤ) - 1) + e ≤ 0)
    (conv : Bool) (tb : RTree (batchSize dim false)) (ts : RTree (dim + 1)) (htb : tb.Valid) (hts : ts.Valid) (v : Vec c Fx dim q1) (x : Fin dim → ℝ)
    (hv : ∀ i, v.get i = .fin (x i)) (z : ℝ) (hz : Ie.length flx conv tb ts v = .fin z) :
    |z - norm2 x| ≤ ((1 + 2 ^ (-(p : ℤ))) ^ (dim + 1) - 1) * norm2 x +
      (1 + 2 ^ (-(p : ℤ))) * Real.sqrt ((1 + 2 ^ (-(p : ℤ))) ^ dim * (dim * (2 ^ e / 2))) := by
  have hv' : ∀ i, Tracks (v.get i) ((Vec.ofFn x : Vec c ℝ dim q1).get i) := fun i => by rw [hv, Vec.get_ofFn]; exact tracks_fin _
  have e1 := (Ie.dot_tracks hf conv tb ts hv' hv').sqrt hf z hz
  have := C142_length_partial hp h₀ h he conv tb ts htb hts (Vec.ofFn x : Vec c ℝ dim q1)
  rw [show (Vec.ofFn x : Vec c ℝ dim q1).get = x from funext fun i => Vec.get_ofFn _ _] at this
  rwa [e1]

private theorem ie_tree_zero {n : ℕ} (h0 : flx 0 = .fin 0) (b : Fin n → Fx) (hb : ∀ i, b i = .fin 0) (t : RTree n) : t.eval (Fx.add flx) b = .fin 0 := by
  induction t with
  | leaf i => exact hb i
  | node l r hl hr =>
    simp only [RTree.eval]
    rw [hl, hr]
    show flx (0 + 0) = _
    rw [add_zero, h0]

private theorem ie_dot_zero (h0 : flx 0 = .fin 0) (conv : Bool) (tb : RTree (batchSize dim false)) (ts : RTree (dim + 1)) (v : Vec c Fx dim q1) (x : Fin dim → ℝ)
    (hv : ∀ i, v.get i = .fin (x i)) (hx : ∀ i, flx (x i * x i) = .fin 0) : Ie.dot flx conv tb ts v v = .fin 0 := by
  have hm : ∀ i, (Vec.doBinary conv (Fx.mul flx) v v : Vec c Fx dim (q1 && q1)).get i = .fin 0 := fun i => by
    rw [Vec.get_doBinary, hv]; exact hx i
  unfold Ie.dot Ie.sum
  split
  · refine ie_tree_zero h0 _ (fun l => ?_) tb
    unfold Vec.fillMasked
    split
    · rename_i hl; exact hm ⟨l.val, by omega⟩
    · dsimp only
      split
      · rename_i hl; exact hm ⟨l.val, hl⟩
      · rfl
  · refine ie_tree_zero h0 _ (fun l => ?_) ts
    split
    · exact hm _
    · rfl

/-- C142: when all squares underflow, `Normalize` fails its assertion that the length is not zero, ... -/
theorem C142_normalize_violated (h0 : flx 0 = .fin 0) (conv : Bool) (tb : RTree (batchSize dim false)) (ts : RTree (dim + 1)) (v : Vec c Fx dim q1)
    (x : Fin dim → ℝ) (hv : ∀ i, v.get i = .fin (x i)) (hx : ∀ i, flx (x i * x i) = .fin 0) : Ie.normalize flx conv tb ts v = none := by
  have hL : Ie.length flx conv tb ts v = .fin 0 := by
    unfold Ie.length
    rw [ie_dot_zero h0 conv tb ts v x hv hx]
    show (if (0 : ℝ) < 0 then Fx.nan else flx (Real.sqrt 0)) = _
    rw [if_neg (lt_irrefl _), Real.sqrt_zero, h0]
  unfold Ie.normalize
  dsimp only
  rw [hL, if_pos (show ((Fx.fin 0 == Fx.fin 0) = true) from decide_eq_true rfl)]

/-- C142: ... and so does `Inverse` of a quaternion. -/
theorem C142_inverse_violated (h0 : flx 0 = .fin 0) (c : Cfg) (pk conv : Bool) (tb : RTree (batchSize 4 false)) (ts : RTree (4 + 1)) (q : Quat Fx l1) (x : Fin 4 → ℝ)
    (hq : ∀ t, q.elements t = .fin (x t)) (hx : ∀ t, flx (x t * x t) = .fin 0) : Ie.qinverse c pk flx conv tb ts q = none := by
  have hL : Ie.qlengthSquared c pk flx conv tb ts q = .fin 0 := ie_dot_zero h0 conv tb ts _ x (fun i => by rw [Vec.get_ofFn, hq]) hx
  unfold Ie.qinverse
  rw [hL, if_pos (show ((Fx.fin 0 == Fx.fin 0) = true) from decide_eq_true rfl)]

/-! ## Instances -/

/-- Single precision with gradual underflow. -/
noncomputable def flSmall : ℝ → ℝ := flGradual 24 (-149) (flAway 24)

theorem flSmall_underflows : Underflows 24 (-149) flSmall (flAway 24) := flGradual_underflows _ _ _

/-- The hypotheses hold for single and double precision. -/
example : RoundsToNearest 24 (flAway 24) ∧ Underflows 24 (-149) flSmall (flAway 24) ∧ 2 * (((24 : ℕ) : ℤ) - 1) + -149 ≤ 0 ∧
    2 * (((53 : ℕ) : ℤ) - 1) + -1074 ≤ 0 :=
  ⟨flAway_roundsToNearest (by norm_num), flSmall_underflows, by norm_num, by norm_num⟩

/-- The vector `(2^-80, 2^-80)` of floats has length zero. -/
example (conv : Bool) (tb : RTree (batchSize 2 false)) (ts : RTree (2 + 1)) (htb : tb.Valid) (hts : ts.Valid) :
    Fl.length flSmall conv tb ts (Vec.ofFn (fun _ => 2 ^ (-80 : ℤ)) : Vec c ℝ 2 q1) = 0 := by
  refine C142_length_violated (by norm_num) (flAway_roundsToNearest (by norm_num)) flSmall_underflows conv tb ts htb hts _ fun i => ?_
  rw [Vec.get_ofFn]
  norm_num [zpow_neg]

/-- `2^-100 · 2^-50` is lost to rounding: the error is half of the smallest number. -/
example : flSmall (2 ^ (-100 : ℤ) * 2 ^ (-50 : ℤ)) = 2 ^ (-149 : ℤ) := by
  unfold flSmall flGradual
  rw [← zpow_add₀ (by norm_num), if_pos]
  · rw [← zpow_sub₀ (by norm_num), show (2 : ℝ) ^ (-100 + -50 - -149 : ℤ) = 1 / 2 by norm_num, show round (1 / 2 : ℝ) = 1 by rw [one_div]; exact round_two_inv]
    simp
  · rw [abs_of_pos (two_zpow_pos _)]
    exact zpow_lt_zpow_right₀ (by norm_num) (by norm_num)

private theorem flSmall_lost : flSmall (2 ^ (-80 : ℤ) * 2 ^ (-80 : ℤ)) = 0 := by
  unfold flSmall flGradual
  rw [← zpow_add₀ (by norm_num), if_pos]
  · rw [← zpow_sub₀ (by norm_num), show round ((2 : ℝ) ^ (-80 + -80 - -149 : ℤ)) = 0 by rw [round_eq_zero_iff]; norm_num]
    simp
  · rw [abs_of_pos (two_zpow_pos _)]
    exact zpow_lt_zpow_right₀ (by norm_num) (by norm_num)

/-- `Normalize` of `(2^-80, 2^-80, 2^-80)`, a vector of floats that is not zero. -/
example (conv : Bool) (tb : RTree (batchSize 3 false)) (ts : RTree (3 + 1)) :
    Ie.normalize (fun x => .fin (flSmall x)) conv tb ts (Vec.ofFn (fun _ => .fin (2 ^ (-80 : ℤ))) : Vec c Fx 3 q1) = none :=
  C142_normalize_violated (by rw [flSmall_underflows.zero (by norm_num) (flAway_roundsToNearest (by norm_num))]) conv tb ts _ (fun _ => 2 ^ (-80 : ℤ))
    (fun i => Vec.get_ofFn _ _) fun _ => by rw [flSmall_lost]

/-- A range in which nothing overflows is enough for the theorems with overflow. -/
example : Overflows (fun x => .fin (flSmall x)) flSmall where
  round x := Or.inl rfl
  idem x y h := by
    cases h
    exact congrArg Fx.fin (flSmall_underflows.idem (by norm_num) (flAway_roundsToNearest (by norm_num)) x)

end Mathter.Props
