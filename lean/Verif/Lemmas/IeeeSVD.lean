import Verif.Model.IeeeSVD
import Verif.Spec.IeeeSVD
import Verif.Lemmas.SVD
import Verif.Lemmas.Vector
import Mathlib.Data.Finset.Card
import Mathlib.Tactic.Linarith

/-!
# The loops of the singular value decompositions on values with infinities and NaN
-/

namespace Mathter
namespace Ie
variable {r n : ℕ} {N : Finset ℝ} {fl : ℝ → Fx}

/-- Never NaN and either infinite or in the format. -/
def Ok (N : Finset ℝ) (e : Fx) : Prop := e = .inf false ∨ ∃ y ∈ N, e = .fin y

theorem lt_val {a b : Fx} (h : Fx.lt a b = true) : a.val < b.val := by
  rcases a with _ | (_ | _) | x <;> rcases b with _ | (_ | _) | y <;> simp_all [Fx.lt, Fx.val]

theorem Ok.mem {e : Fx} (h : Ok N e) : e.val ∈ insert ⊤ (N.image fun x : ℝ => (x : EReal)) := by
  rcases h with rfl | ⟨y, hy, rfl⟩
  · exact Finset.mem_insert_self _ _
  · exact Finset.mem_insert_of_mem (Finset.mem_image_of_mem _ hy)

/-- The loop ends if every sweep reports an error that is a value of the format. -/
theorem jacobiLoop_ends {σ : Type*} {sweep : σ → σ × Fx} (I : σ → Prop) (hI : ∀ s, I s → I (sweep s).1) (hF : ∀ s, I s → Ok N (sweep s).2) :
    ∀ (k : ℕ) (prev err : Fx) (s : σ), I s → ((insert ⊤ (N.image fun x : ℝ => (x : EReal))).filter (· < err.val)).card ≤ k →
      ∃ x, jacobiLoop sweep (k + 2) prev err s = some x := by
  intro k
  induction k with
  | zero =>
    intro prev err s hs hc
    rw [jacobiLoop]
    split
    · have hn : ¬ Fx.lt (sweep s).2 err = true := by
        intro hlt
        have hm : (sweep s).2.val ∈ (insert ⊤ (N.image fun x : ℝ => (x : EReal))).filter (· < err.val) := Finset.mem_filter.2 ⟨(hF s hs).mem, lt_val hlt⟩
        have := Finset.card_pos.2 ⟨_, hm⟩
        omega
      simp only
      rw [jacobiLoop, if_neg hn]
      exact ⟨_, rfl⟩
    · exact ⟨_, rfl⟩
  | succ k ih =>
    intro prev err s hs hc
    rw [jacobiLoop]
    split
    · simp only
      by_cases hlt : Fx.lt (sweep s).2 err = true
      · have hm : (sweep s).2.val ∈ (insert ⊤ (N.image fun x : ℝ => (x : EReal))).filter (· < err.val) := Finset.mem_filter.2 ⟨(hF s hs).mem, lt_val hlt⟩
        refine ih err (sweep s).2 (sweep s).1 (hI s hs) ?_
        have : ((insert ⊤ (N.image fun x : ℝ => (x : EReal))).filter (· < (sweep s).2.val)).card
            < ((insert ⊤ (N.image fun x : ℝ => (x : EReal))).filter (· < err.val)).card := by
          apply Finset.card_lt_card
          rw [Finset.ssubset_iff_of_subset]
          · exact ⟨_, hm, fun h => lt_irrefl _ (Finset.mem_filter.1 h).2⟩
          · intro y hy
            exact Finset.mem_filter.2 ⟨(Finset.mem_filter.1 hy).1, (Finset.mem_filter.1 hy).2.trans (lt_val hlt)⟩
        omega
      · rw [jacobiLoop, if_neg hlt]
        exact ⟨_, rfl⟩
    · exact ⟨_, rfl⟩

/-- The number of iterations needed. -/
theorem card_le (N : Finset ℝ) (e : EReal) : ((insert ⊤ (N.image fun x : ℝ => (x : EReal))).filter (· < e)).card ≤ N.card + 1 :=
  (Finset.card_filter_le _ _).trans ((Finset.card_insert_le _ _).trans (Nat.add_le_add_right Finset.card_image_le 1))

/-- More iterations do not change the result. -/
theorem jacobiLoop_fuel {σ : Type*} {sweep : σ → σ × Fx} : ∀ (k l : ℕ) (prev err : Fx) (s x : σ), k ≤ l →
    jacobiLoop sweep k prev err s = some x → jacobiLoop sweep l prev err s = some x
  | 0, _, _, _, _, _, _, h => by simp [jacobiLoop] at h
  | k + 1, 0, _, _, _, _, hkl, _ => absurd hkl (by omega)
  | k + 1, l + 1, prev, err, s, x, hkl, h => by
    rw [jacobiLoop] at h ⊢
    split at h
    · rename_i hlt
      rw [if_pos hlt]
      exact jacobiLoop_fuel k l _ _ _ _ (by omega) h
    · rename_i hlt
      rw [if_neg hlt]
      exact h

/-- A property kept by every sweep holds for the result. -/
theorem jacobiLoop_inv {σ : Type*} {sweep : σ → σ × Fx} (P : σ → Prop) (hP : ∀ s, P s → P (sweep s).1) : ∀ (k : ℕ) (prev err : Fx) (s x : σ), P s →
    jacobiLoop sweep k prev err s = some x → P x
  | 0, _, _, _, _, _, h => by simp [jacobiLoop] at h
  | k + 1, prev, err, s, x, hs, h => by
    rw [jacobiLoop] at h
    split at h
    · exact jacobiLoop_inv P hP k _ _ _ _ (hP s hs) h
    · cases h; exact hs

/-! ## Values -/

theorem lt_nan_right (a : Fx) : Fx.lt a .nan = false := by rcases a with _ | (_ | _) | x <;> rfl

theorem mul_nan (a : Fx) : Fx.mul fl a .nan = .nan := by rcases a with _ | (_ | _) | x <;> rfl
theorem nan_mul (a : Fx) : Fx.mul fl .nan a = .nan := by rcases a with _ | (_ | _) | x <;> rfl
theorem div_nan (a : Fx) : Fx.div fl a .nan = .nan := by rcases a with _ | (_ | _) | x <;> rfl
theorem nan_div (a : Fx) : Fx.div fl .nan a = .nan := by rcases a with _ | (_ | _) | x <;> rfl

/-- An element in the format. -/
def El (N : Finset ℝ) (e : Fx) : Prop := ∀ y, e = .fin y → y ∈ N

theorem El.mul (hN : IsFormat N fl) (a b : Fx) : El N (Fx.mul fl a b) := by
  intro y h
  rcases a with _ | s | x <;> rcases b with _ | t | z <;> simp only [Fx.mul] at h
  all_goals first | exact Fx.noConfusion h | exact hN.round _ _ h | (split at h <;> cases h)

theorem El.add (hN : IsFormat N fl) (a b : Fx) : El N (Fx.add fl a b) := by
  intro y h
  rcases a with _ | s | x <;> rcases b with _ | t | z <;> simp only [Fx.add] at h
  all_goals first | exact hN.round _ _ h | (split at h <;> cases h) | cases h

theorem El.div (hN : IsFormat N fl) (a b : Fx) : El N (Fx.div fl a b) := by
  intro y h
  rcases a with _ | s | x <;> rcases b with _ | t | z <;> simp only [Fx.div] at h
  case fin.inf => cases h; exact hN.zero
  case fin.fin =>
    split at h
    · split at h <;> cases h
    · exact hN.round _ _ h
  all_goals cases h

theorem El.abs_ok (hN : IsFormat N fl) {a : Fx} (h : El N a) : a.abs = .nan ∨ Ok N a.abs := by
  rcases a with _ | s | x
  · exact Or.inl rfl
  · exact Or.inr (Or.inl rfl)
  · refine Or.inr (Or.inr ⟨|x|, ?_, rfl⟩)
    rcases abs_choice x with e | e <;> rw [e]
    · exact h x rfl
    · exact hN.neg _ (h x rfl)

theorem stdMax_ok {e f : Fx} (he : Ok N e) (hf : f = .nan ∨ Ok N f) : Ok N (Fx.stdMax e f) := by
  unfold Fx.stdMax
  split
  · rename_i h
    rcases hf with rfl | hf
    · rw [lt_nan_right] at h; exact absurd h (by simp)
    · exact hf
  · exact he

theorem stdMax_choice (e f : Fx) : Fx.stdMax e f = e ∨ Fx.stdMax e f = f := by
  unfold Fx.stdMax
  split
  · exact Or.inr rfl
  · exact Or.inl rfl

/-! ## Two-sided: what is kept -/

variable {ps pd : Fx → Fx → Fx → Fx → Fx}

theorem givensRight_el (hN : IsFormat N fl) (hs : InFormat N ps) {m : Matrix (Fin r) (Fin n) Fx} (hm : ∀ i j, El N (m i j)) (p q : Fin n)
    (cv sv det : Fx) (i : Fin r) (j : Fin n) : El N (givensRight fl ps pd m p q cv sv det i j) := by
  simp only [givensRight, Matrix.of_apply]
  split
  · exact El.mul hN _ _
  · split
    · exact fun y h => hs _ _ _ _ y h
    · exact hm i j

theorem givensLeft_el (hs : InFormat N ps) (hd : InFormat N pd) {m : Matrix (Fin r) (Fin n) Fx} (hm : ∀ i j, El N (m i j)) (p q : Fin r)
    (cv sv det : Fx) (i : Fin r) (j : Fin n) : El N (givensLeft fl ps pd m p q cv sv det i j) := by
  simp only [givensLeft, Matrix.of_apply]
  split
  · exact fun y h => hs _ _ _ _ y h
  · split
    · exact fun y h => hd _ _ _ _ y h
    · exact hm i j

theorem twoSweep_ok (hN : IsFormat N fl) (hs : InFormat N ps) (hd : InFormat N pd) (k : Fx → Fx → Fx → Fx → Kernel) (tolerance : Fx) (s : TwoState Fx r)
    (h : ∀ i j, El N (s.X i j)) :
    (∀ i j, El N ((twoSweep fl ps pd k tolerance s).1.X i j)) ∧ Ok N (twoSweep fl ps pd k tolerance s).2 := by
  refine pairs_inv (fun s : TwoState Fx r × Fx => (∀ i j, El N (s.1.X i j)) ∧ Ok N s.2) ⟨h, Or.inr ⟨0, hN.zero, rfl⟩⟩ fun p q s _ h => ?_
  unfold twoStep
  simp only
  split
  · refine ⟨fun i j => givensRight_el hN hs (givensLeft_el hs hd h.1 _ _ _ _ _) _ _ _ _ _ i j, stdMax_ok h.2 ?_⟩
    rcases stdMax_choice (s.1.X p q).abs (s.1.X q p).abs with e | e <;> rw [scalePair, e]
    · exact El.abs_ok hN (h.1 _ _)
    · exact El.abs_ok hN (h.1 _ _)
  · exact h

/-! ## One-sided: what is kept -/

theorem oneSweep_ok (hN : IsFormat N fl) (hyp : Fx → Fx → Fx → Fx) {gram : (Fin r → Fx) → (Fin r → Fx) → Fx}
    (hg : ∀ a b, El N (gram a b)) (neg : Bool) (s : OneState Fx r n) : Ok N (oneSweep fl ps pd hyp gram neg s).2 := by
  refine pairs_inv (fun s : OneState Fx r n × Fx => Ok N s.2) (Or.inr ⟨0, hN.zero, rfl⟩) fun p q s _ h => ?_
  unfold oneStep
  simp only
  split
  · exact stdMax_ok h (El.abs_ok hN (hg _ _))
  · exact h

theorem eval_el (hN : IsFormat N fl) {m : ℕ} {b : Fin m → Fx} (hb : ∀ j, El N (b j)) (t : RTree m) : El N (t.eval (Fx.add fl) b) := by
  induction t with
  | leaf i => exact hb i
  | node l r _ _ => exact El.add hN _ _

theorem columnDot_el (hN : IsFormat N fl) (c : Cfg) (p1 conv : Bool) (tb : RTree (batchSize r false)) (ts : RTree (r + 1)) (a b : Fin r → Fx) :
    El N (columnDot c p1 fl conv tb ts a b) := by
  have h0 : El N (.fin 0) := fun y h => by cases h; exact hN.zero
  unfold columnDot dot sum
  split
  · refine eval_el hN (fun j => ?_) _
    unfold Vec.fillMasked
    rename_i h
    have key : ∀ hj : j.val < r, El N ((Vec.doBinary conv (Fx.mul fl) (Vec.ofFn a : Vec c Fx r p1) (Vec.ofFn b : Vec c Fx r p1)).load h j) := fun hj => by
      have e : (Vec.doBinary conv (Fx.mul fl) (Vec.ofFn a : Vec c Fx r p1) (Vec.ofFn b : Vec c Fx r p1)).load h j
        = (Vec.doBinary conv (Fx.mul fl) (Vec.ofFn a : Vec c Fx r p1) (Vec.ofFn b : Vec c Fx r p1)).get ⟨j.val, hj⟩ := rfl
      rw [e, Vec.get_doBinary]
      exact El.mul hN _ _
    split
    · rename_i e; exact key (by have := j.isLt; omega)
    · simp only
      split
      · rename_i hj; exact key hj
      · exact h0
  · refine eval_el hN (fun j => ?_) _
    split
    · rw [Vec.get_doBinary]; exact El.mul hN _ _
    · exact h0

/-! ## One-sided: NaN -/

variable {hyp : Fx → Fx → Fx → Fx} {gram : (Fin r → Fx) → (Fin r → Fx) → Fx} {neg : Bool}

theorem diagonalize_nan (hs : PassesNan ps) (a11 a22 : Fx) : diagonalizeHermitian fl ps hyp neg a11 .nan a22 = (.nan, .nan) := by
  unfold diagonalizeHermitian
  rw [show ((Fx.nan == Fx.fin 0) = false) from rfl, if_neg (by simp)]
  simp only [nan_div, hs.first]
  rw [show Fx.sqrt fl .nan = .nan from rfl, div_nan]

theorem minimize_nan : minimizeRotation fl .nan .nan = (.nan, .nan) := by
  unfold minimizeRotation
  simp only [show Fx.abs .nan = .nan from rfl, lt_nan_right, Bool.false_eq_true, if_false, nan_div, nan_mul]

/-- A rotation keeps the NaNs of every column. -/
theorem oneStep_keeps (hs : PassesNan ps) (hd : PassesNan pd) (p q j : Fin n) (s : OneState Fx r n × Fx) (h : ∃ i, s.1.X i j = .nan) :
    ∃ i, (oneStep fl ps pd hyp gram neg p q s).1.X i j = .nan := by
  obtain ⟨i, hi⟩ := h
  refine ⟨i, ?_⟩
  unfold oneStep
  simp only
  split
  · simp only [givensRight, Matrix.of_apply]
    by_cases hq : j = q
    · subst hq; rw [if_pos rfl, hi, hd.first, mul_nan]
    · rw [if_neg hq]
      by_cases hp : j = p
      · subst hp; rw [if_pos rfl, hi, hs.first]
      · rw [if_neg hp, hi]
  · exact hi

/-- A rotation of a column with NaN makes NaN of both columns. -/
theorem oneStep_spreads (hs : PassesNan ps) (hd : PassesNan pd) (hg : ∀ a b, (∃ i, a i = .nan ∨ b i = .nan) → gram a b = .nan) (p q : Fin n)
    (s : OneState Fx r n × Fx) (h : ∃ i, s.1.X i p = .nan ∨ s.1.X i q = .nan) (i : Fin r) :
    (oneStep fl ps pd hyp gram neg p q s).1.X i p = .nan ∧ (oneStep fl ps pd hyp gram neg p q s).1.X i q = .nan := by
  unfold oneStep
  simp only
  rw [hg (fun i => s.1.X i p) (fun i => s.1.X i q) h, show Fx.abs .nan = .nan from rfl, show ((Fx.nan == Fx.fin 0) = false) from rfl, diagonalize_nan hs]
  simp only [minimize_nan, Bool.not_false, if_true, givensRight, Matrix.of_apply, hs.second, hd.second, mul_nan, ite_self, and_self]

/-- After one sweep every column has a NaN if one had. -/
theorem oneSweep_spreads (hs : PassesNan ps) (hd : PassesNan pd) (hg : ∀ a b, (∃ i, a i = .nan ∨ b i = .nan) → gram a b = .nan) (s : OneState Fx r n)
    (c0 : Fin n) (h : ∃ i, s.X i c0 = .nan) (j : Fin n) : ∃ i, (oneSweep fl ps pd hyp gram neg s).1.X i j = .nan := by
  obtain ⟨i0, _⟩ := id h
  have := pairs_inv' (body := fun p q s => oneStep fl ps pd hyp gram neg p q s) (s := (s, Fx.fin 0)) (fun s => ∃ i, s.1.X i c0 = .nan)
    (fun p q s => (p = c0 ∨ q = c0) → (∃ i, s.1.X i p = .nan) ∧ ∃ i, s.1.X i q = .nan) h
    (fun p q s _ h => ⟨oneStep_keeps hs hd p q c0 s h, fun hc => by
      have h' : ∃ i, s.1.X i p = .nan ∨ s.1.X i q = .nan := h.imp fun i hi => by
        rcases hc with rfl | rfl
        · exact Or.inl hi
        · exact Or.inr hi
      exact ⟨⟨i0, (oneStep_spreads hs hd hg p q s h' i0).1⟩, ⟨i0, (oneStep_spreads hs hd hg p q s h' i0).2⟩⟩⟩)
    (fun p q p' q' s _ _ _ h hc => ⟨oneStep_keeps hs hd p q p' s (h hc).1, oneStep_keeps hs hd p q q' s (h hc).2⟩)
  rcases lt_trichotomy j c0 with hj | hj | hj
  · exact (this.2 j c0 hj (Or.inr rfl)).1
  · rw [hj]; exact this.1
  · exact (this.2 c0 j hj (Or.inl rfl)).2

theorem oneSweep_keeps (hs : PassesNan ps) (hd : PassesNan pd) (s : OneState Fx r n) (j : Fin n) (h : ∃ i, s.X i j = .nan) :
    ∃ i, (oneSweep fl ps pd hyp gram neg s).1.X i j = .nan :=
  pairs_inv (body := fun p q s => oneStep fl ps pd hyp gram neg p q s) (s := (s, Fx.fin 0)) (fun s => ∃ i, s.1.X i j = .nan) h
    fun p q s _ h => oneStep_keeps hs hd p q j s h

/-- All lengths are NaN. -/
theorem oneLengths_nan (hs : PassesNan ps) (hd : PassesNan pd) (hg : ∀ a b, (∃ i, a i = .nan ∨ b i = .nan) → gram a b = .nan) (big big' scaler : Fx)
    (hb : Fx.lt big' big = true) (fuel : ℕ) (A : Matrix (Fin r) (Fin n) Fx) (h : ∃ i j, Fx.div fl (A i j) scaler = .nan) (S : Fin n → Fx)
    (e : oneLengths fl ps pd hyp gram neg big big' scaler fuel A = some S) (j : Fin n) : S j = .nan := by
  unfold oneLengths at e
  obtain ⟨x, hx, rfl⟩ := Option.map_eq_some_iff.1 e
  obtain ⟨i, j0, hij⟩ := h
  have hall : ∀ j, ∃ i, x.X i j = .nan := by
    cases fuel with
    | zero => simp [jacobiLoop] at hx
    | succ fuel =>
      rw [jacobiLoop, if_pos hb] at hx
      exact jacobiLoop_inv (fun s : OneState Fx r n => ∀ j, ∃ i, s.X i j = .nan) (fun s h j => oneSweep_keeps hs hd s j (h j)) _ _ _ _ _
        (oneSweep_spreads hs hd hg _ j0 ⟨i, hij⟩) hx
  obtain ⟨i', hi'⟩ := hall j
  simp only
  rw [hg _ _ ⟨i', Or.inl hi'⟩]
  rfl

/-! ## Two-sided: NaN -/

/-- A NaN on the diagonal stays. -/
theorem twoStep_diag (hs : PassesNan ps) (hd : PassesNan pd) (k : Fx → Fx → Fx → Fx → Kernel) (tolerance : Fx) (p q : Fin r) (hpq : p < q)
    (s : TwoState Fx r × Fx) (i : Fin r) (h : s.1.X i i = .nan) : (twoStep fl ps pd k tolerance p q s).1.X i i = .nan := by
  unfold twoStep
  simp only
  split
  · simp only [givensRight, givensLeft, Matrix.of_apply]
    by_cases hq : i = q
    · subst hq
      simp only [if_true, h, mul_nan, hs.first, hd.first]
    · by_cases hp : i = p
      · subst hp
        simp only [if_neg hq, if_true, h, hs.first, hd.first]
      · simp only [if_neg hq, if_neg hp, h]
  · exact h

/-- Zeros and NaNs are left alone. -/
theorem twoSweep_zero (k : Fx → Fx → Fx → Fx → Kernel) (t : ℝ) (ht : 0 ≤ t) (s : TwoState Fx r) (h : ∀ i j, i ≠ j → s.X i j = .fin 0 ∨ s.X i j = .nan) :
    twoSweep fl ps pd k (.fin t) s = (s, .fin 0) := by
  refine pairs_inv (body := fun p q s => twoStep fl ps pd k (.fin t) p q s) (fun s' => s' = (s, .fin 0)) rfl fun p q s' hpq e => ?_
  subst e
  unfold twoStep
  simp only
  rw [if_neg]
  have h1 := h p q hpq.ne
  have h2 := h q p hpq.ne'
  rcases stdMax_choice (s.X p q).abs (s.X q p).abs with e | e <;> rw [scalePair, e]
  · rcases h1 with e | e <;> rw [e] <;> simp [Fx.abs, Fx.lt, ht]
  · rcases h2 with e | e <;> rw [e] <;> simp [Fx.abs, Fx.lt, ht]

end Ie
end Mathter
