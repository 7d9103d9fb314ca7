import Verif.Lemmas.IeeeSVD
import Verif.Props.Ieee

/-!
# C109, C110: the singular value decompositions of matrices with any elements
-/

namespace Mathter.Props
open Mathter
variable {r n : ℕ} {N : Finset ℝ} {fl : ℝ → Fx} {ps pd : Fx → Fx → Fx → Fx → Fx}

/-! ## C109: the loops end -/

/-- C109: the two-sided algorithm ends for every matrix, with NaN, infinities and overflowing operations, after a number of sweeps that only depends on the format.
Nothing is assumed about the kernel, the tolerance, the scaler and the initial errors. -/
theorem C109_two (hN : IsFormat N fl) (hs : InFormat N ps) (hd : InFormat N pd) (k : Fx → Fx → Fx → Fx → Ie.Kernel) (tolerance big big' scaler : Fx)
    (hrn : n + 1 ≤ r) (fuel : ℕ) (hf : N.card + 3 ≤ fuel) (A : Matrix (Fin r) (Fin (n + 1)) Fx) :
    ∃ S, Ie.svdTwoSided fl ps pd k tolerance big big' scaler hrn fuel A = some S := by
  obtain ⟨x, hx⟩ := Ie.jacobiLoop_ends (N := N) (sweep := Ie.twoSweep fl ps pd k tolerance) (fun s => ∀ i j, Ie.El N (s.X i j))
    (fun s h => (Ie.twoSweep_ok hN hs hd k tolerance s h).1) (fun s h => (Ie.twoSweep_ok hN hs hd k tolerance s h).2) (N.card + 1) big big'
    (Ie.twoInit fl A scaler) (fun i j => by
      simp only [Ie.twoInit, Matrix.of_apply]
      split
      · exact Ie.El.div hN _ _
      · exact fun y h => by cases h; exact hN.zero) (Ie.card_le N _)
  unfold Ie.svdTwoSided
  rw [Ie.jacobiLoop_fuel _ fuel _ _ _ _ (by omega) hx]
  exact ⟨_, rfl⟩

/-- C109: so does the one-sided algorithm, with any `hypot`. -/
theorem C109_one (hN : IsFormat N fl) (hyp : Fx → Fx → Fx → Fx) (c : Cfg) (p1 conv : Bool) (tb : RTree (batchSize r false)) (ts : RTree (r + 1)) (neg : Bool)
    (big big' scaler : Fx) (fuel : ℕ) (hf : N.card + 3 ≤ fuel) (A : Matrix (Fin r) (Fin n) Fx) :
    ∃ S, Ie.oneLengths fl ps pd hyp (Ie.columnDot c p1 fl conv tb ts) neg big big' scaler fuel A = some S := by
  obtain ⟨x, hx⟩ := Ie.jacobiLoop_ends (N := N) (sweep := Ie.oneSweep fl ps pd hyp (Ie.columnDot c p1 fl conv tb ts) neg) (fun _ => True)
    (fun _ _ => trivial) (fun s _ => Ie.oneSweep_ok hN hyp (Ie.columnDot_el hN c p1 conv tb ts) neg s) (N.card + 1) big big'
    (Ie.oneInit fl A scaler) trivial (Ie.card_le N _)
  unfold Ie.oneLengths
  rw [Ie.jacobiLoop_fuel _ fuel _ _ _ _ (by omega) hx]
  exact ⟨_, rfl⟩

/-- The integers of magnitude at most 3: everything else is cut off or overflows. A format, though a coarse one. -/
private noncomputable def small (x : ℝ) : Fx := if |x| ≤ 3 then .fin (round x) else .inf (decide (x < 0))

private theorem small_format : IsFormat ((Finset.Icc (-3 : ℤ) 3).image fun z : ℤ => (z : ℝ)) small where
  zero := Finset.mem_image.2 ⟨0, by simp⟩
  neg x hx := by
    obtain ⟨z, hz, rfl⟩ := Finset.mem_image.1 hx
    have := Finset.mem_Icc.1 hz
    exact Finset.mem_image.2 ⟨-z, Finset.mem_Icc.2 ⟨by omega, by omega⟩, by push_cast; rfl⟩
  round x y h := by
    unfold small at h
    split at h
    · rename_i hx
      cases h
      have h3 := abs_le.1 hx
      have h1 := abs_le.1 (abs_sub_round x)
      refine Finset.mem_image.2 ⟨round x, Finset.mem_Icc.2 ⟨?_, ?_⟩, rfl⟩
      · have : ((-4 : ℤ) : ℝ) < (round x : ℝ) := by push_cast; linarith [h1.2]
        have := Int.cast_lt.1 this; omega
      · have : (round x : ℝ) < ((4 : ℤ) : ℝ) := by push_cast; linarith [h1.1]
        have := Int.cast_lt.1 this; omega
    · cases h

private theorem small_card : ((Finset.Icc (-3 : ℤ) 3).image fun z : ℤ => (z : ℝ)).card + 3 ≤ 10 := by
  have h : ((Finset.Icc (-3 : ℤ) 3).image fun z : ℤ => (z : ℝ)).card ≤ 7 := Finset.card_image_le
  omega

/-- Sums and differences of products without fused operations. -/
private noncomputable def plus (fl : ℝ → Fx) (a b c d : Fx) : Fx := Fx.add fl (Fx.mul fl a b) (Fx.mul fl c d)
private noncomputable def minus (fl : ℝ → Fx) (a b c d : Fx) : Fx := Fx.sub fl (Fx.mul fl a b) (Fx.mul fl c d)

private theorem plus_format (hN : IsFormat N fl) : InFormat N (plus fl) := fun _ _ _ _ => Ie.El.add hN _ _
private theorem minus_format (hN : IsFormat N fl) : InFormat N (minus fl) := fun _ _ _ _ => Ie.El.add hN _ _

example (k : Fx → Fx → Fx → Fx → Ie.Kernel) : ∃ S, Ie.svdTwoSided small (plus small) (minus small) k (.fin 0) (.fin 3) (.fin 2) (.inf false) (le_refl 2) 10
    !![.fin 1, .nan; .inf false, .fin 2] = some S :=
  C109_two small_format (plus_format small_format) (minus_format small_format) k _ _ _ _ _ _ small_card _

example (hyp : Fx → Fx → Fx → Fx) (tb : RTree (batchSize 2 false)) (ts : RTree 3) : ∃ S, Ie.oneLengths small (plus small) (minus small) hyp
    (Ie.columnDot Cfg.sse false small true tb ts) false (.fin 3) (.fin 2) (.inf false) 10 !![.fin 1, .nan; .inf false, .fin 2] = some S :=
  C109_one small_format hyp _ _ _ _ _ _ _ _ _ _ small_card _

/-! ## C110: what the singular values are when there are no numbers to compute with -/

/-- `ScaleElements` of a matrix with an infinite element. -/
private theorem stdMax_inf (x : Fx) (h : x ≠ .nan) : Fx.stdMax x (.inf false) = .inf false := by
  rcases x with _ | (_ | _) | x <;> simp_all [Fx.stdMax, Fx.lt]

private theorem inf_stdMax (x : Fx) : Fx.stdMax (.inf false) x = .inf false := by
  rcases x with _ | (_ | _) | x <;> simp [Fx.stdMax, Fx.lt]

private theorem stdMax_not_nan {x y : Fx} (h : x ≠ .nan) : Fx.stdMax x y ≠ .nan := by
  unfold Fx.stdMax
  split
  · rename_i h'
    rintro rfl
    rw [Ie.lt_nan_right] at h'
    exact absurd h' (by simp)
  · exact h

private theorem top_of_val {a : Fx} (h : a.val = ⊤) : a = .inf false := by
  rcases a with _ | (_ | _) | x <;> simp_all [Fx.val]

private theorem stripe_inf {c : Cfg} {p1 : Bool} {d : ℕ} (bmax : Fx → Fx → Fx) (hm : LaneMax bmax) (conv : Bool) (t : RTree (batchSize (d + 1) false)) (ht : t.Valid)
    (a : Fin (d + 1) → Fx) (hn : ∀ i, a i ≠ .nan) (h : ∃ i s, a i = .inf s) : Ie.scaleElements bmax conv t (Vec.ofFn a : Vec c Fx (d + 1) p1) = .inf false := by
  unfold Ie.scaleElements
  obtain ⟨-, h2⟩ := C95_max_partial bmax hm t ht (Vec.doUnary conv Fx.abs (Vec.ofFn a : Vec c Fx (d + 1) p1) : Vec c Fx (d + 1) p1)
  simp only [Vec.get_doUnary, Vec.get_ofFn] at h2
  obtain ⟨i, s, hi⟩ := h
  have := h2 (fun i => by have := hn i; cases e : a i <;> simp_all [Fx.abs]) i
  rw [hi] at this
  exact top_of_val (top_le_iff.1 this)

private theorem stripe_zero {c : Cfg} {p1 : Bool} {d : ℕ} (bmax : Fx → Fx → Fx) (hm : LaneMax bmax) (conv : Bool) (t : RTree (batchSize (d + 1) false)) (ht : t.Valid)
    (a : Fin (d + 1) → Fx) (h : ∀ i, a i = .fin 0) : Ie.scaleElements bmax conv t (Vec.ofFn a : Vec c Fx (d + 1) p1) = .fin 0 := by
  unfold Ie.scaleElements
  obtain ⟨⟨i, h1⟩, -⟩ := C95_max_partial bmax hm t ht (Vec.doUnary conv Fx.abs (Vec.ofFn a : Vec c Fx (d + 1) p1) : Vec c Fx (d + 1) p1)
  rw [h1, Vec.get_doUnary, Vec.get_ofFn, h]
  simp [Fx.abs]

private theorem fold_inf {m : ℕ} (f : Fin m → Fx) (h : ∃ i, f i = .inf false) : forUp m 0 (fun i scale => Fx.stdMax scale (f i)) (.fin 0) = .inf false := by
  obtain ⟨i, hi⟩ := h
  exact (forUp_inv (body := fun i scale => Fx.stdMax scale (f i)) (s := Fx.fin 0) (fun k s => s ≠ Fx.nan ∧ (i.val < k → s = Fx.inf false)) (Nat.zero_le m)
    ⟨by simp, fun h => absurd h (Nat.not_lt_zero _)⟩ (fun k s _ h =>
    ⟨stdMax_not_nan h.1, fun hk => by
      by_cases e : i = k
      · subst e; rw [hi]; exact stdMax_inf s h.1
      · rw [h.2 (by have : i.val ≠ k.val := fun h => e (Fin.ext h)
                    omega)]; exact inf_stdMax _⟩)).2 i.isLt

private theorem fold_zero {m : ℕ} (f : Fin m → Fx) (h : ∀ i, f i = .fin 0) : forUp m 0 (fun i scale => Fx.stdMax scale (f i)) (.fin 0) = .fin 0 :=
  forUp_inv (body := fun i scale => Fx.stdMax scale (f i)) (s := Fx.fin 0) (fun _ s => s = Fx.fin 0) (Nat.zero_le m) rfl fun k s _ e => by
    subst e; rw [h]; simp [Fx.stdMax, Fx.lt]

private theorem matScale_inf (c : Cfg) (p1 : Bool) (bmax : Fx → Fx → Fx) (hm : LaneMax bmax) (conv : Bool) (tr : RTree (batchSize (n + 1) false))
    (tc : RTree (batchSize (r + 1) false)) (htr : tr.Valid) (htc : tc.Valid) (L : Layout) (A : Matrix (Fin (r + 1)) (Fin (n + 1)) Fx)
    (hn : ∀ i j, A i j ≠ .nan) (h : ∃ i j s, A i j = .inf s) : Ie.matScale c p1 bmax conv tr tc L A = .inf false := by
  obtain ⟨i, j, s, e⟩ := h
  cases L with
  | row => exact fold_inf _ ⟨i, stripe_inf bmax hm conv tr htr _ (hn i) ⟨j, s, e⟩⟩
  | col => exact fold_inf _ ⟨j, stripe_inf bmax hm conv tc htc _ (fun i => hn i j) ⟨i, s, e⟩⟩

private theorem matScale_zero (c : Cfg) (p1 : Bool) (bmax : Fx → Fx → Fx) (hm : LaneMax bmax) (conv : Bool) (tr : RTree (batchSize (n + 1) false))
    (tc : RTree (batchSize (r + 1) false)) (htr : tr.Valid) (htc : tc.Valid) (L : Layout) (A : Matrix (Fin (r + 1)) (Fin (n + 1)) Fx)
    (h : ∀ i j, A i j = .fin 0) : Ie.matScale c p1 bmax conv tr tc L A = .fin 0 := by
  cases L with
  | row => exact fold_zero _ fun i => stripe_zero bmax hm conv tr htr _ (h i)
  | col => exact fold_zero _ fun j => stripe_zero bmax hm conv tc htc _ fun i => h i j

private theorem columnDot_nan (c : Cfg) (p1 conv : Bool) (tb : RTree (batchSize r false)) (ts : RTree (r + 1)) (htb : tb.Valid) (hts : ts.Valid) (a b : Fin r → Fx)
    (h : ∃ i, a i = .nan ∨ b i = .nan) : Ie.columnDot c p1 fl conv tb ts a b = .nan :=
  C92_dot conv tb ts htb hts _ _ (by simpa only [Vec.get_ofFn] using h)

/-- C110: if an element of the matrix is NaN or infinite, or the matrix is null, every singular value that the one-sided algorithm returns is NaN; so no wrong number
is returned. All the lengths it sorts are NaN, so that the comparison of `std::sort` is a consistent one. -/
theorem C110_one (hN : IsFormat N fl) (hs : PassesNan ps) (hd : PassesNan pd) (hyp : Fx → Fx → Fx → Fx) (c : Cfg) (p1 conv : Bool)
    (tb : RTree (batchSize (r + 1) false)) (ts : RTree (r + 1 + 1)) (htb : tb.Valid) (hts : ts.Valid) (neg : Bool) (big big' : Fx) (hb : Fx.lt big' big = true)
    (bmax : Fx → Fx → Fx) (hm : LaneMax bmax) (tr : RTree (batchSize (n + 1) false)) (tc : RTree (batchSize (r + 1) false)) (htr : tr.Valid) (htc : tc.Valid)
    (L : Layout) (fuel : ℕ) (hf : N.card + 3 ≤ fuel) (A : Matrix (Fin (r + 1)) (Fin (n + 1)) Fx)
    (hA : (∃ i j, A i j = .nan) ∨ (∃ i j s, A i j = .inf s) ∨ ∀ i j, A i j = .fin 0) :
    let scaler := Ie.matScale c p1 bmax conv tr tc L A
    let gram := Ie.columnDot c p1 fl conv tb ts
    Ie.oneLengths fl ps pd hyp gram neg big big' scaler fuel A = some (fun _ => .nan) ∧
      ∀ σ qr sgn, Ie.svdOneSided fl ps pd hyp gram neg big big' scaler σ qr sgn fuel A = some fun _ => .nan := by
  intro scaler gram
  have hnan : ∃ i j, Fx.div fl (A i j) scaler = .nan := by
    by_cases h1 : ∃ i j, A i j = .nan
    · obtain ⟨i, j, e⟩ := h1
      exact ⟨i, j, by rw [e, Ie.nan_div]⟩
    · by_cases h2 : ∃ i j s, A i j = .inf s
      · have e2 : scaler = .inf false := matScale_inf c p1 bmax hm conv tr tc htr htc L A (fun i j e => h1 ⟨i, j, e⟩) h2
        obtain ⟨i, j, s, e⟩ := h2
        exact ⟨i, j, by rw [e, e2]; rfl⟩
      · have h3 := (hA.resolve_left h1).resolve_left h2
        have e3 : scaler = .fin 0 := matScale_zero c p1 bmax hm conv tr tc htr htc L A h3
        exact ⟨0, 0, by rw [h3, e3]; simp [Fx.div]⟩
  have key : Ie.oneLengths fl ps pd hyp gram neg big big' scaler fuel A = some (fun _ => .nan) := by
    obtain ⟨S, e⟩ := C109_one (ps := ps) (pd := pd) hN hyp c p1 conv tb ts neg big big' scaler fuel hf A
    rw [e]
    exact congrArg some (funext (Ie.oneLengths_nan hs hd (columnDot_nan c p1 conv tb ts htb hts) big big' scaler hb fuel A hnan S e))
  refine ⟨key, fun σ qr sgn => ?_⟩
  unfold Ie.svdOneSided
  rw [key, Option.map_some]
  refine congrArg some (funext fun i => ?_)
  simp only [show Fx.abs .nan = .nan from rfl, show Fx.neg .nan = .nan from rfl, ite_self, Ie.nan_mul]

private theorem plus_nan : PassesNan (plus fl) where
  first b c d := by unfold plus; rw [Ie.nan_mul]; rcases Fx.mul fl c d with _ | s | x <;> rfl
  second a c d := by unfold plus; rw [Ie.mul_nan]; rcases Fx.mul fl c d with _ | s | x <;> rfl
  third a b d := by unfold plus; rw [Ie.nan_mul]; rcases Fx.mul fl a b with _ | s | x <;> rfl
  fourth a b c := by unfold plus; rw [Ie.mul_nan]; rcases Fx.mul fl a b with _ | s | x <;> rfl

private theorem minus_nan : PassesNan (minus fl) where
  first b c d := by unfold minus; rw [Ie.nan_mul]; rcases Fx.mul fl c d with _ | s | x <;> rfl
  second a c d := by unfold minus; rw [Ie.mul_nan]; rcases Fx.mul fl c d with _ | s | x <;> rfl
  third a b d := by unfold minus; rw [Ie.nan_mul]; rcases Fx.mul fl a b with _ | s | x <;> rfl
  fourth a b c := by unfold minus; rw [Ie.mul_nan]; rcases Fx.mul fl a b with _ | s | x <;> rfl

example (hyp : Fx → Fx → Fx → Fx) (tb tr tc : RTree (batchSize 2 false)) (ts : RTree 3) (htb : tb.Valid) (hts : ts.Valid) (htr : tr.Valid) (htc : tc.Valid)
    (bmax : Fx → Fx → Fx) (hm : LaneMax bmax) (A : Matrix (Fin 2) (Fin 2) Fx) (hA : A = !![.fin 1, .fin (-2); .inf true, .fin 2]) :
    Ie.oneLengths small (plus small) (minus small) hyp (Ie.columnDot Cfg.sse false small true tb ts) false (.fin 3) (.fin 2)
      (Ie.matScale Cfg.sse false bmax true tr tc .col A) 10 A = some fun _ => .nan :=
  (C110_one small_format plus_nan minus_nan hyp _ _ _ _ _ htb hts _ _ _ (by simp [Fx.lt]; norm_num) bmax hm _ _ htr htc _ _ small_card A
    (Or.inr (Or.inl ⟨1, 0, true, by rw [hA]; rfl⟩))).1

/-- C110: in builds with assertions, the assertion of `DiagonalizeHermitian2x2` fails for two columns with a NaN in them. -/
theorem C110_assert (hyp : Fx → Fx → Fx → Fx) (c : Cfg) (p1 conv : Bool) (tb : RTree (batchSize r false)) (ts : RTree (r + 1)) (htb : tb.Valid) (hts : ts.Valid)
    (neg : Bool) (a b : Fin r → Fx) (h : ∃ i, a i = .nan ∨ b i = .nan) :
    let gram := Ie.columnDot c p1 fl conv tb ts
    Ie.diagonalizeAssert fl hyp neg (gram a a) (gram a b) (gram b b) = false := by
  intro gram
  unfold Ie.diagonalizeAssert
  rw [show gram a b = .nan from columnDot_nan c p1 conv tb ts htb hts a b h, show ((Fx.nan == Fx.fin 0) = false) from rfl, if_neg (by simp)]
  rfl

/-- C110: with the two-sided algorithm a NaN on the diagonal makes the singular value of its column NaN; and infinities without NaN, and the null matrix, make all
of them NaN. What is missing, NaN anywhere, is not so: see `C110_two_violated`. -/
theorem C110_two_partial (hN : IsFormat N fl) (hs : InFormat N ps) (hd : InFormat N pd) (hs' : PassesNan ps) (hd' : PassesNan pd)
    (k : Fx → Fx → Fx → Fx → Ie.Kernel) (t : ℝ) (ht : 0 ≤ t) (big big' : Fx) (c : Cfg) (p1 conv : Bool)
    (bmax : Fx → Fx → Fx) (hm : LaneMax bmax) (tr : RTree (batchSize (n + 1) false)) (tc : RTree (batchSize (r + 1) false)) (htr : tr.Valid) (htc : tc.Valid)
    (L : Layout) (hrn : n + 1 ≤ r + 1) (fuel : ℕ) (hf : N.card + 3 ≤ fuel) (A : Matrix (Fin (r + 1)) (Fin (n + 1)) Fx) :
    ∃ S, Ie.svdTwoSided fl ps pd k (.fin t) big big' (Ie.matScale c p1 bmax conv tr tc L A) hrn fuel A = some S ∧
      (∀ j, A (Fin.castLE hrn j) j = .nan → S j = .nan) ∧
      (((∀ i j, A i j ≠ .nan) ∧ ((∃ i j s, A i j = .inf s) ∨ ∀ i j, A i j = .fin 0)) → ∀ j, S j = .nan) := by
  set scaler := Ie.matScale c p1 bmax conv tr tc L A with hsc
  obtain ⟨S, e⟩ := C109_two hN hs hd k (.fin t) big big' scaler hrn fuel hf A
  refine ⟨S, e, fun j hj => ?_, fun hA j => ?_⟩
  · unfold Ie.svdTwoSided at e
    obtain ⟨x, hx, rfl⟩ := Option.map_eq_some_iff.1 e
    have := Ie.jacobiLoop_inv (fun s : TwoState Fx (r + 1) => s.X (Fin.castLE hrn j) (Fin.castLE hrn j) = .nan)
      (fun s h => pairs_inv (body := fun p q s => Ie.twoStep fl ps pd k (.fin t) p q s) (s := (s, Fx.fin 0))
        (fun s => s.1.X (Fin.castLE hrn j) (Fin.castLE hrn j) = .nan) h fun p q s hpq h => Ie.twoStep_diag hs' hd' k _ p q hpq s _ h)
      _ _ _ _ _ (by
        simp only [Ie.twoInit, Matrix.of_apply, Fin.val_castLE, Fin.is_lt, dif_pos, Fin.eta, hj, Ie.nan_div]) hx
    simp only
    rw [this, Ie.nan_mul]
  · obtain ⟨hn, hA⟩ := hA
    have hX : (∀ i l, (Ie.twoInit fl A scaler).X i l = .fin 0 ∨ (Ie.twoInit fl A scaler).X i l = .nan) ∧
        Fx.mul fl ((Ie.twoInit fl A scaler).X (Fin.castLE hrn j) (Fin.castLE hrn j)) scaler = .nan := by
      by_cases h2 : ∃ i j s, A i j = .inf s
      · have e2 : scaler = .inf false := matScale_inf c p1 bmax hm conv tr tc htr htc L A hn h2
        have hX : ∀ i l, (Ie.twoInit fl A scaler).X i l = .fin 0 ∨ (Ie.twoInit fl A scaler).X i l = .nan := fun i l => by
          simp only [Ie.twoInit, Matrix.of_apply]
          split
          · rename_i hl
            rw [e2]
            cases A i ⟨l, hl⟩ with
            | nan => exact Or.inr rfl
            | inf s => exact Or.inr rfl
            | fin x => exact Or.inl rfl
          · exact Or.inl rfl
        refine ⟨hX, ?_⟩
        rcases hX (Fin.castLE hrn j) (Fin.castLE hrn j) with e | e <;> rw [e, e2]
        · simp [Fx.mul]
        · rfl
      · have h3 := hA.resolve_left h2
        have e3 : scaler = .fin 0 := matScale_zero c p1 bmax hm conv tr tc htr htc L A h3
        constructor
        · intro i l
          simp only [Ie.twoInit, Matrix.of_apply]
          split
          · rw [h3, e3]; exact Or.inr (by simp [Fx.div])
          · exact Or.inl rfl
        · simp only [Ie.twoInit, Matrix.of_apply, Fin.val_castLE, Fin.is_lt, dif_pos, h3, e3]
          simp [Fx.div, Fx.mul]
    unfold Ie.svdTwoSided at e
    obtain ⟨x, hx, rfl⟩ := Option.map_eq_some_iff.1 e
    have := Ie.jacobiLoop_inv (fun s : TwoState Fx (r + 1) => s = Ie.twoInit fl A scaler) (fun s h => by
      subst h
      rw [Ie.twoSweep_zero k t ht _ fun i l _ => hX.1 i l]) _ _ _ _ _ rfl hx
    simp only
    rw [this]
    exact hX.2

example (k : Fx → Fx → Fx → Fx → Ie.Kernel) (tr tc : RTree (batchSize 2 false)) (htr : tr.Valid) (htc : tc.Valid) (bmax : Fx → Fx → Fx) (hm : LaneMax bmax) :
    ∃ S, Ie.svdTwoSided small (plus small) (minus small) k (.fin 0) (.fin 3) (.fin 2) (Ie.matScale Cfg.sse false bmax true tr tc .col !![.fin 1, .fin 1; .fin 0, .nan])
      (le_refl 2) 10 !![.fin 1, .fin 1; .fin 0, .nan] = some S ∧ S 1 = .nan := by
  obtain ⟨S, e, h, -⟩ := C110_two_partial small_format (plus_format small_format) (minus_format small_format) plus_nan minus_nan k 0 (le_refl _) (.fin 3) (.fin 2)
    Cfg.sse false true bmax hm tr tc htr htc .col (le_refl 2) 10 small_card !![.fin 1, .fin 1; .fin 0, .nan]
  exact ⟨S, e, h 1 rfl⟩

/-- C110 does not hold for the two-sided algorithm: the NaN above the diagonal is not noticed (comparisons with it are false), and ones are returned. -/
theorem C110_two_violated (h0 : fl 0 = .fin 0) (h1 : fl 1 = .fin 1) (k : Fx → Fx → Fx → Fx → Ie.Kernel) (t : ℝ) (ht : 0 ≤ t) (big big' : ℝ)
    (hb : 0 < big') (hb' : big' < big) (bmax : Fx → Fx → Fx) (conv : Bool) (tr tc : RTree (batchSize 2 false)) :
    let A : Matrix (Fin 2) (Fin 2) Fx := !![.fin 1, .nan; .fin 0, .fin 1]
    Ie.svdTwoSided fl ps pd k (.fin t) (.fin big) (.fin big') (Ie.matScale Cfg.scalar false bmax conv tr tc .row A) (le_refl 2) 3 A = some fun _ => .fin 1 := by
  intro A
  have hsc : Ie.matScale Cfg.scalar false bmax conv tr tc .row A = .fin 1 := by
    have hb : isBatched Cfg.scalar (1 + 1) false = false := rfl
    have row : ∀ (a : Fin 2 → Fx) (b : Fx), Fx.stdMax (a 0).abs (a 1).abs = b → Ie.scaleElements bmax conv tr (Vec.ofFn a : Vec Cfg.scalar Fx 2 false) = b := by
      intro a b e
      unfold Ie.scaleElements Ie.maxElem
      rw [dif_neg (by rw [hb]; simp)]
      unfold Ie.maxElement
      rw [forUp_step (by omega), forUp_ge (by omega)]
      simp only [Vec.get_doUnary, Vec.get_ofFn]
      rw [← e]
      unfold Fx.stdMax
      by_cases h : Fx.lt (a 0).abs (a 1).abs = true
      · rw [if_pos h, if_pos (show Fx.lt (a 0).abs (a ⟨1, by omega⟩).abs = true from h)]; rfl
      · rw [if_neg h, if_neg (show ¬ Fx.lt (a 0).abs (a ⟨1, by omega⟩).abs = true from h)]
    unfold Ie.matScale
    simp only
    rw [forUp_step (by omega), forUp_step (by omega), forUp_ge (by omega)]
    rw [row (A ⟨0, by omega⟩) (.fin 1) (by simp [A, Fx.abs, Fx.stdMax, Fx.lt]), row (A ⟨0 + 1, by omega⟩) (.fin 1) (by simp [A, Fx.abs, Fx.stdMax, Fx.lt])]
    simp [Fx.stdMax, Fx.lt]
  rw [hsc]
  have hX : Ie.twoSweep fl ps pd k (.fin t) (Ie.twoInit fl A (.fin 1)) = (Ie.twoInit fl A (.fin 1), .fin 0) := by
    refine Ie.twoSweep_zero k t ht _ fun i j hij => ?_
    simp only [Ie.twoInit, Matrix.of_apply]
    fin_cases i <;> fin_cases j <;> simp [A, Fx.div, h0] at hij ⊢
  unfold Ie.svdTwoSided
  have e1 : Fx.lt (.fin big') (.fin big) = true := by simpa [Fx.lt] using hb'
  have e2 : Fx.lt (.fin 0) (.fin big') = true := by simpa [Fx.lt] using hb
  have e3 : Fx.lt (.fin 0) (.fin 0) = false := by simp [Fx.lt]
  simp only [Ie.jacobiLoop, e1, hX, e2, e3, if_true, Option.map_some, Bool.false_eq_true, if_false]
  refine congrArg some (funext fun i => ?_)
  fin_cases i <;> simp [Ie.twoInit, A, Fx.div, Fx.mul, h1]

end Mathter.Props
