import Mathlib.Data.Matrix.Reflection
import Verif.Lemmas.MachineDet
import Verif.Lemmas.MachineBareiss
import Verif.Props.Determinant
import Verif.Props.Bareiss

/-!
# Properties C126, C127: products and determinants of matrices of machine integers

C127 is false as stated; `C127_bareiss_partial` lacks the matrices some of whose bordered minors do not fit in the element type (or whose products of two of them do not fit
in the promoted type) or whose leading principal minors of order `1 … Dim - 2` vanish.
-/

namespace Mathter.Props
open Mathter IntTy
variable {c c' cA cB cC : Cfg} {r k n : ℕ} {o : Order} {L L' : Layout} {p p1 p2 : Bool}

/-- C126: if no undefined overflow happens, each element of a product of matrices, of the same or different types, is a value of the result type that is congruent to the
mathematical element modulo `2 ^ bits`. -/
theorem C126_mul [NeZero k] (s t : IntTy) (hs : 1 ≤ s.bits) (ht : 1 ≤ t.bits) (tb : RTree (batchSize k false)) (ts : RTree k) (htb : tb.Valid) (hts : ts.Valid)
    (A : Mat cA ℤ r k o L p1) (B : Mat cB ℤ k n o L' p2) (hA : ∀ i q, InRange s (A.get i q)) (hB : ∀ q j, InRange t (B.get q j)) (m : Mat cC ℤ r n o L (p1 && p2))
    (hm : Mat.matMulInt s t tb ts A B = some m) (i : Fin r) (j : Fin n) :
    InRange (common s t) (m.get i j) ∧ (2 : ℤ) ^ (common s t).bits ∣ m.get i j - ∑ q, A.get i q * B.get q j := by
  obtain ⟨h1, h2⟩ := (matMulInt_res (ok := False) hs ht tb ts htb hts A B (fun i q => (inRange_iff _ _).1 (hA i q)) (fun q j => (inRange_iff _ _).1 (hB q j))
    (fun h => h.elim)).1 m hm i j
  exact ⟨(inRange_iff _ _).2 h1, h2⟩

/-- C126: hence every element that fits in the result type is exact, even if others or the sums in between wrap around. -/
theorem C126_mul_exact [NeZero k] (s t : IntTy) (hs : 1 ≤ s.bits) (ht : 1 ≤ t.bits) (tb : RTree (batchSize k false)) (ts : RTree k) (htb : tb.Valid) (hts : ts.Valid)
    (A : Mat cA ℤ r k o L p1) (B : Mat cB ℤ k n o L' p2) (hA : ∀ i q, InRange s (A.get i q)) (hB : ∀ q j, InRange t (B.get q j)) (m : Mat cC ℤ r n o L (p1 && p2))
    (hm : Mat.matMulInt s t tb ts A B = some m) (i : Fin r) (j : Fin n) (hr : InRange (common s t) (∑ q, A.get i q * B.get q j)) :
    m.get i j = ∑ q, A.get i q * B.get q j := by
  obtain ⟨h1, h2⟩ := C126_mul s t hs ht tb ts htb hts A B hA hB m hm i j
  have := bits_common s t
  exact eq_of_dvd (by omega) ((inRange_iff _ _).1 h1) ((inRange_iff _ _).1 hr) h2

/-- C126: no undefined overflow happens if the result type is unsigned, or if the absolute values of the products of each element add up to at most its largest value. -/
theorem C126_mul_defined [NeZero k] (s t : IntTy) (hs : 1 ≤ s.bits) (ht : 1 ≤ t.bits) (tb : RTree (batchSize k false)) (ts : RTree k) (htb : tb.Valid) (hts : ts.Valid)
    (A : Mat cA ℤ r k o L p1) (B : Mat cB ℤ k n o L' p2) (hA : ∀ i q, InRange s (A.get i q)) (hB : ∀ q j, InRange t (B.get q j))
    (h : (common s t).signed = true → ∀ i j, ∑ q, |A.get i q * B.get q j| ≤ (common s t).hi) :
    ∃ m : Mat cC ℤ r n o L (p1 && p2), Mat.matMulInt s t tb ts A B = some m :=
  Option.isSome_iff_exists.1 ((matMulInt_res (ok := True) hs ht tb ts htb hts A B (fun i q => (inRange_iff _ _).1 (hA i q)) (fun q j => (inRange_iff _ _).1 (hB q j))
    (fun _ hsg => h hsg)).2 trivial)

/-- C126: the same for a vector times a matrix. -/
theorem C126_vec_mul [NeZero k] (s t : IntTy) (hs : 1 ≤ s.bits) (ht : 1 ≤ t.bits) (tb : RTree (batchSize k false)) (ts : RTree k) (htb : tb.Valid) (hts : ts.Valid)
    (a : Vec cA ℤ k p1) (B : Mat cB ℤ k n .follow L p2) (ha : ∀ q, InRange s (a.get q)) (hB : ∀ q j, InRange t (B.get q j)) (v : Fin n → ℤ)
    (hv : Mat.vecMulInt cC s t tb ts a B = some v) (j : Fin n) :
    InRange (common s t) (v j) ∧ (2 : ℤ) ^ (common s t).bits ∣ v j - ∑ q, a.get q * B.get q j ∧
      (InRange (common s t) (∑ q, a.get q * B.get q j) → v j = ∑ q, a.get q * B.get q j) := by
  obtain ⟨h1, h2⟩ := (vecMulInt_res (ok := False) cC hs ht tb ts htb hts a B (fun q => (inRange_iff _ _).1 (ha q)) (fun q j => (inRange_iff _ _).1 (hB q j))
    (fun h => h.elim)).1 v hv j
  have := bits_common s t
  exact ⟨(inRange_iff _ _).2 h1, h2, fun hr => eq_of_dvd (by omega) h1 ((inRange_iff _ _).1 hr) h2⟩

theorem C126_vec_mul_defined [NeZero k] (s t : IntTy) (hs : 1 ≤ s.bits) (ht : 1 ≤ t.bits) (tb : RTree (batchSize k false)) (ts : RTree k) (htb : tb.Valid) (hts : ts.Valid)
    (a : Vec cA ℤ k p1) (B : Mat cB ℤ k n .follow L p2) (ha : ∀ q, InRange s (a.get q)) (hB : ∀ q j, InRange t (B.get q j))
    (h : (common s t).signed = true → ∀ j, ∑ q, |a.get q * B.get q j| ≤ (common s t).hi) : ∃ v, Mat.vecMulInt cC s t tb ts a B = some v :=
  Option.isSome_iff_exists.1 ((vecMulInt_res (ok := True) cC hs ht tb ts htb hts a B (fun q => (inRange_iff _ _).1 (ha q)) (fun q j => (inRange_iff _ _).1 (hB q j))
    (fun _ hsg => h hsg)).2 trivial)

/-- C126: the same for a matrix times a vector. -/
theorem C126_mul_vec [NeZero k] (s t : IntTy) (hs : 1 ≤ s.bits) (ht : 1 ≤ t.bits) (tb : RTree (batchSize k false)) (ts : RTree k) (htb : tb.Valid) (hts : ts.Valid)
    (m0 : Mat cA ℤ k n .follow L.flip p1) (A : Mat cA ℤ n k .precede L p1) (b : Vec cB ℤ k p2) (hA : ∀ i q, InRange s (A.get i q)) (hb : ∀ q, InRange t (b.get q))
    (v : Fin n → ℤ) (hv : Mat.mulVecInt cC s t tb ts m0 A b = some v) (i : Fin n) :
    InRange (common s t) (v i) ∧ (2 : ℤ) ^ (common s t).bits ∣ v i - ∑ q, A.get i q * b.get q ∧
      (InRange (common s t) (∑ q, A.get i q * b.get q) → v i = ∑ q, A.get i q * b.get q) := by
  have e : ∀ q i, (Mat.flipLayoutAndOrder (o := .precede) m0 A).get q i = A.get i q := fun q i => Mat.get_convertOrder (o := .precede) m0 A q i
  have := C126_vec_mul (cC := cC) t s ht hs tb ts htb hts b (Mat.flipLayoutAndOrder (o := .precede) m0 A) hb (fun q j => by rw [e]; exact hA j q) v hv i
  simp only [e, common_comm t s] at this
  simpa only [mul_comm] using this

theorem C126_mul_vec_defined [NeZero k] (s t : IntTy) (hs : 1 ≤ s.bits) (ht : 1 ≤ t.bits) (tb : RTree (batchSize k false)) (ts : RTree k) (htb : tb.Valid) (hts : ts.Valid)
    (m0 : Mat cA ℤ k n .follow L.flip p1) (A : Mat cA ℤ n k .precede L p1) (b : Vec cB ℤ k p2) (hA : ∀ i q, InRange s (A.get i q)) (hb : ∀ q, InRange t (b.get q))
    (h : (common s t).signed = true → ∀ i, ∑ q, |A.get i q * b.get q| ≤ (common s t).hi) : ∃ v, Mat.mulVecInt cC s t tb ts m0 A b = some v := by
  have e : ∀ q i, (Mat.flipLayoutAndOrder (o := .precede) m0 A).get q i = A.get i q := fun q i => Mat.get_convertOrder (o := .precede) m0 A q i
  refine C126_vec_mul_defined (cC := cC) t s ht hs tb ts htb hts b (Mat.flipLayoutAndOrder (o := .precede) m0 A) hb (fun q j => by rw [e]; exact hA j q) ?_
  rw [common_comm t s]
  intro hsg j
  simp only [e, mul_comm (b.get _)]
  exact h hsg j

/-- C126: the trace of types without promotion. -/
theorem C126_trace (t : IntTy) (ht : 32 ≤ t.bits) (tb : RTree (batchSize n false)) (ts : RTree n) (htb : tb.Valid) (hts : ts.Valid) (m : Matrix (Fin n) (Fin n) ℤ)
    (hm : ∀ i j, InRange t (m i j)) :
    (∀ w, traceInt c p t tb ts m = some w → InRange t w ∧ (2 : ℤ) ^ t.bits ∣ w - m.trace) ∧
    ((t.signed = true → ∑ i, |m i i| ≤ t.hi) → ∃ w, traceInt c p t tb ts m = some w) := by
  refine ⟨fun w hw => ?_, fun h => ?_⟩
  · have := traceInt_res (c := c) (p := p) (ok := False) ht tb ts htb hts m (fun i j => (inRange_iff _ _).1 (hm i j)) fun h => h.elim
    exact ⟨(inRange_iff _ _).2 (this.range w hw), this.dvd w hw⟩
  · exact Option.isSome_iff_exists.1 ((traceInt_res (c := c) (p := p) (ok := True) ht tb ts htb hts m (fun i j => (inRange_iff _ _).1 (hm i j)) fun _ => h).total trivial)

/-- C126: the trace of small types is always defined, modulo `2 ^ bits`. -/
theorem C126_trace_small (t : IntTy) (h1 : 1 ≤ t.bits) (ht : t.bits ≤ 16) (tb : RTree (batchSize n false)) (ts : RTree n) (htb : tb.Valid) (hts : ts.Valid)
    (m : Matrix (Fin n) (Fin n) ℤ) (hm : ∀ i j, InRange t (m i j)) :
    ∃ w, traceInt c p t tb ts m = some w ∧ InRange t w ∧ (2 : ℤ) ^ t.bits ∣ w - m.trace := by
  have e : ∀ i, (Vec.ofFn (fun i => m i i) : Vec c ℤ n p).get i = m i i := fun i => Vec.get_ofFn _ _
  have h := Vec.sumInt_modular h1 (Or.inl ht) tb ts htb hts (Vec.ofFn (fun i => m i i) : Vec c ℤ n p) fun i => by rw [e]; exact (inRange_iff _ _).1 (hm i i)
  refine ⟨_, h, (inRange_iff _ _).2 (conv_range h1 _), ?_⟩
  simp only [e]
  exact conv_dvd t _

/-- C126: determinants of dimension 2. If no undefined overflow happens, the result is a value of the element type congruent to the determinant. -/
theorem C126_det2 (t : IntTy) (ht : 1 ≤ t.bits) (m : Matrix (Fin 2) (Fin 2) ℤ) (hm : ∀ i j, InRange t (m i j)) :
    (∀ w, det2Int t m = some w → InRange t w ∧ (2 : ℤ) ^ t.bits ∣ w - m.det ∧ (InRange t m.det → w = m.det)) ∧
    (((common t t).signed = true → ∃ B, (∀ i j, |m i j| ≤ B) ∧ 2 * B ^ 2 ≤ (common t t).hi) → ∃ w, det2Int t m = some w) := by
  have hd : det2 m = m.det := C28_det2 m
  refine ⟨fun w hw => ?_, fun h => ?_⟩
  · obtain ⟨h1, h2⟩ := (det2Int_res (ok := False) ht m (fun i j => (inRange_iff _ _).1 (hm i j)) fun h => h.elim).1 w hw
    rw [hd] at h2
    exact ⟨(inRange_iff _ _).2 h1, h2, fun hr => eq_of_dvd ht h1 ((inRange_iff _ _).1 hr) h2⟩
  · exact Option.isSome_iff_exists.1 ((det2Int_res (ok := True) ht m (fun i j => (inRange_iff _ _).1 (hm i j)) fun _ => h).2 trivial)

private theorem stripes_range {n : ℕ} {P : ℤ → Prop} (L : Layout) (m : Matrix (Fin n) (Fin n) ℤ) (h : ∀ i j, P (m i j)) (i j : Fin n) : P (stripesOf L m i j) := by
  cases L
  · exact h i j
  · exact h j i

/-- C126: determinants of dimension 3. -/
theorem C126_det3 (t : IntTy) (ht : 1 ≤ t.bits) (L : Layout) (tb : RTree (batchSize 3 false)) (ts : RTree 3) (htb : tb.Valid) (hts : ts.Valid)
    (m : Matrix (Fin 3) (Fin 3) ℤ) (hm : ∀ i j, InRange t (m i j)) :
    (∀ w, det3Int c c' p t tb ts (stripesOf L m) = some w → InRange t w ∧ (2 : ℤ) ^ t.bits ∣ w - m.det ∧ (InRange t m.det → w = m.det)) ∧
    (((common t t).signed = true → ∃ B, (∀ i j, |m i j| ≤ B) ∧ 1 ≤ B ∧ 6 * B ^ 3 ≤ (common t t).hi) → ∃ w, det3Int c c' p t tb ts (stripesOf L m) = some w) := by
  have hd := C28_det3 L m
  have hr := stripes_range (P := fun x => t.lo ≤ x ∧ x ≤ t.hi) L m fun i j => (inRange_iff _ _).1 (hm i j)
  refine ⟨fun w hw => ?_, fun h => ?_⟩
  · obtain ⟨h1, h2⟩ := (det3Int_res (c := c) (c' := c') (p := p) (ok := False) ht tb ts htb hts _ hr fun h => h.elim).1 w hw
    rw [hd] at h2
    exact ⟨(inRange_iff _ _).2 h1, h2, fun hr => eq_of_dvd ht h1 ((inRange_iff _ _).1 hr) h2⟩
  · refine Option.isSome_iff_exists.1 ((det3Int_res (c := c) (c' := c') (p := p) (ok := True) ht tb ts htb hts _ hr fun _ hs => ?_).2 trivial)
    obtain ⟨B, h1, h2⟩ := h hs
    exact ⟨B, stripes_range (P := fun x => |x| ≤ B) L m h1, h2⟩

/-- C126: determinants of dimension 4. For the small unsigned types, which are promoted to `int`, it is left open whether an overflow happens. -/
theorem C126_det4 (t : IntTy) (ht : 2 ≤ t.bits) (L : Layout) (tb3 : RTree (batchSize 3 false)) (ts3 : RTree 3) (tb4 : RTree (batchSize 4 false)) (ts4 : RTree 4)
    (htb3 : tb3.Valid) (hts3 : ts3.Valid) (htb4 : tb4.Valid) (hts4 : ts4.Valid) (m : Matrix (Fin 4) (Fin 4) ℤ) (hm : ∀ i j, InRange t (m i j)) :
    (∀ w, det4Int c c' p t tb3 ts3 tb4 ts4 (stripesOf L m) = some w → InRange t w ∧ (2 : ℤ) ^ t.bits ∣ w - m.det ∧ (InRange t m.det → w = m.det)) ∧
    (((common t t).signed = true → t.signed = true ∧ ∃ B, (∀ i j, |m i j| ≤ B) ∧ 1 ≤ B ∧ 24 * B ^ 4 ≤ (common t t).hi) →
      ∃ w, det4Int c c' p t tb3 ts3 tb4 ts4 (stripesOf L m) = some w) := by
  have hd := C28_det4 L m
  have hr := stripes_range (P := fun x => t.lo ≤ x ∧ x ≤ t.hi) L m fun i j => (inRange_iff _ _).1 (hm i j)
  refine ⟨fun w hw => ?_, fun h => ?_⟩
  · obtain ⟨h1, h2⟩ := (det4Int_res (c := c) (c' := c') (p := p) (ok := False) (by omega) tb3 ts3 tb4 ts4 htb3 hts3 htb4 hts4 _ hr fun h => h.elim).1 w hw
    rw [hd] at h2
    exact ⟨(inRange_iff _ _).2 h1, h2, fun hr => eq_of_dvd (by omega) h1 ((inRange_iff _ _).1 hr) h2⟩
  · refine Option.isSome_iff_exists.1 ((det4Int_res (c := c) (c' := c') (p := p) (ok := True) (by omega) tb3 ts3 tb4 ts4 htb3 hts3 htb4 hts4 _ hr fun _ hs => ?_).2 trivial)
    obtain ⟨hsg, B, h1, h2⟩ := h hs
    have h4 : (2 : ℤ) ≤ 2 ^ (t.bits - 1) := by
      have : (2 : ℤ) ^ 1 ≤ 2 ^ (t.bits - 1) := pow_le_pow_right₀ (by norm_num) (by omega)
      simpa using this
    have e1 : t.lo = -2 ^ (t.bits - 1) := by unfold lo; rw [hsg]; rfl
    have e2 : t.hi = 2 ^ (t.bits - 1) - 1 := by unfold hi; rw [hsg]; rfl
    exact ⟨conv_self (by omega) ⟨by omega, by omega⟩, conv_self (by omega) ⟨by omega, by omega⟩, B, stripes_range (P := fun x => |x| ≤ B) L m h1, h2⟩

/-- C127, partial: the determinant of dimension 5 and above (and 1) is defined and exact if the leading principal minors of order `1 … Dim - 2` are nonzero and all bordered minors
fit in the element type, their products in the promoted type; for unsigned types they must not be negative. -/
theorem C127_bareiss_partial (t : IntTy) (h8 : 2 ≤ t.bits) (m : Matrix (Fin (n + 1)) (Fin (n + 1)) ℤ) (hl : ∀ s (h : s + 1 ≤ n), (leading m s (by omega)).det ≠ 0)
    (B : ℤ) (hB : ∀ (q : ℕ) (r c : Fin (n + 1)), q ≤ r.val → q ≤ c.val → |bordered m q r c| ≤ B) (h1 : B ≤ t.hi) (h2 : B * B ≤ (promote t).hi)
    (hpos : t.signed = false → ∀ (q : ℕ) (r c : Fin (n + 1)), q ≤ r.val → q ≤ c.val → 0 ≤ bordered m q r c) : bareissInt t m = some m.det := by
  have ht : 1 ≤ t.bits := by omega
  have hu : common t t = promote t := usual_self _
  have hB0 : 0 ≤ B := (abs_nonneg _).trans (hB 0 0 0 (Nat.zero_le _) (Nat.zero_le _))
  have hsg : ∀ (q : ℕ) (r c : Fin (n + 1)), q ≤ r.val → q ≤ c.val → t.signed = true ∨ 0 ≤ bordered m q r c := by
    intro q r c hr hc
    cases h : t.signed
    · exact Or.inr (hpos h q r c hr hc)
    · exact Or.inl rfl
  have hrange : ∀ (q : ℕ) (r c : Fin (n + 1)), q ≤ r.val → q ≤ c.val → t.lo ≤ bordered m q r c ∧ bordered m q r c ≤ t.hi := fun q r c hr hc =>
    Vec.conv_le_hi _ ((hB q r c hr hc).trans h1) (hsg q r c hr hc)
  have hps : t.signed = true → (promote t).signed = true := by
    intro h
    unfold promote
    split
    · rfl
    · exact h
  -- one iteration, with divisor `d`
  have step : ∀ (k : Fin n) (X : Fin (n + 1) → Fin (n + 1) → ℤ) (d : ℤ), BareissInv (fun i j => m i j) X k.val d → d ≠ 0 → (t.lo ≤ d ∧ d ≤ t.hi) → |d| ≤ B ∨ d = 1 →
      (t.signed = true ∨ 0 ≤ d) → bareissElimInt t k.castSucc d X = some (bareissElim Int.tdiv k.castSucc d X) := by
    intro k X d hI hd0 hdr hdB hds
    have hX : ∀ r c : Fin (n + 1), k.val ≤ r.val → k.val ≤ c.val → X r c = bordered m k.val r c := fun r c hr hc => bareissInv_bordered hI r c hr hc
    have hkk : k.val ≤ (k.castSucc : Fin (n + 1)).val := le_refl _
    rw [bareissElimInt_eq t k.castSucc d X fun r c => bordered m (k.val + 1) r c]
    · congr 1
      funext r c
      rw [bareissElim_eq]
      split
      · rename_i h
        have := bareissInv_num (k := k.castSucc) hI r c h.1 h.2
        rw [this]
        exact (Int.mul_tdiv_cancel _ hd0).symm
      · rfl
    · intro r c hr hc
      have hr' : k.val + 1 ≤ r.val := hr
      have hc' : k.val + 1 ≤ c.val := hc
      have hnum := bareissInv_num (k := k.castSucc) hI r c hr hc
      change _ = bordered m (k.val + 1) r c * d at hnum
      have b1 := hB k.val r c (by omega) (by omega)
      have b2 := hB k.val _ _ hkk hkk
      have b3 := hB k.val r _ (by omega) hkk
      have b4 := hB k.val _ c hkk (by omega)
      have b5 := hB (k.val + 1) r c hr' hc'
      have mulB : ∀ {x y : ℤ}, |x| ≤ B → |y| ≤ B → |x * y| ≤ (promote t).hi := fun hx hy => by
        rw [abs_mul]
        exact (mul_le_mul hx hy (abs_nonneg _) hB0).trans h2
      rw [← hX r c (by omega) (by omega)] at b1
      rw [← hX _ _ hkk hkk] at b2
      rw [← hX r _ (by omega) hkk] at b3
      rw [← hX _ c hkk (by omega)] at b4
      have hprod : |bordered m (k.val + 1) r c * d| ≤ (promote t).hi := by
        rcases hdB with h | h
        · exact mulB b5 h
        · rw [h, mul_one]
          have := Vec.common_range ht (hrange (k.val + 1) r c hr' hc')
          refine b5.trans ?_
          rcases eq_or_lt_of_le hB0 with h0 | h0
          · rw [← h0] at h2 ⊢; simpa using h2
          · nlinarith
      refine bareissEntryInt_eq ht ?_ ?_ ?_ ?_ hdr hd0 (hrange _ r c hr' hc') (by rw [hu]; exact mulB b1 b2) (by rw [hu]; exact mulB b3 b4) hnum ?_
      · rw [hX r c (by omega) (by omega)]; exact hrange _ _ _ (by omega) (by omega)
      · rw [hX _ _ hkk hkk]; exact hrange _ _ _ hkk hkk
      · rw [hX r _ (by omega) hkk]; exact hrange _ _ _ (by omega) hkk
      · rw [hX _ c hkk (by omega)]; exact hrange _ _ _ hkk (by omega)
      · rw [hu]
        refine Vec.conv_le_hi _ hprod ?_
        rcases hds with h | h
        · exact Or.inl (hps h)
        · rcases hsg (k.val + 1) r c hr' hc' with h' | h'
          · exact Or.inl (hps h')
          · exact Or.inr (mul_nonneg h' h)
  have hdiv : ∀ a b : ℤ, b ≠ 0 → Int.tdiv (a * b) b = a := fun a _ hb => Int.mul_tdiv_cancel a hb
  have hlead : ∀ (k : ℕ) (h : k + 1 ≤ n + 1), bordered m k ⟨k, h⟩ ⟨k, h⟩ = (leading m (k + 1) h).det := by
    intro k h
    unfold bordered leading
    have : (borderIdx k (⟨k, h⟩ : Fin (n + 1))) = Fin.castLE h := by
      funext a
      unfold borderIdx
      split
      · rfl
      · apply Fin.ext
        simp only [Fin.val_castLE]
        have := a.isLt
        omega
    rw [this]
  have main := forUp_inv (n := n) (lo := 0) (body := fun k => bareissStepInt t k.castSucc) (s := some (some ⟨fun i j => m i j, false⟩))
    (fun k s => ∃ X, s = some (some (⟨X, false⟩ : Bareiss ℤ (n + 1))) ∧
      BareissInv (fun i j => m i j) X k (if h : k = 0 then 1 else if h' : k ≤ n then X ⟨k - 1, by omega⟩ ⟨k - 1, by omega⟩ else 1) ∧
      (∀ (h : k ≠ 0) (h' : k ≤ n), X ⟨k - 1, by omega⟩ ⟨k - 1, by omega⟩ = bordered m (k - 1) ⟨k - 1, by omega⟩ ⟨k - 1, by omega⟩))
    (Nat.zero_le _) ⟨fun i j => m i j, rfl, by simpa using bareissInv_init (fun i j => m i j), fun h => absurd rfl h⟩ (by
      rintro k s - ⟨X, rfl, hI, hd⟩
      have hpiv : X k.castSucc k.castSucc = bordered m k.val k.castSucc k.castSucc := bareissInv_bordered hI _ _ (le_refl _) (le_refl _)
      have hp : X k.castSucc k.castSucc ≠ 0 ∨ n + 1 ≤ k.castSucc.val + 2 := by
        by_cases h : n + 1 ≤ k.val + 2
        · exact Or.inr h
        · left
          rw [hpiv]
          have := hlead k.val (by omega)
          rw [show (k.castSucc : Fin (n + 1)) = ⟨k.val, by omega⟩ from rfl, this]
          exact hl _ (by omega)
      have hkn : k.val ≤ n := by omega
      by_cases hk : k.val = 0
      · rw [dif_pos hk] at hI
        have hone : t.lo ≤ 1 ∧ 1 ≤ t.hi := by
          have h4 : (2 : ℤ) ^ 1 ≤ 2 ^ (t.bits - 1) := pow_le_pow_right₀ (by norm_num) (by omega)
          have h5 := pow_pred ht
          unfold lo hi
          split <;> constructor <;> omega
        have e : bareissElim Int.tdiv k.castSucc 1 X k.castSucc k.castSucc = X k.castSucc k.castSucc := by
          rw [bareissElim_eq]; simp
        refine ⟨bareissElim Int.tdiv k.castSucc 1 X, ?_, ?_, ?_⟩
        · simp only [bareissStepInt, Option.bind_some, Fin.val_castSucc, hk, dif_pos]
          rw [step k X 1 hI one_ne_zero hone (Or.inr rfl) (Or.inr zero_le_one)]
          rfl
        · have := bareissInv_step (k := k.castSucc) Int.tdiv hdiv hI one_ne_zero hp
          rw [dif_neg (Nat.succ_ne_zero _), dif_pos (show k.val + 1 ≤ n from k.isLt)]
          rw [← e] at this
          exact this
        · intro _ h'
          exact e.trans hpiv
      · rw [dif_neg hk, dif_pos hkn] at hI
        have hd := hd hk hkn
        set d := X ⟨k.val - 1, by omega⟩ ⟨k.val - 1, by omega⟩ with hdd
        have hd0 : d ≠ 0 := by
          rw [hd, hlead]
          exact hl _ (by omega)
        have e : bareissElim Int.tdiv k.castSucc d X k.castSucc k.castSucc = X k.castSucc k.castSucc := by
          rw [bareissElim_eq]; simp
        refine ⟨bareissElim Int.tdiv k.castSucc d X, ?_, ?_, ?_⟩
        · simp only [bareissStepInt, Option.bind_some, Fin.val_castSucc, hk, dif_neg, not_false_eq_true]
          rw [bareissPivot_nonzero _ _ _ _ hd0]
          simp only
          rw [if_neg hd0, step k X d hI hd0 (by rw [hd]; exact hrange _ _ _ (le_refl _) (le_refl _)) (Or.inl (by rw [hd]; exact hB _ _ _ (le_refl _) (le_refl _)))
            (by rw [hd]; exact hsg _ _ _ (le_refl _) (le_refl _))]
          rfl
        · have := bareissInv_step (k := k.castSucc) Int.tdiv hdiv hI hd0 hp
          rw [dif_neg (Nat.succ_ne_zero _), dif_pos (show k.val + 1 ≤ n from k.isLt)]
          rw [← e] at this
          exact this
        · intro _ h'
          exact e.trans hpiv)
  obtain ⟨X, hX, hI, -⟩ := main
  unfold bareissInt
  rw [hX]
  simp only [Option.bind_some, Bool.false_eq_true, if_false]
  congr 1
  rw [bareissInv_bordered hI (Fin.last n) (Fin.last n) (le_refl _) (le_refl _)]
  have := hlead n (le_refl _)
  exact this

/-- Two blocks with determinant -3. -/
def negMinors : Matrix (Fin 5) (Fin 5) ℤ := !![1, 2, 0, 0, 0; 2, 1, 0, 0, 0; 0, 0, 1, 2, 0; 0, 0, 2, 1, 0; 0, 0, 0, 0, 1]
/-- A leading minor is 200. -/
def bigMinor : Matrix (Fin 5) (Fin 5) ℤ := !![10, 0, 1, 0, 0; 0, 20, 0, 0, 0; -1, 0, 0, 0, 0; 0, 0, 0, 1, 0; 0, 0, 0, 0, 1]
/-- A leading minor is `-2 ^ 32`. -/
def bigProduct : Matrix (Fin 5) (Fin 5) ℤ := !![1, 65536, 0, 0, 0; 65536, 0, 1, 0, 0; 0, 1, 0, 0, 0; 0, 0, 0, 1, 0; 0, 0, 0, 0, 1]

/-- C127 is violated: for `unsigned`, the division of a negative minor gives 0 instead of the determinant 9. -/
theorem C127_unsigned_violated : (∀ i j, InRange u32 (negMinors i j)) ∧ negMinors.det = 9 ∧ bareissInt u32 negMinors = some 0 :=
  ⟨by
     have h : ∀ i j, 0 ≤ negMinors i j ∧ negMinors i j < 2 ^ 32 := by intro i j; fin_cases i <;> fin_cases j <;> exact of_decide_eq_true rfl
     exact h, by decide +kernel, by decide +kernel⟩

/-- C127 is violated: a minor that does not fit in `std::int8_t` is truncated; the result is -5 instead of 20. -/
theorem C127_narrow_violated : (∀ i j, InRange i8 (bigMinor i j)) ∧ bigMinor.det = 20 ∧ bareissInt i8 bigMinor = some (-5) :=
  ⟨by
     have h : ∀ i j, -2 ^ 7 ≤ bigMinor i j ∧ bigMinor i j < 2 ^ 7 := by intro i j; fin_cases i <;> fin_cases j <;> exact of_decide_eq_true rfl
     exact h, by decide +kernel, by decide +kernel⟩

/-- C127 is violated: for `int`, a product in between overflows although the determinant is -1. -/
theorem C127_overflow_violated : (∀ i j, InRange i32 (bigProduct i j)) ∧ bigProduct.det = -1 ∧ bareissInt i32 bigProduct = none :=
  ⟨by
     have h : ∀ i j, -2 ^ 31 ≤ bigProduct i j ∧ bigProduct i j < 2 ^ 31 := by intro i j; fin_cases i <;> fin_cases j <;> exact of_decide_eq_true rfl
     exact h, by decide +kernel, by decide +kernel⟩

private theorem bareissEntryInt_01 (t : IntTy) {aij akk aik akj : ℤ} (h1 : aij = 0 ∨ aij = 1) (h2 : akk = 0 ∨ akk = 1) (h3 : aik = 0 ∨ aik = 1)
    (h4 : akj = 0 ∨ akj = 1) : ∃ q, bareissEntryInt t aij akk aik akj 1 = some q := by
  have hb : 32 ≤ (common t t).bits := bits_common t t
  have hu : common (common t t) (common t t) = common t t := common_self t t
  have hr : common (common t t) t = common t t := common_right t t
  have hhi : 1 ≤ (common t t).hi := by
    have : (2 : ℤ) ≤ 2 ^ ((common t t).bits - 1) := le_self_pow₀ (by norm_num) (by omega)
    have : (2 : ℤ) ≤ 2 ^ (common t t).bits := le_self_pow₀ (by norm_num) (by omega)
    unfold hi
    split <;> omega
  have c0 : (common t t).lo ≤ 0 ∧ 0 ≤ (common t t).hi := Vec.conv_le_hi _ (by rw [abs_zero]; omega) (Or.inr le_rfl)
  have c1 : (common t t).lo ≤ 1 ∧ 1 ≤ (common t t).hi := Vec.conv_le_hi _ (by rw [abs_one]; exact hhi) (Or.inr zero_le_one)
  have mul01 : ∀ {a b : ℤ}, (a = 0 ∨ a = 1) → (b = 0 ∨ b = 1) → ∃ x, (x = 0 ∨ x = 1) ∧ scalarOp (· * ·) t t a b = some x := by
    rintro a b (rfl | rfl) (rfl | rfl) <;> unfold scalarOp <;> simp only [conv_self (by omega : 1 ≤ (common t t).bits) c0,
      conv_self (by omega : 1 ≤ (common t t).bits) c1, mul_zero, mul_one, result_exact (by omega : 1 ≤ (common t t).bits) c0,
      result_exact (by omega : 1 ≤ (common t t).bits) c1]
    · exact ⟨0, Or.inl rfl, rfl⟩
    · exact ⟨0, Or.inl rfl, rfl⟩
    · exact ⟨0, Or.inl rfl, rfl⟩
    · exact ⟨1, Or.inr rfl, rfl⟩
  obtain ⟨x, hx, ex⟩ := mul01 h1 h2
  obtain ⟨y, hy, ey⟩ := mul01 h3 h4
  have hz : ∃ z, scalarOp (· - ·) (common t t) (common t t) x y = some z := by
    have cx : conv (common t t) x = x := by rcases hx with rfl | rfl <;> [exact conv_self (by omega) c0; exact conv_self (by omega) c1]
    have cy : conv (common t t) y = y := by rcases hy with rfl | rfl <;> [exact conv_self (by omega) c0; exact conv_self (by omega) c1]
    unfold scalarOp
    rw [hu, cx, cy]
    cases hs : (common t t).signed
    · exact ⟨_, result_unsigned hs _⟩
    · refine ⟨_, result_exact (by omega) (range_of_abs hs ?_)⟩
      rcases hx with rfl | rfl <;> rcases hy with rfl | rfl <;> norm_num <;> omega
  obtain ⟨z, ez⟩ := hz
  have hd : scalarDiv (common t t) t z 1 = some (conv (common t t) z) := by
    unfold scalarDiv
    simp only [hr]
    rw [conv_self (by omega) c1, if_neg (by norm_num), Int.tdiv_one]
    exact result_exact (by omega) (conv_range (by omega) z)
  refine ⟨conv t (conv (common t t) z), ?_⟩
  unfold bareissEntryInt
  simp only
  rw [ex, Option.bind_some, ey, Option.bind_some, ez, Option.bind_some, hd, Option.map_some]

/-- C127 is violated: in every dimension for which the Bareiss algorithm is selected (5 and above) and for every integer type, the matrix that exchanges two coordinates
has determinant -1, but the result is 0. (For unsigned types, -1 is represented by the largest value.) -/
theorem C127_zero_violated (t : IntTy) (h : 2 ≤ t.bits) (n : ℕ) : ∃ m : Matrix (Fin (n + 5)) (Fin (n + 5)) ℤ,
    (∀ i j, InRange t (m i j)) ∧ m.det = -1 ∧ bareissInt t m = some 0 := by
  have h2 : (4 : ℤ) ≤ 2 ^ t.bits := (by norm_num : (4 : ℤ) = 2 ^ 2).le.trans (pow_le_pow_right₀ (by norm_num) h)
  have h1 : (2 : ℤ) ≤ 2 ^ (t.bits - 1) := le_self_pow₀ (by norm_num) (by omega)
  have c01 : ∀ i j, swap01 ℤ (n + 3) i j = 0 ∨ swap01 ℤ (n + 3) i j = 1 := by
    intro i j
    unfold swap01
    split
    · exact Or.inr rfl
    · exact Or.inl rfl
  refine ⟨Matrix.of (swap01 ℤ (n + 3)), ?_, det_swap01 _, ?_⟩
  · intro i j
    have hhi : 1 ≤ t.hi := by unfold hi; split <;> omega
    rw [inRange_iff, Matrix.of_apply]
    rcases c01 i j with e | e <;> rw [e]
    · exact Vec.conv_le_hi _ (by rw [abs_zero]; omega) (Or.inr le_rfl)
    · exact Vec.conv_le_hi _ (by rw [abs_one]; omega) (Or.inr zero_le_one)
  -- the first iteration only changes the rows and columns after the first
  choose q hq using fun r c : Fin (n + 5) => bareissEntryInt_01 t (c01 r c) (c01 0 0) (c01 r 0) (c01 0 c)
  have helim := bareissElimInt_eq t 0 1 (swap01 ℤ (n + 3)) q fun r c _ _ => hq r c
  have hcol : ∀ r : Fin (n + 5), (fun r c => if 0 < r ∧ 0 < c then q r c else swap01 ℤ (n + 3) r c) r 0 = if r = 1 then 1 else 0 := by
    intro r
    simp only [lt_self_iff_false, and_false, if_false, swap01]
    congr 1
    apply propext
    constructor
    · intro h
      have := congrArg (Equiv.swap (0 : Fin (n + 5)) 1) h
      simpa using this.symm
    · rintro rfl; simp
  revert helim hcol
  generalize (fun r c => if 0 < r ∧ 0 < c then q r c else swap01 ℤ (n + 3) r c) = X
  intro helim hcol
  have hnone : forUp (n + 4) 0 (fun k => bareissStepInt t k.castSucc) (some (some ⟨swap01 ℤ (n + 3), false⟩)) = some none := by
    rw [forUp_step (by omega), forUp_step (by omega)]
    have h0 : bareissStepInt t (Fin.castSucc (⟨0, by omega⟩ : Fin (n + 4))) (some (some ⟨swap01 ℤ (n + 3), false⟩)) = some (some ⟨X, false⟩) := by
      have e0 : (Fin.castSucc (⟨0, by omega⟩ : Fin (n + 4))) = 0 := rfl
      unfold bareissStepInt
      rw [e0]
      simp only [Option.bind_some, Fin.val_zero, dif_pos, helim, Option.map_some]
    rw [h0]
    have h1 : bareissStepInt t (Fin.castSucc (⟨0 + 1, by omega⟩ : Fin (n + 4))) (some (some ⟨X, false⟩)) = some none := by
      have hloop := forUp_inv (n := n + 5) (lo := 2) (body := bareissPivotStep (0 : Fin (n + 5))) (s := bareissPivotStep 0 ⟨1, by omega⟩ (⟨X, false⟩, 0))
        (fun _ s => s.2 = 0 ∧ ∀ r : Fin (n + 5), 1 ≤ r.val → s.1.inPlace r 0 = 0) (by omega) (by
          have e1 : (⟨1, by omega⟩ : Fin (n + 5)) = 1 := rfl
          have e3 : X 1 0 ≠ 0 := by rw [hcol]; simp
          rw [e1]
          simp only [bareissPivotStep, if_true, e3, ne_eq, not_false_eq_true]
          constructor
          · rw [hcol]; simp
          · intro r hr
            split
            · rw [hcol]; simp
            · rename_i h
              have : r ≠ 0 := by intro e; rw [e] at hr; simp at hr
              rw [if_neg this, hcol, if_neg h]) (by
          rintro i ⟨b, x⟩ hi ⟨hx, hb⟩
          dsimp only at hx hb
          have := hb i (by omega)
          simp only [bareissPivotStep, hx, this]
          simpa using hb)
      have hz : X 0 0 = 0 := by rw [hcol]; simp
      have hstep : forUp (n + 5) 1 (bareissPivotStep (0 : Fin (n + 5))) (⟨X, false⟩, 0)
          = forUp (n + 5) 2 (bareissPivotStep 0) (bareissPivotStep 0 ⟨1, by omega⟩ (⟨X, false⟩, 0)) := forUp_step (by omega)
      rw [← hstep] at hloop
      simp only [bareissStepInt, Option.bind_some, Fin.val_castSucc, Nat.zero_add, one_ne_zero, dif_neg, not_false_eq_true]
      rw [show (⟨1 - 1, by omega⟩ : Fin (n + 5)) = 0 from rfl, hz, if_pos hloop.1]
    rw [h1]
    exact forUp_inv (n := n + 4) (lo := 0 + 1 + 1) (body := fun k => bareissStepInt t k.castSucc) (s := some none) (fun _ s => s = some none) (by omega) rfl
      (by rintro i s - rfl; rfl)
  unfold bareissInt
  simp only [Matrix.of_apply]
  rw [hnone]
  rfl

/-- C127 is violated: for `std::uint16_t` the sign -1 is stored as 65535 and multiplied as `int`, so that the determinant of a 4×4 matrix overflows if all elements
are 14 (the determinant is 0), with any configuration of SIMD and any order of sums. -/
theorem C127_sign_violated (L : Layout) (tb3 : RTree (batchSize 3 false)) (ts3 : RTree 3) (tb4 : RTree (batchSize 4 false)) (ts4 : RTree 4) :
    (∀ _i _j : Fin 4, InRange u16 14) ∧ (Matrix.of fun _ _ => 14 : Matrix (Fin 4) (Fin 4) ℤ).det = 0 ∧
      det4Int c c' p u16 tb3 ts3 tb4 ts4 (stripesOf L (Matrix.of fun _ _ => 14)) = none := by
  refine ⟨by simp only [inRange_iff]; decide, by decide +kernel, ?_⟩
  have e : ∀ (i : Fin 4) (idx : Fin 4 → Fin 4), sw (stripesOf L (Matrix.of fun _ _ => (14 : ℤ)) i) idx = fun _ => 14 := by
    intro i idx
    cases L <;> rfl
  have scalar : ∀ {a b c : Cfg} {n : ℕ} {p q : Bool} (s t : IntTy) (_ : s ≠ i32 ∨ t ≠ i32) (hc : common s t = i32) (f : ℤ → ℤ → ℤ) (x : Vec a ℤ n p) (y : Vec b ℤ n q),
      Vec.opInt (cC := c) f s t x y = (Vec.seqFin fun i => i32.result (f (conv i32 (x.get i)) (conv i32 (y.get i)))).map Vec.ofFn := by
    intro a b c n p q s t hne hc f x y
    unfold Vec.opInt
    rw [dif_neg]
    · unfold IntTy.scalarOp
      rw [hc]
    · rintro ⟨_, _, _, h1, h2⟩
      rw [hc] at h1 h2
      rcases hne with h | h
      · exact h h1
      · exact h h2
  have const : ∀ {n : ℕ} (x : ℤ), Vec.seqFin (fun _ : Fin n => some x) = some fun _ => x := fun x => Vec.seqFin_eq_some.2 fun _ => rfl
  have hq : ∀ tb ts, quadInt c c' p u16 tb ts ![1, -1, -1, 1] (fun _ => 14) (fun _ => 14) (fun _ => 14) (fun _ => 14) = none := by
    intro tb ts
    unfold quadInt
    simp only
    rw [scalar u16 u16 (Or.inl (by decide)) rfl]
    simp only [Vec.get_ofFn]
    rw [show i32.result (conv i32 14 * conv i32 14) = some 196 by decide, const, Option.map_some, Option.bind_some, scalar (common u16 u16) u16 (Or.inr (by decide)) rfl]
    simp only [Vec.get_ofFn]
    rw [show i32.result (conv i32 196 * conv i32 14) = some 2744 by decide, const, Option.map_some, Option.bind_some, scalar (common u16 u16) u16 (Or.inr (by decide)) rfl]
    simp only [Vec.get_ofFn]
    rw [show i32.result (conv i32 2744 * conv i32 14) = some 38416 by decide, const, Option.map_some, Option.bind_some, scalar u16 (common u16 u16) (Or.inl (by decide)) rfl]
    have : (Vec.seqFin fun i : Fin 4 => i32.result (conv i32 ((Vec.ofFn (fun i => conv u16 ((![1, -1, -1, 1] : Fin 4 → ℤ) i)) : Vec c ℤ 4 p).get i) *
        conv i32 ((Vec.ofFn (fun _ => 38416) : Vec c' ℤ 4 (p && p && p && p)).get i))) = none := by
      refine Option.eq_none_iff_forall_ne_some.2 fun g hg => ?_
      have := Vec.seqFin_eq_some.1 hg 1
      simp only [Vec.get_ofFn] at this
      rw [show i32.result (conv i32 (conv u16 ((![1, -1, -1, 1] : Fin 4 → ℤ) 1)) * conv i32 38416) = none by decide] at this
      exact absurd this (by simp)
    rw [this]
    rfl
  unfold det4Int
  simp only [e, hq, Option.bind_none]

/-! ## Examples -/

/-- The hypotheses of `C127_bareiss_partial` are met by `int`. -/
example : bareissInt i32 negMinors = some 9 := by
  have hd : negMinors.det = 9 := by decide +kernel
  rw [← hd]
  have hb : ∀ q : Fin 5, ∀ r c : Fin 5, q ≤ r → q ≤ c → |bordered negMinors q r c| ≤ 9 := by decide +kernel
  refine C127_bareiss_partial i32 (by decide) negMinors ?_ 9 (fun q r c hr hc => hb ⟨q, by omega⟩ r c hr hc) (by decide) (by decide) (fun h => by simp [i32] at h)
  intro s h
  match s, h with
  | 0, _ => decide +kernel +revert
  | 1, _ => decide +kernel +revert
  | 2, _ => decide +kernel +revert
  | 3, _ => decide +kernel +revert

/-- A product of matrices of different types, whose intermediate results are far from the limits. -/
example : ∀ i j : Fin 2, ∑ q : Fin 3, |(!![100, -100, 3; 4, 5, -128] : Matrix (Fin 2) (Fin 3) ℤ) i q * (!![30000, 1; 2, -30000; 7, 8] : Matrix (Fin 3) (Fin 2) ℤ) q j|
    ≤ (common i8 i16).hi := by decide +kernel

/-- A determinant of dimension 3 that is exact for `std::int16_t`, and one that wraps around for `std::uint8_t`. -/
example : (∀ i j, |(!![10, -20, 30; 5, 6, 7; 1, 2, -3] : Matrix (Fin 3) (Fin 3) ℤ) i j| ≤ 30) ∧ 6 * 30 ^ 3 ≤ (common i16 i16).hi := by decide +kernel
example : det2Int u8 !![1, 2; 3, 4] = some 254 := by decide

end Mathter.Props
