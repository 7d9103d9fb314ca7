import Verif.Lemmas.Bareiss

/-!
# `BareissAlgorithm` after a leading principal minor that is zero
-/

namespace Mathter
universe u
variable {R : Type u} [CommRing R]

/-- The elimination divides exactly. -/
theorem bareissElim_num [IsDomain R] {n : ℕ} {A X : Fin n → Fin n → R} {k : Fin n} {d : R} (div : R → R → R)
    (hdiv : ∀ a b, b ≠ 0 → div (a * b) b = a) (h : BareissInv A X k.val d) (hd : d ≠ 0) (r c : Fin n) (hr : k < r) (hc : k < c) :
    d * bareissElim div k d X r c = X k k * X r c - X r k * X k c := by
  rw [bareissElim_eq, if_pos ⟨hr, hc⟩]
  have := h 1 (fun t => if t < k.val then ⟨min t (n - 1), by omega⟩ else if t = k.val then k else r)
    (fun t => if t < k.val then ⟨min t (n - 1), by omega⟩ else if t = k.val then k else c)
    (by intro t ht; simp [ht]; omega) (by intro t ht; simp [ht]; omega)
    (by intro t ht; simp only [Fin.lt_def] at hr; simp only [not_lt.2 ht, if_false]; split <;> omega)
    (by intro t ht; simp only [Fin.lt_def] at hc; simp only [not_lt.2 ht, if_false]; split <;> omega)
  simp [detN, Matrix.det_fin_two] at this
  have e : X r c * X k k - X r k * X k c = X k k * X r c - X k c * X r k := by ring
  rw [e, this, hdiv _ _ hd, mul_comm, ← this]
  ring

/-- The pivot search permutes the rows from `kp` on. -/
theorem bareissPivot_rows [DecidableEq R] {n : ℕ} (kp : Fin n) (lo : ℕ) (hlo : kp.val ≤ lo) (hn : lo ≤ n) (b : Bareiss R n) (x : R) (r : Fin n) (hr : kp ≤ r) :
    ∃ r', kp ≤ r' ∧ (forUp n lo (bareissPivotStep kp) (b, x)).1.inPlace r = b.inPlace r' := by
  have := forUp_inv (n := n) (lo := lo) (body := bareissPivotStep kp) (s := (b, x))
    (fun _ s => ∀ r, kp ≤ r → ∃ r', kp ≤ r' ∧ s.1.inPlace r = b.inPlace r') hn (fun r hr => ⟨r, hr, rfl⟩) (by
      rintro i ⟨b', x'⟩ hi h r hr
      have hki : kp ≤ i := by rw [Fin.le_def]; omega
      unfold bareissPivotStep
      simp only
      split
      · split
        · simp only
          split
          · exact h kp (le_refl _)
          · split
            · exact h i hki
            · exact h r hr
        · exact h r hr
      · exact h r hr)
  exact this r hr

/-- The pivot search finds nothing in a column of zeros. -/
theorem bareissPivot_none [DecidableEq R] {n : ℕ} (kp : Fin n) (lo : ℕ) (hn : lo ≤ n) (b : Bareiss R n) (h : ∀ i : Fin n, lo ≤ i.val → b.inPlace i kp = 0) :
    forUp n lo (bareissPivotStep kp) (b, 0) = (b, 0) :=
  forUp_inv (n := n) (lo := lo) (body := bareissPivotStep kp) (s := (b, 0)) (fun _ s => s = (b, 0)) hn rfl (by
    rintro i s hi rfl
    simp [bareissPivotStep, h i hi])

/-- Where the algorithm is, `k` being the first column with a zero pivot. -/
def BareissZero {n : ℕ} (k : ℕ) (t : ℕ) (s : Option (Bareiss R n)) : Prop :=
  s = none ∨ ∃ b, s = some b ∧
    (t = k + 1 → (∀ h : k < n, b.inPlace ⟨k, h⟩ ⟨k, h⟩ = 0) ∧
      ∀ r s c d : Fin n, k ≤ r.val → k ≤ s.val → k < c.val → k < d.val → b.inPlace r c * b.inPlace s d = b.inPlace r d * b.inPlace s c) ∧
    (k + 2 ≤ t → ∀ r c : Fin n, k + 2 ≤ r.val → k + 2 ≤ c.val → b.inPlace r c = 0) ∧
    (t = k + 2 → ∀ h : k + 1 < n, b.inPlace ⟨k + 1, h⟩ ⟨k + 1, h⟩ = 0 →
      (∀ r : Fin n, k + 2 ≤ r.val → b.inPlace r ⟨k + 1, h⟩ = 0) ∨ ∀ c : Fin n, k + 2 ≤ c.val → b.inPlace ⟨k + 1, h⟩ c = 0)

theorem bareissZero_start [IsDomain R] {n : ℕ} {A X : Fin n → Fin n → R} {k : Fin n} {d : R} (div : R → R → R)
    (hdiv : ∀ a b, b ≠ 0 → div (a * b) b = a) (h : BareissInv A X k.val d) (hd : d ≠ 0) (hz : X k k = 0) (f : Bool) :
    BareissZero k.val (k.val + 1) (some ⟨bareissElim div k d X, f⟩) := by
  refine Or.inr ⟨_, rfl, fun _ => ⟨fun h => ?_, fun r s c e hr hs hc he => ?_⟩, fun h => by omega, fun h => by omega⟩
  · simp only
    rw [bareissElim_eq, if_neg (fun h => lt_irrefl _ h.1)]
    exact hz
  · have hc' : k < c := hc
    have he' : k < e := he
    -- every row is a multiple of row k
    have key : ∀ r : Fin n, k.val ≤ r.val → ∃ p q : R, p ≠ 0 ∧ ∀ c, k < c → p * bareissElim div k d X r c = q * X k c := by
      intro r hr
      rcases Nat.lt_or_eq_of_le hr with h' | h'
      · refine ⟨d, -X r k, hd, fun c hc => ?_⟩
        rw [bareissElim_num div hdiv h hd r c h' hc, hz]
        ring
      · refine ⟨1, 1, one_ne_zero, fun c hc => ?_⟩
        have : r = k := Fin.ext h'.symm
        rw [this, bareissElim_eq, if_neg (fun h => lt_irrefl _ h.1)]
    obtain ⟨p, q, hp, h1⟩ := key r hr
    obtain ⟨p', q', hp', h2⟩ := key s hs
    simp only
    refine mul_left_cancel₀ (mul_ne_zero hp hp') ?_
    have a1 := h1 c hc'
    have a2 := h1 e he'
    have a3 := h2 c hc'
    have a4 := h2 e he'
    calc _ = (p * bareissElim div k d X r c) * (p' * bareissElim div k d X s e) := by ring
      _ = (p * bareissElim div k d X r e) * (p' * bareissElim div k d X s c) := by rw [a1, a2, a3, a4]; ring
      _ = _ := by ring

theorem bareissZero_step [IsDomain R] [DecidableEq R] {n : ℕ} (div : R → R → R) (hdiv : ∀ a b, b ≠ 0 → div (a * b) b = a) (k : ℕ) (t : Fin n)
    (ht : k + 1 ≤ t.val) (s : Option (Bareiss R n)) (h : BareissZero k t.val s) : BareissZero k (t.val + 1) (bareissStep div t s) := by
  have hdz : ∀ b, b ≠ 0 → div 0 b = 0 := fun b hb => by
    have := hdiv 0 b hb
    rwa [zero_mul] at this
  rcases h with rfl | ⟨b, rfl, h1, h2, h3⟩
  · exact Or.inl rfl
  have ht0 : t.val ≠ 0 := by omega
  simp only [bareissStep, Option.bind_some, dif_neg ht0]
  obtain ⟨kp, hkp⟩ : ∃ kp : Fin n, kp = ⟨t.val - 1, by omega⟩ := ⟨_, rfl⟩
  rw [← hkp]
  have hkpv : kp.val = t.val - 1 := by rw [hkp]
  have hrows := bareissPivot_rows kp t.val (by omega) t.isLt.le b (b.inPlace kp kp)
  have hnone := bareissPivot_none kp t.val t.isLt.le b
  have hsome := bareissPivot_nonzero kp t.val b (b.inPlace kp kp)
  obtain ⟨b', minor, e⟩ : ∃ b' minor, forUp n t.val (bareissPivotStep kp) (b, b.inPlace kp kp) = (b', minor) := ⟨_, _, rfl⟩
  rw [e] at hrows hsome ⊢
  simp only
  split
  · exact Or.inl rfl
  rename_i hm
  refine Or.inr ⟨_, rfl, fun h => by omega, ?_, ?_⟩
  · -- the trailing block is zero
    intro _ r c hr hc
    simp only
    by_cases hk1 : t.val = k + 1
    · -- rank one before
      obtain ⟨-, hV⟩ := h1 hk1
      rw [bareissElim_eq, if_pos ⟨by rw [Fin.lt_def]; omega, by rw [Fin.lt_def]; omega⟩]
      obtain ⟨r', hr', er⟩ := hrows r (by rw [Fin.le_def]; omega)
      obtain ⟨t', ht', et⟩ := hrows t (by rw [Fin.le_def]; omega)
      simp only at er et
      rw [er, et]
      have := hV r' t' c t (by rw [Fin.le_def] at hr'; omega) (by rw [Fin.le_def] at ht'; omega) (by omega) (by omega)
      rw [this, sub_self, hdz _ hm]
    · have hz := h2 (by omega)
      -- the rows used are zero in the trailing columns
      have hz' : ∀ r c : Fin n, k + 2 ≤ r.val → k + 2 ≤ c.val → b'.inPlace r c = 0 := by
        intro r c hr hc
        by_cases hp : b.inPlace kp kp = 0
        · by_cases hk2 : t.val = k + 2
          · have hkpe : kp = ⟨k + 1, by omega⟩ := Fin.ext (by rw [hkpv, hk2]; rfl)
            rcases h3 hk2 (by omega) (by rw [← hkpe]; exact hp) with h4 | h4
            · have := hnone fun i hi => by rw [hkpe]; exact h4 i (by omega)
              rw [hp] at e
              rw [e] at this
              exact absurd (congrArg Prod.snd this) hm
            · obtain ⟨r', hr', er⟩ := hrows r (by rw [Fin.le_def]; omega)
              simp only at er
              rw [er]
              rcases Nat.lt_or_eq_of_le (show k + 1 ≤ r'.val by rw [Fin.le_def] at hr'; omega) with h' | h'
              · exact hz r' c h' hc
              · rw [show r' = ⟨k + 1, by omega⟩ from Fin.ext h'.symm]
                exact h4 c hc
          · have := hnone fun i hi => hz i kp (by omega) (by omega)
            rw [hp] at e
            rw [e] at this
            exact absurd (congrArg Prod.snd this) hm
        · have := hsome hp
          rw [show b' = b from congrArg Prod.fst this]
          exact hz r c hr hc
      rw [bareissElim_eq]
      split
      · rename_i hrc
        rw [hz' r c hr hc, hz' t c (by omega) hc, zero_mul, mul_zero, sub_self, hdz _ hm]
      · exact hz' r c hr hc
  · intro hk2 hn hp
    have hk1 : t.val = k + 1 := by omega
    have hte : t = ⟨k + 1, hn⟩ := Fin.ext hk1
    obtain ⟨-, hV⟩ := h1 hk1
    simp only at hp ⊢
    rw [← hte] at hp ⊢
    rw [bareissElim_eq, if_neg (fun h => lt_irrefl _ h.1)] at hp
    by_cases hr0 : ∀ r : Fin n, k + 2 ≤ r.val → bareissElim div t minor b'.inPlace r t = 0
    · exact Or.inl hr0
    · right
      push Not at hr0
      obtain ⟨r, hr, hne⟩ := hr0
      intro c hc
      rw [bareissElim_eq, if_neg (fun h => lt_irrefl _ h.2)] at hne
      rw [bareissElim_eq, if_neg (fun h => lt_irrefl _ h.1)]
      obtain ⟨r', hr', er⟩ := hrows r (by rw [Fin.le_def]; omega)
      obtain ⟨t', ht', et⟩ := hrows t (by rw [Fin.le_def]; omega)
      simp only at er et
      rw [er] at hne
      rw [et] at hp ⊢
      have := hV t' r' c t (by rw [Fin.le_def] at ht'; omega) (by rw [Fin.le_def] at hr'; omega) (by omega) (by omega)
      rw [hp, zero_mul] at this
      exact (mul_eq_zero.1 this).resolve_right hne

end Mathter
