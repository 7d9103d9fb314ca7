import Verif.Lemmas.RoundedGram
import Verif.Props.RoundedGeometry

/-!
# Property C133: rounding errors of the Gram-Schmidt orthogonalisation

`dot` is any `Dot` with the error bound of C76, `norm` any `NormalizePrecise` with small relative errors (`C133_normalize`), `msub` is `a - b * c` with or without contraction.
-/

namespace Mathter.Props
open Mathter

variable {n : ℕ} {fl : ℝ → ℝ} {u : ℝ}

private theorem gsLoop_done {msub : ℝ → ℝ → ℝ → ℝ} {dot : (Fin n → ℝ) → (Fin n → ℝ) → ℝ} {norm : (Fin n → ℝ) → Fin n → ℝ} :
    ∀ (vs done out : List (Fin n → ℝ)), Fl.gsLoop fl msub dot norm vs done = some out → ∃ l, out = done ++ l ∧ l.length = vs.length
  | [], done, out, h => by
    simp only [Fl.gsLoop, Option.some.injEq] at h
    exact ⟨[], by simp [h], rfl⟩
  | v :: vs, done, out, h => by
    simp only [Fl.gsLoop, Option.bind_eq_some_iff] at h
    obtain ⟨w, -, h⟩ := h
    obtain ⟨l, rfl, hl⟩ := gsLoop_done vs _ _ h
    exact ⟨w :: l, by simp, by simp [hl]⟩

private theorem gsLoop_append {msub : ℝ → ℝ → ℝ → ℝ} {dot : (Fin n → ℝ) → (Fin n → ℝ) → ℝ} {norm : (Fin n → ℝ) → Fin n → ℝ} :
    ∀ (vs ws done : List (Fin n → ℝ)), Fl.gsLoop fl msub dot norm (vs ++ ws) done = (Fl.gsLoop fl msub dot norm vs done).bind (Fl.gsLoop fl msub dot norm ws)
  | [], ws, done => by simp [Fl.gsLoop]
  | v :: vs, ws, done => by
    simp only [List.cons_append, Fl.gsLoop]
    cases Fl.gsInner fl msub dot norm done v with
    | none => rfl
    | some w => exact gsLoop_append vs ws _

private theorem gsLoop_split {msub : ℝ → ℝ → ℝ → ℝ} {dot : (Fin n → ℝ) → (Fin n → ℝ) → ℝ} {norm : (Fin n → ℝ) → Fin n → ℝ} {pre post out : List (Fin n → ℝ)}
    {v : Fin n → ℝ} (h : Fl.gramSchmidt fl msub dot norm (pre ++ v :: post) = some out) :
    ∃ us w rest, out = us ++ w :: rest ∧ us.length = pre.length ∧ rest.length = post.length ∧ Fl.gramSchmidt fl msub dot norm pre = some us ∧
      Fl.gsInner fl msub dot norm us v = some w := by
  unfold Fl.gramSchmidt at h
  rw [gsLoop_append, Option.bind_eq_some_iff] at h
  obtain ⟨us, h1, h2⟩ := h
  simp only [Fl.gsLoop, Option.bind_eq_some_iff] at h2
  obtain ⟨w, hw, h2⟩ := h2
  obtain ⟨l, hl, hl'⟩ := gsLoop_done _ _ _ h1
  obtain ⟨r, hr, hr'⟩ := gsLoop_done _ _ _ h2
  refine ⟨us, w, r, by simp [hr], ?_, hr', h1, hw⟩
  rw [hl]; simpa using hl'

/-- C133: the vector written for `v` is no longer than `v`, up to rounding, and `v` is, up to a small error, the sum of it and a combination of the vectors
written before, with coefficients that are not large: the outputs span what the inputs span. The error grows with the number of vectors only. -/
theorem C133_span (h : Rounding fl u) {msub : ℝ → ℝ → ℝ → ℝ} (hms : Fl.IsMulSub fl msub) {dot : (Fin n → ℝ) → (Fin n → ℝ) → ℝ} (hd : Fl.IsDot u n dot)
    {norm : (Fin n → ℝ) → Fin n → ℝ} {k : ℕ} (hn : Fl.IsNormalize u k norm) (hn1 : 1 ≤ n) (hg : (1 + u) ^ (n + 2) - 1 ≤ 1 / 1000) {ε : ℝ}
    (hε : ε = 5 * ((1 + u) ^ (n + 2) - 1)) (pre post : List (Fin n → ℝ)) (v : Fin n → ℝ) (out : List (Fin n → ℝ))
    (ho : Fl.gramSchmidt fl msub dot norm (pre ++ v :: post) = some out) :
    ∃ us w rest, out = us ++ w :: rest ∧ us.length = pre.length ∧ rest.length = post.length ∧ norm2 w ≤ (1 + ε) ^ us.length * norm2 v ∧
      ∃ f : Fin us.length → ℝ, norm2 (fun i => v i - (w i + ∑ j, f j * us.get j i)) ≤ ((1 + ε) ^ us.length - 1) * norm2 v ∧
        ∀ j, |f j| * norm2 (us.get j) ≤ (1 + ε) ^ us.length * norm2 v := by
  obtain ⟨us, w, rest, h1, h2, h3, -, h5⟩ := gsLoop_split ho
  obtain ⟨a, b, -⟩ := Fl.gsInner_err h hms hd hn hn1 hg hε us v w h5
  exact ⟨us, w, rest, h1, h2, h3, a, b⟩

/-- C133, what holds about orthogonality: the vector written for `v` is orthogonal to every vector `q` written before, up to an error relative to the length of
the *input* `v`, plus what `q` and the later vectors `p` lack of orthogonality. Missing: an error relative to the length of the output, see
`C133_orthogonal_violated`. -/
theorem C133_orthogonal_partial (h : Rounding fl u) {msub : ℝ → ℝ → ℝ → ℝ} (hms : Fl.IsMulSub fl msub) {dot : (Fin n → ℝ) → (Fin n → ℝ) → ℝ}
    (hd : Fl.IsDot u n dot) {norm : (Fin n → ℝ) → Fin n → ℝ} {k : ℕ} (hn : Fl.IsNormalize u k norm) (hn1 : 1 ≤ n) (hg : (1 + u) ^ (n + 2) - 1 ≤ 1 / 1000)
    {ε : ℝ} (hε : ε = 5 * ((1 + u) ^ (n + 2) - 1)) (pre post : List (Fin n → ℝ)) (v : Fin n → ℝ) (out : List (Fin n → ℝ))
    (ho : Fl.gramSchmidt fl msub dot norm (pre ++ v :: post) = some out) :
    ∃ us w rest, out = us ++ w :: rest ∧ us.length = pre.length ∧ rest.length = post.length ∧ ∀ l q l', us = l ++ q :: l' →
      |∑ i, q i * w i| ≤ norm2 v * (((1 + ε) ^ us.length - 1) * norm2 q + (1 + ε) ^ us.length * (l'.map fun p => |∑ i, q i * p i| / norm2 p).sum) := by
  obtain ⟨us, w, rest, h1, h2, h3, -, h5⟩ := gsLoop_split ho
  obtain ⟨-, -, c⟩ := Fl.gsInner_err h hms hd hn hn1 hg hε us v w h5
  exact ⟨us, w, rest, h1, h2, h3, c⟩

/-- C133 for two vectors: the first is unchanged, and the inner product of the two results is small relative to the lengths of the inputs. -/
theorem C133_two_partial (h : Rounding fl u) {msub : ℝ → ℝ → ℝ → ℝ} (hms : Fl.IsMulSub fl msub) {dot : (Fin n → ℝ) → (Fin n → ℝ) → ℝ}
    (hd : Fl.IsDot u n dot) {norm : (Fin n → ℝ) → Fin n → ℝ} {k : ℕ} (hn : Fl.IsNormalize u k norm) (hn1 : 1 ≤ n) (hg : (1 + u) ^ (n + 2) - 1 ≤ 1 / 1000)
    (v0 v1 : Fin n → ℝ) (h0 : v0 ≠ 0) :
    ∃ w, Fl.gramSchmidt fl msub dot norm [v0, v1] = some [v0, w] ∧ |∑ i, v0 i * w i| ≤ 5 * ((1 + u) ^ (n + 2) - 1) * (norm2 v0 * norm2 v1) := by
  obtain ⟨f, hf, -⟩ := Fl.gsCoef_err h hd hn hn1 hg h0 v1
  refine ⟨fun i => msub (v1 i) f (v0 i), ?_, (Fl.gsStep_err h hms hd hn hn1 hg hf).2.2.2⟩
  simp [Fl.gramSchmidt, Fl.gsLoop, Fl.gsInner, hf]

private theorem gsInner_some (h : Rounding fl u) {msub : ℝ → ℝ → ℝ → ℝ} {dot : (Fin n → ℝ) → (Fin n → ℝ) → ℝ} (hd : Fl.IsDot u n dot)
    {norm : (Fin n → ℝ) → Fin n → ℝ} {k : ℕ} (hn : Fl.IsNormalize u k norm) (hn1 : 1 ≤ n) (hg : (1 + u) ^ (n + 2) - 1 ≤ 1 / 1000) :
    ∀ (us : List (Fin n → ℝ)) (v : Fin n → ℝ), (∃ w, Fl.gsInner fl msub dot norm us v = some w) ↔ ∀ q ∈ us, q ≠ 0
  | [], v => by simp [Fl.gsInner]
  | q :: us, v => by
    constructor
    · rintro ⟨w, hw⟩
      simp only [Fl.gsInner, Option.bind_eq_some_iff] at hw
      obtain ⟨f, hf, hw⟩ := hw
      have := (gsInner_some h hd hn hn1 hg us _).1 ⟨w, hw⟩
      intro p hp
      rcases List.mem_cons.1 hp with rfl | hp
      · exact Fl.gsCoef_ne hd hf
      · exact this p hp
    · intro hq
      obtain ⟨f, hf, -⟩ := Fl.gsCoef_err h hd hn hn1 hg (hq q (List.mem_cons_self ..)) v
      obtain ⟨w, hw⟩ := (gsInner_some (msub := msub) h hd hn hn1 hg us fun i => msub (v i) f (q i)).2 fun p hp => hq p (List.mem_cons_of_mem _ hp)
      exact ⟨w, by simp [Fl.gsInner, hf, hw]⟩

/-- C133: no division by zero occurs as long as the vectors written before are not zero; dependent inputs whose result is exactly zero are the only failures. -/
theorem C133_defined (h : Rounding fl u) {msub : ℝ → ℝ → ℝ → ℝ} {dot : (Fin n → ℝ) → (Fin n → ℝ) → ℝ} (hd : Fl.IsDot u n dot)
    {norm : (Fin n → ℝ) → Fin n → ℝ} {k : ℕ} (hn : Fl.IsNormalize u k norm) (hn1 : 1 ≤ n) (hg : (1 + u) ^ (n + 2) - 1 ≤ 1 / 1000)
    (vs : List (Fin n → ℝ)) (v : Fin n → ℝ) :
    (∃ out, Fl.gramSchmidt fl msub dot norm (vs ++ [v]) = some out) ↔ ∃ us, Fl.gramSchmidt fl msub dot norm vs = some us ∧ ∀ q ∈ us, q ≠ 0 := by
  unfold Fl.gramSchmidt
  rw [gsLoop_append]
  constructor
  · rintro ⟨out, ho⟩
    rw [Option.bind_eq_some_iff] at ho
    obtain ⟨us, h1, h2⟩ := ho
    simp only [Fl.gsLoop, Option.bind_eq_some_iff] at h2
    obtain ⟨w, hw, -⟩ := h2
    exact ⟨us, h1, (gsInner_some h hd hn hn1 hg us v).1 ⟨w, hw⟩⟩
  · rintro ⟨us, h1, h2⟩
    obtain ⟨w, hw⟩ := (gsInner_some (msub := msub) h hd hn hn1 hg us v).2 h2
    exact ⟨us ++ [w], by rw [h1]; simp [Fl.gsLoop, hw]⟩

/-- `NormalizePrecise` has small relative errors. -/
theorem C133_normalize (h : Rounding fl u) (hu : (1 + u) ^ (n + 2) < 2) (c : Cfg) (p : Bool) (conv : Bool) (tb : RTree (batchSize (n + 1) false))
    (ts : RTree (n + 1 + 1)) (htb : tb.Valid) (hts : ts.Valid) : Fl.IsNormalize u (n + 3) (Fl.normalizePrecise1 c p fl conv tb ts) :=
  Fl.isNormalize h hu c p conv tb ts htb hts

/-- The functions of the library meet the hypotheses, in three dimensions and single precision, in every configuration, for every reduction order. -/
example (hfl : RoundsToNearest 24 fl) (c : Cfg) (p : Bool) (conv : Bool) (tb : RTree (batchSize 3 false)) (ts : RTree 4) (htb : tb.Valid) (hts : ts.Valid) :
    Rounding fl (2 ^ (-((24 : ℕ) : ℤ))) ∧ (1 + (2 : ℝ) ^ (-((24 : ℕ) : ℤ))) ^ (3 + 2) - 1 ≤ 1 / 1000 ∧ Fl.IsMulSub fl (fun a b d => fl (a - b * d)) ∧
      Fl.IsDot (2 ^ (-((24 : ℕ) : ℤ))) 3 (fun x y => Fl.dot fl conv tb ts (Vec.ofFn x : Vec c ℝ 3 p) (Vec.ofFn y : Vec c ℝ 3 p)) ∧
      Fl.IsNormalize (n := 3) (2 ^ (-((24 : ℕ) : ℤ))) 5 (Fl.normalizePrecise1 c p fl conv tb ts) :=
  ⟨hfl.rounding (by norm_num), by norm_num, fun _ _ _ => Or.inr rfl, C116_dot (hfl.rounding (by norm_num)) conv tb ts htb hts,
    C133_normalize (n := 2) (hfl.rounding (by norm_num)) (by norm_num) c p conv tb ts htb hts⟩

/-- C133 is violated for outputs: of the nearly parallel single-precision vectors `(1, 1)` and `(1, 1 + 2^-23)`, the two results enclose an angle of at most
45°, and the second one is not zero. For every rounding to nearest, reduction order, contracted or not. -/
theorem C133_orthogonal_violated (hfl : RoundsToNearest 24 fl) {msub : ℝ → ℝ → ℝ → ℝ} (hms : Fl.IsMulSub fl msub) {dot : (Fin 2 → ℝ) → (Fin 2 → ℝ) → ℝ}
    (hd : Fl.IsDot (2 ^ (-((24 : ℕ) : ℤ))) 2 dot) {norm : (Fin 2 → ℝ) → Fin 2 → ℝ} {k : ℕ} (hn : Fl.IsNormalize (2 ^ (-((24 : ℕ) : ℤ))) k norm) :
    ∃ w, Fl.gramSchmidt fl msub dot norm [![1, 1], ![1, 1 + 1 / 2 ^ 23]] = some [![1, 1], w] ∧ w ≠ 0 ∧
      norm2 (![1, 1] : Fin 2 → ℝ) * norm2 w ≤ Real.sqrt 2 * |∑ i, (![1, 1] : Fin 2 → ℝ) i * w i| := by
  have h := hfl.rounding (by norm_num : 1 ≤ 24)
  have hq : (![1, 1] : Fin 2 → ℝ) ≠ 0 := fun e => by simpa using congrFun e 0
  have nq : norm2 (![1, 1] : Fin 2 → ℝ) = Real.sqrt 2 := by unfold norm2; congr 1; simp [Fin.sum_univ_two]; norm_num
  have nv : norm2 (![1, 1 + 1 / 2 ^ 23] : Fin 2 → ℝ) ≤ 2 := by
    unfold norm2
    rw [Real.sqrt_le_left (by norm_num)]
    simp [Fin.sum_univ_two]
    norm_num
  obtain ⟨f, hf, hfe⟩ := Fl.gsCoef_err h hd hn (by norm_num) (by norm_num) hq ![1, 1 + 1 / 2 ^ 23]
  have hs2 : Real.sqrt 2 ≤ 2 := by rw [Real.sqrt_le_left (by norm_num)]; norm_num
  have hfm : IsFloat 24 f := by
    unfold Fl.gsCoef at hf
    dsimp only at hf
    split_ifs at hf
    rw [Option.some.injEq] at hf
    rw [← hf]
    exact hfl.mem _
  have hf1 : 3 / 4 ≤ f ∧ f ≤ 5 / 4 := by
    have hb : norm2 (![1, 1 + 1 / 2 ^ 23] : Fin 2 → ℝ) * norm2 (![1, 1] : Fin 2 → ℝ) ≤ 4 := by
      rw [nq]
      nlinarith [norm2_nonneg (![1, 1 + 1 / 2 ^ 23] : Fin 2 → ℝ), Real.sqrt_nonneg 2]
    have hb' := hfe.trans (mul_le_mul_of_nonneg_left hb (by norm_num))
    rw [nq, Real.sq_sqrt (by norm_num)] at hb'
    simp only [Fin.sum_univ_two, Matrix.cons_val_zero, Matrix.cons_val_one] at hb'
    rw [abs_le] at hb'
    norm_num at hb'
    constructor <;> linarith [hb'.1, hb'.2]
  obtain ⟨N, hN, hN1⟩ := Fl.float_near_one hfm hf1.1 hf1.2
  have hNb : |N| ≤ 2 ^ 25 ∧ 3 * 2 ^ 22 ≤ N ∧ N ≤ 5 * 2 ^ 22 := by
    rw [hN] at hf1
    have a : (3 * 2 ^ 22 : ℤ) ≤ N := by have := hf1.1; rw [le_div_iff₀ (by norm_num)] at this; norm_num at this ⊢; exact_mod_cast this
    have b : N ≤ (5 * 2 ^ 22 : ℤ) := by have := hf1.2; rw [div_le_iff₀ (by norm_num)] at this; norm_num at this ⊢; exact_mod_cast this
    exact ⟨abs_le.2 ⟨by omega, by omega⟩, a, b⟩
  have sub1 : ∀ M : ℤ, |M - N| < 2 ^ 24 → msub (M / 2 ^ 24) f 1 = (M - N) / 2 ^ 24 := by
    intro M hM
    have fx : fl ((M : ℝ) / 2 ^ 24 - f) = (M - N) / 2 ^ 24 := by
      rw [hN, ← sub_div]
      refine hfl.fixed ⟨M - N, -24, ?_, hM⟩
      norm_num
      ring
    rcases hms (M / 2 ^ 24) f 1 with e | e
    · rw [e, mul_one, hfl.fixed hfm, fx]
    · rw [e, mul_one, fx]
  have s0 := sub1 (2 ^ 24) (by rw [abs_lt]; constructor <;> omega)
  have s1 := sub1 (2 ^ 24 + 2) (by rw [abs_lt]; constructor <;> omega)
  have ew : (fun i => msub ((![1, 1 + 1 / 2 ^ 23] : Fin 2 → ℝ) i) f ((![1, 1] : Fin 2 → ℝ) i)) = ![((2 : ℝ) ^ 24 - N) / 2 ^ 24, ((2 : ℝ) ^ 24 + 2 - N) / 2 ^ 24] := by
    funext i
    fin_cases i
    · norm_num at s0 ⊢; exact s0
    · norm_num at s1 ⊢; exact s1
  refine ⟨![((2 : ℝ) ^ 24 - N) / 2 ^ 24, ((2 : ℝ) ^ 24 + 2 - N) / 2 ^ 24], ?_, fun e => ?_, ?_⟩
  · simp only [Fl.gramSchmidt, Fl.gsLoop, Fl.gsInner, hf, Option.bind_some, List.nil_append, List.cons_append]
    rw [ew]
  · have e0 := congrFun e 0
    have e1 := congrFun e 1
    simp at e0 e1
    linarith
  · rw [nq]
    refine mul_le_mul_of_nonneg_left ?_ (Real.sqrt_nonneg 2)
    unfold norm2
    rw [Real.sqrt_le_left (abs_nonneg _), sq_abs]
    simp only [Fin.sum_univ_two, Matrix.cons_val_zero, Matrix.cons_val_one, one_mul]
    have hint : (1 : ℝ) ≤ (2 ^ 24 + 1 - N) ^ 2 := by
      have : (1 : ℤ) ≤ (2 ^ 24 + 1 - N) ^ 2 := by
        have : 2 ^ 24 + 1 - N ≠ 0 := by omega
        nlinarith [sq_abs (2 ^ 24 + 1 - N), Int.one_le_abs this]
      exact_mod_cast this
    rw [← add_div, div_pow, div_pow, div_pow, ← add_div]
    refine div_le_div_of_nonneg_right ?_ (by positivity)
    nlinarith

/-- The functions of the library meet the hypotheses of the violation: an angle of at most 45° is computed by them. -/
example (c : Cfg) (p : Bool) (conv : Bool) (tb : RTree (batchSize 2 false)) (ts : RTree 3) (htb : tb.Valid) (hts : ts.Valid) :
    ∃ w, Fl.gramSchmidt (flAway 24) (fun a b d => flAway 24 (a - flAway 24 (b * d)))
        (fun x y => Fl.dot (flAway 24) conv tb ts (Vec.ofFn x : Vec c ℝ 2 p) (Vec.ofFn y : Vec c ℝ 2 p)) (Fl.normalizePrecise1 (n := 1) c p (flAway 24) conv tb ts)
        [![1, 1], ![1, 1 + 1 / 2 ^ 23]] = some [![1, 1], w] ∧ w ≠ 0 ∧
      norm2 (![1, 1] : Fin 2 → ℝ) * norm2 w ≤ Real.sqrt 2 * |∑ i, (![1, 1] : Fin 2 → ℝ) i * w i| :=
  have hfl := flAway_roundsToNearest (p := 24) (by norm_num)
  C133_orthogonal_violated hfl (fun _ _ _ => Or.inl rfl) (C116_dot (hfl.rounding (by norm_num)) conv tb ts htb hts)
    (C133_normalize (n := 1) (hfl.rounding (by norm_num)) (by norm_num) c p conv tb ts htb hts)

end Mathter.Props
