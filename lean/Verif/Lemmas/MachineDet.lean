import Mathlib.Tactic.Positivity
import Mathlib.Tactic.GCongr
import Mathlib.LinearAlgebra.Matrix.Trace
import Verif.Lemmas.MachineMatrix

/-! # Lemmas about determinants of machine integers -/

namespace Mathter
open IntTy

section
variable {T s t : IntTy} {ok : Prop} {c c' : Cfg} {n : ℕ} {p : Bool}

theorem amul {x y X Y : ℤ} (hx : |x| ≤ X) (hy : |y| ≤ Y) : |x * y| ≤ X * Y := by
  rw [abs_mul]
  exact mul_le_mul hx hy (abs_nonneg _) ((abs_nonneg _).trans hx)

theorem asub {x y X Y : ℤ} (hx : |x| ≤ X) (hy : |y| ≤ Y) : |x - y| ≤ X + Y := (abs_sub _ _).trans (add_le_add hx hy)

theorem aadd {x y X Y : ℤ} (hx : |x| ≤ X) (hy : |y| ≤ Y) : |x + y| ≤ X + Y := (abs_add_le _ _).trans (add_le_add hx hy)

theorem traceInt_res (hb : 32 ≤ t.bits) (tb : RTree (batchSize n false)) (ts : RTree n) (htb : tb.Valid) (hts : ts.Valid) (m : Matrix (Fin n) (Fin n) ℤ)
    (hm : ∀ i j, t.lo ≤ m i j ∧ m i j ≤ t.hi) (hok : ok → t.signed = true → ∑ i, |m i i| ≤ t.hi) :
    Res t t ok (traceInt c p t tb ts m) m.trace := by
  have hc : common t t = t := by rw [show common t t = promote t from usual_self _, promote_ge hb]
  exact sumInt_res hb tb ts htb hts (VRes.of (v := (Vec.ofFn fun i => m i i : Vec c ℤ n p)) (Or.inl hc.symm) (by omega) (fun i => Vec.get_ofFn _ _)
    (fun i => hm i i)) hok

theorem det2Int_res (hb : 1 ≤ t.bits) (m : Matrix (Fin 2) (Fin 2) ℤ) (hm : ∀ i j, t.lo ≤ m i j ∧ m i j ≤ t.hi)
    (hok : ok → (common t t).signed = true → ∃ B, (∀ i j, |m i j| ≤ B) ∧ 2 * B ^ 2 ≤ (common t t).hi) :
    (∀ w, det2Int t m = some w → (t.lo ≤ w ∧ w ≤ t.hi) ∧ (2 : ℤ) ^ t.bits ∣ w - det2 m) ∧ (ok → (det2Int t m).isSome = true) := by
  set T := common t t with hT
  have hle : t.bits ≤ T.bits := by
    rw [hT, show common t t = promote t from usual_self _, promote]
    split
    · change t.bits ≤ 32; omega
    · exact le_refl _
  have el : ∀ i j, Res T t ok (some (m i j)) (m i j) := fun i j => Res.of (Or.inl hT) hb (hm i j)
  have pr : ∀ i j k l, Res T T ok (IntTy.scalarOp (· * ·) t t (m i j) (m k l)) (m i j * m k l) := fun i j k l =>
    scalarOp_res (f := (· * ·)) (Or.inr (Or.inr rfl)) hT.symm (el i j) (el k l) fun ho hs => by
      obtain ⟨B, h1, h2⟩ := hok ho hs
      have := amul (h1 i j) (h1 k l)
      exact range_of_abs hs (by nlinarith [sq_nonneg B])
  have fin := scalarOp_res (f := (· - ·)) (Or.inr (Or.inl rfl)) (common_self t t) (pr 0 0 1 1) (pr 1 0 0 1) fun ho hs => by
    obtain ⟨B, h1, h2⟩ := hok ho hs
    have := asub (amul (h1 0 0) (h1 1 1)) (amul (h1 1 0) (h1 0 1))
    exact range_of_abs hs (by nlinarith [sq_nonneg B])
  have := conv_res hb hle fin
  rw [Option.map_bind] at this
  simp only [Function.comp_def, Option.map_bind] at this
  exact this

theorem minor_res (hb : 1 ≤ t.bits) (tb : RTree (batchSize 3 false)) (ts : RTree 3) (htb : tb.Valid) (hts : ts.Valid) (a b d e g : Fin 3 → ℤ)
    (ha : ∀ i, t.lo ≤ a i ∧ a i ≤ t.hi) (hb' : ∀ i, t.lo ≤ b i ∧ b i ≤ t.hi) (hd : ∀ i, t.lo ≤ d i ∧ d i ≤ t.hi) (he : ∀ i, t.lo ≤ e i ∧ e i ≤ t.hi)
    (hg : ∀ i, t.lo ≤ g i ∧ g i ≤ t.hi)
    (hok : ok → (common t t).signed = true → ∃ B, (∀ i, |a i| ≤ B ∧ |b i| ≤ B ∧ |d i| ≤ B ∧ |e i| ≤ B ∧ |g i| ≤ B) ∧ 1 ≤ B ∧ 6 * B ^ 3 ≤ (common t t).hi) :
    Res (common t t) (common t t) ok ((Vec.opInt (cC := c') (· * ·) t t (Vec.ofFn b : Vec c ℤ 3 p) (Vec.ofFn d : Vec c ℤ 3 p)).bind fun x =>
      (Vec.opInt (cC := c') (· * ·) t t (Vec.ofFn e : Vec c ℤ 3 p) (Vec.ofFn g : Vec c ℤ 3 p)).bind fun y =>
      (Vec.opInt (cC := c') (· - ·) (common t t) (common t t) x y).bind fun z => (Vec.opInt (cC := c') (· * ·) t (common t t) (Vec.ofFn a : Vec c ℤ 3 p) z).bind fun w =>
        w.sumInt (common t t) tb ts) (∑ i, a i * (b i * d i - e i * g i)) := by
  set T := common t t with hT
  have hbits : 32 ≤ T.bits := bits_common t t
  have el : ∀ v : Fin 3 → ℤ, (∀ i, t.lo ≤ v i ∧ v i ≤ t.hi) → VRes T t ok (some (Vec.ofFn v : Vec c ℤ 3 p)) v := fun v hv =>
    VRes.of (Or.inl hT) hb (fun i => Vec.get_ofFn _ _) hv
  have num : ∀ B : ℤ, 1 ≤ B → 6 * B ^ 3 ≤ T.hi → 2 * (B * B) ≤ T.hi := fun B h1 h2 => by nlinarith [mul_self_nonneg B]
  have pr : ∀ x y : Fin 3 → ℤ, (∀ i, t.lo ≤ x i ∧ x i ≤ t.hi) → (∀ i, t.lo ≤ y i ∧ y i ≤ t.hi) →
      (ok → T.signed = true → ∀ i, |x i * y i| ≤ T.hi) →
      VRes T T ok (Vec.opInt (cC := c') (· * ·) t t (Vec.ofFn x : Vec c ℤ 3 p) (Vec.ofFn y : Vec c ℤ 3 p)) fun i => x i * y i := fun x y hx hy h =>
    opInt_res (cC := c') (f := (· * ·)) (Or.inr (Or.inr rfl)) hT.symm (el x hx) (el y hy) fun ho hs i => range_of_abs hs (h ho hs i)
  have h1 := pr b d hb' hd fun ho hs i => by
    obtain ⟨B, h1, h2, h3⟩ := hok ho hs
    have := amul (h1 i).2.1 (h1 i).2.2.1
    have := num B h2 h3
    nlinarith [mul_self_nonneg B]
  have h2 := pr e g he hg fun ho hs i => by
    obtain ⟨B, h1, h2, h3⟩ := hok ho hs
    have := amul (h1 i).2.2.2.1 (h1 i).2.2.2.2
    have := num B h2 h3
    nlinarith [mul_self_nonneg B]
  have h3 := opInt_res (cC := c') (f := (· - ·)) (Or.inr (Or.inl rfl)) (common_self t t) h1 h2 fun ho hs i => by
    obtain ⟨B, h1, h2, h3⟩ := hok ho hs
    have := asub (amul (h1 i).2.1 (h1 i).2.2.1) (amul (h1 i).2.2.2.1 (h1 i).2.2.2.2)
    have := num B h2 h3
    exact range_of_abs hs (by linarith)
  have bound : ok → T.signed = true → ∃ C : ℤ, (∀ i, |a i * (b i * d i - e i * g i)| ≤ C) ∧ 3 * C ≤ T.hi ∧ 0 ≤ C := fun ho hs => by
    obtain ⟨B, h1, h2, h3⟩ := hok ho hs
    refine ⟨B * (B * B + B * B), fun i => amul (h1 i).1 (asub (amul (h1 i).2.1 (h1 i).2.2.1) (amul (h1 i).2.2.2.1 (h1 i).2.2.2.2)), ?_, by positivity⟩
    have : 3 * (B * (B * B + B * B)) = 6 * B ^ 3 := by ring
    linarith
  have h4 := opInt_res (cA := c) (cC := c') (p1 := p) (f := (· * ·)) (Or.inr (Or.inr rfl)) (common_left t t) (el a ha) h3 fun ho hs i => by
    obtain ⟨C, h1, h2, h3⟩ := bound ho hs
    exact range_of_abs hs (by have := h1 i; linarith)
  have h5 := sumInt_res hbits tb ts htb hts h4 fun ho hs => by
    obtain ⟨C, h1, h2, h3⟩ := bound ho hs
    refine (Finset.sum_le_card_nsmul _ _ C fun i _ => h1 i).trans ?_
    simpa using h2
  simp only [Option.bind_some, Option.bind_assoc] at h5
  exact h5

theorem bits_le (hb : 1 ≤ t.bits) : t.bits ≤ (common t t).bits := by
  rw [show common t t = promote t from usual_self _, promote]
  split
  · change t.bits ≤ 32; omega
  · exact le_refl _

theorem det3Int_res (hb : 1 ≤ t.bits) (tb : RTree (batchSize 3 false)) (ts : RTree 3) (htb : tb.Valid) (hts : ts.Valid) (m : Fin 3 → Fin 3 → ℤ)
    (hm : ∀ i j, t.lo ≤ m i j ∧ m i j ≤ t.hi)
    (hok : ok → (common t t).signed = true → ∃ B, (∀ i j, |m i j| ≤ B) ∧ 1 ≤ B ∧ 6 * B ^ 3 ≤ (common t t).hi) :
    (∀ w, det3Int c c' p t tb ts m = some w → (t.lo ≤ w ∧ w ≤ t.hi) ∧ (2 : ℤ) ^ t.bits ∣ w - det3Stripes m) ∧ (ok → (det3Int c c' p t tb ts m).isSome = true) := by
  have h := minor_res (c := c) (c' := c') (p := p) (ok := ok) hb tb ts htb hts (sw (m 0) ![2, 1, 0]) (sw (m 1) ![0, 2, 1]) (sw (m 2) ![1, 0, 2])
    (sw (m 1) ![1, 0, 2]) (sw (m 2) ![0, 2, 1]) (fun _ => hm _ _) (fun _ => hm _ _) (fun _ => hm _ _) (fun _ => hm _ _) (fun _ => hm _ _) fun ho hs => by
      obtain ⟨B, h1, h2, h3⟩ := hok ho hs
      exact ⟨B, fun i => ⟨h1 _ _, h1 _ _, h1 _ _, h1 _ _, h1 _ _⟩, h2, h3⟩
  have := conv_res hb (bits_le hb) h
  simp only [Option.map_bind, Function.comp_def] at this
  exact this

/-- The four-fold products, with the signs as stored. -/
theorem quadInt_res (hb : 1 ≤ t.bits) (tb : RTree (batchSize 4 false)) (ts : RTree 4) (htb : tb.Valid) (hts : ts.Valid) (sign a b d e : Fin 4 → ℤ)
    (ha : ∀ i, t.lo ≤ a i ∧ a i ≤ t.hi) (hb' : ∀ i, t.lo ≤ b i ∧ b i ≤ t.hi) (hd : ∀ i, t.lo ≤ d i ∧ d i ≤ t.hi) (he : ∀ i, t.lo ≤ e i ∧ e i ≤ t.hi)
    (hok : ok → (common t t).signed = true → ∃ B, (∀ i, |a i| ≤ B ∧ |b i| ≤ B ∧ |d i| ≤ B ∧ |e i| ≤ B ∧ |conv t (sign i)| ≤ 1) ∧ 1 ≤ B ∧
      4 * B ^ 4 ≤ (common t t).hi) :
    Res (common t t) (common t t) ok (quadInt c c' p t tb ts sign a b d e) (∑ i, conv t (sign i) * (a i * b i * d i * e i)) := by
  set T := common t t with hT
  have hbits : 32 ≤ T.bits := bits_common t t
  have el : ∀ v : Fin 4 → ℤ, (∀ i, t.lo ≤ v i ∧ v i ≤ t.hi) → VRes T t ok (some (Vec.ofFn v : Vec c ℤ 4 p)) v := fun v hv =>
    VRes.of (Or.inl hT) hb (fun i => Vec.get_ofFn _ _) hv
  have num : ∀ B : ℤ, 1 ≤ B → 4 * B ^ 4 ≤ T.hi → B * B ≤ T.hi ∧ B * B * B ≤ T.hi ∧ B * B * B * B ≤ T.hi := by
    intro B h1 h2
    have e1 : B * B ≤ B * B * B := by nlinarith [mul_self_nonneg B]
    have e2 : B * B * B ≤ B * B * B * B := le_mul_of_one_le_right (by positivity) h1
    have e3 : B ^ 4 = B * B * B * B := by ring
    have e4 : 0 ≤ B * B * B * B := by positivity
    refine ⟨?_, ?_, ?_⟩ <;> linarith
  have h1 := opInt_res (cC := c') (f := (· * ·)) (Or.inr (Or.inr rfl)) hT.symm (el a ha) (el b hb') fun ho hs i => by
    obtain ⟨B, h1, h2, h3⟩ := hok ho hs
    exact range_of_abs hs ((amul (h1 i).1 (h1 i).2.1).trans (num B h2 h3).1)
  have h2 := opInt_res (cC := c') (f := (· * ·)) (Or.inr (Or.inr rfl)) (common_right t t) h1 (el d hd) fun ho hs i => by
    obtain ⟨B, h1, h2, h3⟩ := hok ho hs
    exact range_of_abs hs ((amul (amul (h1 i).1 (h1 i).2.1) (h1 i).2.2.1).trans (num B h2 h3).2.1)
  have h3 := opInt_res (cC := c') (f := (· * ·)) (Or.inr (Or.inr rfl)) (common_right t t) h2 (el e he) fun ho hs i => by
    obtain ⟨B, h1, h2, h3⟩ := hok ho hs
    exact range_of_abs hs ((amul (amul (amul (h1 i).1 (h1 i).2.1) (h1 i).2.2.1) (h1 i).2.2.2.1).trans (num B h2 h3).2.2)
  have bound : ok → T.signed = true → ∃ C : ℤ, (∀ i, |conv t (sign i) * (a i * b i * d i * e i)| ≤ C) ∧ 4 * C ≤ T.hi ∧ 0 ≤ C := fun ho hs => by
    obtain ⟨B, h1, h2, h3⟩ := hok ho hs
    refine ⟨1 * (B * B * B * B), fun i => amul (h1 i).2.2.2.2 (amul (amul (amul (h1 i).1 (h1 i).2.1) (h1 i).2.2.1) (h1 i).2.2.2.1), ?_, by positivity⟩
    have : 4 * (1 * (B * B * B * B)) = 4 * B ^ 4 := by ring
    linarith
  have h4 := opInt_res (cA := c) (cC := c') (p1 := p) (f := (· * ·)) (Or.inr (Or.inr rfl)) (common_left t t)
    (el (fun i => conv t (sign i)) fun i => conv_range hb _) h3 fun ho hs i => by
      obtain ⟨C, h1, h2, h3⟩ := bound ho hs
      exact range_of_abs hs (by have := h1 i; linarith)
  have h5 := sumInt_res hbits tb ts htb hts h4 fun ho hs => by
    obtain ⟨C, h1, h2, h3⟩ := bound ho hs
    refine (Finset.sum_le_card_nsmul _ _ C fun i _ => h1 i).trans ?_
    simpa using h2
  simp only [Option.bind_some, Option.bind_assoc] at h5
  exact h5

theorem minorInt_res (hb : 1 ≤ t.bits) (tb : RTree (batchSize 3 false)) (ts : RTree 3) (htb : tb.Valid) (hts : ts.Valid) (f : ℤ) (a b d e g : Fin 3 → ℤ)
    (hf : t.lo ≤ f ∧ f ≤ t.hi)
    (ha : ∀ i, t.lo ≤ a i ∧ a i ≤ t.hi) (hb' : ∀ i, t.lo ≤ b i ∧ b i ≤ t.hi) (hd : ∀ i, t.lo ≤ d i ∧ d i ≤ t.hi) (he : ∀ i, t.lo ≤ e i ∧ e i ≤ t.hi)
    (hg : ∀ i, t.lo ≤ g i ∧ g i ≤ t.hi)
    (hok : ok → (common t t).signed = true → ∃ B, |f| ≤ B ∧ (∀ i, |a i| ≤ B ∧ |b i| ≤ B ∧ |d i| ≤ B ∧ |e i| ≤ B ∧ |g i| ≤ B) ∧ 1 ≤ B ∧ 6 * B ^ 4 ≤ (common t t).hi) :
    Res (common t t) (common t t) ok (minorInt c c' p t tb ts f a b d e g) (f * ∑ i, a i * (b i * d i - e i * g i)) := by
  set T := common t t with hT
  have h := minor_res (c := c) (c' := c') (p := p) (ok := ok) hb tb ts htb hts a b d e g ha hb' hd he hg fun ho hs => by
    obtain ⟨B, h0, h1, h2, h3⟩ := hok ho hs
    refine ⟨B, h1, h2, ?_⟩
    have : B ^ 3 ≤ B ^ 3 * B := le_mul_of_one_le_right (by positivity) h2
    have e : B ^ 4 = B ^ 3 * B := by ring
    linarith
  have fin := scalarOp_res (f := (· * ·)) (Or.inr (Or.inr rfl)) (common_left t t) (Res.of (Or.inl hT) hb hf) h fun ho hs => by
    obtain ⟨B, h0, h1, h2, h3⟩ := hok ho hs
    have hs1 : |∑ i, a i * (b i * d i - e i * g i)| ≤ 3 * (B * (B * B + B * B)) := by
      refine (Finset.abs_sum_le_sum_abs _ _).trans ((Finset.sum_le_card_nsmul _ _ (B * (B * B + B * B)) fun i _ =>
        amul (h1 i).1 (asub (amul (h1 i).2.1 (h1 i).2.2.1) (amul (h1 i).2.2.2.1 (h1 i).2.2.2.2))).trans ?_)
      simp
    have := amul h0 hs1
    have e : B * (3 * (B * (B * B + B * B))) = 6 * B ^ 4 := by ring
    exact range_of_abs hs (by linarith)
  simp only [Option.bind_some, Option.bind_assoc] at fin
  exact fin

/-- The formula for dimension 4 with arbitrary signs. -/
def det4With (even odd : Fin 4 → ℤ) (s : Fin 4 → Fin 4 → ℤ) : ℤ :=
  ∑ i, even i * (sw (s 0) ![1, 1, 0, 0] i * sw (s 1) ![3, 2, 3, 2] i * sw (s 2) ![2, 3, 2, 3] i * sw (s 3) ![0, 0, 1, 1] i)
    + ∑ i, odd i * (sw (s 0) ![1, 0, 1, 0] i * sw (s 1) ![3, 3, 0, 1] i * sw (s 2) ![0, 1, 3, 3] i * sw (s 3) ![2, 2, 2, 2] i)
    + ∑ i, even i * (sw (s 0) ![1, 0, 1, 0] i * sw (s 1) ![2, 2, 0, 1] i * sw (s 2) ![0, 1, 2, 2] i * sw (s 3) ![3, 3, 3, 3] i)
    + s 0 3 * ∑ i, sw (s 1) ![2, 1, 0] i * (sw (s 2) ![1, 0, 2] i * sw (s 3) ![0, 2, 1] i - sw (s 2) ![0, 2, 1] i * sw (s 3) ![1, 0, 2] i)
    + s 0 2 * ∑ i, sw (s 1) ![3, 1, 0] i * (sw (s 2) ![0, 3, 1] i * sw (s 3) ![1, 0, 3] i - sw (s 2) ![1, 0, 3] i * sw (s 3) ![0, 3, 1] i)

theorem det4With_eq (s : Fin 4 → Fin 4 → ℤ) : det4With ![1, -1, -1, 1] ![-1, 1, 1, -1] s = det4Stripes s := rfl

theorem det4With_dvd (q : ℤ) {e e' o o' : Fin 4 → ℤ} (he : ∀ i, q ∣ e i - e' i) (ho : ∀ i, q ∣ o i - o' i) (s : Fin 4 → Fin 4 → ℤ) :
    q ∣ det4With e o s - det4With e' o' s := by
  have key : ∀ (x x' y : Fin 4 → ℤ), (∀ i, q ∣ x i - x' i) → q ∣ ∑ i, x i * y i - ∑ i, x' i * y i := by
    intro x x' y h
    rw [← Finset.sum_sub_distrib]
    refine Finset.dvd_sum fun i _ => ?_
    rw [← sub_mul]
    exact Dvd.dvd.mul_right (h i) _
  have add : ∀ {a b c d : ℤ}, q ∣ a - b → q ∣ c - d → q ∣ a + c - (b + d) := fun h h' => op_dvd (f := (· + ·)) (Or.inl rfl) h h'
  exact add (add (add (add (key _ _ _ he) (key _ _ _ ho)) (key _ _ _ he)) (by simp)) (by simp)

theorem det4Int_res (hb : 1 ≤ t.bits) (tb3 : RTree (batchSize 3 false)) (ts3 : RTree 3) (tb4 : RTree (batchSize 4 false)) (ts4 : RTree 4) (htb3 : tb3.Valid)
    (hts3 : ts3.Valid) (htb4 : tb4.Valid) (hts4 : ts4.Valid) (m : Fin 4 → Fin 4 → ℤ) (hm : ∀ i j, t.lo ≤ m i j ∧ m i j ≤ t.hi)
    (hok : ok → (common t t).signed = true → conv t 1 = 1 ∧ conv t (-1) = -1 ∧ ∃ B, (∀ i j, |m i j| ≤ B) ∧ 1 ≤ B ∧ 24 * B ^ 4 ≤ (common t t).hi) :
    (∀ w, det4Int c c' p t tb3 ts3 tb4 ts4 m = some w → (t.lo ≤ w ∧ w ≤ t.hi) ∧ (2 : ℤ) ^ t.bits ∣ w - det4Stripes m) ∧
      (ok → (det4Int c c' p t tb3 ts3 tb4 ts4 m).isSome = true) := by
  set T := common t t with hT
  have quad : ∀ (sg : Fin 4 → ℤ) (_ : ∀ i, sg i = 1 ∨ sg i = -1) (a b d e : Fin 4 → Fin 4), Res T T ok (quadInt c c' p t tb4 ts4 sg (sw (m 0) a) (sw (m 1) b) (sw (m 2) d)
      (sw (m 3) e)) (∑ i, conv t (sg i) * (sw (m 0) a i * sw (m 1) b i * sw (m 2) d i * sw (m 3) e i)) ∧ (ok → T.signed = true → ∀ B, (∀ i j, |m i j| ≤ B) →
        |∑ i, conv t (sg i) * (sw (m 0) a i * sw (m 1) b i * sw (m 2) d i * sw (m 3) e i)| ≤ 4 * B ^ 4) := by
    intro sg hsg a b d e
    have hc : ok → T.signed = true → ∀ i, |conv t (sg i)| ≤ 1 := by
      intro ho hs i
      obtain ⟨h1, h2, _⟩ := hok ho hs
      rcases hsg i with h | h
      · rw [h, h1]; simp
      · rw [h, h2]; simp
    refine ⟨quadInt_res hb tb4 ts4 htb4 hts4 sg _ _ _ _ (fun _ => hm _ _) (fun _ => hm _ _) (fun _ => hm _ _) (fun _ => hm _ _) fun ho hs => ?_, fun ho hs B h1 => ?_⟩
    · obtain ⟨_, _, B, h1, h2, h3⟩ := hok ho hs
      refine ⟨B, fun i => ⟨h1 _ _, h1 _ _, h1 _ _, h1 _ _, hc ho hs i⟩, h2, ?_⟩
      have : 0 ≤ B ^ 4 := by positivity
      linarith
    · refine (Finset.abs_sum_le_sum_abs _ _).trans ((Finset.sum_le_card_nsmul _ _ (1 * (B * B * B * B)) fun i _ =>
        amul (hc ho hs i) (amul (amul (amul (h1 _ _) (h1 _ _)) (h1 _ _)) (h1 _ _))).trans (le_of_eq ?_))
      simp
      ring
  have minor : ∀ (q : Fin 4) (a b d e g : Fin 3 → Fin 4), Res T T ok (minorInt c c' p t tb3 ts3 (m 0 q) (sw (m 1) a) (sw (m 2) b) (sw (m 3) d)
      (sw (m 2) e) (sw (m 3) g)) (m 0 q * ∑ i, sw (m 1) a i * (sw (m 2) b i * sw (m 3) d i - sw (m 2) e i * sw (m 3) g i)) ∧
      (∀ B, (∀ i j, |m i j| ≤ B) → |m 0 q * ∑ i, sw (m 1) a i * (sw (m 2) b i * sw (m 3) d i - sw (m 2) e i * sw (m 3) g i)| ≤ 6 * B ^ 4) := by
    intro q a b d e g
    refine ⟨minorInt_res hb tb3 ts3 htb3 hts3 _ _ _ _ _ _ (hm _ _) (fun _ => hm _ _) (fun _ => hm _ _) (fun _ => hm _ _) (fun _ => hm _ _) (fun _ => hm _ _)
      fun ho hs => ?_, fun B h1 => ?_⟩
    · obtain ⟨_, _, B, h1, h2, h3⟩ := hok ho hs
      refine ⟨B, h1 _ _, fun i => ⟨h1 _ _, h1 _ _, h1 _ _, h1 _ _, h1 _ _⟩, h2, ?_⟩
      have : 0 ≤ B ^ 4 := by positivity
      linarith
    · refine (amul (h1 _ _) ((Finset.abs_sum_le_sum_abs _ _).trans (Finset.sum_le_card_nsmul _ _ (B * (B * B + B * B)) fun i _ =>
        amul (h1 _ _) (asub (amul (h1 _ _) (h1 _ _)) (amul (h1 _ _) (h1 _ _)))))).trans (le_of_eq ?_)
      simp
      ring
  have hev : ∀ i, (![1, -1, -1, 1] : Fin 4 → ℤ) i = 1 ∨ (![1, -1, -1, 1] : Fin 4 → ℤ) i = -1 := by decide
  have hod : ∀ i, (![-1, 1, 1, -1] : Fin 4 → ℤ) i = 1 ∨ (![-1, 1, 1, -1] : Fin 4 → ℤ) i = -1 := by decide
  obtain ⟨x0, b0⟩ := quad _ hev ![1, 1, 0, 0] ![3, 2, 3, 2] ![2, 3, 2, 3] ![0, 0, 1, 1]
  obtain ⟨x1, b1⟩ := quad _ hod ![1, 0, 1, 0] ![3, 3, 0, 1] ![0, 1, 3, 3] ![2, 2, 2, 2]
  obtain ⟨x2, b2⟩ := quad _ hev ![1, 0, 1, 0] ![2, 2, 0, 1] ![0, 1, 2, 2] ![3, 3, 3, 3]
  obtain ⟨x3, b3⟩ := minor 3 ![2, 1, 0] ![1, 0, 2] ![0, 2, 1] ![0, 2, 1] ![1, 0, 2]
  obtain ⟨x4, b4⟩ := minor 2 ![3, 1, 0] ![0, 3, 1] ![1, 0, 3] ![1, 0, 3] ![0, 3, 1]
  have op : ∀ {a b : Option ℤ} {x y : ℤ} (_ : Res T T ok a x) (_ : Res T T ok b y) (_ : ok → T.signed = true → |x + y| ≤ T.hi),
      Res T T ok (a.bind fun a => b.bind fun b => IntTy.scalarOp (· + ·) T T a b) (x + y) := fun ha hb h =>
    scalarOp_res (f := (· + ·)) (Or.inl rfl) (common_self t t) ha hb fun ho hs => range_of_abs hs (h ho hs)
  have y1 := op x0 x1 fun ho hs => by
    obtain ⟨_, _, B, h1, h2, h3⟩ := hok ho hs
    have := aadd (b0 ho hs B h1) (b1 ho hs B h1)
    have : 0 ≤ B ^ 4 := by positivity
    linarith
  have y2 := op y1 x2 fun ho hs => by
    obtain ⟨_, _, B, h1, h2, h3⟩ := hok ho hs
    have := aadd (aadd (b0 ho hs B h1) (b1 ho hs B h1)) (b2 ho hs B h1)
    have : 0 ≤ B ^ 4 := by positivity
    linarith
  have y3 := op y2 x3 fun ho hs => by
    obtain ⟨_, _, B, h1, h2, h3⟩ := hok ho hs
    have := aadd (aadd (aadd (b0 ho hs B h1) (b1 ho hs B h1)) (b2 ho hs B h1)) (b3 B h1)
    have : 0 ≤ B ^ 4 := by positivity
    linarith
  have y4 := op y3 x4 fun ho hs => by
    obtain ⟨_, _, B, h1, h2, h3⟩ := hok ho hs
    have := aadd (aadd (aadd (aadd (b0 ho hs B h1) (b1 ho hs B h1)) (b2 ho hs B h1)) (b3 B h1)) (b4 B h1)
    linarith
  have fin := conv_res hb (bits_le hb) y4
  have hd : (2 : ℤ) ^ t.bits ∣ det4With (fun i => conv t ((![1, -1, -1, 1] : Fin 4 → ℤ) i)) (fun i => conv t ((![-1, 1, 1, -1] : Fin 4 → ℤ) i)) m - det4Stripes m := by
    rw [← det4With_eq]
    exact det4With_dvd _ (fun i => conv_dvd t _) (fun i => conv_dvd t _) m
  generalize hX0 : quadInt c c' p t tb4 ts4 ![1, -1, -1, 1] (sw (m 0) ![1, 1, 0, 0]) (sw (m 1) ![3, 2, 3, 2]) (sw (m 2) ![2, 3, 2, 3]) (sw (m 3) ![0, 0, 1, 1]) = X0 at *
  generalize hX1 : quadInt c c' p t tb4 ts4 ![-1, 1, 1, -1] (sw (m 0) ![1, 0, 1, 0]) (sw (m 1) ![3, 3, 0, 1]) (sw (m 2) ![0, 1, 3, 3]) (sw (m 3) ![2, 2, 2, 2]) = X1 at *
  generalize hX2 : quadInt c c' p t tb4 ts4 ![1, -1, -1, 1] (sw (m 0) ![1, 0, 1, 0]) (sw (m 1) ![2, 2, 0, 1]) (sw (m 2) ![0, 1, 2, 2]) (sw (m 3) ![3, 3, 3, 3]) = X2 at *
  generalize hX3 : minorInt c c' p t tb3 ts3 (m 0 3) (sw (m 1) ![2, 1, 0]) (sw (m 2) ![1, 0, 2]) (sw (m 3) ![0, 2, 1]) (sw (m 2) ![0, 2, 1]) (sw (m 3) ![1, 0, 2]) = X3
    at *
  generalize hX4 : minorInt c c' p t tb3 ts3 (m 0 2) (sw (m 1) ![3, 1, 0]) (sw (m 2) ![0, 3, 1]) (sw (m 3) ![1, 0, 3]) (sw (m 2) ![1, 0, 3]) (sw (m 3) ![0, 3, 1]) = X4
    at *
  have e : det4Int c c' p t tb3 ts3 tb4 ts4 m = Option.map (conv t) (((((X0.bind fun a => X1.bind fun b => IntTy.scalarOp (· + ·) T T a b).bind fun a => X2.bind fun b =>
      IntTy.scalarOp (· + ·) T T a b).bind fun a => X3.bind fun b => IntTy.scalarOp (· + ·) T T a b).bind fun a => X4.bind fun b =>
      IntTy.scalarOp (· + ·) T T a b)) := by
    unfold det4Int
    simp only [hX0, hX1, hX2, hX3, hX4, ← hT]
    cases X0 <;> cases X1 <;> cases X2 <;> cases X3 <;> cases X4 <;> simp [Option.map_bind, Option.bind_assoc]
  rw [e]
  exact ⟨fun w hw => ⟨(fin.1 w hw).1, dvd_tr (fin.1 w hw).2 hd⟩, fin.2⟩

end
end Mathter
