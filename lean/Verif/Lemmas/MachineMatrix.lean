import Verif.Lemmas.MachineInt
import Verif.Lemmas.Matrix
import Verif.Lemmas.Bareiss
import Verif.Model.MachineMatrix

/-! # Lemmas about matrices of machine integers -/

namespace Mathter
open IntTy

namespace IntTy

theorem dvd_tr {m a b c : ℤ} (h : m ∣ a - b) (h' : m ∣ b - c) : m ∣ a - c := by
  have := dvd_add h h'
  simpa using this

theorem promote_ge {t : IntTy} (h : 32 ≤ t.bits) : promote t = t := by
  unfold promote
  rw [if_neg (by omega)]

theorem promote_common (s t : IntTy) : promote (common s t) = common s t := promote_ge (bits_common s t)

theorem usual_right (s t : IntTy) : usual (usual s t) t = usual s t := by
  unfold usual
  by_cases h1 : t.bits < s.bits
  · simp [h1]
  · by_cases h2 : s.bits < t.bits
    · simp [h1, h2]
    · have : s.bits = t.bits := by omega
      simp [this]

theorem usual_self (s : IntTy) : usual s s = s := by
  unfold usual
  simp

theorem common_right (s t : IntTy) : common (common s t) t = common s t := by
  rw [common, promote_common, common, usual_right]

theorem usual_comm (s t : IntTy) : usual s t = usual t s := by
  unfold usual
  by_cases h1 : t.bits < s.bits
  · simp [h1, show ¬s.bits < t.bits by omega]
  · by_cases h2 : s.bits < t.bits
    · simp [h1, h2]
    · have : s.bits = t.bits := by omega
      simp [this, Bool.and_comm]

theorem common_comm (s t : IntTy) : common s t = common t s := usual_comm _ _

theorem common_self (s t : IntTy) : common (common s t) (common s t) = common s t := by
  rw [common, promote_common, usual_self]

theorem common_left (s t : IntTy) : common s (common s t) = common s t := by
  rw [common_comm, common_comm s t, common_right]

/-- If the common type is signed, it holds all values of the operand types. -/
theorem common_holds {s t : IntTy} (h : 1 ≤ s.bits) (hs : (common s t).signed = true) {x : ℤ} (hx : s.lo ≤ x ∧ x ≤ s.hi) :
    (common s t).lo ≤ x ∧ x ≤ (common s t).hi := by
  have hp : (promote s).lo ≤ x ∧ x ≤ (promote s).hi := by
    have := Vec.common_range h hx
    rwa [show common s s = promote s from usual_self _] at this
  set a := promote s
  set b := promote t
  have ha : 32 ≤ a.bits := by
    have := bits_common s s
    rwa [show common s s = promote s from usual_self _] at this
  change (usual a b).signed = true at hs
  change (usual a b).lo ≤ x ∧ x ≤ (usual a b).hi
  unfold usual at *
  split at hs
  · rename_i h1
    rw [if_pos h1]
    exact hp
  · rename_i h1
    rw [if_neg h1]
    split at hs
    · rename_i h2
      rw [if_pos h2]
      unfold lo hi at *
      rw [hs]
      have h3 : (2 : ℤ) ^ a.bits ≤ 2 ^ (b.bits - 1) := pow_le_pow_right₀ (by norm_num) (by omega)
      have h4 := pow_pred (b := a.bits) (by omega)
      have h5 : (0 : ℤ) < 2 ^ (a.bits - 1) := by positivity
      simp only [if_true]
      split at hp <;> constructor <;> omega
    · rename_i h2
      rw [if_neg h2]
      simp only [Bool.and_eq_true] at hs
      have : (⟨a.bits, a.signed && b.signed⟩ : IntTy) = a := by
        rw [hs.1, hs.2]
        cases ha' : a
        rw [ha'] at hs
        simp_all
      rw [this]
      exact hp

theorem range_of_abs {t : IntTy} (hs : t.signed = true) {x : ℤ} (h : |x| ≤ t.hi) : t.lo ≤ x ∧ x ≤ t.hi := Vec.conv_le_hi x h (Or.inl hs)

theorem result_range {t : IntTy} (h : 1 ≤ t.bits) {x y : ℤ} (hr : t.result x = some y) : (t.lo ≤ y ∧ y ≤ t.hi) ∧ (2 : ℤ) ^ t.bits ∣ y - x := by
  rw [result_conv h hr]
  exact ⟨conv_range h x, conv_dvd t x⟩

end IntTy

/-- `v` is a value of type `s`, congruent to `z` modulo the size of `T`; it is defined, and `z` small if `T` is signed, provided that `ok`. -/
structure Res (T s : IntTy) (ok : Prop) (v : Option ℤ) (z : ℤ) : Prop where
  range : ∀ w, v = some w → s.lo ≤ w ∧ w ≤ s.hi
  holds : ∀ w, v = some w → T.signed = true → T.lo ≤ w ∧ w ≤ T.hi
  dvd : ∀ w, v = some w → (2 : ℤ) ^ T.bits ∣ w - z
  total : ok → v.isSome = true
  small : ok → T.signed = true → T.lo ≤ z ∧ z ≤ T.hi

/-- The same for vectors. -/
structure VRes {c : Cfg} {n : ℕ} {p : Bool} (T s : IntTy) (ok : Prop) (v : Option (Vec c ℤ n p)) (z : Fin n → ℤ) : Prop where
  range : ∀ w, v = some w → ∀ i, s.lo ≤ w.get i ∧ w.get i ≤ s.hi
  holds : ∀ w, v = some w → T.signed = true → ∀ i, T.lo ≤ w.get i ∧ w.get i ≤ T.hi
  dvd : ∀ w, v = some w → ∀ i, (2 : ℤ) ^ T.bits ∣ w.get i - z i
  total : ok → v.isSome = true
  small : ok → T.signed = true → ∀ i, T.lo ≤ z i ∧ z i ≤ T.hi

section
variable {T s t u : IntTy} {ok : Prop} {cA cB cC cD : Cfg} {n : ℕ} {p p1 p2 p3 : Bool}

/-- In the fortunate case a signed result is exact. -/
theorem Res.exact {v : Option ℤ} {z w : ℤ} (h : Res T s ok v z) (hb : 1 ≤ T.bits) (ho : ok) (hs : T.signed = true) (hw : v = some w) : w = z :=
  eq_of_dvd hb (h.holds w hw hs) (h.small ho hs) (h.dvd w hw)

theorem VRes.exact {v : Option (Vec cA ℤ n p)} {z : Fin n → ℤ} {w : Vec cA ℤ n p} (h : VRes T s ok v z) (hb : 1 ≤ T.bits) (ho : ok) (hs : T.signed = true)
    (hw : v = some w) (i : Fin n) : w.get i = z i :=
  eq_of_dvd hb (h.holds w hw hs i) (h.small ho hs i) (h.dvd w hw i)

/-- Values of an operand. -/
theorem Res.of (hT : T = common s t ∨ T = common t s) (hb : 1 ≤ s.bits) {x : ℤ} (hx : s.lo ≤ x ∧ x ≤ s.hi) :
    Res T s ok (some x) x where
  range w hw := by rw [← Option.some.inj hw]; exact hx
  holds w hw hs := by
    rw [← Option.some.inj hw]
    rcases hT with rfl | rfl
    · exact common_holds hb hs hx
    · rw [common_comm] at hs ⊢; exact common_holds hb hs hx
  dvd w hw := by rw [← Option.some.inj hw]; simp
  total _ := rfl
  small _ hs := by
    rcases hT with rfl | rfl
    · exact common_holds hb hs hx
    · rw [common_comm] at hs ⊢; exact common_holds hb hs hx

theorem VRes.of (hT : T = common s t ∨ T = common t s) (hb : 1 ≤ s.bits) {v : Vec cA ℤ n p} {x : Fin n → ℤ} (hv : ∀ i, v.get i = x i)
    (hx : ∀ i, s.lo ≤ x i ∧ x i ≤ s.hi) : VRes T s ok (some v) x where
  range w hw i := by rw [← Option.some.inj hw, hv]; exact hx i
  holds w hw hs i := by
    rw [← Option.some.inj hw, hv]
    rcases hT with rfl | rfl
    · exact common_holds hb hs (hx i)
    · rw [common_comm] at hs ⊢; exact common_holds hb hs (hx i)
  dvd w hw i := by rw [← Option.some.inj hw, hv]; simp
  total _ := rfl
  small _ hs i := by
    rcases hT with rfl | rfl
    · exact common_holds hb hs (hx i)
    · rw [common_comm] at hs ⊢; exact common_holds hb hs (hx i)

/-- A scalar operator. -/
theorem scalarOp_res {f : ℤ → ℤ → ℤ} (hf : f = (· + ·) ∨ f = (· - ·) ∨ f = (· * ·)) (hT : common s t = T) {a b : Option ℤ} {x y : ℤ} (ha : Res T s ok a x)
    (hb : Res T t ok b y) (hok : ok → T.signed = true → T.lo ≤ f x y ∧ f x y ≤ T.hi) : Res T T ok (a.bind fun a => b.bind fun b => IntTy.scalarOp f s t a b) (f x y) := by
  have hbits : 32 ≤ T.bits := by rw [← hT]; exact bits_common s t
  have key : ∀ w, (a.bind fun a => b.bind fun b => IntTy.scalarOp f s t a b) = some w → (T.lo ≤ w ∧ w ≤ T.hi) ∧ (2 : ℤ) ^ T.bits ∣ w - f x y := by
    intro w hw
    obtain ⟨a', ha', hw⟩ := Option.bind_eq_some_iff.1 hw
    obtain ⟨b', hb', hw⟩ := Option.bind_eq_some_iff.1 hw
    unfold IntTy.scalarOp at hw
    rw [hT] at hw
    obtain ⟨h1, h2⟩ := result_range (by omega) hw
    refine ⟨h1, ?_⟩
    exact dvd_tr h2 (op_dvd hf (dvd_tr (conv_dvd T a') (ha.dvd a' ha')) (dvd_tr (conv_dvd T b') (hb.dvd b' hb')))
  refine ⟨fun w hw => (key w hw).1, fun w hw _ => (key w hw).1, fun w hw => (key w hw).2, fun ho => ?_, hok⟩
  obtain ⟨a', ha'⟩ := Option.isSome_iff_exists.1 (ha.total ho)
  obtain ⟨b', hb'⟩ := Option.isSome_iff_exists.1 (hb.total ho)
  rw [ha', hb', Option.bind_some, Option.bind_some]
  unfold IntTy.scalarOp
  rw [hT]
  cases hs : T.signed
  · rw [result_unsigned hs]; rfl
  · rw [ha.exact (by omega) ho hs ha', hb.exact (by omega) ho hs hb', conv_self (by omega) (ha.small ho hs),
      conv_self (by omega) (hb.small ho hs), result_exact (by omega) (hok ho hs)]
    rfl

/-- The result stored as another type. -/
theorem conv_res {v : Option ℤ} {z : ℤ} (hb : 1 ≤ t.bits) (hle : t.bits ≤ T.bits) (h : Res T s ok v z) :
    (∀ w, v.map (conv t) = some w → (t.lo ≤ w ∧ w ≤ t.hi) ∧ (2 : ℤ) ^ t.bits ∣ w - z) ∧ (ok → (v.map (conv t)).isSome = true) := by
  refine ⟨fun w hw => ?_, fun ho => ?_⟩
  · obtain ⟨x, hx, rfl⟩ := Option.map_eq_some_iff.1 hw
    refine ⟨conv_range hb x, ?_⟩
    have := dvd_add (conv_dvd t x) ((pow_dvd_pow 2 hle).trans (h.dvd x hx))
    simpa using this
  · rw [Option.isSome_map]; exact h.total ho

/-- An operator on vectors. -/
theorem opInt_res {f : ℤ → ℤ → ℤ} (hf : f = (· + ·) ∨ f = (· - ·) ∨ f = (· * ·)) (hT : common s t = T) {a : Option (Vec cA ℤ n p1)} {b : Option (Vec cB ℤ n p2)}
    {x y : Fin n → ℤ} (ha : VRes T s ok a x) (hb : VRes T t ok b y) (hok : ok → T.signed = true → ∀ i, T.lo ≤ f (x i) (y i) ∧ f (x i) (y i) ≤ T.hi) :
    VRes T T ok (a.bind fun a => b.bind fun b => Vec.opInt (cC := cC) f s t a b) (fun i => f (x i) (y i)) := by
  have hbits : 32 ≤ T.bits := by rw [← hT]; exact bits_common s t
  have key : ∀ w, (a.bind fun a => b.bind fun b => Vec.opInt (cC := cC) f s t a b) = some w → ∀ i, (T.lo ≤ w.get i ∧ w.get i ≤ T.hi) ∧
      (2 : ℤ) ^ T.bits ∣ w.get i - f (x i) (y i) := by
    intro w hw i
    obtain ⟨a', ha', hw⟩ := Option.bind_eq_some_iff.1 hw
    obtain ⟨b', hb', hw⟩ := Option.bind_eq_some_iff.1 hw
    have h2 := ha.dvd a' ha' i
    have h3 := hb.dvd b' hb' i
    unfold Vec.opInt at hw
    split at hw
    · rename_i h
      rw [← Option.some.inj hw, Vec.get_store, hT]
      refine ⟨conv_range (by omega) _, ?_⟩
      exact dvd_tr (conv_dvd T _) (op_dvd hf h2 h3)
    · obtain ⟨g, hg, rfl⟩ := Option.map_eq_some_iff.1 hw
      have hi := Vec.seqFin_eq_some.1 hg i
      rw [Vec.get_ofFn]
      unfold IntTy.scalarOp at hi
      rw [hT] at hi
      obtain ⟨h4, h5⟩ := result_range (by omega) hi
      refine ⟨h4, ?_⟩
      have e1 : (2 : ℤ) ^ T.bits ∣ T.conv (a'.get i) - x i := by
        have := dvd_add (conv_dvd T (a'.get i)) h2; simpa using this
      have e2 : (2 : ℤ) ^ T.bits ∣ T.conv (b'.get i) - y i := by
        have := dvd_add (conv_dvd T (b'.get i)) h3; simpa using this
      have := dvd_add h5 (op_dvd hf e1 e2)
      simpa using this
  refine ⟨fun w hw i => (key w hw i).1, fun w hw _ i => (key w hw i).1, fun w hw i => (key w hw i).2, fun ho => ?_, hok⟩
  obtain ⟨a', ha'⟩ := Option.isSome_iff_exists.1 (ha.total ho)
  obtain ⟨b', hb'⟩ := Option.isSome_iff_exists.1 (hb.total ho)
  rw [ha', hb', Option.bind_some, Option.bind_some]
  cases hs : T.signed
  · obtain ⟨v, hv, _⟩ := Vec.opInt_unsigned (cC := cC) hf s t (by rw [hT]; exact hs) a' b'
    rw [hv]; rfl
  · have e1 := ha.exact (by omega) ho hs ha'
    have e2 := hb.exact (by omega) ho hs hb'
    obtain ⟨v, hv, _⟩ := Vec.opInt_exact (cC := cC) f s t a' b' (by rw [hT]; intro i; exact ha.holds a' ha' hs i)
      (by rw [hT]; intro i; exact hb.holds b' hb' hs i) (by rw [hT]; intro i; rw [e1, e2]; exact hok ho hs i)
    rw [hv]; rfl

/-- `MultiplyAdd`. -/
theorem maddInt_res (hT : common (common s t) u = T) {a : Option (Vec cA ℤ n p1)} {b : Option (Vec cB ℤ n p2)} {d : Option (Vec cD ℤ n p3)}
    {x y z : Fin n → ℤ} (ha : VRes T s ok a x) (hb : VRes T t ok b y) (hd : VRes T u ok d z) (hok1 : ok → T.signed = true → ∀ i, T.lo ≤ x i * y i ∧ x i * y i ≤ T.hi)
    (hok : ok → T.signed = true → ∀ i, T.lo ≤ x i * y i + z i ∧ x i * y i + z i ≤ T.hi) :
    VRes T T ok (a.bind fun a => b.bind fun b => d.bind fun d => Vec.maddInt (cC := cC) s t u a b d) (fun i => x i * y i + z i) := by
  have hbits : 32 ≤ T.bits := by rw [← hT]; exact bits_common _ u
  have key : ∀ w, (a.bind fun a => b.bind fun b => d.bind fun d => Vec.maddInt (cC := cC) s t u a b d) = some w → ∀ i, (T.lo ≤ w.get i ∧ w.get i ≤ T.hi) ∧
      (2 : ℤ) ^ T.bits ∣ w.get i - (x i * y i + z i) := by
    intro w hw i
    obtain ⟨a', ha', hw⟩ := Option.bind_eq_some_iff.1 hw
    obtain ⟨b', hb', hw⟩ := Option.bind_eq_some_iff.1 hw
    obtain ⟨d', hd', hw⟩ := Option.bind_eq_some_iff.1 hw
    have h2 := ha.dvd a' ha' i
    have h3 := hb.dvd b' hb' i
    have h4 := hd.dvd d' hd' i
    have mul : ∀ {a b : ℤ}, (2 : ℤ) ^ T.bits ∣ a - x i → (2 : ℤ) ^ T.bits ∣ b - y i → (2 : ℤ) ^ T.bits ∣ a * b - x i * y i :=
      fun h h' => op_dvd (f := (· * ·)) (Or.inr (Or.inr rfl)) h h'
    have add : ∀ {a b c e : ℤ}, (2 : ℤ) ^ T.bits ∣ a - c → (2 : ℤ) ^ T.bits ∣ b - e → (2 : ℤ) ^ T.bits ∣ a + b - (c + e) :=
      fun h h' => op_dvd (f := (· + ·)) (Or.inl rfl) h h'
    unfold Vec.maddInt at hw
    simp only [hT] at hw
    split at hw
    · rename_i h
      rw [← Option.some.inj hw, Vec.get_store]
      refine ⟨conv_range (by omega) _, ?_⟩
      exact dvd_tr (conv_dvd T _) (add (mul h2 h3) h4)
    · obtain ⟨g, hg, rfl⟩ := Option.map_eq_some_iff.1 hw
      have hi := Vec.seqFin_eq_some.1 hg i
      rw [Vec.get_ofFn]
      unfold IntTy.scalarMadd at hi
      simp only [hT] at hi
      obtain ⟨q, hq, hi⟩ := Option.bind_eq_some_iff.1 hi
      obtain ⟨h5, h6⟩ := result_range (by omega) hi
      obtain ⟨_, h7⟩ := result_range (by omega) hq
      refine ⟨h5, ?_⟩
      have tr : ∀ {a b c : ℤ}, (2 : ℤ) ^ T.bits ∣ a - b → (2 : ℤ) ^ T.bits ∣ b - c → (2 : ℤ) ^ T.bits ∣ a - c := by
        intro a b c h h'
        have := dvd_add h h'
        simpa using this
      exact tr h6 (add (tr h7 (mul (tr (conv_dvd T _) h2) (tr (conv_dvd T _) h3))) (tr (conv_dvd T _) h4))
  refine ⟨fun w hw i => (key w hw i).1, fun w hw _ i => (key w hw i).1, fun w hw i => (key w hw i).2, fun ho => ?_, hok⟩
  obtain ⟨a', ha'⟩ := Option.isSome_iff_exists.1 (ha.total ho)
  obtain ⟨b', hb'⟩ := Option.isSome_iff_exists.1 (hb.total ho)
  obtain ⟨d', hd'⟩ := Option.isSome_iff_exists.1 (hd.total ho)
  rw [ha', hb', hd', Option.bind_some, Option.bind_some, Option.bind_some]
  unfold Vec.maddInt
  simp only [hT]
  split
  · rfl
  · rw [Option.isSome_map, Vec.seqFin_isSome]
    intro i
    unfold IntTy.scalarMadd
    simp only [hT]
    cases hs : T.signed
    · rw [result_unsigned hs, Option.bind_some, result_unsigned hs]; rfl
    · rw [ha.exact (by omega) ho hs ha', hb.exact (by omega) ho hs hb', hd.exact (by omega) ho hs hd', conv_self (by omega) (ha.small ho hs i),
        conv_self (by omega) (hb.small ho hs i), conv_self (by omega) (hd.small ho hs i),
        result_exact (by omega) (hok1 ho hs i), Option.bind_some, result_exact (by omega) (hok ho hs i)]
      rfl

theorem asPacked_res {v : Option (Vec cA ℤ n p)} {z : Fin n → ℤ} (p' : Bool) (h : VRes T s ok v z) : VRes T s ok (v.map (Vec.asPacked p')) z where
  range w hw i := by
    obtain ⟨w', hw', rfl⟩ := Option.map_eq_some_iff.1 hw
    rw [Vec.get_asPacked]; exact h.range w' hw' i
  holds w hw hs i := by
    obtain ⟨w', hw', rfl⟩ := Option.map_eq_some_iff.1 hw
    rw [Vec.get_asPacked]; exact h.holds w' hw' hs i
  dvd w hw i := by
    obtain ⟨w', hw', rfl⟩ := Option.map_eq_some_iff.1 hw
    rw [Vec.get_asPacked]; exact h.dvd w' hw' i
  total ho := by rw [Option.isSome_map]; exact h.total ho
  small := h.small

theorem sumStep_conv {t : IntTy} (h : 32 ≤ t.bits) (n : ℕ) (b : Fin n → ℤ) (hb : ∀ i, t.lo ≤ b i ∧ b i ≤ t.hi) (tr : RTree n) {w : ℤ}
    (hw : tr.eval (Vec.sumStep t) (fun i => some (b i)) = some w) : (t.lo ≤ w ∧ w ≤ t.hi) ∧ (2 : ℤ) ^ t.bits ∣ w - (tr.leaves.map b).sum := by
  have hc : common t t = t := by
    rw [show common t t = promote t from usual_self _, promote_ge h]
  induction tr generalizing w with
  | leaf i =>
    simp only [RTree.eval, Option.some.injEq] at hw
    rw [← hw]
    simpa [RTree.leaves] using hb i
  | node l r hl hr =>
    simp only [RTree.eval, Vec.sumStep] at hw
    obtain ⟨x, hx, hw⟩ := Option.bind_eq_some_iff.1 hw
    obtain ⟨y, hy, hw⟩ := Option.bind_eq_some_iff.1 hw
    obtain ⟨q, hq, rfl⟩ := Option.map_eq_some_iff.1 hw
    obtain ⟨h1, h2⟩ := hl hx
    obtain ⟨h3, h4⟩ := hr hy
    unfold IntTy.scalarOp at hq
    rw [hc, conv_self (by omega) h1, conv_self (by omega) h3] at hq
    obtain ⟨h5, h6⟩ := result_range (by omega) hq
    refine ⟨conv_range (by omega) _, ?_⟩
    rw [conv_self (by omega) h5]
    simp only [RTree.leaves, List.map_append, List.sum_append]
    have := dvd_add h6 (op_dvd (f := (· + ·)) (Or.inl rfl) h2 h4)
    simpa using this

/-- `Sum`, for types that need no promotion. -/
theorem sumInt_res (hb : 32 ≤ T.bits) {v : Option (Vec cA ℤ n p)} {z : Fin n → ℤ} (tb : RTree (batchSize n false)) (ts : RTree n) (htb : tb.Valid) (hts : ts.Valid)
    (h : VRes T T ok v z) (hok : ok → T.signed = true → ∑ i, |z i| ≤ T.hi) : Res T T ok (v.bind fun v => v.sumInt T tb ts) (∑ i, z i) := by
  have key : ∀ w, (v.bind fun v => v.sumInt T tb ts) = some w → (T.lo ≤ w ∧ w ≤ T.hi) ∧ (2 : ℤ) ^ T.bits ∣ w - ∑ i, z i := by
    intro w hw
    obtain ⟨v', hv', hw⟩ := Option.bind_eq_some_iff.1 hw
    have hr := h.range v' hv'
    have hd : (2 : ℤ) ^ T.bits ∣ ∑ i, v'.get i - ∑ i, z i := by
      rw [← Finset.sum_sub_distrib]
      exact Finset.dvd_sum fun i _ => h.dvd v' hv' i
    by_cases hba : isBatched cA n p = true
    · rw [Vec.sumInt_batched (by omega) tb ts htb hba v' hr] at hw
      rw [← Option.some.inj hw]
      refine ⟨conv_range (by omega) _, ?_⟩
      have := dvd_add (conv_dvd T (∑ i, v'.get i)) hd
      simpa using this
    · unfold Vec.sumInt at hw
      rw [dif_neg hba] at hw
      obtain ⟨h1, h2⟩ := sumStep_conv hb n _ hr ts hw
      rw [Vec.sum_leaves _ hts] at h2
      refine ⟨h1, ?_⟩
      have := dvd_add h2 hd
      simpa using this
  have habs : |∑ i, z i| ≤ ∑ i, |z i| := Finset.abs_sum_le_sum_abs _ _
  refine ⟨fun w hw => (key w hw).1, fun w hw _ => (key w hw).1, fun w hw => (key w hw).2, fun ho => ?_, fun ho hs => range_of_abs hs (habs.trans (hok ho hs))⟩
  obtain ⟨v', hv'⟩ := Option.isSome_iff_exists.1 (h.total ho)
  rw [hv', Option.bind_some]
  cases hs : T.signed
  · rw [Vec.sumInt_modular (by omega) (Or.inr ⟨hs, hb⟩) tb ts htb hts v' (h.range v' hv')]; rfl
  · rw [Vec.sumInt_exact (by omega) tb ts htb hts v' (h.range v' hv')]
    · rfl
    · simp only [h.exact (by omega) ho hs hv']
      exact hok ho hs

/-- Sum of the first `q` terms. -/
def isum {k : ℕ} (x : Fin k → ℤ) (q : ℕ) : ℤ := ∑ i, if i.val < q then x i else 0

theorem isum_succ {k : ℕ} (x : Fin k → ℤ) (q : Fin k) : isum x (q.val + 1) = x q + isum x q.val := by
  unfold isum
  have : ∀ i : Fin k, (if i.val < q.val + 1 then x i else 0) = (if i = q then x q else 0) + if i.val < q.val then x i else 0 := by
    intro i
    by_cases h : i = q
    · subst h; simp
    · have : i.val ≠ q.val := fun e => h (Fin.ext e)
      by_cases h1 : i.val < q.val
      · rw [if_pos h1, if_pos (by omega), if_neg h, zero_add]
      · rw [if_neg h1, if_neg (by omega), if_neg h, zero_add]
  rw [Finset.sum_congr rfl fun i _ => this i, Finset.sum_add_distrib]
  simp

theorem isum_all {k : ℕ} (x : Fin k → ℤ) : isum x k = ∑ i, x i := by
  unfold isum
  simp

theorem isum_zero {k : ℕ} (x : Fin k → ℤ) : isum x 0 = 0 := by
  unfold isum
  simp

theorem isum_abs {k : ℕ} (x : Fin k → ℤ) (q : ℕ) : |isum x q| ≤ ∑ i, |x i| := by
  refine (Finset.abs_sum_le_sum_abs _ _).trans (Finset.sum_le_sum fun i _ => ?_)
  split
  · exact le_refl _
  · rw [abs_zero]; exact abs_nonneg _

theorem term_abs {k : ℕ} (x : Fin k → ℤ) (q : Fin k) : |x q| ≤ ∑ i, |x i| :=
  Finset.single_le_sum (f := fun i => |x i|) (fun _ _ => abs_nonneg _) (Finset.mem_univ q)

section
variable {k r : ℕ} {o : Order} {L L' : Layout}

theorem rowInt_res [NeZero k] {p : Bool} (hs1 : 1 ≤ s.bits) (ht1 : 1 ≤ t.bits) (x : Fin k → ℤ) (hx : ∀ q, s.lo ≤ x q ∧ x q ≤ s.hi) (B : Mat cB ℤ k n o .row p2)
    (hB : ∀ q j, t.lo ≤ B.get q j ∧ B.get q j ≤ t.hi)
    (hok : ok → (common s t).signed = true → ∀ j, ∑ q, |x q * B.get q j| ≤ (common s t).hi) :
    VRes (common s t) (common s t) ok (Mat.rowInt (cA := cA) (cC := cC) s t p x B) (fun j => ∑ q, x q * B.get q j) := by
  set T := common s t with hT
  have hbits : 32 ≤ T.bits := bits_common s t
  have hk : 1 ≤ k := Nat.one_le_iff_ne_zero.2 (NeZero.ne k)
  have hterm : ok → T.signed = true → ∀ q (j : Fin n), T.lo ≤ x q * B.get q j ∧ x q * B.get q j ≤ T.hi := fun ho hs q j =>
    range_of_abs hs ((term_abs (fun q => x q * B.get q j) q).trans (hok ho hs j))
  have hps : ok → T.signed = true → ∀ q (j : Fin n), T.lo ≤ isum (fun q => x q * B.get q j) q ∧ isum (fun q => x q * B.get q j) q ≤ T.hi := fun ho hs q j =>
    range_of_abs hs ((isum_abs _ q).trans (hok ho hs j))
  have main := forUp_inv (n := k) (lo := 1) (body := fun run v => v.bind fun v => (Vec.maddInt (cC := cC) T t T
      (Vec.fill (conv T (x run)) : Vec cC ℤ n p) (B.stripes run) v).map (Vec.asPacked p))
    (s := (Vec.opInt (cC := cC) (· * ·) s t (Vec.fill (x 0) : Vec cA ℤ n p2) (B.stripes 0)).map (Vec.asPacked p))
    (fun q v => VRes T T ok v fun j => isum (fun q => x q * B.get q j) q) hk ?_ ?_
  · simp only [isum_all] at main
    exact main
  · have h := asPacked_res p (opInt_res (cA := cA) (cB := cB) (cC := cC) (p1 := p2) (p2 := p2) (ok := ok) (n := n) (f := (· * ·)) (Or.inr (Or.inr rfl)) hT.symm
      (VRes.of (v := (Vec.fill (x 0) : Vec cA ℤ n p2)) (x := fun _ => x 0) (Or.inl hT) hs1 (fun i => Vec.get_fill _ _) (fun _ => hx 0))
      (VRes.of (v := B.stripes 0) (x := fun j => B.get 0 j) (Or.inr hT) ht1 (fun i => rfl) (fun j => hB 0 j)) (fun ho hs j => hterm ho hs 0 j))
    have e : ∀ j, isum (fun q => x q * B.get q j) 1 = x 0 * B.get 0 j := by
      intro j
      have := isum_succ (fun q => x q * B.get q j) 0
      simpa [isum_zero] using this
    simp only [e]
    exact h
  · intro q v hq hv
    have hc : VRes T T ok (some (Vec.fill (conv T (x q)) : Vec cC ℤ n p)) fun _ => x q := by
      refine ⟨fun w hw i => ?_, fun w hw _ i => ?_, fun w hw i => ?_, fun _ => rfl, fun _ hs _ => common_holds hs1 hs (hx q)⟩
      all_goals rw [← Option.some.inj hw, Vec.get_fill]
      · exact conv_range (by omega) _
      · exact conv_range (by omega) _
      · exact conv_dvd T _
    have h := asPacked_res p (maddInt_res (cC := cC) (ok := ok) (T := T) (s := T) (t := t) (u := T) (by rw [hT, common_right, common_self]) hc
      (VRes.of (v := B.stripes q) (x := fun j => B.get q j) (Or.inr hT) ht1 (fun i => rfl) (fun j => hB q j)) hv (fun ho hs j => hterm ho hs q j)
      (fun ho hs j => by
        have := hps ho hs (q.val + 1) j
        rwa [isum_succ] at this))
    simp only [isum_succ]
    rw [Option.bind_some, Option.bind_some, Option.map_bind] at h
    exact h

theorem colInt_res [NeZero k] {p : Bool} (hs1 : 1 ≤ s.bits) (ht1 : 1 ≤ t.bits) (x : Fin k → ℤ) (hx : ∀ q, t.lo ≤ x q ∧ x q ≤ t.hi) (A : Mat cA ℤ r k o .col p1)
    (hA : ∀ i q, s.lo ≤ A.get i q ∧ A.get i q ≤ s.hi)
    (hok : ok → (common s t).signed = true → ∀ i, ∑ q, |A.get i q * x q| ≤ (common s t).hi) :
    VRes (common s t) (common s t) ok (Mat.colInt (cB := cB) (cC := cC) s t p A x) (fun i => ∑ q, A.get i q * x q) := by
  set T := common s t with hT
  have hbits : 32 ≤ T.bits := bits_common s t
  have hk : 1 ≤ k := Nat.one_le_iff_ne_zero.2 (NeZero.ne k)
  have hterm : ok → T.signed = true → ∀ q (j : Fin r), T.lo ≤ A.get j q * x q ∧ A.get j q * x q ≤ T.hi := fun ho hs q j =>
    range_of_abs hs ((term_abs (fun q => A.get j q * x q) q).trans (hok ho hs j))
  have hps : ok → T.signed = true → ∀ q (j : Fin r), T.lo ≤ isum (fun q => A.get j q * x q) q ∧ isum (fun q => A.get j q * x q) q ≤ T.hi := fun ho hs q j =>
    range_of_abs hs ((isum_abs _ q).trans (hok ho hs j))
  have main := forUp_inv (n := k) (lo := 1) (body := fun run v => v.bind fun v => (Vec.maddInt (cC := cC) s T T
      (A.stripes run) (Vec.fill (conv T (x run)) : Vec cC ℤ r p) v).map (Vec.asPacked p))
    (s := (Vec.opInt (cC := cC) (· * ·) s t (A.stripes 0) (Vec.fill (x 0) : Vec cB ℤ r p1)).map (Vec.asPacked p))
    (fun q v => VRes T T ok v fun j => isum (fun q => A.get j q * x q) q) hk ?_ ?_
  · simp only [isum_all] at main
    exact main
  · have h := asPacked_res p (opInt_res (cA := cA) (cB := cB) (cC := cC) (p1 := p1) (p2 := p1) (ok := ok) (n := r) (f := (· * ·)) (Or.inr (Or.inr rfl)) hT.symm
      (VRes.of (v := A.stripes 0) (x := fun j => A.get j 0) (Or.inl hT) hs1 (fun i => rfl) (fun j => hA j 0))
      (VRes.of (v := (Vec.fill (x 0) : Vec cB ℤ r p1)) (x := fun _ => x 0) (Or.inr hT) ht1 (fun i => Vec.get_fill _ _) (fun _ => hx 0))
      (fun ho hs j => hterm ho hs 0 j))
    have e : ∀ j, isum (fun q => A.get j q * x q) 1 = A.get j 0 * x 0 := by
      intro j
      have := isum_succ (fun q => A.get j q * x q) 0
      simpa [isum_zero] using this
    simp only [e]
    exact h
  · intro q v hq hv
    have hc : VRes T T ok (some (Vec.fill (conv T (x q)) : Vec cC ℤ r p)) fun _ => x q := by
      refine ⟨fun w hw i => ?_, fun w hw _ i => ?_, fun w hw i => ?_, fun _ => rfl, fun _ hs _ => ?_⟩
      · rw [← Option.some.inj hw, Vec.get_fill]; exact conv_range (by omega) _
      · rw [← Option.some.inj hw, Vec.get_fill]; exact conv_range (by omega) _
      · rw [← Option.some.inj hw, Vec.get_fill]; exact conv_dvd T _
      · rw [hT, common_comm] at hs ⊢; exact common_holds ht1 hs (hx q)
    have h := asPacked_res p (maddInt_res (cC := cC) (ok := ok) (T := T) (s := s) (t := T) (u := T) (by rw [hT, common_left, common_self])
      (VRes.of (v := A.stripes q) (x := fun j => A.get j q) (Or.inl hT) hs1 (fun i => rfl) (fun j => hA j q)) hc hv (fun ho hs j => hterm ho hs q j)
      (fun ho hs j => by
        have := hps ho hs (q.val + 1) j
        rwa [isum_succ] at this))
    simp only [isum_succ]
    rw [Option.bind_some, Option.bind_some, Option.map_bind] at h
    exact h

theorem dotInt_res (hs1 : 1 ≤ s.bits) (ht1 : 1 ≤ t.bits) (tb : RTree (batchSize k false)) (ts : RTree k) (htb : tb.Valid) (hts : ts.Valid) (a : Vec cA ℤ k p1)
    (b : Vec cB ℤ k p2) (ha : ∀ i, s.lo ≤ a.get i ∧ a.get i ≤ s.hi) (hb : ∀ i, t.lo ≤ b.get i ∧ b.get i ≤ t.hi)
    (hok : ok → (common s t).signed = true → ∑ q, |a.get q * b.get q| ≤ (common s t).hi) :
    Res (common s t) (common s t) ok (Vec.dotInt (cC := cC) s t tb ts a b) (∑ q, a.get q * b.get q) :=
  sumInt_res (bits_common s t) tb ts htb hts (opInt_res (cC := cC) (f := (· * ·)) (Or.inr (Or.inr rfl)) rfl (VRes.of (Or.inl rfl) hs1 (fun _ => rfl) ha)
    (VRes.of (Or.inr rfl) ht1 (fun _ => rfl) hb) fun ho hs i => range_of_abs hs ((term_abs (fun q => a.get q * b.get q) i).trans (hok ho hs))) hok

theorem Res.fst {v : Option ℤ} {z : ℤ} (h : Res T T ok v z) : (∀ w, v = some w → (T.lo ≤ w ∧ w ≤ T.hi) ∧ (2 : ℤ) ^ T.bits ∣ w - z) ∧ (ok → v.isSome = true) :=
  ⟨fun w hw => ⟨h.range w hw, h.dvd w hw⟩, h.total⟩

/-- All products. -/
theorem matMulInt_res [NeZero k] (hs1 : 1 ≤ s.bits) (ht1 : 1 ≤ t.bits) (tb : RTree (batchSize k false)) (ts : RTree k) (htb : tb.Valid) (hts : ts.Valid)
    (A : Mat cA ℤ r k o L p1) (B : Mat cB ℤ k n o L' p2) (hA : ∀ i q, s.lo ≤ A.get i q ∧ A.get i q ≤ s.hi) (hB : ∀ q j, t.lo ≤ B.get q j ∧ B.get q j ≤ t.hi)
    (hok : ok → (common s t).signed = true → ∀ i j, ∑ q, |A.get i q * B.get q j| ≤ (common s t).hi) :
    (∀ m, Mat.matMulInt (cC := cC) s t tb ts A B = some m → ∀ i j, ((common s t).lo ≤ m.get i j ∧ m.get i j ≤ (common s t).hi) ∧
      (2 : ℤ) ^ (common s t).bits ∣ m.get i j - ∑ q, A.get i q * B.get q j) ∧ (ok → (Mat.matMulInt (cC := cC) s t tb ts A B).isSome = true) := by
  cases L with
  | row =>
    cases L' with
    | row =>
      have h := fun i => rowInt_res (cA := cA) (cC := cC) (ok := ok) (p := p1 && p2) hs1 ht1 (fun q => A.get i q) (hA i) B hB fun ho hs j => hok ho hs i j
      refine ⟨fun m hm i j => ?_, fun ho => ?_⟩
      · obtain ⟨g, hg, rfl⟩ := Option.map_eq_some_iff.1 hm
        have hi := Vec.seqFin_eq_some.1 hg i
        exact ⟨(h i).range _ hi j, (h i).dvd _ hi j⟩
      · change (Option.map _ (Vec.seqFin _)).isSome = true
        rw [Option.isSome_map, Vec.seqFin_isSome]
        exact fun i => (h i).total ho
    | col =>
      have h := fun i j => dotInt_res (cC := cC) (ok := ok) hs1 ht1 tb ts htb hts (A.stripes i) (B.stripes j) (fun q => hA i q) (fun q => hB q j)
        fun ho hs => hok ho hs i j
      refine ⟨fun m hm i j => ?_, fun ho => ?_⟩
      · obtain ⟨g, hg, rfl⟩ := Option.map_eq_some_iff.1 hm
        have hi := Vec.seqFin_eq_some.1 (Vec.seqFin_eq_some.1 hg i) j
        change (_ ≤ (Vec.ofFn (g i) : Vec cC ℤ n (p1 && p2)).get j ∧ (Vec.ofFn (g i) : Vec cC ℤ n (p1 && p2)).get j ≤ _) ∧
          _ ∣ (Vec.ofFn (g i) : Vec cC ℤ n (p1 && p2)).get j - _
        rw [Vec.get_ofFn]
        exact ⟨(h i j).range _ hi, (h i j).dvd _ hi⟩
      · change (Option.map _ (Vec.seqFin _)).isSome = true
        rw [Option.isSome_map, Vec.seqFin_isSome]
        exact fun i => Vec.seqFin_isSome.2 fun j => (h i j).total ho
  | col =>
    have h := fun j => colInt_res (cB := cB) (cC := cC) (ok := ok) (p := p1 && p2) hs1 ht1 (fun q => B.get q j) (fun q => hB q j) A hA fun ho hs i => hok ho hs i j
    have e : Mat.matMulInt (cC := cC) s t tb ts A B = Mat.mulCInt s t A B := by cases L' <;> rfl
    rw [e]
    refine ⟨fun m hm i j => ?_, fun ho => ?_⟩
    · obtain ⟨g, hg, rfl⟩ := Option.map_eq_some_iff.1 hm
      have hj := Vec.seqFin_eq_some.1 hg j
      exact ⟨(h j).range _ hj i, (h j).dvd _ hj i⟩
    · unfold Mat.mulCInt
      rw [Option.isSome_map, Vec.seqFin_isSome]
      exact fun j => (h j).total ho

theorem vecMulInt_res [NeZero k] (cC : Cfg) (hs1 : 1 ≤ s.bits) (ht1 : 1 ≤ t.bits) (tb : RTree (batchSize k false)) (ts : RTree k) (htb : tb.Valid) (hts : ts.Valid)
    (a : Vec cA ℤ k p1) (B : Mat cB ℤ k n .follow L p2) (ha : ∀ q, s.lo ≤ a.get q ∧ a.get q ≤ s.hi) (hB : ∀ q j, t.lo ≤ B.get q j ∧ B.get q j ≤ t.hi)
    (hok : ok → (common s t).signed = true → ∀ j, ∑ q, |a.get q * B.get q j| ≤ (common s t).hi) :
    (∀ v, Mat.vecMulInt cC s t tb ts a B = some v → ∀ j, ((common s t).lo ≤ v j ∧ v j ≤ (common s t).hi) ∧
      (2 : ℤ) ^ (common s t).bits ∣ v j - ∑ q, a.get q * B.get q j) ∧ (ok → (Mat.vecMulInt cC s t tb ts a B).isSome = true) := by
  cases L with
  | row =>
    have h := rowInt_res (cA := cA) (cC := cC) (ok := ok) (p := p2 && p2) hs1 ht1 a.get ha B hB hok
    refine ⟨fun v hv j => ?_, fun ho => ?_⟩
    · obtain ⟨g, hg, rfl⟩ := Option.map_eq_some_iff.1 hv
      exact ⟨h.range _ hg j, h.dvd _ hg j⟩
    · change (Option.map _ _).isSome = true
      rw [Option.isSome_map]
      exact h.total ho
  | col =>
    have h := fun j => dotInt_res (cC := cC) (ok := ok) hs1 ht1 tb ts htb hts a (B.stripes j) ha (fun q => hB q j) fun ho hs => hok ho hs j
    refine ⟨fun v hv j => ?_, fun ho => ?_⟩
    · have hj := Vec.seqFin_eq_some.1 hv j
      exact ⟨(h j).range _ hj, (h j).dvd _ hj⟩
    · exact Vec.seqFin_isSome.2 fun j => (h j).total ho

end
end
end Mathter
