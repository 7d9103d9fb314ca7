import Verif.Lemmas.MachineMatrix

/-!
# C126, continued: `MultiplyAdd` of integer vectors
-/

namespace Mathter.Props
open Mathter IntTy
variable {cA cB cC cD : Cfg} {dim : ℕ} {p1 p2 p3 : Bool}

private def Holds (s r : IntTy) : Prop := s.bits < r.bits ∨ s.bits = r.bits ∧ s.signed = true

private theorem usual_holds {s t : IntTy} (h : (usual s t).signed = true) : Holds s (usual s t) ∧ Holds t (usual s t) := by
  unfold usual at *
  unfold Holds
  split_ifs at * with h1 h2
  · exact ⟨Or.inr ⟨rfl, h⟩, Or.inl h1⟩
  · exact ⟨Or.inl h2, Or.inr ⟨rfl, h⟩⟩
  · simp only [Bool.and_eq_true] at h
    exact ⟨Or.inr ⟨rfl, h.1⟩, Or.inr ⟨by dsimp only; omega, h.2⟩⟩

private theorem usual_bits (s t : IntTy) : s.bits ≤ (usual s t).bits ∧ t.bits ≤ (usual s t).bits := by
  unfold usual
  split_ifs <;> constructor <;> (try dsimp only) <;> omega

private theorem holds_range {s r : IntTy} (h : Holds s r) (h1 : 1 ≤ s.bits) (hr : r.signed = true) {x : ℤ} (hx : s.lo ≤ x ∧ x ≤ s.hi) : r.lo ≤ x ∧ x ≤ r.hi := by
  have mono : ∀ a b : ℕ, a ≤ b → (2 : ℤ) ^ a ≤ 2 ^ b := fun a b hab => pow_le_pow_right₀ (by norm_num) hab
  unfold IntTy.lo IntTy.hi at *
  simp only [hr, if_true] at *
  rcases h with h | ⟨h, hs⟩
  · have := mono s.bits (r.bits - 1) (by omega)
    have := mono (s.bits - 1) (r.bits - 1) (by omega)
    split_ifs at hx <;> constructor <;> linarith [hx.1, hx.2, pow_pos (show (0 : ℤ) < 2 by norm_num) (r.bits - 1)]
  · simp only [hs, if_true, h] at hx
    exact hx

private theorem promote_holds (s : IntTy) : Holds s (promote s) ∨ promote s = s := by
  unfold promote
  split_ifs with h
  · exact Or.inl (Or.inl h)
  · exact Or.inr rfl

private theorem common3_holds {s t u : IntTy} (hr : (common (common s t) u).signed = true) :
    Holds (promote s) (common (common s t) u) ∧ Holds (promote t) (common (common s t) u) ∧ Holds (promote u) (common (common s t) u) := by
  have e : promote (common s t) = common s t := promote_common s t
  have h := usual_holds hr
  change Holds (promote (common s t)) (common (common s t) u) ∧ Holds (promote u) (common (common s t) u) at h
  rw [e] at h
  obtain ⟨h1, h2⟩ := h
  have hb : (promote s).bits ≤ (common s t).bits ∧ (promote t).bits ≤ (common s t).bits := usual_bits _ _
  rcases h1 with h1 | ⟨h1, h3⟩
  · exact ⟨Or.inl (by omega), Or.inl (by omega), h2⟩
  · have h4 : Holds (promote s) (common s t) ∧ Holds (promote t) (common s t) := usual_holds h3
    refine ⟨?_, ?_, h2⟩
    · rcases h4.1 with h | ⟨h, h'⟩
      · exact Or.inl (by omega)
      · exact Or.inr ⟨by omega, h'⟩
    · rcases h4.2 with h | ⟨h, h'⟩
      · exact Or.inl (by omega)
      · exact Or.inr ⟨by omega, h'⟩

private theorem into {s r : IntTy} (h1 : 1 ≤ s.bits) (hr : r.signed = true) (h : Holds (promote s) r) {x : ℤ} (hx : InRange s x) : r.lo ≤ x ∧ x ≤ r.hi := by
  have := Vec.common_range h1 ((inRange_iff _ _).1 hx)
  rw [show common s s = promote s from usual_self _] at this
  refine holds_range h ?_ hr this
  unfold promote
  split_ifs
  · decide
  · exact h1

/-- C126: `MultiplyAdd(a, b, c)` of integer vectors of any types is defined if the vectors and the result are batched and of one type; else exactly if the result type is
unsigned or all products and sums fit in it. If it is defined, each element is the value of the result type that is congruent to `a*b + c`, so it is exact if `a*b + c` fits. -/
theorem C126_multiply_add (s t u : IntTy) (hs : 1 ≤ s.bits) (ht : 1 ≤ t.bits) (hu : 1 ≤ u.bits) (a : Vec cA ℤ dim p1) (b : Vec cB ℤ dim p2) (d : Vec cD ℤ dim p3)
    (ha : ∀ i, InRange s (a.get i)) (hb : ∀ i, InRange t (b.get i)) (hd : ∀ i, InRange u (d.get i)) :
    ((Vec.maddInt (cC := cC) s t u a b d).isSome = true ↔
      (isBatched cA dim p1 = true ∧ isBatched cB dim p2 = true ∧ isBatched cD dim p3 = true ∧ isBatched cC dim (p1 && p2 && p3) = true ∧
        s = common (common s t) u ∧ t = common (common s t) u ∧ u = common (common s t) u) ∨
      ((common (common s t) u).signed = true →
        ∀ i, InRange (common (common s t) u) (a.get i * b.get i) ∧ InRange (common (common s t) u) (a.get i * b.get i + d.get i))) ∧
    ∀ w : Vec cC ℤ dim (p1 && p2 && p3), Vec.maddInt s t u a b d = some w → ∀ i,
      InRange (common (common s t) u) (w.get i) ∧ (2 : ℤ) ^ (common (common s t) u).bits ∣ w.get i - (a.get i * b.get i + d.get i) ∧
      (InRange (common (common s t) u) (a.get i * b.get i + d.get i) → w.get i = a.get i * b.get i + d.get i) := by
  have hbits := bits_common (common s t) u
  constructor
  · unfold Vec.maddInt
    simp only
    split
    · rename_i h
      exact ⟨fun _ => Or.inl h, fun _ => rfl⟩
    · rename_i h
      rw [or_iff_right h, Option.isSome_map, Vec.seqFin_isSome]
      cases hsg : (common (common s t) u).signed
      · simp only [Bool.false_eq_true, false_imp_iff, iff_true]
        intro i
        unfold IntTy.scalarMadd
        simp only
        rw [result_unsigned hsg, Option.bind_some, result_unsigned hsg]
        rfl
      · simp only [true_imp_iff]
        obtain ⟨h1, h2, h3⟩ := common3_holds hsg
        refine forall_congr' fun i => ?_
        unfold IntTy.scalarMadd
        simp only
        rw [conv_self (by omega) (into hs hsg h1 (ha i)), conv_self (by omega) (into ht hsg h2 (hb i)), conv_self (by omega) (into hu hsg h3 (hd i)),
          inRange_iff, inRange_iff]
        generalize common (common s t) u = r at *
        unfold IntTy.result
        simp only [hsg, if_true]
        by_cases q : r.lo ≤ a.get i * b.get i ∧ a.get i * b.get i ≤ r.hi
        · rw [if_pos q, Option.bind_some]
          by_cases q' : r.lo ≤ a.get i * b.get i + d.get i ∧ a.get i * b.get i + d.get i ≤ r.hi
          · rw [if_pos q']; simp [q, q']
          · rw [if_neg q']; simp only [Option.isSome_none, Bool.false_eq_true, false_iff]; exact fun h => q' h.2
        · rw [if_neg q]; simp only [Option.bind_none, Option.isSome_none, Bool.false_eq_true, false_iff]; exact fun h => q h.1
  · intro w hw i
    have key : (common (common s t) u).lo ≤ w.get i ∧ w.get i ≤ (common (common s t) u).hi ∧
        (2 : ℤ) ^ (common (common s t) u).bits ∣ w.get i - (a.get i * b.get i + d.get i) := by
      unfold Vec.maddInt at hw
      obtain ⟨T, hT⟩ : ∃ T, common (common s t) u = T := ⟨_, rfl⟩
      simp only [hT] at hw hbits ⊢
      split at hw
      · rename_i h
        rw [← Option.some.inj hw, Vec.get_store, Vec.load_get, Vec.load_get, Vec.load_get]
        have := conv_range (t := T) (by omega) (a.get i * b.get i + d.get i)
        exact ⟨this.1, this.2, conv_dvd T _⟩
      · obtain ⟨g, hg, rfl⟩ := Option.map_eq_some_iff.1 hw
        have hi := Vec.seqFin_eq_some.1 hg i
        rw [Vec.get_ofFn]
        unfold IntTy.scalarMadd at hi
        simp only [hT] at hi
        obtain ⟨q, hq, hi⟩ := Option.bind_eq_some_iff.1 hi
        obtain ⟨h5, h6⟩ := result_range (by omega) hi
        obtain ⟨_, h7⟩ := result_range (by omega) hq
        have m := op_dvd (f := (· * ·)) (Or.inr (Or.inr rfl)) (conv_dvd T (a.get i)) (conv_dvd T (b.get i))
        have m2 := op_dvd (f := (· + ·)) (Or.inl rfl) (dvd_tr h7 m) (conv_dvd T (d.get i))
        exact ⟨h5.1, h5.2, dvd_tr h6 m2⟩
    refine ⟨(inRange_iff _ _).2 ⟨key.1, key.2.1⟩, key.2.2, fun hr => ?_⟩
    exact eq_of_dvd (by omega) ⟨key.1, key.2.1⟩ ((inRange_iff _ _).1 hr) key.2.2

/-- Three `int` vectors with 2^31 - 1 + 1: defined and wrapping with SIMD, undefined without. -/
example : (Vec.maddInt (cC := Cfg.sse) i32 i32 i32 (Vec.fill 1 : Vec Cfg.sse ℤ 4 false) (Vec.fill 1 : Vec Cfg.sse ℤ 4 false)
      (Vec.fill (2 ^ 31 - 1) : Vec Cfg.sse ℤ 4 false)).isSome = true ∧
    (Vec.maddInt (cC := Cfg.scalar) i32 i32 i32 (Vec.fill 1 : Vec Cfg.scalar ℤ 4 false) (Vec.fill 1 : Vec Cfg.scalar ℤ 4 false)
      (Vec.fill (2 ^ 31 - 1) : Vec Cfg.scalar ℤ 4 false)).isSome = false ∧ InRange i32 (2 ^ 31 - 1) ∧ InRange i32 1 := by
  refine ⟨by decide +kernel, by decide +kernel, ?_, ?_⟩ <;> rw [inRange_iff] <;> decide

end Mathter.Props
