import Verif.Lemmas.MachineMatrix
import Verif.Spec.Bordered
import Mathlib.Tactic.Positivity

/-! # Lemmas about the Bareiss algorithm on machine integers -/

namespace Mathter
open IntTy

theorem bareissEntryInt_eq {t : IntTy} (hb : 1 ≤ t.bits) {aij akk aik akj minor q : ℤ} (h1 : t.lo ≤ aij ∧ aij ≤ t.hi) (h2 : t.lo ≤ akk ∧ akk ≤ t.hi)
    (h3 : t.lo ≤ aik ∧ aik ≤ t.hi) (h4 : t.lo ≤ akj ∧ akj ≤ t.hi) (hm : t.lo ≤ minor ∧ minor ≤ t.hi) (h0 : minor ≠ 0) (hq : t.lo ≤ q ∧ q ≤ t.hi)
    (hx : |aij * akk| ≤ (common t t).hi) (hy : |aik * akj| ≤ (common t t).hi) (hz : aij * akk - aik * akj = q * minor)
    (hr : (common t t).lo ≤ q * minor ∧ q * minor ≤ (common t t).hi) : bareissEntryInt t aij akk aik akj minor = some q := by
  set u := common t t with hu
  have hbits : 32 ≤ u.bits := bits_common t t
  have x1 := scalarOp_res (ok := True) (f := (· * ·)) (Or.inr (Or.inr rfl)) hu.symm (Res.of (Or.inl hu) hb h1) (Res.of (Or.inl hu) hb h2) fun _ hs => range_of_abs hs hx
  have x2 := scalarOp_res (ok := True) (f := (· * ·)) (Or.inr (Or.inr rfl)) hu.symm (Res.of (Or.inl hu) hb h3) (Res.of (Or.inl hu) hb h4) fun _ hs => range_of_abs hs hy
  have x3 := scalarOp_res (f := (· - ·)) (Or.inr (Or.inl rfl)) (common_self t t) x1 x2 fun _ _ => by
    have := hr
    rw [← hz] at this
    exact this
  simp only [Option.bind_some] at x1 x2 x3
  obtain ⟨x, hx'⟩ := Option.isSome_iff_exists.1 (x1.total trivial)
  obtain ⟨y, hy'⟩ := Option.isSome_iff_exists.1 (x2.total trivial)
  obtain ⟨z, hz'⟩ := Option.isSome_iff_exists.1 (x3.total trivial)
  have ez : z = q * minor := by
    have h := x3.dvd z hz'
    rw [hz] at h
    exact eq_of_dvd (t := u) (by omega) (x3.range z hz') hr h
  rw [hx', hy', Option.bind_some, Option.bind_some] at hz'
  unfold bareissEntryInt
  simp only
  rw [hx', Option.bind_some, hy', Option.bind_some, hz', Option.bind_some, ez]
  have hd : Int.tdiv (q * minor) minor = q := Int.mul_tdiv_cancel _ h0
  have hcu : common u t = u := common_right t t
  rw [Vec.scalarDiv_exact (by rw [hcu]; exact hr) (by rw [hcu]; exact Vec.common_range hb hm) h0 (by rw [hcu, hd]; exact Vec.common_range hb hq), Option.map_some, hd,
    conv_self hb hq]

theorem bareissElimInt_eq {n : ℕ} (t : IntTy) (k : Fin n) (minor : ℤ) (a q : Fin n → Fin n → ℤ)
    (h : ∀ r c, k < r → k < c → bareissEntryInt t (a r c) (a k k) (a r k) (a k c) minor = some (q r c)) :
    bareissElimInt t k minor a = some fun r c => if k < r ∧ k < c then q r c else a r c := by
  have inner : ∀ (i : Fin n) (_ : k < i) (x : Fin n → Fin n → ℤ), (∀ c, k < c → bareissEntryInt t (x i c) (x k k) (x i k) (x k c) minor = some (q i c)) →
      forUp n (k.val + 1) (fun j a => a.bind fun a => (bareissEntryInt t (a i j) (a k k) (a i k) (a k j) minor).map fun x => fun r c =>
        if r = i ∧ c = j then x else a r c) (some x) = some fun r c => if r = i ∧ k < c then q i c else x r c := by
    intro i hi x hx
    have hki : k ≠ i := ne_of_lt hi
    have main := forUp_inv (n := n) (lo := k.val + 1)
      (body := fun j a => a.bind fun a => (bareissEntryInt t (a i j) (a k k) (a i k) (a k j) minor).map fun x => fun r c => if r = i ∧ c = j then x else a r c)
      (s := some x) (fun l y => y = some fun r c => if r = i ∧ k < c ∧ c.val < l then q i c else x r c) k.isLt
      (by
        congr 1
        funext r c
        rw [if_neg]
        rintro ⟨_, h1, h2⟩
        simp only [Fin.lt_def] at h1
        omega)
      (by
        rintro j y hj rfl
        have hkj : k < j := hj
        simp only [Option.bind_some]
        rw [if_neg (by rintro ⟨_, _, h⟩; omega), if_neg (by rintro ⟨h, _⟩; exact hki h), if_neg (by rintro ⟨_, h, _⟩; exact lt_irrefl _ h),
          if_neg (by rintro ⟨h, _⟩; exact hki h), hx j hkj, Option.map_some]
        congr 1
        funext r c
        by_cases hr : r = i
        · by_cases hc : c = j
          · subst hc
            rw [if_pos ⟨hr, rfl⟩, if_pos ⟨hr, hkj, by omega⟩]
          · have : c.val ≠ j.val := fun e => hc (Fin.ext e)
            rw [if_neg (by rintro ⟨_, h⟩; exact hc h)]
            congr 1
            apply propext
            constructor
            · rintro ⟨h1, h2, h3⟩; exact ⟨h1, h2, by omega⟩
            · rintro ⟨h1, h2, h3⟩; exact ⟨h1, h2, by omega⟩
        · rw [if_neg (by rintro ⟨h, _⟩; exact hr h), if_neg (by rintro ⟨h, _⟩; exact hr h), if_neg (by rintro ⟨h, _⟩; exact hr h)])
    rw [main]
    congr 1
    funext r c
    congr 1
    apply propext
    constructor
    · rintro ⟨h1, h2, h3⟩; exact ⟨h1, h2⟩
    · rintro ⟨h1, h2⟩; exact ⟨h1, h2, c.isLt⟩
  have main := forUp_inv (n := n) (lo := k.val + 1) (body := fun i a => forUp n (k.val + 1) (fun j a => a.bind fun a =>
      (bareissEntryInt t (a i j) (a k k) (a i k) (a k j) minor).map fun x => fun r c => if r = i ∧ c = j then x else a r c) a) (s := some a)
    (fun l y => y = some fun r c => if (k < r ∧ r.val < l) ∧ k < c then q r c else a r c) k.isLt
    (by
      congr 1
      funext r c
      rw [if_neg]
      rintro ⟨⟨h1, h2⟩, _⟩
      simp only [Fin.lt_def] at h1
      omega)
    (by
      rintro i y hi rfl
      have hki : k < i := hi
      rw [inner i hki]
      · congr 1
        funext r c
        by_cases hr : r = i
        · subst hr
          by_cases hc : k < c
          · rw [if_pos ⟨rfl, hc⟩, if_pos ⟨⟨hki, by omega⟩, hc⟩]
          · rw [if_neg (by rintro ⟨_, h⟩; exact hc h), if_neg (by rintro ⟨_, h⟩; exact hc h), if_neg (by rintro ⟨_, h⟩; exact hc h)]
        · have : r.val ≠ i.val := fun e => hr (Fin.ext e)
          rw [if_neg (by rintro ⟨h, _⟩; exact hr h)]
          congr 1
          apply propext
          constructor
          · rintro ⟨⟨h1, h2⟩, h3⟩; exact ⟨⟨h1, by omega⟩, h3⟩
          · rintro ⟨⟨h1, h2⟩, h3⟩; exact ⟨⟨h1, by omega⟩, h3⟩
      · intro c hc
        rw [if_neg (by rintro ⟨⟨_, h⟩, _⟩; omega), if_neg (by rintro ⟨⟨h, _⟩, _⟩; exact lt_irrefl _ h), if_neg (by rintro ⟨⟨_, h⟩, _⟩; omega),
          if_neg (by rintro ⟨⟨h, _⟩, _⟩; exact lt_irrefl _ h)]
        exact h i c hki hc)
  unfold bareissElimInt
  rw [main]
  congr 1
  funext r c
  congr 1
  apply propext
  constructor
  · rintro ⟨⟨h1, _⟩, h2⟩; exact ⟨h1, h2⟩
  · rintro ⟨h1, h2⟩; exact ⟨⟨h1, r.isLt⟩, h2⟩

/-- The matrix before iteration `k` consists of bordered minors. -/
theorem bareissInv_bordered {n : ℕ} {A X : Fin n → Fin n → ℤ} {k : ℕ} {d : ℤ} (h : BareissInv A X k d) (r c : Fin n) (hr : k ≤ r.val) (hc : k ≤ c.val) :
    X r c = bordered (Matrix.of A) k r c := by
  have hkn : k ≤ n := by omega
  have := bareissInv_entry h (fun t => if h : t < k ∧ t < n then ⟨t, h.2⟩ else r) (fun t => if h : t < k ∧ t < n then ⟨t, h.2⟩ else c)
    (by intro t ht; rw [dif_pos ⟨ht, by omega⟩]) (by intro t ht; rw [dif_pos ⟨ht, by omega⟩])
    (by intro t ht; rw [dif_neg (by rintro ⟨h, _⟩; omega)]; exact hr) (by intro t ht; rw [dif_neg (by rintro ⟨h, _⟩; omega)]; exact hc)
  rw [dif_neg (by rintro ⟨h, _⟩; omega), dif_neg (by rintro ⟨h, _⟩; omega)] at this
  rw [this]
  rfl

/-- The numerators of iteration `k`. -/
theorem bareissInv_num {n : ℕ} {A X : Fin n → Fin n → ℤ} {k : Fin n} {d : ℤ} (h : BareissInv A X k.val d) (r c : Fin n) (hr : k < r) (hc : k < c) :
    X r c * X k k - X r k * X k c = bordered (Matrix.of A) (k.val + 1) r c * d := by
  have := h 1 (fun t => if h : t < k.val + 1 ∧ t < n then ⟨t, h.2⟩ else r) (fun t => if h : t < k.val + 1 ∧ t < n then ⟨t, h.2⟩ else c)
    (by intro t ht; rw [dif_pos ⟨by omega, by omega⟩]) (by intro t ht; rw [dif_pos ⟨by omega, by omega⟩])
    (by
      intro t ht
      simp only [Fin.lt_def] at hr
      split
      · exact ht
      · omega)
    (by
      intro t ht
      simp only [Fin.lt_def] at hc
      split
      · exact ht
      · omega)
  have e : detN (fun a b => A (if h : a < k.val + 1 ∧ a < n then ⟨a, h.2⟩ else r) (if h : b < k.val + 1 ∧ b < n then ⟨b, h.2⟩ else c)) (k.val + 1 + 1) =
      bordered (Matrix.of A) (k.val + 1) r c := rfl
  rw [e, pow_one] at this
  rw [← this]
  unfold detN
  rw [Matrix.det_fin_two]
  have e1 : (if h : k.val < k.val + 1 ∧ k.val < n then (⟨k.val, h.2⟩ : Fin n) else r) = k := by rw [dif_pos ⟨by omega, k.isLt⟩]
  have e2 : (if h : k.val < k.val + 1 ∧ k.val < n then (⟨k.val, h.2⟩ : Fin n) else c) = k := by rw [dif_pos ⟨by omega, k.isLt⟩]
  have e3 : (if h : k.val + 1 < k.val + 1 ∧ k.val + 1 < n then (⟨k.val + 1, h.2⟩ : Fin n) else r) = r := by rw [dif_neg (by rintro ⟨h, _⟩; omega)]
  have e4 : (if h : k.val + 1 < k.val + 1 ∧ k.val + 1 < n then (⟨k.val + 1, h.2⟩ : Fin n) else c) = c := by rw [dif_neg (by rintro ⟨h, _⟩; omega)]
  simp only [Matrix.of_apply, Fin.val_zero, Fin.val_one, Nat.add_zero, e1, e2, e3, e4]
  ring

end Mathter
