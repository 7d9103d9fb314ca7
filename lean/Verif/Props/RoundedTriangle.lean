import Verif.Lemmas.RoundedTriangle
import Verif.Props.RoundedGeometry
import Verif.Props.Fma

/-!
# Property C129: rounding errors of the intersection of a ray and a triangle
-/

namespace Mathter.Props
open Mathter

variable {fl : ℝ → ℝ} {u : ℝ}

/-- What rounding leaves of the equation `x * det = num`. -/
private theorem residual (h : Rounding fl u) {a det num P Q x : ℝ} {k l m : ℕ} (hk : k ≤ m) (hl : l ≤ m) (ha : Near u k a det P)
    (hN : Near u l (x * a) num Q) : |num - x * det| ≤ ((1 + u) ^ m - 1) * (Q + |x| * P) := by
  have k1 := (ha.mono h hk).err
  have k2 := (hN.mono h hl).err
  have k3 := mul_le_mul_of_nonneg_left k1 (abs_nonneg x)
  rw [← abs_mul] at k3
  have k4 := abs_add_le (num - x * a) (x * (a - det))
  rw [abs_sub_comm] at k2
  rw [show num - x * a + x * (a - det) = num - x * det by ring] at k4
  linarith

/-- C129: a reported intersection is near the point of the ray at a parameter of at least epsilon, and that point is near the point of the triangle with
some barycentric coordinates; the distance to the latter is bounded by rounding errors of the size of the terms of the determinants of Cramer's rule. -/
theorem C129_sound (h : Rounding fl u) {madd : ℝ → ℝ → ℝ → ℝ} (hma : Fl.IsMulAdd fl madd) {dot : (Fin 3 → ℝ) → (Fin 3 → ℝ) → ℝ} (hd : Fl.IsDot u 3 dot)
    {cross : (Fin 3 → ℝ) → (Fin 3 → ℝ) → Fin 3 → ℝ} (hc : Fl.IsCross fl u cross) {epsilon : ℝ} (he : 0 < epsilon) (ray : GLine 3) (tr : GTriangle 3)
    (hdir : ∀ i, fl (ray.direction i) = ray.direction i) (x : Fin 3 → ℝ)
    (hx : Fl.intersectRayTriangle fl madd dot cross epsilon ray tr = some x) :
    ∃ a b t : ℝ, 0 ≤ a ∧ a ≤ 1 ∧ 0 ≤ b ∧ (1 - u) * (a + b) ≤ 1 ∧ epsilon ≤ t ∧
      (∀ i, |x i - (ray.base i + t * ray.direction i)| ≤ ((1 + u) ^ 2 - 1) * (|ray.base i| + |t| * |ray.direction i|)) ∧
      ∀ i, |det3v (tr.b - tr.a) ray.direction (tr.c - tr.a)| * |ray.pointAt t i - (tr.a i + a * (tr.b i - tr.a i) + b * (tr.c i - tr.a i))| ≤
        ((1 + u) ^ 12 - 1) *
          ((absDet3 (ray.base - tr.a) ray.direction (tr.c - tr.a) + a * absDet3 (tr.b - tr.a) ray.direction (tr.c - tr.a)) * |tr.b i - tr.a i| +
           (absDet3 ray.direction (ray.base - tr.a) (tr.b - tr.a) + b * absDet3 (tr.b - tr.a) ray.direction (tr.c - tr.a)) * |tr.c i - tr.a i| +
           (absDet3 (tr.c - tr.a) (ray.base - tr.a) (tr.b - tr.a) + t * absDet3 (tr.b - tr.a) ray.direction (tr.c - tr.a)) * |ray.direction i|) := by
  unfold Fl.intersectRayTriangle at hx
  dsimp only at hx
  set e1 : Fin 3 → ℝ := fun i => fl (tr.b i - tr.a i) with he1
  set e2 : Fin 3 → ℝ := fun i => fl (tr.c i - tr.a i) with he2
  set s : Fin 3 → ℝ := fun i => fl (ray.base i - tr.a i) with hs
  set av := dot e1 (cross ray.direction e2) with hav
  have n1 : ∀ i, Near u 1 (e1 i) ((tr.b - tr.a) i) |(tr.b - tr.a) i| := fun i => (Near.exact (u := u) _).round h
  have n2 : ∀ i, Near u 1 (e2 i) ((tr.c - tr.a) i) |(tr.c - tr.a) i| := fun i => (Near.exact (u := u) _).round h
  have n3 : ∀ i, Near u 1 (s i) ((ray.base - tr.a) i) |(ray.base - tr.a) i| := fun i => (Near.exact (u := u) _).round h
  have n0 : ∀ i, Near u 0 (ray.direction i) (ray.direction i) |ray.direction i| := fun i => Near.exact _
  have f1 : ∀ i, fl (e1 i) = e1 i := fun i => h.idem _
  have f2 : ∀ i, fl (e2 i) = e2 i := fun i => h.idem _
  have f3 : ∀ i, fl (s i) = s i := fun i => h.idem _
  split at hx
  · simp at hx
  rename_i ha
  have ha0 : av ≠ 0 := fun e => ha (by rw [e, abs_zero]; exact he)
  have tA := near_triple h hd hc n1 n0 n2 hdir f2
  have tU := near_recip h ha0 (near_triple h hd hc n3 n0 n2 hdir f2)
  have tV := near_recip h ha0 (near_triple h hd hc n0 n3 n1 f3 f1)
  have tT := near_recip h ha0 (near_triple h hd hc n2 n3 n1 f3 f1)
  rw [← hav] at tA
  set uc := fl (fl (1 / av) * dot s (cross ray.direction e2)) with huc
  set vc := fl (fl (1 / av) * dot ray.direction (cross s e1)) with hvc
  set tc := fl (fl (1 / av) * dot e2 (cross s e1)) with htc
  split at hx
  · simp at hx
  rename_i hu
  split at hx
  · simp at hx
  rename_i hv
  split at hx
  · simp at hx
  rename_i ht
  rw [Option.some_inj] at hx
  push Not at hu hv ht
  refine ⟨uc, vc, tc, hu.1, hu.2, hv.1, ?_, ht, fun i => ?_, fun i => ?_⟩
  · have k1 := h.err (uc + vc)
    rw [abs_of_nonneg (add_nonneg hu.1 hv.1)] at k1
    have k2 := neg_abs_le (fl (uc + vc) - (uc + vc))
    linarith [hv.2]
  · rw [← hx]; exact C116_point_at h hma ray tc i
  · have rU := residual h (m := 12) (by norm_num) (by norm_num) tA tU
    have rV := residual h (m := 12) (by norm_num) (by norm_num) tA tV
    have rT := residual h (m := 12) (by norm_num) (by norm_num) tA tT
    rw [abs_of_nonneg hu.1] at rU
    rw [abs_of_nonneg hv.1] at rV
    rw [abs_of_nonneg (he.le.trans ht)] at rT
    have e : det3v (tr.b - tr.a) ray.direction (tr.c - tr.a) * (ray.pointAt tc i - (tr.a i + uc * (tr.b i - tr.a i) + vc * (tr.c i - tr.a i))) =
        (det3v (ray.base - tr.a) ray.direction (tr.c - tr.a) - uc * det3v (tr.b - tr.a) ray.direction (tr.c - tr.a)) * (tr.b i - tr.a i) +
        (det3v ray.direction (ray.base - tr.a) (tr.b - tr.a) - vc * det3v (tr.b - tr.a) ray.direction (tr.c - tr.a)) * (tr.c i - tr.a i) -
        (det3v (tr.c - tr.a) (ray.base - tr.a) (tr.b - tr.a) - tc * det3v (tr.b - tr.a) ray.direction (tr.c - tr.a)) * ray.direction i := by
      simp only [det3v, Matrix.det_fin_three, GLine.pointAt]
      clear_value uc vc tc
      fin_cases i <;> simp <;> ring
    rw [← abs_mul, e]
    have k1 := mul_le_mul_of_nonneg_right rU (abs_nonneg (tr.b i - tr.a i))
    have k2 := mul_le_mul_of_nonneg_right rV (abs_nonneg (tr.c i - tr.a i))
    have k3 := mul_le_mul_of_nonneg_right rT (abs_nonneg (ray.direction i))
    rw [← abs_mul] at k1 k2 k3
    rw [sub_eq_add_neg]
    refine (abs_add_three _ _ _).trans ?_
    rw [abs_neg]
    linarith

/-- C129: a hit that lies inside the triangle by a margin, at a distance that exceeds epsilon by a margin, is reported, and the parameter is accurate; `d` is
the bound of the rounding errors relative to the determinant of the edges and the direction. -/
theorem C129_complete (h : Rounding fl u) {madd : ℝ → ℝ → ℝ → ℝ} (hma : Fl.IsMulAdd fl madd) {dot : (Fin 3 → ℝ) → (Fin 3 → ℝ) → ℝ} (hd : Fl.IsDot u 3 dot)
    {cross : (Fin 3 → ℝ) → (Fin 3 → ℝ) → Fin 3 → ℝ} (hc : Fl.IsCross fl u cross) {epsilon : ℝ} (he : 0 < epsilon) (ray : GLine 3) (tr : GTriangle 3)
    (hdir : ∀ i, fl (ray.direction i) = ray.direction i) {a b t d : ℝ} (hit : IsHit ray tr t a b) (hd2 : d ≤ 1 / 2)
    (hA : ((1 + u) ^ 12 - 1) * absDet3 (tr.b - tr.a) ray.direction (tr.c - tr.a) ≤ d * |det3v (tr.b - tr.a) ray.direction (tr.c - tr.a)|)
    (hU : ((1 + u) ^ 12 - 1) * absDet3 (ray.base - tr.a) ray.direction (tr.c - tr.a) ≤ d * |det3v (tr.b - tr.a) ray.direction (tr.c - tr.a)|)
    (hV : ((1 + u) ^ 12 - 1) * absDet3 ray.direction (ray.base - tr.a) (tr.b - tr.a) ≤ d * |det3v (tr.b - tr.a) ray.direction (tr.c - tr.a)|)
    (hT : ((1 + u) ^ 12 - 1) * absDet3 (tr.c - tr.a) (ray.base - tr.a) (tr.b - tr.a) ≤ d * t * |det3v (tr.b - tr.a) ray.direction (tr.c - tr.a)|)
    (hdet : epsilon ≤ (1 - d) * |det3v (tr.b - tr.a) ray.direction (tr.c - tr.a)|) (ha : 4 * d ≤ a) (hb : 4 * d ≤ b) (hab : a + b ≤ 1 - 8 * d - u)
    (ht : epsilon ≤ (1 - 4 * d) * t) :
    ∃ x t', Fl.intersectRayTriangle fl madd dot cross epsilon ray tr = some x ∧ |t' - t| ≤ 4 * d * t ∧
      ∀ i, |x i - (ray.base i + t' * ray.direction i)| ≤ ((1 + u) ^ 2 - 1) * (|ray.base i| + |t'| * |ray.direction i|) := by
  have hu0 := h.u_nonneg
  set det := det3v (tr.b - tr.a) ray.direction (tr.c - tr.a) with hdt
  have hdet0 : 0 < |det| := by
    by_contra hn
    have : |det| = 0 := le_antisymm (not_lt.mp hn) (abs_nonneg _)
    rw [this, mul_zero] at hdet
    linarith
  have hd0 : 0 ≤ d := by
    by_contra hn
    push Not at hn
    have k0 : 0 ≤ ((1 + u) ^ 12 - 1) * absDet3 (tr.b - tr.a) ray.direction (tr.c - tr.a) :=
      mul_nonneg (by linarith [h.one_le 12]) (by unfold absDet3; positivity)
    linarith [mul_neg_of_neg_of_pos hn hdet0]
  have ht0 : 0 < t := by
    by_contra hn
    push Not at hn
    have := mul_nonneg (sub_nonneg.mpr hd2) (neg_nonneg.mpr hn)
    rcases le_or_gt (4 * d) 1 with q | q
    · linarith [mul_nonneg (sub_nonneg.mpr q) (neg_nonneg.mpr hn)]
    · linarith [hit.2.2.1, hit.2.1]
  have hpa : ∀ i, ray.base i - tr.a i + t * ray.direction i = a * (tr.b i - tr.a i) + b * (tr.c i - tr.a i) := by
    intro i
    have := congrFun hit.2.2.2 i
    simp only [GLine.pointAt, Pi.add_apply, Pi.smul_apply, smul_eq_mul] at this
    linarith
  have cU : det3v (ray.base - tr.a) ray.direction (tr.c - tr.a) = a * det := by
    have h0 := hpa 0
    have h1 := hpa 1
    have h2 := hpa 2
    rw [hdt]
    simp only [det3v, Matrix.det_fin_three]
    simp
    linear_combination (ray.direction 1 * (tr.c 2 - tr.a 2) - ray.direction 2 * (tr.c 1 - tr.a 1)) * h0 -
      (ray.direction 0 * (tr.c 2 - tr.a 2) - ray.direction 2 * (tr.c 0 - tr.a 0)) * h1 +
      (ray.direction 0 * (tr.c 1 - tr.a 1) - ray.direction 1 * (tr.c 0 - tr.a 0)) * h2
  have cV : det3v ray.direction (ray.base - tr.a) (tr.b - tr.a) = b * det := by
    have h0 := hpa 0
    have h1 := hpa 1
    have h2 := hpa 2
    rw [hdt]
    simp only [det3v, Matrix.det_fin_three]
    simp
    linear_combination (-((tr.b 2 - tr.a 2) * ray.direction 1 - (tr.b 1 - tr.a 1) * ray.direction 2)) * h0 -
      ((tr.b 0 - tr.a 0) * ray.direction 2 - (tr.b 2 - tr.a 2) * ray.direction 0) * h1 -
      ((tr.b 1 - tr.a 1) * ray.direction 0 - (tr.b 0 - tr.a 0) * ray.direction 1) * h2
  have cT : det3v (tr.c - tr.a) (ray.base - tr.a) (tr.b - tr.a) = t * det := by
    have h0 := hpa 0
    have h1 := hpa 1
    have h2 := hpa 2
    rw [hdt]
    simp only [det3v, Matrix.det_fin_three]
    simp
    linear_combination ((tr.b 1 - tr.a 1) * (tr.c 2 - tr.a 2) - (tr.b 2 - tr.a 2) * (tr.c 1 - tr.a 1)) * h0 +
      ((tr.b 2 - tr.a 2) * (tr.c 0 - tr.a 0) - (tr.b 0 - tr.a 0) * (tr.c 2 - tr.a 2)) * h1 +
      ((tr.b 0 - tr.a 0) * (tr.c 1 - tr.a 1) - (tr.b 1 - tr.a 1) * (tr.c 0 - tr.a 0)) * h2
  unfold Fl.intersectRayTriangle
  dsimp only
  set e1 : Fin 3 → ℝ := fun i => fl (tr.b i - tr.a i) with he1
  set e2 : Fin 3 → ℝ := fun i => fl (tr.c i - tr.a i) with he2
  set s : Fin 3 → ℝ := fun i => fl (ray.base i - tr.a i) with hs
  set av := dot e1 (cross ray.direction e2) with hav
  have n1 : ∀ i, Near u 1 (e1 i) ((tr.b - tr.a) i) |(tr.b - tr.a) i| := fun i => (Near.exact (u := u) _).round h
  have n2 : ∀ i, Near u 1 (e2 i) ((tr.c - tr.a) i) |(tr.c - tr.a) i| := fun i => (Near.exact (u := u) _).round h
  have n3 : ∀ i, Near u 1 (s i) ((ray.base - tr.a) i) |(ray.base - tr.a) i| := fun i => (Near.exact (u := u) _).round h
  have n0 : ∀ i, Near u 0 (ray.direction i) (ray.direction i) |ray.direction i| := fun i => Near.exact _
  have f1 : ∀ i, fl (e1 i) = e1 i := fun i => h.idem _
  have f2 : ∀ i, fl (e2 i) = e2 i := fun i => h.idem _
  have f3 : ∀ i, fl (s i) = s i := fun i => h.idem _
  have tA := ((near_triple h hd hc n1 n0 n2 hdir f2).mono h (by norm_num : _ ≤ 12)).err.trans hA
  rw [← hav, ← hdt] at tA
  have hav1 : (1 - d) * |det| ≤ |av| := by
    have := abs_sub_abs_le_abs_sub det av
    rw [abs_sub_comm] at this
    linarith
  have hav2 : |det| ≤ 2 * |av| := by
    have := mul_nonneg (sub_nonneg.mpr hd2) hdet0.le
    linarith
  have hav0 : 0 < |av| := by linarith
  have ha0 : av ≠ 0 := abs_pos.mp hav0
  have close : ∀ {y y0 Q : ℝ} {k : ℕ} {N r : ℝ}, k ≤ 12 → Near u k (y * av) N Q → N = y0 * det → 0 ≤ y0 → ((1 + u) ^ 12 - 1) * Q ≤ d * r * |det| → y0 ≤ r →
      |y - y0| ≤ 4 * d * r := by
    intro y y0 Q k N r hk hn hN h0 hQ hr
    have k1 := (hn.mono h hk).err.trans hQ
    rw [hN] at k1
    have k2 : |y0 * (det - av)| ≤ d * r * |det| := by
      rw [abs_mul, abs_of_nonneg h0, abs_sub_comm]
      have k3 := mul_le_mul_of_nonneg_left tA h0
      have k4 := mul_le_mul_of_nonneg_right hr (mul_nonneg hd0 (abs_nonneg det))
      linarith
    have k3 := abs_add_le (y * av - y0 * det) (y0 * (det - av))
    rw [show y * av - y0 * det + y0 * (det - av) = (y - y0) * av by ring, abs_mul] at k3
    have k4 := mul_le_mul_of_nonneg_left hav2 (mul_nonneg hd0 (h0.trans hr))
    refine le_of_mul_le_mul_right ?_ hav0
    linarith
  have tU := close (by norm_num) (near_recip h ha0 (near_triple h hd hc n3 n0 n2 hdir f2)) cU hit.1 (r := 1) (by rw [mul_one]; exact hU) (by linarith [hit.2.1, hit.2.2.1])
  have tV := close (by norm_num) (near_recip h ha0 (near_triple h hd hc n0 n3 n1 f3 f1)) cV hit.2.1 (r := 1) (by rw [mul_one]; exact hV) (by linarith [hit.1, hit.2.2.1])
  have tT := close (by norm_num) (near_recip h ha0 (near_triple h hd hc n2 n3 n1 f3 f1)) cT ht0.le (r := t) hT le_rfl
  rw [mul_one] at tU tV
  set uc := fl (fl (1 / av) * dot s (cross ray.direction e2)) with huc
  set vc := fl (fl (1 / av) * dot ray.direction (cross s e1)) with hvc
  set tc := fl (fl (1 / av) * dot e2 (cross s e1)) with htc
  have bU := abs_le.mp tU
  have bV := abs_le.mp tV
  have bT := abs_le.mp tT
  rw [if_neg (by linarith : ¬ |av| < epsilon), if_neg (by push Not; constructor <;> linarith : ¬ (uc < 0 ∨ uc > 1)), if_neg, if_neg (by linarith : ¬ tc < epsilon)]
  · exact ⟨_, tc, rfl, tT, fun i => C116_point_at h hma ray tc i⟩
  · push Not
    refine ⟨by linarith, ?_⟩
    have k1 := h.err (uc + vc)
    have hn : 0 ≤ uc + vc := by linarith
    rw [abs_of_nonneg hn] at k1
    have k2 := le_abs_self (fl (uc + vc) - (uc + vc))
    have k3 := mul_le_mul_of_nonneg_left (by linarith : uc + vc ≤ 1 - u) (by linarith : 0 ≤ 1 + u)
    linarith [mul_self_nonneg u]

/-! ## The hypotheses are met -/

/-- `Cross` of vectors of any packing has the error that C129 assumes. -/
theorem C129_cross {c : Cfg} {pk : Bool} {p : ℕ} (hp : 3 ≤ p) (h : RoundsToNearest p fl) (conv : Bool) (junk : ℕ → ℝ) :
    Fl.IsCross fl ((2 : ℝ) ^ (-(p : ℤ))) fun a b => (Fl.cross3 fl conv junk (Vec.ofFn a : Vec c ℝ 3 pk) (Vec.ofFn b : Vec c ℝ 3 pk)).get := by
  intro a b ha hb i
  have hf : ∀ x, fl x = x → IsFloat p x := fun x hx => hx ▸ h.mem x
  have := C75_cross3 hp h conv junk (Vec.ofFn a : Vec c ℝ 3 pk) (Vec.ofFn b : Vec c ℝ 3 pk) (fun i => by rw [Vec.get_ofFn]; exact hf _ (ha i))
    (fun i => by rw [Vec.get_ofFn]; exact hf _ (hb i)) i
  rw [show (Vec.ofFn a : Vec c ℝ 3 pk).get = a from funext fun i => Vec.get_ofFn _ _, show (Vec.ofFn b : Vec c ℝ 3 pk).get = b from funext fun i => Vec.get_ofFn _ _] at this
  refine this.trans (mul_le_mul_of_nonneg_right ?_ (abs_nonneg _))
  have hu : (0 : ℝ) ≤ (2 : ℝ) ^ (-(p : ℤ)) := by positivity
  set w := (2 : ℝ) ^ (-(p : ℤ))
  nlinarith [pow_nonneg hu 2, pow_nonneg hu 3, pow_nonneg hu 4]

/-- Floats with 24 bits: the ray along the third axis from `(1/4, 1/4, -1)` hits the triangle with the corners `0`, `e₁` and `e₂`, and the hit is reported. -/
example {dot : (Fin 3 → ℝ) → (Fin 3 → ℝ) → ℝ} (hd : Fl.IsDot (2 ^ (-24 : ℤ)) 3 dot) {cross : (Fin 3 → ℝ) → (Fin 3 → ℝ) → Fin 3 → ℝ}
    (hc : Fl.IsCross (flAway 24) (2 ^ (-24 : ℤ)) cross) :
    ∃ x, ∃ t' : ℝ, Fl.intersectRayTriangle (flAway 24) (fun a b d => flAway 24 (a * b + d)) dot cross (2 ^ (-23 : ℤ)) ⟨![0, 0, 1], ![1 / 4, 1 / 4, -1]⟩
      ⟨![0, 0, 0], ![1, 0, 0], ![0, 1, 0]⟩ = some x ∧ |t' - 1| ≤ 2 ^ (-18 : ℤ) := by
  have hr := flAway_roundsToNearest (p := 24) (by norm_num)
  have hf : ∀ x, IsFloat 24 x → flAway 24 x = x := by
    intro x hx
    have := hr.nearest x x hx
    rw [sub_self, abs_zero] at this
    exact sub_eq_zero.1 (abs_nonpos_iff.1 this)
  have h0 : flAway 24 0 = 0 := hf 0 ⟨0, 0, by norm_num, by norm_num⟩
  have h1 : flAway 24 1 = 1 := hf 1 ⟨1, 0, by norm_num, by norm_num⟩
  have hdet : det3v ((![1, 0, 0] : Fin 3 → ℝ) - ![0, 0, 0]) ![0, 0, 1] (![0, 1, 0] - ![0, 0, 0]) = -1 := by
    rw [det3v, Matrix.det_fin_three]; simp
  have hg : ∀ m : ℝ, 0 ≤ m → m ≤ 1 → ((1 + 2 ^ (-(24 : ℕ) : ℤ)) ^ 12 - 1 : ℝ) * m ≤ 2 ^ (-20 : ℤ) := fun m m0 m1 =>
    (mul_le_mul_of_nonneg_left m1 (by norm_num)).trans (by norm_num)
  obtain ⟨x, t', hx, ht, -⟩ := C129_complete (hr.rounding (by norm_num)) (madd := fun a b d => flAway 24 (a * b + d)) (fun _ _ _ => Or.inr rfl) hd hc
    (epsilon := 2 ^ (-23 : ℤ)) (by norm_num) ⟨![0, 0, 1], ![1 / 4, 1 / 4, -1]⟩ ⟨![0, 0, 0], ![1, 0, 0], ![0, 1, 0]⟩
    (by intro i; fin_cases i <;> simp [h0, h1]) (a := 1 / 4) (b := 1 / 4) (t := 1) (d := 2 ^ (-20 : ℤ))
    ⟨by norm_num, by norm_num, by norm_num, by funext i; fin_cases i <;> simp [GLine.pointAt]⟩ (by norm_num)
    (by rw [hdet, abs_neg, abs_one, mul_one]; exact hg _ (by simp [absDet3]) (by simp [absDet3] <;> norm_num))
    (by rw [hdet, abs_neg, abs_one, mul_one]; exact hg _ (by simp [absDet3]) (by simp [absDet3] <;> norm_num))
    (by rw [hdet, abs_neg, abs_one, mul_one]; exact hg _ (by simp [absDet3]) (by simp [absDet3] <;> norm_num))
    (by rw [hdet, abs_neg, abs_one, mul_one, mul_one]; exact hg _ (by simp [absDet3]) (by simp [absDet3] <;> norm_num))
    (by rw [hdet]; norm_num) (by norm_num) (by norm_num) (by norm_num) (by norm_num)
  exact ⟨x, t', hx, ht.trans (by norm_num)⟩

end Mathter.Props
