import Verif.Props.RoundedTriangle
import Verif.Spec.Watertight

/-!
# Property C130: a ray through the common edge of two triangles

In exact arithmetic one of the two triangles reports the ray. In single and in double precision there are triangles with small integer coordinates and a
ray perpendicular to them, through the common edge, that both miss.
-/

namespace Mathter.Props
open Mathter

variable {fl : ℝ → ℝ}

/-- C130 (exact arithmetic): a ray that hits one of two triangles at a distance of at least epsilon, neither of them nearly parallel to it, is reported by
one of them. Missing: floats, see `C130_violated`. -/
theorem C130_exact_partial (epsilon : ℝ) (he : 0 < epsilon) (ray : GLine 3) (tr tr' : GTriangle 3) (t a b : ℝ)
    (h1 : epsilon ≤ |det3v (tr.b - tr.a) ray.direction (tr.c - tr.a)|) (h2 : epsilon ≤ |det3v (tr'.b - tr'.a) ray.direction (tr'.c - tr'.a)|)
    (hit : IsHit ray tr t a b ∨ IsHit ray tr' t a b) (ht : epsilon ≤ t) :
    intersectRayTriangle epsilon ray tr = some (ray.pointAt t) ∨ intersectRayTriangle epsilon ray tr' = some (ray.pointAt t) := by
  rcases hit with hit | hit
  · exact Or.inl ((C64_ray_triangle epsilon he ray tr _).2 ⟨h1, t, a, b, hit, ht, rfl⟩)
  · exact Or.inr ((C64_ray_triangle epsilon he ray tr' _).2 ⟨h2, t, a, b, hit, ht, rfl⟩)

/-- Rounding to a point of the grid that is nearer than half a step. -/
private theorem round_grid {p : ℕ} (hp : 1 ≤ p) (hfl : RoundsToNearest p fl) (e : ℤ) {x y : ℝ} (hy : Grid e y) (hyp : |y| ≤ (2 : ℝ) ^ ((p : ℤ) + e))
    (hx : (2 : ℝ) ^ ((p : ℤ) - 1 + e) ≤ |x|) (hxy : |y - x| < (2 : ℝ) ^ e / 2) : fl x = y := by
  have hf := grid_of_isFloat (hfl.mem x) (pow_le_fl hp hfl hx)
  obtain ⟨m, hm⟩ := grid_sub hf hy
  have hn := hfl.nearest x y (isFloat_of_grid hp hy hyp)
  have h2 := two_zpow_pos e
  have ht : |fl x - y| < (2 : ℝ) ^ e := by
    have := abs_add_le (fl x - x) (x - y)
    rw [sub_add_sub_cancel, abs_sub_comm x y] at this
    linarith
  rw [hm, abs_mul, abs_of_pos h2] at ht
  have : |(m : ℝ)| < 1 := by
    by_contra hc
    push Not at hc
    have := mul_le_mul_of_nonneg_right hc h2.le
    linarith
  have hm0 : m = 0 := by
    have : |m| < 1 := by exact_mod_cast this
    exact Int.abs_lt_one_iff.mp this
  rw [hm0, Int.cast_zero, zero_mul] at hm
  linarith

private theorem fl_int {p : ℕ} (hp : 24 ≤ p) (hfl : RoundsToNearest p fl) (k : ℤ) (hk : |k| ≤ 1000) : fl (k : ℝ) = k := by
  have hf : IsFloat p (k : ℝ) := by
    refine isFloat_of_grid (by omega) (e := 0) ⟨k, by simp⟩ ?_
    have h1 : |(k : ℝ)| ≤ 1000 := by exact_mod_cast hk
    have h2 : (2 : ℝ) ^ ((24 : ℤ)) ≤ (2 : ℝ) ^ ((p : ℤ) + 0) := zpow_le_zpow_right₀ (by norm_num) (by omega)
    rw [show (2 : ℝ) ^ (24 : ℤ) = 16777216 by norm_num] at h2
    linarith
  have := hfl.nearest k k hf
  rw [sub_self, abs_zero] at this
  exact sub_eq_zero.1 (abs_nonpos_iff.1 this)

/-- Two triangles with the common edge from `(31, 0, 0)` to `(0, 31, 0)`, that make up a square. -/
def squareLow : GTriangle 3 := ⟨![0, 0, 0], ![31, 0, 0], ![0, 31, 0]⟩
def squareHigh : GTriangle 3 := ⟨![31, 31, 0], ![0, 31, 0], ![31, 0, 0]⟩

/-- A ray that hits the common edge in `(4, 27, 0)`. -/
def edgeRay : GLine 3 := ⟨![0, 0, 1], ![4, 27, -1]⟩

/-- The sum of the two barycentric coordinates, computed with the rounded reciprocal of the determinant, exceeds 1. -/
private theorem sum_above {p : ℕ} (hp : p = 24 ∨ p = 53) (hfl : RoundsToNearest p fl) :
    0 ≤ fl (fl (1 / (-961)) * (-124)) ∧ fl (fl (1 / (-961)) * (-124)) ≤ 1 ∧ 0 ≤ fl (fl (1 / (-961)) * (-837)) ∧ fl (fl (1 / (-961)) * (-837)) ≤ 1 ∧
      1 < fl (fl (fl (1 / (-961)) * (-124)) + fl (fl (1 / (-961)) * (-837))) := by
  rcases hp with rfl | rfl
  · have e0 : fl (1 / (-961)) = -4469269 / 4294967296 := by
      refine round_grid (by norm_num) hfl (-33) ⟨-8938538, by norm_num⟩ ?_ ?_ ?_ <;> norm_num [abs_of_neg, abs_of_pos, abs_lt]
    have e1 : fl (-4469269 / 4294967296 * (-124)) = 8659209 / 67108864 := by
      refine round_grid (by norm_num) hfl (-26) ⟨8659209, by norm_num⟩ ?_ ?_ ?_ <;> norm_num [abs_lt]
    have e2 : fl (-4469269 / 4294967296 * (-837)) = 14612415 / 16777216 := by
      refine round_grid (by norm_num) hfl (-24) ⟨14612415, by norm_num⟩ ?_ ?_ ?_ <;> norm_num [abs_lt]
    have e3 : fl (8659209 / 67108864 + 14612415 / 16777216) = 8388609 / 8388608 := by
      refine round_grid (by norm_num) hfl (-23) ⟨8388609, by norm_num⟩ ?_ ?_ ?_ <;> norm_num [abs_lt]
    rw [e0, e1, e2, e3]
    norm_num
  · have e0 : fl (1 / (-961)) = -2399420405009047 / 2305843009213693952 := by
      refine round_grid (by norm_num) hfl (-62) ⟨-4798840810018094, by norm_num⟩ ?_ ?_ ?_ <;> norm_num [abs_of_neg, abs_of_pos, abs_lt]
    have e1 : fl (-2399420405009047 / 2305843009213693952 * (-124)) = 4648877034705029 / 36028797018963968 := by
      refine round_grid (by norm_num) hfl (-55) ⟨4648877034705029, by norm_num⟩ ?_ ?_ ?_ <;> norm_num [abs_lt]
    have e2 : fl (-2399420405009047 / 2305843009213693952 * (-837)) = 245155624877023 / 281474976710656 := by
      refine round_grid (by norm_num) hfl (-53) ⟨7844979996064736, by norm_num⟩ ?_ ?_ ?_ <;> norm_num [abs_lt]
    have e3 : fl (4648877034705029 / 36028797018963968 + 245155624877023 / 281474976710656) = 4503599627370497 / 4503599627370496 := by
      refine round_grid (by norm_num) hfl (-52) ⟨4503599627370497, by norm_num⟩ ?_ ?_ ?_ <;> norm_num [abs_lt]
    rw [e0, e1, e2, e3]
    norm_num

/-- A triangle whose edges are 31 or -31 long along the first two axes, and a ray along the third. -/
private theorem miss {p : ℕ} (hp : p = 24 ∨ p = 53) (hfl : RoundsToNearest p fl) {madd : ℝ → ℝ → ℝ → ℝ} {dot : (Fin 3 → ℝ) → (Fin 3 → ℝ) → ℝ}
    (hd : Fl.DotSingle fl dot) {cross : (Fin 3 → ℝ) → (Fin 3 → ℝ) → Fin 3 → ℝ} (hc : Fl.CrossSingle fl cross) {epsilon : ℝ} (σ x y : ℤ) (hσ : σ = 1 ∨ σ = -1)
    (hxy : x = 4 ∧ y = 27 ∨ x = 27 ∧ y = 4) (ray : GLine 3) (tr : GTriangle 3) (hdir : ray.direction = ![0, 0, 1]) (h1 : ∀ i, tr.b i - tr.a i = (![((31 * σ : ℤ) : ℝ), 0, 0] : Fin 3 → ℝ) i)
    (h2 : ∀ i, tr.c i - tr.a i = (![0, ((31 * σ : ℤ) : ℝ), 0] : Fin 3 → ℝ) i) (h3 : ∀ i, ray.base i - tr.a i = (![((σ * x : ℤ) : ℝ), ((σ * y : ℤ) : ℝ), -1] : Fin 3 → ℝ) i) :
    Fl.intersectRayTriangle fl madd dot cross epsilon ray tr = none := by
  have hp' : 24 ≤ p := by omega
  have hz : fl 0 = 0 := by simpa using fl_int hp' hfl 0 (by norm_num)
  have hm1 : fl (-1) = -1 := by simpa using fl_int hp' hfl (-1) (by norm_num)
  have h01 : fl 1 = 1 := by simpa using fl_int hp' hfl 1 (by norm_num)
  have hσa : |31 * σ| ≤ 1000 := by rcases hσ with rfl | rfl <;> norm_num
  have hxa : |σ * x| ≤ 1000 := by rcases hσ with rfl | rfl <;> rcases hxy with ⟨rfl, rfl⟩ | ⟨rfl, rfl⟩ <;> norm_num
  have hya : |σ * y| ≤ 1000 := by rcases hσ with rfl | rfl <;> rcases hxy with ⟨rfl, rfl⟩ | ⟨rfl, rfl⟩ <;> norm_num
  have g1 : (fun i => fl (tr.b i - tr.a i)) = ![((31 * σ : ℤ) : ℝ), 0, 0] := by
    funext i
    rw [h1]
    fin_cases i
    · exact fl_int hp' hfl _ hσa
    · exact hz
    · exact hz
  have g2 : (fun i => fl (tr.c i - tr.a i)) = ![0, ((31 * σ : ℤ) : ℝ), 0] := by
    funext i
    rw [h2]
    fin_cases i
    · exact hz
    · exact fl_int hp' hfl _ hσa
    · exact hz
  have g3 : (fun i => fl (ray.base i - tr.a i)) = ![((σ * x : ℤ) : ℝ), ((σ * y : ℤ) : ℝ), -1] := by
    funext i
    rw [h3]
    fin_cases i
    · exact fl_int hp' hfl _ hxa
    · exact fl_int hp' hfl _ hya
    · exact hm1
  have c1 : cross ![0, 0, 1] ![0, ((31 * σ : ℤ) : ℝ), 0] = ![((-31 * σ : ℤ) : ℝ), 0, 0] := by
    have hd1 : ∀ j, fl ((![0, 0, 1] : Fin 3 → ℝ) j) = (![0, 0, 1] : Fin 3 → ℝ) j := by
      intro j; fin_cases j
      · exact hz
      · exact hz
      · exact h01
    have k1 := fl_int hp' hfl _ hσa
    push_cast at k1
    funext i
    rw [hc _ _ i hd1]
    · rw [cross_apply]
      fin_cases i <;> simp
    · fin_cases i <;> simp
    · fin_cases i <;> simp [hz]
    · fin_cases i <;> simp [hz, k1]
  have c2 : cross ![((σ * x : ℤ) : ℝ), ((σ * y : ℤ) : ℝ), -1] ![((31 * σ : ℤ) : ℝ), 0, 0] = ![0, ((-31 * σ : ℤ) : ℝ), ((-31 * y : ℤ) : ℝ)] := by
    have hd1 : ∀ j, fl ((![((σ * x : ℤ) : ℝ), ((σ * y : ℤ) : ℝ), -1] : Fin 3 → ℝ) j) = (![((σ * x : ℤ) : ℝ), ((σ * y : ℤ) : ℝ), -1] : Fin 3 → ℝ) j := by
      intro j; fin_cases j
      · exact fl_int hp' hfl _ hxa
      · exact fl_int hp' hfl _ hya
      · exact hm1
    have k1 := fl_int hp' hfl (-(31 * σ)) (by rwa [abs_neg])
    have k2 := fl_int hp' hfl (σ * y * (31 * σ)) (by rcases hσ with rfl | rfl <;> rcases hxy with ⟨rfl, rfl⟩ | ⟨rfl, rfl⟩ <;> norm_num)
    push_cast at k1 k2
    funext i
    rw [hc _ _ i hd1]
    · rw [cross_apply]
      fin_cases i
      · simp
      · simp
      · rcases hσ with rfl | rfl <;> simp <;> ring
    · fin_cases i <;> simp
    · fin_cases i <;> simp [hz, k1]
    · fin_cases i <;> simp [hz, k2]
  have hσ2 : σ * σ = 1 := by rcases hσ with rfl | rfl <;> norm_num
  have d1 : dot ![((31 * σ : ℤ) : ℝ), 0, 0] ![((-31 * σ : ℤ) : ℝ), 0, 0] = -961 := by
    have e : ((31 * σ : ℤ) : ℝ) * ((-31 * σ : ℤ) : ℝ) = -961 := by
      rw [← Int.cast_mul, show 31 * σ * (-31 * σ) = -961 * (σ * σ) by ring, hσ2]; norm_num
    have k := fl_int hp' hfl (-961) (by norm_num)
    rw [hd _ _ 0 (by intro j hj; fin_cases j <;> simp at hj ⊢)]
    · exact e
    · change fl (((31 * σ : ℤ) : ℝ) * ((-31 * σ : ℤ) : ℝ)) = ((31 * σ : ℤ) : ℝ) * ((-31 * σ : ℤ) : ℝ)
      rw [e]; exact_mod_cast k
  have d2 : dot ![((σ * x : ℤ) : ℝ), ((σ * y : ℤ) : ℝ), -1] ![((-31 * σ : ℤ) : ℝ), 0, 0] = ((-31 * x : ℤ) : ℝ) := by
    have e : ((σ * x : ℤ) : ℝ) * ((-31 * σ : ℤ) : ℝ) = ((-31 * x : ℤ) : ℝ) := by
      rw [← Int.cast_mul, show σ * x * (-31 * σ) = -31 * x * (σ * σ) by ring, hσ2, mul_one]
    rw [hd _ _ 0 (by intro j hj; fin_cases j <;> simp at hj ⊢)]
    · exact e
    · change fl (((σ * x : ℤ) : ℝ) * ((-31 * σ : ℤ) : ℝ)) = ((σ * x : ℤ) : ℝ) * ((-31 * σ : ℤ) : ℝ)
      rw [e]; exact fl_int hp' hfl _ (by rcases hxy with ⟨rfl, rfl⟩ | ⟨rfl, rfl⟩ <;> norm_num)
  have d3 : dot ![0, 0, 1] ![0, ((-31 * σ : ℤ) : ℝ), ((-31 * y : ℤ) : ℝ)] = ((-31 * y : ℤ) : ℝ) := by
    rw [hd _ _ 2 (by intro j hj; fin_cases j <;> simp at hj ⊢)]
    · exact one_mul _
    · change fl (1 * ((-31 * y : ℤ) : ℝ)) = 1 * ((-31 * y : ℤ) : ℝ)
      rw [one_mul]; exact fl_int hp' hfl _ (by rcases hxy with ⟨rfl, rfl⟩ | ⟨rfl, rfl⟩ <;> norm_num)
  obtain ⟨b1, b2, b3, b4, b5⟩ := sum_above hp hfl
  unfold Fl.intersectRayTriangle
  dsimp only
  rw [g1, g2, g3, hdir, c1, c2, d1, d2, d3]
  split
  · rfl
  · split
    · rfl
    · rw [if_pos]
      right
      rcases hxy with ⟨rfl, rfl⟩ | ⟨rfl, rfl⟩
      · norm_num at b5 ⊢
        exact b5
      · rw [add_comm]
        norm_num at b5 ⊢
        exact b5

/-- C130 fails in single and in double precision: the ray perpendicular to a square that hits the interior of its diagonal is missed by both of the triangles
that make up the square, whatever the epsilon and for every rounding to nearest. All coordinates are integers below 32. -/
theorem C130_violated {p : ℕ} (hp : p = 24 ∨ p = 53) (hfl : RoundsToNearest p fl) {madd : ℝ → ℝ → ℝ → ℝ} {dot : (Fin 3 → ℝ) → (Fin 3 → ℝ) → ℝ}
    (hd : Fl.DotSingle fl dot) {cross : (Fin 3 → ℝ) → (Fin 3 → ℝ) → Fin 3 → ℝ} (hc : Fl.CrossSingle fl cross) (epsilon : ℝ) :
    IsHit edgeRay squareLow 1 (4 / 31) (27 / 31) ∧ IsHit edgeRay squareHigh 1 (27 / 31) (4 / 31) ∧
      det3v (squareLow.b - squareLow.a) edgeRay.direction (squareLow.c - squareLow.a) = -961 ∧
      det3v (squareHigh.b - squareHigh.a) edgeRay.direction (squareHigh.c - squareHigh.a) = -961 ∧
      Fl.intersectRayTriangle fl madd dot cross epsilon edgeRay squareLow = none ∧ Fl.intersectRayTriangle fl madd dot cross epsilon edgeRay squareHigh = none := by
  refine ⟨⟨by norm_num, by norm_num, by norm_num, ?_⟩, ⟨by norm_num, by norm_num, by norm_num, ?_⟩, ?_, ?_, ?_, ?_⟩
  · funext i; fin_cases i <;> simp [GLine.pointAt, edgeRay, squareLow]
  · funext i; fin_cases i <;> simp [GLine.pointAt, edgeRay, squareHigh] <;> norm_num
  · rw [det3v, Matrix.det_fin_three]; simp [edgeRay, squareLow]; norm_num
  · rw [det3v, Matrix.det_fin_three]; simp [edgeRay, squareHigh]; norm_num
  · refine miss hp hfl hd hc 1 4 27 (Or.inl rfl) (Or.inl ⟨rfl, rfl⟩) _ _ rfl ?_ ?_ ?_ <;> intro i <;> fin_cases i <;> simp [edgeRay, squareLow]
  · refine miss hp hfl hd hc (-1) 27 4 (Or.inr rfl) (Or.inr ⟨rfl, rfl⟩) _ _ rfl ?_ ?_ ?_ <;> intro i <;> fin_cases i <;> simp [edgeRay, squareHigh] <;> norm_num

/-! ## The hypotheses are met -/

private theorem tree_single {n : ℕ} (hz : fl 0 = 0) {v : ℝ} (hv : fl v = v) (b : Fin n → ℝ) (i : Fin n) (hi : b i = v) (hj : ∀ j, j ≠ i → b j = 0) (t : RTree n)
    (ht : t.leaves.Nodup) : t.eval (fun x y => fl (x + y)) b = if i ∈ t.leaves then v else 0 := by
  induction t with
  | leaf j =>
    rw [RTree.eval, RTree.leaves]
    by_cases h : j = i
    · rw [h, hi, if_pos (by simp)]
    · rw [hj j h, if_neg (by simpa using fun e => h e.symm)]
  | node l r hl hr =>
    rw [RTree.leaves, List.nodup_append] at ht
    rw [RTree.eval, RTree.leaves, hl ht.1, hr ht.2.1]
    by_cases h1 : i ∈ l.leaves
    · have h2 : i ∉ r.leaves := fun h2 => ht.2.2 i h1 i h2 rfl
      rw [if_pos h1, if_neg h2, if_pos (by simp [h1]), add_zero, hv]
    · by_cases h2 : i ∈ r.leaves
      · rw [if_neg h1, if_pos h2, if_pos (by simp [h2]), zero_add, hv]
      · rw [if_neg h1, if_neg h2, if_neg (by simp [h1, h2]), add_zero, hz]

private theorem valid_single {n : ℕ} (hz : fl 0 = 0) {v : ℝ} (hv : fl v = v) (b : Fin n → ℝ) (i : Fin n) (hi : b i = v) (hj : ∀ j, j ≠ i → b j = 0) (t : RTree n)
    (ht : t.Valid) : t.eval (fun x y => fl (x + y)) b = v := by
  rw [tree_single hz hv b i hi hj t (ht.nodup_iff.2 (List.nodup_finRange n)), if_pos (ht.mem_iff.2 (List.mem_finRange i))]

/-- `Dot` of vectors of any packing meets the hypothesis of `C130_violated`. -/
theorem C130_dot {c : Cfg} {pk : Bool} (hz : fl 0 = 0) (conv : Bool) (tb : RTree (batchSize 3 false)) (ts : RTree (3 + 1)) (htb : tb.Valid) (hts : ts.Valid) :
    Fl.DotSingle fl fun x y => Fl.dot fl conv tb ts (Vec.ofFn x : Vec c ℝ 3 pk) (Vec.ofFn y : Vec c ℝ 3 pk) := by
  intro x y i hj hi
  have hg : ∀ j, (Fl.mul fl conv (Vec.ofFn x : Vec c ℝ 3 pk) (Vec.ofFn y : Vec c ℝ 3 pk)).get j = fl (x j * y j) := by
    intro j; simp only [Fl.mul, Vec.get_doBinary, Vec.get_ofFn]
  have h3 : 3 ≤ batchSize 3 false := le_batchSize 3 false
  have key : ∀ {N : ℕ} (hN : 3 ≤ N) (b : Fin N → ℝ) (_ : ∀ l : Fin N, b l = if h : l.val < 3 then fl (x ⟨l.val, h⟩ * y ⟨l.val, h⟩) else 0) (t : RTree N),
      t.Valid → t.eval (fun x y => fl (x + y)) b = x i * y i := by
    intro N hN b hb t ht
    refine valid_single hz hi b ⟨i.val, by omega⟩ ?_ (fun j hji => ?_) t ht
    · rw [hb, dif_pos i.isLt]; exact hi
    · rw [hb]
      split
      · rename_i hl
        rw [hj ⟨j.val, hl⟩ (fun e => hji (by ext; exact congrArg (fun z : Fin 3 => z.val) e)), hz]
      · rfl
  dsimp only [Fl.dot]
  unfold Fl.sum
  split
  · rename_i hb
    refine key h3 _ (fun l => ?_) tb htb
    unfold Vec.fillMasked
    split
    · rw [dif_pos (by omega)]; exact hg ⟨l.val, by omega⟩
    · dsimp only
      split
      · rename_i hl; exact hg ⟨l.val, hl⟩
      · rfl
  · refine key (by norm_num) _ (fun l => ?_) ts hts
    split
    · rename_i hl; exact hg ⟨l.val, hl⟩
    · rfl

/-- `Cross` of vectors of any packing meets the hypothesis of `C130_violated`. -/
theorem C130_cross {c : Cfg} {pk : Bool} (hz : fl 0 = 0) (hodd : ∀ x, fl (-x) = -fl x) (conv : Bool) (junk : ℕ → ℝ) :
    Fl.CrossSingle fl fun a b => (Fl.cross3 fl conv junk (Vec.ofFn a : Vec c ℝ 3 pk) (Vec.ofFn b : Vec c ℝ 3 pk)).get := by
  intro a b i ha h0 h1 h2
  have e : (Fl.cross3 fl conv junk (Vec.ofFn a : Vec c ℝ 3 pk) (Vec.ofFn b : Vec c ℝ 3 pk)).get i = crossProduct a b i := by
    simp only [Fl.cross3, Fl.fmta, Fl.add, Fl.fma, Fl.mul, Fl.neg, Vec.opScalar, Vec.get_doBinary, Vec.get_doTernary, Vec.get_fill, mul_neg_one, C05_read, Vec.get_ofFn]
    have i1 : (![1, 2, 0] : Fin 3 → Fin 3) i = i + 1 := by fin_cases i <;> rfl
    have i2 : (![2, 0, 1] : Fin 3 → Fin 3) i = i + 2 := by fin_cases i <;> rfl
    have e2 : crossProduct a b i = a (i + 1) * b (i + 2) - a (i + 2) * b (i + 1) := by
      rw [cross_apply]; fin_cases i <;> simp
    rw [i1, i2, e2, hodd, ha, mul_neg, hodd, mul_comm (b (i + 1)), h2, hodd, hodd, h2, neg_neg, neg_add_cancel, hz, add_zero]
    rcases h0 with h0 | h0
    · rw [h0, zero_add, zero_sub, hodd, hodd, h2, h2]
    · rw [h0, neg_zero, add_zero, sub_zero, h1, h1]
  exact e

/-- Single precision with SSE, `Dot` reduced pairwise. -/
example : ∃ (tb : RTree (batchSize 3 false)) (ts : RTree (3 + 1)),
    Fl.intersectRayTriangle (flAway 24) (fun a b d => flAway 24 (flAway 24 (a * b) + d))
      (fun x y => Fl.dot (flAway 24) true tb ts (Vec.ofFn x : Vec Cfg.sse ℝ 3 false) (Vec.ofFn y : Vec Cfg.sse ℝ 3 false))
      (fun a b => (Fl.cross3 (flAway 24) true (fun _ => 0) (Vec.ofFn a : Vec Cfg.sse ℝ 3 false) (Vec.ofFn b : Vec Cfg.sse ℝ 3 false)).get) (2 ^ (-23 : ℤ))
      edgeRay squareLow = none := by
  have hr := flAway_roundsToNearest (p := 24) (by norm_num)
  have hz : flAway 24 0 = 0 := by simpa using fl_int (le_refl 24) hr 0 (by norm_num)
  let ts : RTree 4 := .node (.node (.leaf 0) (.leaf 1)) (.node (.leaf 2) (.leaf 3))
  have hts : ts.Valid := by unfold RTree.Valid; decide
  exact ⟨ts, ts, (C130_violated (Or.inl rfl) hr (C130_dot hz true ts ts hts hts) (C130_cross hz hr.odd true _) _).2.2.2.2.1⟩

end Mathter.Props
