import Verif.Model.VectorReduce

/-!
# Swizzles

Models `include/Mathter/Vector/Swizzle.hpp` and the swizzle constructor of `Vector.hpp`.

A `Swizzle<T, Dim, Packed, Indices...>` is a member of the union of its vector and shares the vector's array
(Vector.hpp:47-83), so it is modelled by the source vector together with the index tuple `idx : Fin k → Fin dim`.
Uninitialised local arrays are the parameters `junk…`; out-of-range accesses are the outcome `none`.
-/

namespace Mathter

universe u
variable {K : Type u}

/-- `LinearizationGenerator::get` — Vector/Swizzle.hpp:93-99. -/
def linGen {k dim : ℕ} (idx : Fin k → Fin dim) (l : ℕ) : ℕ := if h : l < k then (idx ⟨l, h⟩).val else 0

/-- `get_occurence` of `DelinearizationGenerator`/`BlendGenerator` — Vector/Swizzle.hpp:103-108, 120-125: the first
location holding `value`, `none` for the end of the table. -/
def firstOcc (value : ℕ) : List ℕ → Option ℕ
  | [] => none
  | x :: xs => if value = x then some 0 else (firstOcc value xs).map (· + 1)

/-- The table `{ Indices... }`. (Vector/Swizzle.hpp:90-130.) -/
def idxTable {k dim : ℕ} (idx : Fin k → Fin dim) : List ℕ := List.ofFn fun i => (idx i).val

/-- `DelinearizationGenerator::get` — Vector/Swizzle.hpp:110-113 (0 when the lane is not named). -/
def delinGen {k dim : ℕ} (idx : Fin k → Fin dim) (l : ℕ) : ℕ := (firstOcc l (idxTable idx)).getD 0

/-- `BlendGenerator::get` — Vector/Swizzle.hpp:127-130. (The sentinel 1000'000 stands for "not found".) -/
def blendGen {k dim : ℕ} (idx : Fin k → Fin dim) (l : ℕ) : Bool := (firstOcc l (idxTable idx)).isSome

namespace Swz
variable {c : Cfg} {dim k : ℕ} {p p2 : Bool}

/-- `Swizzle::operator[]` (release build) — Vector/Swizzle.hpp:136-161: `array[GetSourceIndex(idx)]`, `none` if `t` is past the
index table. -/
def get (src : Vec c K dim p) (idx : Fin k → Fin dim) (t : ℕ) : Option K :=
  if h : t < k then some (src.get (idx ⟨t, h⟩)) else none

/-- `assert(idx < Dim)` of `Swizzle::operator[]` — Vector/Swizzle.hpp:138: the bound checked is the source dimension. -/
def indexAssert (dim : ℕ) (t : ℕ) : Bool := t < dim

/-- Which path the `#if MATHTER_ENABLE_SIMD … if constexpr` of `Linearize`, `Delinearize`, `Blend` selects —
Vector/Swizzle.hpp:197, 222, 250. -/
def simdPath (c : Cfg) (dim k : ℕ) (p : Bool) : Bool := isBatched c dim p && decide (k ≤ dim)

/-- `Linearize()` — Vector/Swizzle.hpp:193-215. The SIMD path shuffles the source batch and copies the first
`sizeof...(Indices)` lanes to an uninitialised target (`junk`); the other path is the aggregate `{ array[Indices]... }`, whose
remaining elements are zero. -/
def linearize [Zero K] (junk : ℕ → K) (src : Vec c K dim p) (idx : Fin k → Fin dim) :
    Fin (storageSize c k p) → K := fun t =>
  if simdPath c dim k p then
    if t.val < k then
      if h' : linGen idx t.val < storageSize c dim p then src.lanes ⟨linGen idx t.val, h'⟩ else junk t.val
    else junk t.val
  else
    if h : t.val < k then src.get (idx ⟨t.val, h⟩) else 0

/-- `Vector(const Swizzle<...>&)` — Vector/Vector.hpp:322-336. If the storage types coincide the array is copied, otherwise the
first `Dim` elements are, into uninitialised storage (`junk'`). `p2` is the packing of the constructed vector. -/
def toVec [Zero K] (junk junk' : ℕ → K) (src : Vec c K dim p) (idx : Fin k → Fin dim) : Vec c K k p2 :=
  let lin := linearize junk src idx
  if hs : storageSize c k p2 = storageSize c k p then ⟨fun l => lin (Fin.cast hs l)⟩
  else ⟨fun l => if h : l.val < k then lin ⟨l.val, Nat.lt_of_lt_of_le h (le_storageSize c k p)⟩ else junk' l.val⟩

/-- One write of the scalar loop of `Delinearize` — Vector/Swizzle.hpp:239-241. -/
def writeLane {n : ℕ} (a : Fin n → K) (i : ℕ) (x : K) : Option (Fin n → K) :=
  if i < n then some fun l => if l.val = i then x else a l else none

/-- Scalar loop of `Delinearize` — Vector/Swizzle.hpp:239-241, over the target array given as a list, `i` being the loop
counter: `delinearized[GetSourceIndex(i)] = target[i]`, reading the index table out of range is `none`. -/
def delinLoop {n : ℕ} (idx : Fin k → Fin dim) (i : ℕ) (a : Fin n → K) : List K → Option (Fin n → K)
  | [] => some a
  | x :: xs =>
    if h : i < k then (writeLane a (idx ⟨i, h⟩).val x).bind fun a' => delinLoop idx (i + 1) a' xs
    else none

/-- `Delinearize(target)` — Vector/Swizzle.hpp:218-243. -/
def delinearize (junk : ℕ → K) (idx : Fin k → Fin dim) (target : Fin (storageSize c k p) → K) :
    Option (Fin (storageSize c dim p) → K) :=
  if simdPath c dim k p then
    -- `std::copy(target.begin(), target.end(), targetPadded.begin())`: must fit
    if storageSize c k p ≤ storageSize c dim p then
      some fun l =>
        if h : delinGen idx l.val < storageSize c k p then target ⟨delinGen idx l.val, h⟩ else junk (delinGen idx l.val)
    else none
  else delinLoop idx 0 (fun l => junk l.val) (List.ofFn target)

/-- `Blend(old, fresh)` — Vector/Swizzle.hpp:246-267; both paths select lane-wise with the same mask. -/
def blend {n : ℕ} (idx : Fin k → Fin dim) (old fresh : Fin n → K) : Fin n → K :=
  fun l => if blendGen idx l.val then fresh l else old l

/-- `operator=(const Vector<TOther, DimOther, PackedOther>& rhs)` — Vector/Swizzle.hpp:277-286. `rhs` is given by its visible
elements (`std::copy(rhs.begin(), rhs.end(), lhsLin.begin())` copies exactly these). -/
def assignVec [Zero K] (junk : ℕ → K) (dst : Vec c K dim p) (idx : Fin k → Fin dim) (rhs : Vec c K k p2) :
    Option (Vec c K dim p) :=
  let lhsLin : Fin (storageSize c k p) → K := fun t => if h : t.val < k then rhs.get ⟨t.val, h⟩ else 0
  (delinearize (c := c) (p := p) junk idx lhsLin).map fun fresh => ⟨blend idx dst.lanes fresh⟩

/-- `operator=(const Swizzle<TOther, DimOther, PackedOther, IndicesOther...>& rhs)` — Vector/Swizzle.hpp:164-174.
The whole linearised array of `rhs` (with its padding) is copied into `TargetStorage{}`; `none` if it does not fit. -/
def assignSwz [Zero K] {dim2 : ℕ} (junk1 junk2 : ℕ → K) (dst : Vec c K dim p) (idx : Fin k → Fin dim)
    (src : Vec c K dim2 p2) (idx2 : Fin k → Fin dim2) : Option (Vec c K dim p) :=
  let rhsLin := linearize junk1 src idx2
  if storageSize c k p2 ≤ storageSize c k p then
    let lhsLin : Fin (storageSize c k p) → K := fun t => if h : t.val < storageSize c k p2 then rhsLin ⟨t.val, h⟩ else 0
    (delinearize (c := c) (p := p) junk2 idx lhsLin).map fun fresh => ⟨blend idx dst.lanes fresh⟩
  else none

/-- Assignment between swizzles of the *same* type: `a.xy = b.xy`. The implicitly declared copy assignment of
`struct Swizzle` (Vector/Swizzle.hpp:24-80 declares only templates, which never suppress or replace it) is an exact match
and a non-template, hence preferred to the template of lines 50-51; it copies the member `array` (line 34). -/
def assignSameType (_dst : Vec c K dim p) (_idx : Fin k → Fin dim) (src : Vec c K dim p) : Vec c K dim p := ⟨src.lanes⟩

/-- `a.<idx> = b.<idx2>` for vectors `a`, `b` of the same type as resolved by the compiler: the copy assignment if the swizzle
types coincide, the template otherwise. (Vector/Swizzle.hpp:34, 50-51.) -/
def assign [Zero K] (junk1 junk2 : ℕ → K) (dst : Vec c K dim p) (idx : Fin k → Fin dim) (src : Vec c K dim p)
    (idx2 : Fin k → Fin dim) : Option (Vec c K dim p) :=
  if ∀ i, idx i = idx2 i then some (assignSameType dst idx src) else assignSwz junk1 junk2 dst idx src idx2

/-- `operator=(const TOther& value)` for a single letter — Vector/Swizzle.hpp:177-183. -/
def assignScalar (dst : Vec c K dim p) (i : Fin dim) (x : K) : Vec c K dim p := dst.set i x

/-- `operator==(Vector, Swizzle)` — Vector/Comparison.hpp:40-46. -/
def eqVecSwz [Zero K] [BEq K] (junk : ℕ → K) (lhs : Vec c K k p2) (src : Vec c K dim p) (idx : Fin k → Fin dim) : Bool :=
  (List.finRange k).all fun i =>
    lhs.get i == linearize junk src idx ⟨i.val, Nat.lt_of_lt_of_le i.isLt (le_storageSize c k p)⟩

/-- `operator==(Swizzle, Swizzle)` — Vector/Comparison.hpp:82-90. -/
def eqSwzSwz [Zero K] [BEq K] {dim2 : ℕ} (junk1 junk2 : ℕ → K) (src : Vec c K dim p) (idx : Fin k → Fin dim)
    (src2 : Vec c K dim2 p2) (idx2 : Fin k → Fin dim2) : Bool :=
  (List.finRange k).all fun i =>
    linearize junk1 src idx ⟨i.val, Nat.lt_of_lt_of_le i.isLt (le_storageSize c k p)⟩ ==
      linearize junk2 src2 idx2 ⟨i.val, Nat.lt_of_lt_of_le i.isLt (le_storageSize c k p2)⟩

end Swz

/-! ## The accessor generator -/

/-- Inner loop of `generate_accessors` — support/SwizzleCodegen/swizzle_codegen.py:15-19: prepend `code % dimension`, then
`code //= dimension`, `count` times. -/
def genIndices (dimension : ℕ) : (count code : ℕ) → List ℕ → List ℕ
  | 0, _, acc => acc
  | n + 1, code, acc => genIndices dimension n (code / dimension) (code % dimension :: acc)

/-- `generate_accessors(elements, count)` — swizzle_codegen.py:6-21: names and index lists, in order. -/
def genAccessors {α : Type u} (elements : List α) (count : ℕ) : List (List (Option α) × List ℕ) :=
  (List.range (elements.length ^ count)).map fun code =>
    let ind := genIndices elements.length count code []
    (ind.map fun i => elements[i]?, ind)

end Mathter
