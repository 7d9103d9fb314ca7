import Verif.Model.Matrix
import Verif.Model.Quaternion

/-!
# Filling with random numbers, default construction, concatenation with `|`, literals

Models `Transforms/RandomBuilder.hpp`, `Common/DeterministicInitializer.hpp`, `Vector/Concat.hpp`, `Quaternion/Literals.hpp` and the one-index
access of row and column matrices.
-/

namespace Mathter
universe u
variable {σ α K : Type u} {c : Cfg} {dim r n : ℕ} {o : Order} {L : Layout} {p : Bool}

/-! ## Random -/

/-- The conversion of `RandomBuilder` to a matrix — Transforms/RandomBuilder.hpp:24-33. `gen` is `distribution(engine)`: the state of the
distribution and engine together goes in, the number and the new state come out. `cast` is `static_cast<T>`; `m0` is the default-constructed
matrix. -/
def randomMat (cast : α → K) (gen : σ → α × σ) (m0 : Mat c K r n o L p) (e : σ) : Mat c K r n o L p × σ :=
  forUp r 0 (fun i st => forUp n 0 (fun j st => let x := gen st.2; (st.1.set i j (cast x.1), x.2)) st) (m0, e)

/-- The conversion of `RandomBuilder` to a vector — Transforms/RandomBuilder.hpp:35-42. -/
def randomVec (cast : α → K) (gen : σ → α × σ) (v0 : Vec c K dim p) (e : σ) : Vec c K dim p × σ :=
  forUp dim 0 (fun i st => let x := gen st.2; (st.1.set i (cast x.1), x.2)) (v0, e)

/-- The conversion of `RandomBuilder` to a quaternion — Transforms/RandomBuilder.hpp:44-52. The arguments in braces are evaluated from left to
right. -/
def randomQuat [Zero K] (l : QLayout) (cast : α → K) (gen : σ → α × σ) (e : σ) : Quat K l × σ :=
  let x0 := gen e
  let x1 := gen x0.2
  let x2 := gen x1.2
  let x3 := gen x2.2
  (Quat.mk4 l (cast x0.1) (cast x1.1) (cast x2.1) (cast x3.1), x3.2)

/-! ## Default construction -/

/-- The macros `MATHTER_NULL_INITIALIZE`, `MATHTER_INVALID_INITIALIZE`, `MATHTER_DONT_INITIALIZE` — Common/DeterministicInitializer.hpp:84-102. -/
inductive InitMode | null | invalid | dont
deriving DecidableEq

/-- The mode for the macros the user has defined and `NDEBUG` — Common/DeterministicInitializer.hpp:84-102. -/
def initMode (null invalid dont ndebug : Bool) : InitMode :=
  if null then .null
  else if invalid then .invalid
  else if dont then .dont
  else if ndebug then .dont else .invalid

/-- What `std::numeric_limits<T>` and `T(0)`, `T{}` offer for a scalar type — Common/DeterministicInitializer.hpp:15-62. -/
structure ScalarInit (K : Type u) where
  specialized : Bool
  signalingNaN : Option K
  quietNaN : Option K
  infinity : Option K
  max : K
  null : K

/-- `InvalidScalarInitializer<T>::Get` — Common/DeterministicInitializer.hpp:44-62. -/
def ScalarInit.invalid (t : ScalarInit K) : K :=
  if t.specialized then
    match t.signalingNaN with
    | some x => x
    | none =>
      match t.quietNaN with
      | some x => x
      | none =>
        match t.infinity with
        | some x => x
        | none => t.max
  else t.null

/-- `InvalidScalarInitializer<std::complex<T>>::Get` and `NullScalar<std::complex<T>>` — Common/DeterministicInitializer.hpp:17-23, 66-71;
`numeric_limits` is not specialised for complex numbers, but that is not looked at. -/
def ScalarInit.invalidComplex (t : ScalarInit K) : K × K := (t.invalid, t.invalid)

/-- `Vector()` — Vector/Vector.hpp:256-259, 201-205, Common/DeterministicInitializer.hpp:104-108. `mem` is the previous content of the memory. -/
def Vec.default [Zero K] (mode : InitMode) (t : ScalarInit K) (mem : Vec c K dim p) : Vec c K dim p :=
  let v : Vec c K dim p :=
    match mode with
    | .null => Vec.fill t.null
    | .invalid => Vec.fill t.invalid
    | .dont => mem
  ⟨fun l => if l.val < dim then v.lanes l else 0⟩

/-- `Matrix() = default` — Matrix/Matrix.hpp:59, 31: all stripes are default-constructed. -/
def Mat.default [Zero K] (mode : InitMode) (t : ScalarInit K) (mem : Mat c K r n o L p) : Mat c K r n o L p :=
  ⟨fun s => Vec.default mode t (mem.stripes s)⟩

/-! ## Concatenation with `|` -/

/-- An operand of `|`: a scalar, or a vector or swizzle with its packing — Vector/Concat.hpp:15-24. -/
inductive Operand (K : Type u) where
  | scalar (x : K)
  | seq (packed : Bool) (n : ℕ) (elems : Fin n → K)

/-- `getPacking` of `impl::GetConcatPacking` — Vector/Vector.hpp:231-242. -/
def Operand.packing : Operand K → Bool
  | .scalar _ => false
  | .seq p _ _ => p

/-- `getDim` of `impl::GetConcatDim` — Vector/Vector.hpp:217-228. -/
def Operand.size : Operand K → ℕ
  | .scalar _ => 1
  | .seq _ n _ => n

/-- An operand as an argument of the concatenating constructor. (Vector/Concat.hpp:24-27, Vector/Vector.hpp:335-338.) -/
def Operand.part : Operand K → Part K
  | .scalar x => .scalar x
  | .seq _ n f => .seq n f

/-- `a | b` — Vector/Concat.hpp:15-24 with the deduction guide Vector/Vector.hpp:250-253; `init` is the uninitialised array. -/
def Operand.bar [Zero K] (c : Cfg) (init : ∀ d p, Fin (storageSize c d p) → K) (a b : Operand K) : Option (Operand K) :=
  (Vec.concat (c := c) (dim := a.size + b.size) (p := a.packing && b.packing) (init _ _) [a.part, b.part]).map fun v =>
    .seq (a.packing && b.packing) (a.size + b.size) v.get

/-! ## Quaternion literals -/

/-- `operator"" _i` — Quaternion/Literals.hpp:13-15, 23-25; `x` is the converted number. The suffixes with `f` and `l` (34-72) only change the
scalar type. -/
def litI [Zero K] (x : K) : Quat K .scalarFirst := Quat.mk4 _ 0 x 0 0
/-- `operator"" _j` — Quaternion/Literals.hpp:16-18, 26-28. -/
def litJ [Zero K] (x : K) : Quat K .scalarFirst := Quat.mk4 _ 0 0 x 0
/-- `operator"" _k` — Quaternion/Literals.hpp:19-21, 29-31. -/
def litK [Zero K] (x : K) : Quat K .scalarFirst := Quat.mk4 _ 0 0 0 x

/-! ## Row and column matrices as vectors -/

/-- `m(idx)` of a row or column matrix — Matrix/Matrix.hpp:264-282; `none` where the assertion fails or the indices leave the matrix. -/
def Mat.getIdx (m : Mat c K r n o L p) (idx : ℕ) : Option K :=
  if idx < max r n then
    let i := if r = 1 then 0 else idx
    let j := if r = 1 then idx else 0
    if h : i < r ∧ j < n then some (m.get ⟨i, h.1⟩ ⟨j, h.2⟩) else none
  else none

/-- `Matrix(const Vector&)` for a column matrix with more than one row — Matrix/Matrix.hpp:211-222. -/
def Mat.ofVecCol [Zero K] (m0 : Mat c K r 1 o L p) (v : Vec c K r p) : Mat c K r 1 o L p :=
  match L, m0 with
  | .col, m0 => ⟨fun s => if s = 0 then Vec.convert id v else m0.stripes s⟩
  | .row, m0 => forUp r 0 (fun s m => ⟨fun s' => if s' = s then (m.stripes s').set 0 (v.get s) else m.stripes s'⟩) m0

end Mathter
