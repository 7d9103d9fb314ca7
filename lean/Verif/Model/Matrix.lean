import Verif.Model.Vector
import Verif.Model.VectorReduce

/-!
# Matrices at storage level

Models `include/Mathter/Matrix/{Matrix,Cast,Comparison,Arithmetic}.hpp` and the reductions of `Matrix/Math.hpp`.
A matrix is its array of stripes; each stripe is a storage-level vector with padding lanes. Element types of mixed operations are
one type `K` (the implicit arithmetic conversions are not modelled). A default-constructed (uninitialised) matrix or vector is an
argument called `m0`, `v0` or `junk`, over which all theorems quantify.
-/

namespace Mathter
universe u
variable {K : Type u}

/-- `eMatrixOrder` — Common/Types.hpp:22-33. -/
inductive Order | follow | precede
deriving DecidableEq

/-- `opposite_order_v` — Common/TypeTraits.hpp:278-284. -/
@[reducible] def Order.flip : Order → Order
  | .follow => .precede
  | .precede => .follow

/-- `eMatrixLayout` — Common/Types.hpp:37-48. -/
inductive Layout | row | col
deriving DecidableEq

/-- `opposite_layout_v` — Common/TypeTraits.hpp:287-293. -/
@[reducible] def Layout.flip : Layout → Layout
  | .row => .col
  | .col => .row

/-- `MatrixStorage::stripeDim` — Matrix/Matrix.hpp:26. -/
@[reducible] def stripeDim : Layout → ℕ → ℕ → ℕ
  | .row, _, c => c
  | .col, r, _ => r

/-- `MatrixStorage::stripeCount` — Matrix/Matrix.hpp:27. -/
@[reducible] def stripeCount : Layout → ℕ → ℕ → ℕ
  | .row, r, _ => r
  | .col, _, c => c

/-- `Matrix<T, Rows, Columns, Order, Layout, Packed>` — Matrix/Matrix.hpp:24-31, 42-43. -/
structure Mat (c : Cfg) (K : Type u) (rows cols : ℕ) (o : Order) (L : Layout) (p : Bool) where
  stripes : Fin (stripeCount L rows cols) → Vec c K (stripeDim L rows cols) p

/-- Passing a vector where one of another packing is expected: a copy if the types are equal, else the converting constructor
(Vector/Vector.hpp:266-273). -/
def Vec.asPacked [Zero K] {c : Cfg} {n : ℕ} {p : Bool} (p' : Bool) (v : Vec c K n p) : Vec c K n p' :=
  if h : p = p' then h ▸ v else Vec.convert id v

namespace Mat
variable {c : Cfg} {r k n : ℕ} {o : Order} {L L' : Layout} {p p1 p2 : Bool}

/-- `operator()(row, col)` (read) — Matrix/Matrix.hpp:257-261. -/
def get (m : Mat c K r n o L p) (i : Fin r) (j : Fin n) : K :=
  match L, m with
  | .row, m => (m.stripes i).get j
  | .col, m => (m.stripes j).get i

/-- `m(row, col) = x` — Matrix/Matrix.hpp:249-253. -/
def set (m : Mat c K r n o L p) (i : Fin r) (j : Fin n) (x : K) : Mat c K r n o L p :=
  match L, m with
  | .row, m => ⟨fun s => if s = i then (m.stripes s).set j x else m.stripes s⟩
  | .col, m => ⟨fun s => if s = j then (m.stripes s).set i x else m.stripes s⟩

/-- Nested loops `for (i < r) for (j < n) m(i,j) = f(i,j)`, as used by the converting constructors (Matrix.hpp:175-181, 195-200). -/
def fillLoop (f : Fin r → Fin n → K) (m0 : Mat c K r n o L p) : Mat c K r n o L p :=
  forUp r 0 (fun i m => forUp n 0 (fun j m => m.set i j (f i j)) m) m0

/-- Converting constructor from another layout/packing/type of the same order — Matrix/Matrix.hpp:166-181. -/
def convert [Zero K] (m0 : Mat c K r n o L' p2) (rhs : Mat c K r n o L p) : Mat c K r n o L' p2 :=
  if h : L' = L then forUp (stripeCount L' r n) 0 (fun s m =>
      ⟨fun s' => if s' = s then Vec.convert id (h ▸ rhs.stripes (h ▸ s)) else m.stripes s'⟩) m0
  else fillLoop (fun i j => rhs.get i j) m0

theorem stripeCount_flip (L : Layout) (r n : ℕ) : stripeCount L.flip n r = stripeCount L r n := by cases L <;> rfl
theorem stripeDim_flip (L : Layout) (r n : ℕ) : stripeDim L.flip n r = stripeDim L r n := by cases L <;> rfl

/-- Converting constructor from the opposite order — Matrix/Matrix.hpp:184-201. For opposite layouts the stripes are converted one
by one, otherwise the elements are transposed. -/
def convertOrder [Zero K] (m0 : Mat c K n r o.flip L' p2) (rhs : Mat c K r n o L p) : Mat c K n r o.flip L' p2 :=
  match L', L, m0, rhs with
  | .row, .col, m0, rhs => forUp n 0 (fun s m => ⟨fun s' => if s' = s then Vec.convert id (rhs.stripes s) else m.stripes s'⟩) m0
  | .col, .row, m0, rhs => forUp r 0 (fun s m => ⟨fun s' => if s' = s then Vec.convert id (rhs.stripes s) else m.stripes s'⟩) m0
  | .row, .row, m0, rhs => fillLoop (fun i j => rhs.get j i) m0
  | .col, .col, m0, rhs => fillLoop (fun i j => rhs.get j i) m0

/-- `FlipLayoutAndOrder` — Matrix/Cast.hpp:32-35. -/
def flipLayoutAndOrder [Zero K] (m0 : Mat c K n r o.flip L.flip p) (m : Mat c K r n o L p) : Mat c K n r o.flip L.flip p :=
  convertOrder m0 m

/-- Element list constructor through the recursion `Assign<i, j>` — Matrix/Matrix.hpp:204-208, 355-358. `none`: an element would be
written outside the matrix (the number of elements is fixed by `enable_if` in Matrix.hpp:73). -/
def assignElems (i j : ℕ) (m : Mat c K r n o L p) : List K → Option (Mat c K r n o L p)
  | [] => some m
  | x :: xs =>
    if h : i < r ∧ j < n then
      assignElems (if j ≠ n - 1 then i else i + 1) ((j + 1) % n) (m.set ⟨i, h.1⟩ ⟨j, h.2⟩ x) xs
    else none

/-- `Matrix(const Vector&)` for row and column matrices — Matrix/Matrix.hpp:211-222. `Rows = 1` here. -/
def ofVecRow [Zero K] (m0 : Mat c K 1 n o L p) (v : Vec c K n p2) : Mat c K 1 n o L p :=
  match L, m0 with
  | .row, m0 => ⟨fun s => if s = 0 then Vec.convert id v else m0.stripes s⟩
  | .col, m0 => if n = 1 then ⟨fun s => if s.val = 0 then Vec.ofFn fun _ => v.get s else m0.stripes s⟩
      else forUp n 0 (fun s m => ⟨fun s' => if s' = s then (m.stripes s').set 0 (v.get s) else m.stripes s'⟩) m0

/-- `Row(rowIdx)` — Matrix/Matrix.hpp:300-311. -/
def row (junk : Vec c K n p) (m : Mat c K r n o L p) (i : Fin r) : Vec c K n p :=
  match L, m with
  | .row, m => m.stripes i
  | .col, m => forUp n 0 (fun j v => v.set j (get m i j)) junk

/-- `Column(colIdx)` — Matrix/Matrix.hpp:285-296. -/
def col (junk : Vec c K r p) (m : Mat c K r n o L p) (j : Fin n) : Vec c K r p :=
  match L, m with
  | .col, m => m.stripes j
  | .row, m => forUp r 0 (fun i v => v.set i (get m i j)) junk

/-- `Row(rowIdx, row)` — Matrix/Matrix.hpp:328-337. -/
def setRow (m : Mat c K r n o L p) (i : Fin r) (v : Vec c K n p) : Mat c K r n o L p :=
  match L, m with
  | .row, m => ⟨fun s => if s = i then v else m.stripes s⟩
  | .col, m => forUp n 0 (fun j m => m.set i j (v.get j)) m

/-- `Column(colIdx, column)` — Matrix/Matrix.hpp:315-324. -/
def setCol (m : Mat c K r n o L p) (j : Fin n) (v : Vec c K r p) : Mat c K r n o L p :=
  match L, m with
  | .col, m => ⟨fun s => if s = j then v else m.stripes s⟩
  | .row, m => forUp r 0 (fun i m => m.set i j (v.get i)) m

/-- Conversion of a row matrix to a vector — Matrix/Matrix.hpp:341-350 (`Rows == 1`). -/
def toVecRow [Zero K] (junk : Vec c K n p) (m : Mat c K 1 n o L p) : Vec c K n p2 := Vec.convert id (m.row junk 0)

/-- Conversion of a column matrix to a vector — Matrix/Matrix.hpp:341-350 (`Rows != 1`). -/
def toVecCol [Zero K] (junk : Vec c K r p) (m : Mat c K r 1 o L p) : Vec c K r p2 := Vec.convert id (m.col junk 0)

/-- `Extract<ER, EC>(whereRow, whereCol)` — Matrix/Matrix.hpp:363-373. `none` where the assertions fail. -/
def extract {er ec : ℕ} (m0 : Mat c K er ec o L p) (m : Mat c K r n o L p) (wr wc : ℕ) : Option (Mat c K er ec o L p) :=
  if h : er + wr ≤ r ∧ ec + wc ≤ n then
    some (forUp er 0 (fun i s => forUp ec 0 (fun j s =>
      s.set i j (m.get ⟨i.val + wr, by omega⟩ ⟨j.val + wc, by omega⟩)) s) m0)
  else none

/-- `Insert(whereRow, whereCol, submatrix)` — Matrix/Matrix.hpp:378-386. `none` where the assertions fail. -/
def insert {ir ic : ℕ} (m : Mat c K r n o L p) (wr wc : ℕ) (sub : Mat c K ir ic o L p) : Option (Mat c K r n o L p) :=
  if h : ir + wr ≤ r ∧ ic + wc ≤ n then
    some (forUp ir 0 (fun i m => forUp ic 0 (fun j m =>
      m.set ⟨i.val + wr, by omega⟩ ⟨j.val + wc, by omega⟩ (sub.get i j)) m) m)
  else none

/-- `operator==`, same order — Matrix/Comparison.hpp:26-35. -/
def eq [BEq K] (a : Mat c K r n o L p1) (b : Mat c K r n o L' p2) : Bool :=
  forUp r 0 (fun i e => forUp n 0 (fun j e => e && (a.get i j == b.get i j)) e) true

/-- `operator==`, opposite orders — Matrix/Comparison.hpp:14-23. -/
def eqFlip [BEq K] (a : Mat c K r n o L p1) (b : Mat c K n r o.flip L' p2) : Bool :=
  forUp r 0 (fun i e => forUp n 0 (fun j e => e && (a.get i j == b.get j i)) e) true

/-! ## Products -/

/-- Row-major × row-major — Matrix/Arithmetic.hpp:17-36. -/
def mulRR [CommSemiring K] [NeZero k] (conv : Bool) (m0 : Mat c K r n o .row (p1 && p2))
    (lhs : Mat c K r k o .row p1) (rhs : Mat c K k n o .row p2) : Mat c K r n o .row (p1 && p2) :=
  forUp r 0 (fun i m =>
    forUp k 1 (fun run m => m.setRow i (Vec.asPacked _ (Vec.fma conv (Vec.fill (lhs.get i run) : Vec c K n (p1 && p2))
      (rhs.stripes run) (m.stripes i))))
      (m.setRow i (Vec.asPacked _ (Vec.scalarOp conv (· * ·) (lhs.get i 0) (rhs.stripes 0))))) m0

/-- Row-major × column-major — Matrix/Arithmetic.hpp:39-55. `tb`, `ts`: reduction orders of `Sum`. -/
def mulRC [CommSemiring K] (conv : Bool) (tb : RTree (batchSize k false)) (ts : RTree k) (m0 : Mat c K r n o .row (p1 && p2))
    (lhs : Mat c K r k o .row p1) (rhs : Mat c K k n o .col p2) : Mat c K r n o .row (p1 && p2) :=
  fillLoop (fun i j => Vec.sum tb ts (Vec.mul conv (lhs.stripes i) (rhs.stripes j))) m0

/-- Column-major × any layout — Matrix/Arithmetic.hpp:58-75. -/
def mulC [CommSemiring K] [NeZero k] (conv : Bool) (m0 : Mat c K r n o .col (p1 && p2))
    (lhs : Mat c K r k o .col p1) (rhs : Mat c K k n o L p2) : Mat c K r n o .col (p1 && p2) :=
  forUp n 0 (fun j m =>
    forUp k 1 (fun run m => m.setCol j (Vec.asPacked _ (Vec.fma conv (lhs.stripes run)
      (Vec.fill (rhs.get run j) : Vec c K r (p1 && p2)) (m.stripes j))))
      (m.setCol j (Vec.asPacked _ (Vec.opScalar conv (· * ·) (lhs.stripes 0) (rhs.get 0 j))))) m0

/-- `operator*(Matrix, Matrix)` with the overload chosen by the layouts — Matrix/Arithmetic.hpp:185-191. The result has the
layout of the left operand. -/
def mul [CommSemiring K] [NeZero k] (conv : Bool) (tb : RTree (batchSize k false)) (ts : RTree k)
    (m0 : Mat c K r n o L (p1 && p2)) (lhs : Mat c K r k o L p1) (rhs : Mat c K k n o L' p2) : Mat c K r n o L (p1 && p2) :=
  match L, L', m0, lhs, rhs with
  | .row, .row, m0, lhs, rhs => mulRR conv m0 lhs rhs
  | .row, .col, m0, lhs, rhs => mulRC conv tb ts m0 lhs rhs
  | .col, _, m0, lhs, rhs => mulC conv m0 lhs rhs

/-- `operator*=(Matrix, Matrix)` — Matrix/Arithmetic.hpp:193-199: product into a temporary, then (converting) assignment. -/
def mulAssign [CommSemiring K] [NeZero k] (conv : Bool) (tb : RTree (batchSize k false)) (ts : RTree k)
    (m0 : Mat c K k k o L (p1 && p2)) (m1 : Mat c K k k o L p1) (lhs : Mat c K k k o L p1) (rhs : Mat c K k k o L' p2) :
    Mat c K k k o L p1 :=
  convert m1 (mul conv tb ts m0 lhs rhs)

/-- vector × row-major matrix — Matrix/Arithmetic.hpp:136-147. -/
def vecMulR [CommSemiring K] [NeZero k] (conv : Bool) (lhs : Vec c K k p1) (rhs : Mat c K k n .follow .row p2) :
    Vec c K n (p2 && p2) :=
  forUp k 1 (fun run v => Vec.asPacked _ (Vec.fma conv (Vec.fill (lhs.get run) : Vec c K n (p2 && p2)) (rhs.stripes run) v))
    (Vec.scalarOp conv (· * ·) (lhs.get 0) (rhs.stripes 0))

/-- vector × column-major matrix — Matrix/Arithmetic.hpp:149-160. -/
def vecMulC [CommSemiring K] (conv : Bool) (tb : RTree (batchSize k false)) (ts : RTree k) (v0 : Vec c K n (p1 && p2))
    (lhs : Vec c K k p1) (rhs : Mat c K k n .follow .col p2) : Vec c K n (p1 && p2) :=
  forUp n 0 (fun j v => v.set j (Vec.sum tb ts (Vec.mul conv lhs (rhs.stripes j)))) v0

/-- `operator*(Vector, Matrix)` — Matrix/Arithmetic.hpp:290-296. The result packing differs between the two layouts
(`Packed2` vs. `Packed1 && Packed2`); only the elements are returned here. -/
def vecMul [CommSemiring K] [NeZero k] (conv : Bool) (tb : RTree (batchSize k false)) (ts : RTree k) (v0 : Vec c K n (p1 && p2))
    (lhs : Vec c K k p1) (rhs : Mat c K k n .follow L p2) : Fin n → K :=
  match L, rhs with
  | .row, rhs => (vecMulR conv lhs rhs).get
  | .col, rhs => (vecMulC conv tb ts v0 lhs rhs).get

/-- `operator*(Matrix, Vector)` — Matrix/Arithmetic.hpp:162-176, 299-305: the product with the flipped matrix. -/
def mulVec [CommSemiring K] [NeZero k] (conv : Bool) (tb : RTree (batchSize k false)) (ts : RTree k) (v0 : Vec c K n (p2 && p1))
    (m0 : Mat c K k n .follow L.flip p1) (lhs : Mat c K n k .precede L p1) (rhs : Vec c K k p2) : Fin n → K :=
  vecMul conv tb ts v0 rhs (flipLayoutAndOrder (o := .precede) m0 lhs)

/-- Homogeneous application `Vector<Match-1> * Matrix<Match, Match>` — Matrix/Arithmetic.hpp:314-323: append 1 (`Vector(lhs, 1)`,
the concatenating constructor), multiply, and construct the shorter vector (which divides by the last element;
`Vec.dehomogenize`). Row-major and column-major products differ only in packing, which `q` leaves open. -/
def vecMulHomog [Field K] [DecidableEq K] (conv : Bool) (tb : RTree (batchSize (k + 1) false)) (ts : RTree (k + 1))
    (v0 : Vec c K (k + 1) (p1 && p2)) (q : Bool) (lhs : Vec c K k p1) (rhs : Mat c K (k + 1) (k + 1) .follow L p2) :
    Option (Vec c K k q) :=
  let homogeneous : Vec c K (k + 1) q := Vec.ofFn (vecMul conv tb ts v0 (Vec.homogenize lhs : Vec c K (k + 1) p1) rhs)
  Vec.dehomogenize homogeneous

/-- Homogeneous application `Matrix<Match, Match> * Vector<Match-1>` — Matrix/Arithmetic.hpp:332-341. -/
def mulVecHomog [Field K] [DecidableEq K] (conv : Bool) (tb : RTree (batchSize (k + 1) false)) (ts : RTree (k + 1))
    (v0 : Vec c K (k + 1) (p2 && p1)) (m0 : Mat c K (k + 1) (k + 1) .follow L.flip p1) (q : Bool)
    (lhs : Mat c K (k + 1) (k + 1) .precede L p1) (rhs : Vec c K k p2) : Option (Vec c K k q) :=
  let homogeneous : Vec c K (k + 1) q := Vec.ofFn (mulVec conv tb ts v0 m0 lhs (Vec.homogenize rhs : Vec c K (k + 1) p2))
  Vec.dehomogenize homogeneous

/-- Affine application `Vector<Match-1> * Matrix<Match, Match-1>` — Matrix/Arithmetic.hpp:346-352. -/
def vecMulAffine [CommSemiring K] (conv : Bool) (tb : RTree (batchSize (k + 1) false)) (ts : RTree (k + 1))
    (v0 : Vec c K k (p1 && p2)) (lhs : Vec c K k p1) (rhs : Mat c K (k + 1) k .follow L p2) : Fin k → K :=
  vecMul conv tb ts v0 (Vec.homogenize lhs : Vec c K (k + 1) p1) rhs

/-- Affine application `Matrix<Match-1, Match> * Vector<Match-1>` — Matrix/Arithmetic.hpp:357-363. -/
def mulVecAffine [CommSemiring K] (conv : Bool) (tb : RTree (batchSize (k + 1) false)) (ts : RTree (k + 1))
    (v0 : Vec c K k (p2 && p1)) (m0 : Mat c K (k + 1) k .follow L.flip p1) (lhs : Mat c K k (k + 1) .precede L p1)
    (rhs : Vec c K k p2) : Fin k → K :=
  mulVec conv tb ts v0 m0 lhs (Vec.homogenize rhs : Vec c K (k + 1) p2)

/-! ## Elementwise operations -/

/-- `impl::Elementwise` — Matrix/Arithmetic.hpp:78-98, with a vector functor `func` that is total. `jr`, `jc` are the uninitialised
temporaries of `rhs.Row`/`rhs.Column` for the other layout. -/
def elementwise (func : ∀ {d : ℕ}, Vec c K d p1 → Vec c K d p2 → Vec c K d (p1 && p2)) (jr : Vec c K n p2) (jc : Vec c K r p2)
    (m0 : Mat c K r n o L (p1 && p2)) (lhs : Mat c K r n o L p1) (rhs : Mat c K r n o L' p2) : Mat c K r n o L (p1 && p2) :=
  match L, m0, lhs with
  | .row, m0, lhs => forUp r 0 (fun s m => m.setRow s (func (lhs.stripes s) (rhs.row jr s))) m0
  | .col, m0, lhs => forUp n 0 (fun s m => m.setCol s (func (lhs.stripes s) (rhs.col jc s))) m0

/-- `impl::Elementwise` with a functor that may trap (`std::divides` on vectors): the first undefined stripe makes the whole
operation undefined. (Matrix/Arithmetic.hpp:78-98.) -/
def elementwiseOpt (func : ∀ {d : ℕ}, Vec c K d p1 → Vec c K d p2 → Option (Vec c K d (p1 && p2))) (jr : Vec c K n p2)
    (jc : Vec c K r p2) (m0 : Mat c K r n o L (p1 && p2)) (lhs : Mat c K r n o L p1) (rhs : Mat c K r n o L' p2) :
    Option (Mat c K r n o L (p1 && p2)) :=
  match L, m0, lhs with
  | .row, m0, lhs => forUp r 0 (fun s m => m.bind fun m => (func (lhs.stripes s) (rhs.row jr s)).map fun v => m.setRow s v) (some m0)
  | .col, m0, lhs => forUp n 0 (fun s m => m.bind fun m => (func (lhs.stripes s) (rhs.col jc s)).map fun v => m.setCol s v) (some m0)

/-- `operator+(Matrix, Matrix)` — Matrix/Arithmetic.hpp:226. -/
def add [AddMonoid K] (conv : Bool) (jr : Vec c K n p2) (jc : Vec c K r p2)
    (m0 : Mat c K r n o L (p1 && p2)) (a : Mat c K r n o L p1) (b : Mat c K r n o L' p2) : Mat c K r n o L (p1 && p2) :=
  elementwise (Vec.add conv) jr jc m0 a b

/-- `operator-(Matrix, Matrix)` — Matrix/Arithmetic.hpp:227. -/
def sub [AddGroup K] (conv : Bool) (jr : Vec c K n p2) (jc : Vec c K r p2)
    (m0 : Mat c K r n o L (p1 && p2)) (a : Mat c K r n o L p1) (b : Mat c K r n o L' p2) : Mat c K r n o L (p1 && p2) :=
  elementwise (Vec.sub conv) jr jc m0 a b

/-- `Hadamard(Matrix, Matrix)` — Matrix/Arithmetic.hpp:229. -/
def hadamard [MulZeroClass K] (conv : Bool) (jr : Vec c K n p2) (jc : Vec c K r p2)
    (m0 : Mat c K r n o L (p1 && p2)) (a : Mat c K r n o L p1) (b : Mat c K r n o L' p2) : Mat c K r n o L (p1 && p2) :=
  elementwise (Vec.mul conv) jr jc m0 a b

/-- `operator/(Matrix, Matrix)` — Matrix/Arithmetic.hpp:228. -/
def div [DecidableEq K] [Zero K] [Div K] (conv : Bool) (jr : Vec c K n p2) (jc : Vec c K r p2)
    (m0 : Mat c K r n o L (p1 && p2)) (a : Mat c K r n o L p1) (b : Mat c K r n o L' p2) : Option (Mat c K r n o L (p1 && p2)) :=
  elementwiseOpt (Vec.div conv) jr jc m0 a b

/-- Loops `m.stripes[s] = func(arg.stripes[s])` — `impl::Scalar` (Matrix/Arithmetic.hpp:101-134), unary minus
(Arithmetic.hpp:402-411), `Conj`, `Abs`, `Real`, `Imag` (Matrix/Math.hpp:65-109). -/
def mapStripes (func : ∀ {d : ℕ}, Vec c K d p → Vec c K d p2) (m0 : Mat c K r n o L p2) (a : Mat c K r n o L p) : Mat c K r n o L p2 :=
  forUp (stripeCount L r n) 0 (fun s m => ⟨fun s' => if s' = s then func (a.stripes s) else m.stripes s'⟩) m0

/-- Matrix ∘ scalar for `+`, `-`, `*` — Matrix/Arithmetic.hpp:101-116, 270-273. -/
def opScalar [Zero K] (conv : Bool) (f : K → K → K) (m0 : Mat c K r n o L (p && p)) (a : Mat c K r n o L p) (x : K) :
    Mat c K r n o L (p && p) :=
  mapStripes (fun v => Vec.opScalar conv f v x) m0 a

/-- Scalar ∘ matrix for `+`, `-`, `*` — Matrix/Arithmetic.hpp:119-134, 280-283. -/
def scalarOp [Zero K] (conv : Bool) (f : K → K → K) (m0 : Mat c K r n o L (p && p)) (x : K) (a : Mat c K r n o L p) :
    Mat c K r n o L (p && p) :=
  mapStripes (fun v => Vec.scalarOp conv f x v) m0 a

/-- The same stripe loop with a functor that may trap. (Matrix/Arithmetic.hpp:101-134.) -/
def mapStripesOpt (func : ∀ {d : ℕ}, Vec c K d p → Option (Vec c K d p2)) (m0 : Mat c K r n o L p2) (a : Mat c K r n o L p) :
    Option (Mat c K r n o L p2) :=
  forUp (stripeCount L r n) 0 (fun s m => m.bind fun m => (func (a.stripes s)).map fun v =>
    ⟨fun s' => if s' = s then v else m.stripes s'⟩) (some m0)

/-- Matrix / scalar — Matrix/Arithmetic.hpp:271. -/
def divScalar [DecidableEq K] [Zero K] [Div K] (conv : Bool) (m0 : Mat c K r n o L (p && p)) (a : Mat c K r n o L p) (x : K) :
    Option (Mat c K r n o L (p && p)) :=
  mapStripesOpt (fun v => Vec.divScalar conv v x) m0 a

/-- Scalar / matrix — Matrix/Arithmetic.hpp:281. -/
def scalarDiv [DecidableEq K] [Zero K] [Div K] (conv : Bool) (m0 : Mat c K r n o L (p && p)) (x : K) (a : Mat c K r n o L p) :
    Option (Mat c K r n o L (p && p)) :=
  mapStripesOpt (fun v => Vec.scalarDiv conv x v) m0 a

/-- Unary minus — Matrix/Arithmetic.hpp:402-411. -/
def neg [Ring K] (conv : Bool) (m0 : Mat c K r n o L (p && p)) (a : Mat c K r n o L p) : Mat c K r n o L (p && p) :=
  mapStripes (fun v => Vec.neg conv v) m0 a

/-- `Conj` — Matrix/Math.hpp:102-109. -/
def conj [Zero K] [Star K] (conv : Bool) (m0 : Mat c K r n o L p) (a : Mat c K r n o L p) : Mat c K r n o L p :=
  mapStripes (fun v => Vec.conj conv v) m0 a

/-- `Transpose` — Matrix/Math.hpp:278-286 (`result(j, i) = m(i, j)`). -/
def transpose (m0 : Mat c K n r o L p) (m : Mat c K r n o L p) : Mat c K n r o L p :=
  forUp r 0 (fun i t => forUp n 0 (fun j t => t.set j i (m.get i j)) t) m0

/-- `ConjTranspose` — Matrix/Math.hpp:290-293. -/
def conjTranspose [Zero K] [Star K] (conv : Bool) (m0 m1 : Mat c K n r o L p) (m : Mat c K r n o L p) : Mat c K n r o L p :=
  conj conv m1 (transpose m0 m)

/-! ## Reductions -/

/-- `Sum(m)` — Matrix/Math.hpp:54-61. -/
def sum [AddCommMonoid K] (tb : RTree (batchSize (stripeDim L r n) false)) (ts : RTree (stripeDim L r n)) (m : Mat c K r n o L p) : K :=
  forUp (stripeCount L r n) 0 (fun s acc => acc + Vec.sum tb ts (m.stripes s)) 0

/-- `Min(m)` — Matrix/Math.hpp:17-24. -/
def minElem [LinearOrder K] [NeZero (stripeCount L r n)] (tb : RTree (batchSize (stripeDim L r n) false)) (ts : RTree (stripeDim L r n))
    (m : Mat c K r n o L p) : K :=
  forUp (stripeCount L r n) 1 (fun s acc => min acc (Vec.minElem tb ts (m.stripes s))) (Vec.minElem tb ts (m.stripes 0))

/-- `Max(m)` — Matrix/Math.hpp:28-35. -/
def maxElem [LinearOrder K] [NeZero (stripeCount L r n)] (tb : RTree (batchSize (stripeDim L r n) false)) (ts : RTree (stripeDim L r n))
    (m : Mat c K r n o L p) : K :=
  forUp (stripeCount L r n) 1 (fun s acc => max acc (Vec.maxElem tb ts (m.stripes s))) (Vec.maxElem tb ts (m.stripes 0))

/-- `Trace(m)` — Matrix/Math.hpp:155-162. -/
def trace [AddCommMonoid K] (tb : RTree (batchSize n false)) (ts : RTree n) (v0 : Vec c K n p) (m : Mat c K n n o L p) : K :=
  Vec.sum tb ts (forUp n 0 (fun i v => v.set i (m.get i i)) v0)

/-- `NormSquared(m) = Sum(Real(Hadamard(m, Conj(m))))` — Matrix/Math.hpp:113-116; `re` is `Real` on elements. -/
def normSquared [NonUnitalNonAssocSemiring K] [Star K] (re : K → K) (conv : Bool)
    (tb : RTree (batchSize (stripeDim L r n) false)) (ts : RTree (stripeDim L r n)) (jr : Vec c K n p) (jc : Vec c K r p)
    (m0 : Mat c K r n o L p) (m1 m2 : Mat c K r n o L (p && p)) (m : Mat c K r n o L p) : K :=
  sum tb ts (mapStripes (fun v => Vec.doUnary conv re v) m2 (hadamard conv jr jc m1 m (conj conv m0 m)))

end Mat
end Mathter
