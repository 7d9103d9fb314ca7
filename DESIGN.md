# Formal model of Mathter — design

Target: petiaccja/Mathter (C++17, header only), sources under `/repo/include/Mathter`.
Prover: Lean 4.33.0 with Mathlib; project in `/verif/lean`, modules under `Verif/`.

## 1. Layout of the development

* `Verif/Model/*.lean` — executable (total) model, function by function. Every definition cites the file and
  lines it models and says where it simplifies.
* `Verif/Spec/*.lean` — small independent specifications (mostly Mathlib notions: `Matrix.det`, `Matrix` product,
  `Quaternion ℍ[R]`, sums over `Fin n`, Bernstein polynomials).
* `Verif/Lemmas/*.lean` — helper lemmas (loop induction, storage lemmas).
* `Verif/Props/*.lean` — the property theorems, one file per area, named `Cnn_…`; each is followed by an `example`
  showing that its hypotheses are met by a concrete non-trivial case. Where the code violates a property the file
  holds the negation with a witness (`Cnn_…_violated`) and the `_partial` theorem that does hold.

## 2. How the code is abstracted

* **Scalars.** Most of the model is parametric in an algebraic structure: `CommRing`, `Field`, a linearly ordered
  field, `ℝ`, or `RCLike 𝕜` (ℝ or ℂ) when conjugation/square roots are involved. This is exact arithmetic; `CommRing`
  theorems also cover unsigned wraparound (`ZMod (2^n)`).
* **Floating point.** Four further models, used only by the properties that are about rounding:
  * `namespace Fl` — every operation is followed by a rounding function `fl`. The theorems hold for each `fl` with
    relative error at most `u` (`Rounding fl u`) or, where stated, for round-to-nearest in precision `p`
    (`RoundsToNearest p fl`; `Spec/Rounding.lean` shows such functions exist). No overflow, no underflow. `fma` rounds
    once. `MultiplyAdd`/`madd` and `a - b*c` may or may not be fused: the model takes any value that is one or the other
    (`IsMulAdd`, `IsMulSub`), independently for each operation (C19, C74–C76, C82–C84, C99–C104, C106, C111–C116, C119,
    C120, C124, C125, C128–C130, C132–C142, C144–C147, C149–C153, C155–C157). C142 uses the same models with a rounding that underflows gradually (`Spec/Underflow.lean`).
  * `namespace Rg` — rounding with an exponent range, overflow being an outcome of its own (`Spec/Range.lean`; C77, C78, C131).
  * `Fx` and `namespace Ie` — NaN, ±∞ and real numbers, with the IEEE rules for NaN and infinities and an arbitrary
    rounding (to an infinity on overflow) of real results; signed zeros are identified (`Model/Ieee.lean`; C92–C97, C109, C110,
    C117, C118, C121–C123).
  * "undefined" values (`none`) for `0/0`, NaN and integer division by zero where exact arithmetic has no answer
    (`Normalize` of zero, SVD of the zero matrix, vector division).
* **Build configuration.** `Cfg` says, for a scalar type, which lane counts have an xsimd batch
  (`make_sized_batch` non-void). `MATHTER_ENABLE_SIMD` off is the configuration with none. Theorems quantify over
  every configuration.
* **Vectors.** A vector is its storage: `Fin (storageSize cfg dim packed) → K`, padding lanes included. Padding and
  uninitialised temporaries are universally quantified `junk` values.
* **Undefined behaviour.** Out-of-range table/array access and integer division by zero are the outcome `none`
  (or an explicit constructor); throwing is an explicit error outcome.
* **Matrices.** Storage-level model: array of stripe vectors selected by layout. Element access, conversions,
  products and elementwise arithmetic are modelled at this level, on top of the vector model. Algorithms that only
  use `m(i,j)` (determinant, LU, QR, …) are modelled on index functions `Fin r → Fin c → K`, justified by the
  storage-level access laws (C20).
* **Loops.** Counted loops are folds over the index list, the state being the tuple of mutated locals.
* **Templates.** Template parameters are ordinary parameters; `static_assert`s become hypotheses/types; overload
  resolution is resolved by hand and recorded in the comment of the definition.

## 3. What is modelled and how it is proved, per property

Statuses and theorem names are in `MANIFEST.json`, full statements in `properties.jsonl`.

| Property | Model | Proof |
|---|---|---|
| C01 elementwise ops | `Model/Vector`: `doUnary/doBinary/doTernary` with both code paths | pointwise, case split on path |
| C02 division | lane division with trap outcome | iff statement on visible lanes |
| C03 reductions | `Model/VectorReduce`: arbitrary reduction tree over lanes after masking | induction over the tree, permutation invariance |
| C04 comparison | `std::equal` over the visible range | list/`∀ i` equivalence |
| C05–C08, C71 swizzles | `Model/Swizzle`: `linearize`, `delinearize`, `blend`, both paths; implicit copy assignment | pointwise; negations for C05 (assert), C07, C08, C71 with witnesses; partial for injective index lists |
| C09 tables | the generator program as a function, and the generated tables (`Model/SwizzleTable`) | bijection with tuples for every alphabet and length |
| C10–C12, C80, C81 constructors | `Model/Element`, `Model/Construct` | induction over the part list; pointwise |
| C13–C15 lengths | `Model/VectorMath` over `RCLike` | inner-product identities; undefined value for zero input |
| C16 cross | `crossND`, 2D, 3D | Laplace expansion along the last row; negation and exact condition for dim ≥ 6 |
| C17 Gram–Schmidt | fold over list | loop invariant (orthogonality, span) |
| C18 clamp | linear orders | order reasoning |
| C19 compensated sums | rounding to nearest | error-free transformation, loop invariant |
| C20–C22 access | `Model/Matrix`, storage level | case split on layout |
| C23–C27 arithmetic | storage-level kernels | sums; Mathlib `Matrix` |
| C28, C30 small det/inverse | transcription of formulas | `ring` against `Matrix.det` |
| C29 Bareiss | loop transcription incl. the reference aliasing | negation witness; partial under nonzero leading minors (Sylvester's identity); otherwise the rows become multiples of one and the result is 0, so the condition is exact |
| C31–C36 inverse, LU/LUP | `Model/LinearSolve` | loop invariants |
| C37–C39 QR/LQ | `Model/QR`, Householder loop | invariants over `RCLike`; least-squares optimality |
| C40–C43 SVD | `Model/SVD`: sweeps of rotations, fuel instead of an unbounded loop | invariant `U X V = A`; negations for early exit, complex, zero and negative values |
| C44–C50 quaternions | `Model/Quaternion`: 4-lane storage, two layouts | refinement to Mathlib quaternions; trigonometry |
| C51–C58 builders | `Model/Transforms`: index functions, both orders | pointwise, trigonometric identities |
| C59–C64 geometry | `Model/Geometry` over ℝ / ordered fields | algebra; soundness and completeness |
| C65–C68 text | `Model/IoStream`: character lists | round trip by induction on the element list; negations |
| C69–C70 utilities | `Model/Utility` | induction / algebra |
| C72, C73 swizzle arithmetic, compound assignment | `Model/SwizzleArith` | reduction to C01, C05, C06 |
| C74, C75 FMTA, 3D cross | `Model/Fma`, rounded | Kahan's argument, relative error ≤ 2u + … |
| C76 sums, dot, length | `Model/RoundedReduce`, any reduction tree | error growth `(1+u)^n - 1` over the depth of the tree |
| C77, C78 precise length | `Model/RangeReduce`, rounding with range | magnitude bounds step by step |
| C79 Random | generator as a state function | loop invariant |
| C82–C84 matrix products, solvers, LU/LUP | `Model/RoundedLinear` | backward error analysis (Wilkinson), any order of fused/unfused operations |
| C85 progress and end of the SVD loops | `Model/SVD` | exact change of the off-diagonal mass by one rotation, sum over a sweep, pigeonhole on finitely many floats |
| C86 FlipOrder, SetOrder | `Model/Elementwise` | elements are transposed or kept; the transform of a matrix is a separate definition (`applyTo`) |
| C87 Abs, Real, Imag, Conj, Sqrt, Fill | `Model/Elementwise` | lane-wise application (C01) with the identities of ℝ and ℂ |
| C88 compound assignments of matrices, `v *= M` | `Model/Elementwise` | reduced to the binary operators (C24–C26); the target is written only after the result is complete |
| C89 `!=`, comparison of swizzles and letters | `Model/Elementwise` | induction-free, over the elements; NaN not modelled |
| C90 Abs of integers | `Model/Elementwise` | two's complement `BitVec w`; violated at the smallest integer |
| C91 common type of mixed arguments | `Model/CommonType` | types as data, the usual arithmetic conversions of an LP64 target; violated for mixtures with complex types |
| C92 NaN in sums and lengths | `Model/Ieee` | values NaN, ±∞ and reals with an arbitrary rounding; any reduction tree |
| C93 infinite elements in lengths | `Model/Ieee` | as C92 |
| C94 fallback of NormalizePrecise | `Model/Ieee` | violated for vectors with NaN or infinite elements; finite vectors proved |
| C95 Min, Max, Clamp with NaN and ∞ | `Model/Ieee` | `xsimd::min/max` only assumed correct on numbers, and to return one of the operands otherwise; violated with NaN |
| C96 equality with NaN | `Model/Ieee` | over the elements |
| C97 SumCompensated with ∞ | `Model/Ieee` | violated: NaN instead of ∞ |
| C98 compound assignments, `!=`, literals of quaternions | `Model/QuaternionAssign` | against Mathlib's quaternions; conversions between scalar types are arbitrary functions |
| C99 rounding of quaternion products and rotations | `Model/RoundedQuaternion` | standard rounding model without overflow/underflow; error in the quaternion norm |
| C100 backward stability of QR and LQ | `Model/RoundedQR` | rounding model without overflow/underflow; columnwise backward error against an exactly orthonormal matrix |
| C101 backward stability of `DecompositionQR::Solve` | `Model/RoundedQR`, `Model/RoundedLinear` | combines C100, C82 (product) and C83 (back substitution) |
| C102 rounding of the closed-form determinants | `Model/RoundedDeterminant` | rounding model as C100; error against the permanent of the absolute values |
| C103 rounding of the closed-form inverses | `Model/RoundedDeterminant` | cofactor errors as C102, exact values by C30 |
| C104 rounding of the one-sided SVD | `Model/RoundedSVD` | backward error of one plane rotation, induction over pairs and sweeps; the result is compared with exactly orthogonal rotations; relative errors through the quadratic formula bound what a rotation leaves of the off-diagonal element; not: the branch that completes U by a QR decomposition, complex elements |
| C105 shapes of the transform builders | `Model/BuilderShapes` | table of the conversion operators against the shapes that can represent the transform; **violated** by the general shear |
| C106 rounding of the two-sided SVD | `Model/RoundedSVDTwo` | the kernel's four outcomes each give near-unit cosines and sines; backward error of one two-sided rotation in the Frobenius norm (`Spec/Frobenius`), induction over pairs and sweeps; what the kernel leaves off the diagonal is bounded step by step (RQ, triangular, scaled orthogonal); termination because the reported errors are floats above the tolerance; not: convergence rate in floating point for more than two rows, complex elements |
| C107 machine integers: operators | `Model/MachineInt` | values as ℤ with the ranges of their types; `conv` is the representative modulo 2^bits, unique in the range; three violations by evaluation of small vectors |
| C108 machine integers: sums | `Model/MachineInt` | induction over the reduction tree in `Option ℤ` |
| C109 the SVD loops end | `Model/IeeeSVD` | the error of a sweep is never NaN (`std::max` drops NaN) and lies in a finite set, in which it must decrease; any kernel |
| C110 SVD of NaN, infinities, null | `Model/IeeeSVD` | one-sided: a NaN spreads to all columns in the first sweep; two-sided: **violated**, partial for the diagonal, infinities and null |
| C111 rounding of quaternion ↔ matrix | `Model/RoundedConversion` | element-wise against the exact rotation; back: relative errors in units of (u+ε)/s², **violated** next to half turns |
| C112 rounding of complex sums, products, lengths | `Model/RoundedComplex`, `Model/RoundedComplexQR` (`LengthPrecise`, `DistancePrecise`) | parts of a tree sum are tree sums of the parts (C76); products by `Near` |
| C113 complex compensated sums | `Model/RoundedComplex` | **violated**: moduli do not order the parts; partial for real elements, first-order bound in general |
| C114 interpolation in floating point | `Model/RoundedGeometry` | simulation of the rounded by the exact loops of `PointAt`; end points exact |
| C115 interpolation stays in bounds | `Model/RoundedGeometry` | **violated**: a constant segment is left by one unit in the last place; partial up to the rounding error |
| C116 planes and lines in floating point | `Model/RoundedGeometry` | residual of the plane's equation at the returned point |
| C117 NaN in matrix algebra | `Model/IeeeLinear` | invariants of the loops: a NaN stays in the working matrices and reaches the right-hand side; any rounding function |
| C118 NaN in large determinants | `Model/IeeeLinear` | **violated**: a zero first column gives zero; partial for a NaN anywhere if no pivot is zero (`C118_pivots_partial`), and for one in the first row |
| C119 rotations and shears in floating point | `Model/RoundedTransforms` | element-wise errors of the matrices; products of nearly orthogonal matrices (C82) and quaternions (C99) |
| C120 projections in floating point | `Model/RoundedTransforms` | relative errors of scale, offset and the elements of the perspective matrix |
| C121 NaN in intersections | `Model/IeeeGeometry` | the NaN reaches the parameter of the point; false for two segments (witness) |
| C122 rays and segments with NaN | `Model/IeeeGeometry` | comparisons with NaN are false; false for triangles |
| C123 NaN in measurements | `Model/IeeeGeometry` | NaN through sums, lengths, loops; false for directions (fallback of `NormalizePrecise`) |
| C124 finite results are accurate | `Model/Ieee`, `Model/IeeeLinear`, linked to the `Fl` models by `Lemmas/IeeeFinite` | infinities and NaN stay in the result (`NF`); a finite result equals that of the model without overflow (`Tracks`), to which C76, C82–C84 and C102 apply |
| C125 finite solutions and inverses | same | with finite factors; false if the factors overflow (witnesses) |
| C126 integer matrices: products, traces, small determinants | `Model/MachineMatrix` | a value congruent to the exact one and in range (`Res`, `VRes`) is carried through each operation; bounds for definedness |
| C127 integer determinants by Bareiss | `Model/MachineMatrix` | the matrix before each iteration consists of bordered minors (`BareissInv`), numerators are products of two; false in general (witnesses) |
| C128 range of the one-sided SVD | `Model/IeeeSVD` | each operation on the scaled matrix has a bounded operand (`Fits`), so it is the one of the rounded model without overflow (`one_link`); the bounds of rotated rows come from the error analysis of C104; what remains is the multiplication by the scale |
| C129 rounding of ray and triangle | `Model/RoundedTriangle` | triple products with relative cross products (C75) and dot products (C76); Cramer's rule turns the residuals of the three quotients into the distance of the points |
| C130 rays through common edges | `Model/RoundedTriangle` | false: in `float` and in `double` the ray through (4, 27) misses both halves of a square with side 31, because 1/961 is rounded up; holds in exact arithmetic by C64 |
| C131 range of `NormPrecise` | `Model/RangeNorm` (`normPreciseReal`, `normPreciseComplex`) | the scaled elements are at most 1 and one of them is 1; the root of any sum of their rounded squares is in range (`root_range`, also behind C77); invariant of the loop over stripes |
| C132 rounding of `Triangle::Area`, `Centroid` | `Model/RoundedArea` | relative errors of the factors of Heron's formula if no side is nearly half of the perimeter (`C132_area_partial`); **violated** for thin triangles: `C132_area_violated` gives a triangle of floats with area above 131072 whose computed area is NaN for every rounding to nearest; the centroid has three roundings |
| C133 rounding of `GramSchmidtOrthogonalize`, `NormalizePrecise` | `Model/RoundedGram` | normwise error of one projection step from the errors of `Dot` (C76) and `NormalizePrecise` (`C133_normalize`), then induction over the loops: `C133_span` (reconstruction), `C133_defined` (exactly when a division by zero occurs), `C133_orthogonal_partial`, `C133_two_partial` (inner products small relative to the *inputs*); orthogonality relative to the outputs is **violated**: `C133_orthogonal_violated`, two nearly parallel float vectors give results at 45° for every rounding to nearest |
| C134 rounding of `LookAt` | `Model/RoundedLook` | from the step errors of C133, the componentwise accuracy of `Cross` (C75) and of `NormalizePrecise` (`C133_normalize`): in the plane everything is within a few roundings (`C134_plane`); in space the side and look columns are, whatever the up vector (`C134_space_partial`), and the up column is with an error inversely proportional to the sine of the angle between up vector and look axis; for tiny angles its orthogonality is **violated** (`C134_up_violated`, 45° instead of 90°); `C134_translation` for the last row or column |
| C135 rounding of `Angle`, `Axis`, `Exp`, `Log`, `Pow` | `Model/RoundedQuatExp` | `<cmath>` is a parameter with a bound on its relative errors (`C135_library` shows that correctly rounded functions meet it); perturbation bounds of `arg`, `sin`, `cos` and `arccos`: `C135_angle`, `C135_axis`, `C135_exp` for all quaternions; `C135_log_partial` with an error of the vector part proportional to `|q| / |v|` and at most of the order of the square root of the roundoff; `C135_pow_partial` carries that over to `Pow` with any exponent and `C135_zpow_partial` compares with the integer powers in the quaternion algebra (`C135_polar`); near the identity `Log` is exactly 0 and `Pow` exactly 1 (`C135_small`), so the property is **violated** (`C135_pow_violated`) |
| C136 rounding of `DecompositionSVD::Solve` and `Inverse` | `Model/RoundedSVDSolve` | the products are parameters (`C136_product`: those of the code qualify); `IsNearSVD` is what the computed factors satisfy (`C136_two_sided`, from C106); perturbation argument in the Frobenius norm: `C136_solve_precede`, `C136_solve_follow` (nearly least squares), `C136_residual_precede`, `C136_residual_follow` (square), `C136_inverse_tall`, `C136_inverse_wide` |
| C137 rounding of lines and segments through points and of their intersections | `Model/RoundedSegment` | `C137_direction`, `C137_length`, `C137_interpol_of` (every dimension); the computed line of the first operand is a plane, C116 gives the error of the equation, the range check bounds the parameter: `C137_lines`, `C137_segments_partial`; crossings with a margin are found: `C137_found_partial`; `C137_shared_end_violated`: two edges of a triangle with integer corners miss their common corner in single precision; `C137_dot` shows that `Dot` is exact on multiples of a power of two in any order |
| C138 paths of segments through a plane | `Model/RoundedSegment`, `Model/Geometry` | induction on the path, with C62, in exact arithmetic: `C138_path_exact_partial`; the parameter is bounded by the computed distance, the residual is that of C116: `C138_reported_partial`; crossings with a margin are found: `C138_found_partial`; `C138_missed_violated`: in single and in double precision a path through the origin passes the plane y = -2^-60 unnoticed |
| C139 digits of floats in texts | `Model/IoStream`, `Spec/Decimal` | a float survives P decimal digits if 2^p < 10^(P-1) (distance of neighbouring numbers with p digits in any base, `digits_round_trip`), on top of C65, C66, C68: `C139_vector_partial`, `C139_matrix_partial`; errors for any number of digits: `C139_vector_near`, `C139_matrix_near`, `C139_quaternion_near`; texts survive floats: `C139_digits_kept`; `C139_default_violated`: the default precision of streams loses 16777201. That streams print the nearest decimal and read the nearest float is the hypothesis `PrintsDigits`; `decimalIO_prints` gives a format that does |
| C140 finite quaternion results | `Model/IeeeQuaternion`, `Model/Ieee` | the evaluation with infinities and NaN tracks the rounded one of C99: finite elements of products are accurate (`C140_mul`); `C140_inverse_partial`, `C140_rotate_partial`, `C140_normalize_partial`, `C140_normalize_quat_partial`: so are those of inverses, rotated and normalised values as soon as one element is finite and not zero; `C140_inverse_violated`, `C140_rotate_violated`, `C140_normalize_violated`: when the square of an element overflows, the results are zeros |
| C141 finite intersections | `Model/IeeeGeometry`, `Model/RoundedSegment` | the evaluation with infinities and NaN tracks the rounded one: finite distances, points and intersections are accurate, for planes and lines or rays without further hypotheses (`C141_distance`, `C141_point_at`, `C141_plane_line`, `C141_plane_ray`, `C141_parallel`), for two lines if the coordinate differences do not overflow (`C141_lines`); `C141_segments_partial`, `C141_plane_segment_partial`, `C141_ray_triangle_partial`: for segments of finite length and for triangles if no product is NaN; `C141_false_hit_violated`, `C141_missed_violated`, `C141_segment_end_violated`, `C141_direction_violated`: otherwise the code reports points far outside, misses intersections and returns a direction unrelated to the points |
| C142 underflow | `Spec/Underflow`; the rounded models with a rounding that underflows gradually | values are multiples of the smallest number, so sums of floats round as without underflow: `C142_sum`, `C142_compensated` (equal results, usual bounds); products lose half of the smallest number: `C142_dot`, `C142_length_squared`, `C142_mul`, `C142_vec_mul`, `C142_mul_vec`, `C142_qmul_elements`, `C142_qmul`, with overflow as well `C142_ieee_dot`; square roots never underflow, so `C142_length_partial`, `C142_distance_partial`, `C142_ieee_length_partial` have an absolute error of about the square root of the smallest number; `C142_length_violated`, `C142_normalize_violated`, `C142_inverse_violated`: below that, the length is zero and the assertions of `Normalize` and `Inverse` fail |
| C143 QR or LQ | `Model/QRorLQ`: the compile-time choice as a function of shape and order; calls that do not compile are `none` | `C143_factors`, `C143_inverse` for every shape and order, from C37–C39; `C143_solve_precede_partial`, `C143_solve_follow_partial` (at least as many equations as unknowns), `C143_square_many`; `C143_underdetermined`: otherwise `Solve` does not compile; `C143_advice_violated`: although the error message recommends this function for just that case |
| C144 complex products | `Model/RoundedComplexMatrix`: the products at storage level, both formulas of `madd` for complex numbers | `C144_mul`, `C144_vec_mul`, `C144_mul_vec`: at most two rounding errors per step of the accumulation; `C144_parts_can_vanish`: no bound relative to the part itself |
| C145 planes, lines and rays, rounded | `Model/RoundedGeometry`, `Model/RoundedSegment` | error of numerator and denominator of the parameter, then of the point: `C145_line_found`, `C145_ray_found`; the parameter has the right sign: `C145_ray_missed`; residual as in C116: `C145_ray_reported` |
| C146 complex LU, rounded | `Model/RoundedComplexLinear` | the invariants of C83 and C84 with moduli instead of absolute values; they no longer use that x / x is exactly 1: `C146_upper`, `C146_lower`, `C146_lu`, `C146_lup`, `C146_*solve*`, `C146_inverse`; the assumed accuracy holds for the textbook formulas: `C146_division`, `C146_modulus` |
| C147 small complex determinants and inverses, rounded | `Model/RoundedComplexDeterminant` | one complex product, sum or difference counts three rounding errors of the modulus; then as C102 and C103: `C147_det2`, `C147_det3`, `C147_det4`, `C147_inv2`, `C147_inv3`, `C147_inv4` |
| C148 SVD of every shape | `Model/SVDShape`: the dispatch of `DecomposeSVD` and `Solve(Vector)` | cases on the shape and C43: `C148_ends`, `C148_inverse`, `C148_vector_precede_partial`, `C148_vector_follow_partial`, `C148_one_sided`; **violated** for the shapes whose loop in `Solve` runs too far: `C148_vector_violated` (does not compile), `C148_many_violated` |
| C149 unit-vector assertions | `Model/RoundedAssert`: the constructors of lines, rays and planes with their assertions (`none` stops the program) | bounds of the rounded length of a normalised vector: `C149_accepted`, `C149_through`, `C149_segment`, `C149_plane`, `C149_to_line_partial`, `C149_convert_partial`, `C149_length`, `C149_null`; **violated** for vectors from elsewhere that are only nearly normalised: `C149_convert_violated`, `C149_tolerance_violated` |
| C150 complex QR rounding | `Model/RoundedComplexQR`: the reflections of complex matrices, every operation rounded; modulus and quotients by reals any functions accurate to a few units | the exact reflections of the same pivots against the computed ones, column by column: `C150_backward`, `C150_lq`; `C150_division` and `C146_modulus` show that the textbook operations qualify |
| C151 complex least squares rounding | `Model/RoundedComplexLeastSquares`: `ConjTranspose(Q) * b` at storage level, then back substitution | C150, C144 and C146 combined; the residual is orthogonal to the columns of the exact `Q`: `C151_solve`, `C151_regular` |
| C152 rounding of determinants from dimension 5 | `Model/RoundedBareiss`: `BareissAlgorithm` with rounding after every operation; the pivot search is that of `Model/Determinant` | false: `C152_violated` (a pivot of `2^(-p-2)`, in every dimension from 5). The quotients of the entries by the previous pivots follow Gaussian elimination: `C152_backward_partial` bounds the error relative to the product of the absolute values of the triangular factors; dominance of the diagonal is kept by every rounded step up to a factor, which bounds the factors: `C152_columns_partial`, `C152_rows_partial`; replacing the columns one by one with Cramer's rule gives the relative error: `C152_accuracy_partial`; `C152_exact_partial` for integers with small minors |
| C153 rounding of determinants of complex matrices from dimension 5 | `Model/RoundedComplexBareiss`: `BareissAlgorithm` with a rounded product difference `op` and a division `dv`; the pivot search is that of `Model/Determinant` | false: `C153_violated` (as C152, whatever the division). `C153_backward_partial` bounds the error relative to the product of the moduli of the triangular factors; for matrices dominated by their diagonal `C153_columns_partial` and `C153_rows_partial` bound it by the matrix and `C153_accuracy_partial` relative to the determinant |
| C154 accuracy of the constants and of `Rad2Deg`, `Deg2Rad` | `Model/RoundedUtility`: the decimal literals, rounded to `long double` and then to the format; the conversions with a rounded division and product | `C154_pi`, `C154_pi_half`, `C154_pi_fourth`, `C154_e`, `C154_sqrt2`, `C154_sqrt_half` (the gap between neighbouring numbers of the format, and the bounds on the constants in Mathlib); `C154_rad2deg`, `C154_deg2rad`, `C154_round_trip`. Not covered: a `long double` of 113 bits as the format of the result (Mathlib knows only 20 digits of π and e); complex arguments |
| C155 rounding of `Normalize`, `NormalizePrecise`, `GramSchmidtOrthogonalize` of complex vectors | `Model/RoundedComplexGram`: the functions with rounded parts, quotients accurate to six rounding errors (C146, C150) | `C155_normalize`, `C155_normalizePrecise`, `C155_defined`, `C155_span`, `C155_orthogonal`, `C155_two` (`Lemmas/RoundedComplexGram`: one projection has errors relative to the vector it is applied to; induction over the earlier vectors). The errors are relative to the inputs; that orthogonality relative to the outputs fails is C133. Not covered: overflow and underflow |
| C156 rounding of `Sum`, `Trace`, `NormSquared`, `Norm` of matrices | `Model/RoundedMatrixNorm`: the loops over the stripes with the rounded sums of vectors (C76, C112), element-wise products rounded | `C156_sum`, `C156_trace`, `C156_normSquared`, `C156_norm` and the same with `_complex` (the stripes add at most r + n roundings to each element, in either layout). Not covered: overflow and underflow (for `NormPrecise` see C131) |
| C157 exactness of sums and products of small integers in floating point | the models of C75, C76, C82, C99, C102 and C156 (`Model/Fma`, `Model/RoundedReduce`, `Model/RoundedQuaternion`, `Model/RoundedLinear`, `Model/RoundedDeterminant`, `Model/RoundedMatrixNorm`) | `C157_sum`, `C157_dot`, `C157_length`, `C157_distance`, `C157_mul`, `C157_vec_mul`, `C157_mul_vec`, `C157_matrix_sum`, `C157_trace`, `C157_norm`, `C157_det2`, `C157_det3`, `C157_cross`, `C157_quaternion_mul`; `C157_sharp` (every intermediate result is a multiple of the same power of two and at most the sum of the absolute values, hence a float). Not covered: overflow and underflow |
| C158 NaN, infinities and overflow in `Sum`, `Trace` and `Norm` of real matrices | `Model/IeeeMatrixNorm` over `Model/Ieee` | `C158_sum_nan`, `C158_trace_nan`, `C158_norm_nan`, `C158_norm_nonneg`, `C158_norm_inf`; `C158_sum_finite`, `C158_trace_finite`, `C158_norm_finite` (every value that stays finite is the value of C156). Not covered: complex elements, `NormPrecise` |

## 4. Trusted base

* Lean's kernel; axioms `propext`, `Classical.choice`, `Quot.sound` only (checked with `#print axioms`).
* The reading of the C++ in the comments of the model: nothing ties the model to the code mechanically. `/repo` is not
  built or run.
* xsimd operations are assumed to act lane-wise (arithmetic, `select`, `swizzle`, `min`, `max`, `abs`, …), `reduce_*` to
  combine all lanes once in some order. Nothing else is assumed about xsimd.
* The standard library: `std::equal`, `std::reduce` (any order), `std::sqrt`, `std::sin`, `std::acos`, … are their
  mathematical counterparts; `std::sort` is any sorting permutation; streams are character lists in the "C" locale.

### Not modelled

* Machine integers outside vector operators, sums, matrix products and determinants (C90, C107, C108, C126, C127) other than through
  `CommRing`; loop-counter overflow in `ForUnrolled`.
* NaN and infinities as data, except in vector functions (C92–C97), the loops of the SVD (C109, C110) matrix algebra (C117, C118), geometry (C121–C123, C141) and quaternions (C140); signed zeros (except where the SVD depends on the sign
  of zero) and, outside C77, C78, C131 and C142, underflow.
* Type-level machinery: `TypeTraits.hpp`, `enable_if` conditions, common types (only recorded in comments when they select
  an overload), deduction guides, compile-time errors. The `conj`/`sqrt` functors for complex batches declare a real
  return type, `v * v.x` hits a `static_assert`, `SplitArray` compiles for `char` only, `DecompositionLQ::Solve(Matrix)`
  can be instantiated for square matrices only: these are compile-time matters outside the model.
* Object lifetime of the unions of swizzles (the code relies on common initial sequences of standard-layout structs).
* The `assert`s of geometry, except those of the constructors (C149); they are stated as hypotheses where needed.
* Number printing and parsing: the text of a number is that of an abstract printing function with its parser (for floats with the digits of
  the nearest decimal number, C139); `int8` elements print as characters in C++ and are excluded.

## 5. Simplifications worth knowing

* `Sum` in the scalar path is `std::reduce` with the initial value `T{}`; the exact model leaves the neutral element out,
  the rounded models include it.
* SVD: the while loop is bounded by fuel and theorems quantify over all fuels; the order in which singular values are sorted
  is a parameter (any permutation); the value of `sign(±0)` is an oracle (`ZeroSigns`) over which theorems quantify; storage
  layouts are not modelled there; dividing by zero is the outcome `none`.
* Algorithms that only use `m(i,j)` (determinants, LU, QR, SVD, builders) work on index functions; C20 justifies it.
* `Random`: the generator is any function from states to (value, state).
* Text: the nesting depth of brackets is unbounded in the model (an `int` in the code).

## 6. Where code and documentation disagree

Each item is a theorem with a concrete witness unless marked (note).

* C05: the debug assertion of swizzle indexing compares with the dimension of the source, not the number of letters.
* C07: writing a swizzle with repeated letters differs between the SIMD path and the scalar path, and can read out of range.
* C08: `a.xy = b.xy` copies all elements of `b` (implicit copy assignment).
* C71: assigning between swizzles of packed and unpacked vectors copies past the end.
* C16, C29: the determinant of 5×5 and larger matrices is wrong when a leading principal minor vanishes (the pivot search starts
  at the wrong row and swaps after the fact); so is the cross product in dimension ≥ 6, and `LookAt` built on it.
* C33: the upper triangular solver reads entries below the diagonal.
* C40: the sweeps of the SVD may stop too early; imaginary parts are dropped.
* C42, C43: negative singular values, nothing for the zero matrix, `Solve` loops over the wrong bound, rank-deficient
  `Inverse` divides by zero.
* C44: combining a quaternion with a wider scalar narrows the scalar.
* C48: converting a half turn divides by zero.
* C57: axis inversion of `Perspective` with a negative first ratio.
* C62, C63: a segment does not contain its own end point in intersections; C64: the ray-triangle test uses an absolute
  epsilon, so tiny triangles are missed.
* C65: malformed texts are accepted; C67: complex numbers with zero imaginary part; C68: whitespace.
* C90: `Abs` of the smallest integer is negative with SIMD and undefined without.
* C91: `common_arithmetic_type` checks neighbouring types from the right but forms the type from the left: `double, float, complex<double>` is rejected,
  `float, double, complex<double>` accepted, `complex<float>, float, double` accepted with the type `void`.
* C94: `NormalizePrecise` replaces a vector with a NaN or infinite element by the fallback without notice.
* C95: with NaN elements `Max`/`Min` depend on the order of the elements, and `Clamp` on SIMD.
* C97: `SumCompensated` of a vector with an infinite element is NaN.
* C105: `Shear` with axis vectors converts to 3×3, 3×4, 4×3 and 4×4 matrices only, whatever the dimension of the vectors.
* C107: the quotient of integer vectors may trap because of a padding lane (`INT_MIN` left there by the fill constructor, divided by -1); signed overflow
  wraps with SIMD and is undefined without; products of `uint16_t` vectors overflow `int`. C108: partial sums of `int` vectors may overflow without SIMD.
* C110: the two-sided SVD of [[1, NaN], [0, 1]] is that of the identity: `error > tolerance` is false for NaN, so the element is taken to be zero. With
  assertions enabled, the one-sided SVD of a null matrix with two columns stops at the assertion of `DiagonalizeHermitian2x2` (0 / 0 is NaN).
* C111: next to a half turn the quaternion of a matrix is not accurate, and in every precision there is a rotation other than a half turn whose correctly rounded
  matrix has trace -1, so that `1/(4s)` divides by zero.
* C113: `SumCompensated` of the complex vector (ε+4i, 1, -1, -4i) is (0, 0), although its sum is ε: `std::abs(sum) > std::abs(element)` does not tell which
  real part is larger.
* C115: `LineSegment::Interpol` and `BezierCurve::PointAt` evaluate `t * b + (1 - t) * a` with a rounding of each operation, which is not constant for `a = b`:
  for x = 2^(p-1) + 1 and t = 3·2^(-p-2) in any format of p bits the result is x - 1. (An enumeration of small formats finds counterexamples with fused operations too; not formalised.)
* C118: `Determinant` of a matrix of dimension 5 or more with a zero first column is 0 even if other elements are NaN or infinite. (In addition, two row swaps
  can take the row with the NaN out of the computation; not formalised.)
* Not formalised: `Scale(const std::array<T, Dim>&)` and `Translation(const std::array<T, Dim>&)` with `int Dim` can never be deduced (the size of
  `std::array` is a `size_t`); calls with an array work all the same, because `is_scalar` holds for arrays, so that the variadic overload is chosen and
  `std::array{ array }` copies. `GetConcatPacking` counts scalars as not packed, so that `Vector(packed, scalar)` is not packed.
* Not formalised: `Perspective(fovX, aspectRatio, …)` with integer arguments computes `T(1) / aspectRatio` as an integer division, which is 0 for every
  aspect ratio above 1, before it converts to `float`.
* C69: descending unrolled loops longer than the limit do nothing.
* (note) `Axis` documents (1,0,0) for angles near 180°, the code returns it near 0.
* (note) 2D `LookAt` without `positiveYForward` and 3D with `positiveZForward` are reflections.
* (note) `Hyperplane::Base` needs exactly unit normals.
* (note) scalar `Clamp` with `lower > upper` is undefined behaviour, vector `Clamp` returns `upper`.
* `Intersect(Ray, Triangle)` rejects with `<` and `>`, which are false for NaN: every ray hits every triangle with a NaN corner, in a point of NaN (C122).
  `Intersect(Hyperplane, Ray)` accepts with `<=` and so reports nothing.
* `Line::Through`, `LineSegment::Direction` and `LineSegment::Line` of points with NaN or infinite coordinates give the direction (1, 0, …) without notice
  (C123); two segments, one of them with a NaN end, can therefore meet in a finite point (C121).
* `GramSchmidtOrthogonalize` divides 0 by 0 after a null vector (also one that arises from linearly dependent inputs): all later outputs are NaN (C123).
* `Inverse` of a matrix whose determinant overflows returns the zero matrix, e.g. for `diag(1e20f, 1e20f)`; nothing tells that the result is wrong (C125). Likewise
  `Solve` divides by a pivot that overflowed and returns unknowns that are zero (C125).
* `Determinant` of integer matrices of dimension 5 and above stores minors in the element type and divides by them: wrong for unsigned types as soon as a leading minor is
  negative, and for small types as soon as a minor does not fit (C127). For 4×4 matrices of `std::uint8_t` and `std::uint16_t` the sign -1 becomes 255 or 65535 before the
  promotion to `int`, so that elements of 14 are enough for undefined behaviour (C127). The early `return 0` of C29 happens for integers as well (C127).
* `Intersect(Ray, Triangle)` computes both barycentric coordinates with the rounded reciprocal of the determinant and then requires `u + v <= 1`. A ray through the common edge
  of two triangles can be missed by both, e.g. the ray (4, 27, -1) + t (0, 0, 1) by the two halves of the square with the corners (0, 0, 0) and (31, 31, 0), in `float` and in `double`
  (C130).
* C132: `Triangle::Area` uses Heron's formula as written, without sorting the sides. For thin triangles the rounded half perimeter can be less than the longest side; the number under the root is then negative and the area is NaN. Witness in single precision: corners (-16777183, 0), (0.375, 1/64), (122.125, 0). Kahan's arrangement of the formula, or half of the length of the cross product, would avoid it.
* C133: `GramSchmidtOrthogonalize` does not re-orthogonalise. The single-precision vectors (1, 1) and (1, 1 + 2^-23) give two nonzero vectors with an angle of at most 45°, for every rounding to nearest, because the factor of the projection cannot be the midpoint of two floats. `LookAt`, its only caller in the library, inherits this for nearly parallel inputs; a second pass over the earlier outputs would repair it.
* C134: `LookAt` orthogonalises the up vector last with one pass of Gram-Schmidt. For an up vector within one unit in the last place of the look axis the second column of the result encloses 45° with the third, for every rounding to nearest (look axis (1, 1, 0), up (1, 1 + 2^-23, 0)). The cross product of the other two columns would be orthogonal to both for every up vector.
* C135: `Log` computes the angle as `acos(scalar / quatLength)`, which is 0 for all rotations by less than about 2^-11 radians in single precision. `Log(1 + 2^-13 i)` is 0, and `Pow(q, 8192)` of it is the identity instead of a rotation by about 114°. `Angle` uses `atan2` and is accurate.
- C137: `Intersect(LineSegment<float, 2>, LineSegment<float, 2>)` of (0,20)–(15,20) and (0,0)–(15,20) returns nothing although the segments share the end (15,20): the computed point is (15 + 2^-20, 20) and `IsWithin` has no tolerance.
- C138: the path (-15,-20) → (0,0) → (15,20) crosses the line y = -2^-60, but `Intersect(Hyperplane, LineSegment)` returns nothing for either segment, in `float` and in `double`: for the first the parameter rounds to the length 25 and is excluded, for the second it is negative.
- C139: `operator<<` does not raise the precision of the stream, so that by default only 6 digits are written: a vector of 16777201.0f is read back as 16777200.0f.
- C140: `Inverse(q)`, `q(v)` and `Normalize(v)` divide by a squared length or length that may overflow: for elements beyond 2^64 in single precision they silently return zeros instead of the inverse, the rotated vector or a unit vector (`NormalizePrecise` does not).
- C141: in single precision, the ray from (2^65, 2^64, -1) in the third direction is reported to meet the triangle (0,0,0), (0,2^-64,0), (2^64,2^64,0) in (2^65,2^64,0): `u` is NaN, and `u < 0`, `u > 1`, `u + v > 1` are all false. The converse happens as well: once the determinant `a` overflows, `f = 1/a` is zero and every hit is dropped. `Intersect(plane, segment)` compares with an infinite length beyond 2^64, which accepts points past the end; `Line::Through` of points whose difference overflows has the direction of the first axis.
- C142: in single precision, `Length` of (2^-80, 2^-80, 2^-80) is 0 and `Normalize` of it fails its assertion (or divides by zero), as does `Inverse` of such a quaternion, although the vectors are not null. `LengthPrecise` and `NormalizePrecise` do not have this problem (C77, C78).
- C143: `Solve` of the QR decomposition of a tall matrix that follows vectors is rejected with the advice to use "the LQ or QRorLQ decompositions to solve this system", but LQ does not accept tall matrices and QRorLQ returns the same QR decomposition. The system is underdetermined; `Inverse()` gives the pseudoinverse, which solves it.
- C148: `DecompositionSVD::Solve(Vector)` takes a vector of max(Rows, Columns) elements and makes a matrix with Rows rows (or Columns columns) of it. For wide matrices that precede vectors and tall ones that follow them, this does not compile.
- C149: `Line` accepts directions within 0.001 of length 1, `Hyperplane` normals within 0.0001; a direction accepted by one can stop the program in the other. The converting constructor of `Ray` repeats the assertion (those of `Line` and `Hyperplane` do not), so that a `Ray<double, 2>` at the edge of the tolerance cannot be converted to `Ray<float, 2>`.
- C152: `Determinant` from dimension 5 exchanges rows only when a pivot is exactly zero (Matrix/Math.hpp:240). A tiny pivot that is not zero destroys the rest: the matrix with rows `ε 1 1`, `1 0 1`, `1 1 0` (and ones on the rest of the diagonal), `ε = 2^(-p-2)`, has determinant `2 - ε` and the result is 0.
- C153: the same small pivot destroys the determinant of complex matrices from dimension 5.

## 7. Tests of the theorems

`seeded/LOG.jsonl` lists edits of the model that imitate realistic bugs (wrong index, missing conjugation, swapped operands, wrong
loop bound, skipped masking, …), the claim each breaks, the theorems that stopped compiling, and the theorems tightened because
they had survived.
