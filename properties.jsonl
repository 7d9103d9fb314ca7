{"id": "C01", "title": "Elementwise vector arithmetic is configuration independent", "statement": "For every vector operator (+, -, *, /, unary -, MultiplyAdd, FMA, FMTA, Min, Max, Abs, Conj, ...) the i-th element of the result is the scalar operation applied to the i-th elements of the operands, whichever code path (SIMD batch or scalar) is selected and whatever the padding lanes of the operands hold.", "quantifier": "every dimension, packing combination, build configuration (set of available batch widths), operand values and padding contents", "why_tests_cant": "Tests fix one build configuration and a few dimensions, and cannot enumerate contents of padding lanes that are indeterminate.", "anchors": ["include/Mathter/Vector/OperationUtil.hpp: DoUnaryOp, DoBinaryOp, DoTernaryOp", "include/Mathter/Vector/Arithmetic.hpp: operator+,-,*,/, MultiplyAdd, FMA, FMTA", "include/Mathter/Vector/SIMDUtil.hpp: GetBatchSize, IsBatched, GetStorageSize"]}
{"id": "C02", "title": "Vector division never divides by a padding lane", "statement": "Dividing vectors of an integer type traps (division by zero) exactly when one of the Dim visible divisor elements is zero; padding lanes never cause a trap, and the padding of a quotient by a vector is zero.", "quantifier": "every dimension, packing, configuration, dividend and divisor, every content of the padding lanes", "why_tests_cant": "A test passes or traps depending on the garbage in the padding lane at that moment.", "anchors": ["include/Mathter/Vector/Arithmetic.hpp: divides_safe", "include/Mathter/Vector/OperationUtil.hpp: FillMasked, FillMaskedWithFirst"]}
{"id": "C03", "title": "Reductions ignore padding and equal the mathematical reduction", "statement": "Sum, Dot, Min, Max and everything computed from them (LengthSquared, Length, ...) return the reduction over exactly the Dim visible elements, for any order in which the reduction is evaluated and for any padding contents.", "quantifier": "every dimension, packing, configuration, reduction tree, element values and padding contents", "why_tests_cant": "Padding contents and the bracketing used by the SIMD reduction are not controllable from a test.", "anchors": ["include/Mathter/Vector/Math.hpp: Sum, Min, Max, Dot, LengthSquared", "include/Mathter/Vector/OperationUtil.hpp: FillMasked, FillMaskedWithFirst"]}
{"id": "C04", "title": "Vector comparison is elementwise equality", "statement": "a == b is true exactly when every visible element compares equal, a != b is its negation; the result does not depend on padding, packing or whether operands are vectors or swizzles.", "quantifier": "all vectors/swizzles of equal length, all configurations, all padding contents", "why_tests_cant": "Quantifies over all values and indeterminate padding.", "anchors": ["include/Mathter/Vector/Comparison.hpp: operator==, operator!="]}
{"id": "C05", "title": "Reading a swizzle", "statement": "Converting v.<letters> to a vector yields the vector whose k-th element is the source element named by the k-th letter, with repetition allowed, in every configuration (SIMD shuffle path and scalar path); v.<letters>[k] gives the same element.", "quantifier": "all source dimensions, index tuples (any length), configurations, padding and uninitialised memory contents", "why_tests_cant": "340 accessors times configurations times values; the SIMD path copies uninitialised lanes.", "anchors": ["include/Mathter/Vector/Swizzle.hpp: Linearize, LinearizationGenerator, operator[]", "include/Mathter/Vector/Vector.hpp: Vector(Swizzle)"]}
{"id": "C06", "title": "Writing a swizzle with distinct letters updates exactly the named elements", "statement": "v.<letters> = w, where w is a vector or a swizzle (other than one of the same letters, see C08) of the same packing and the letters on the left are pairwise distinct, sets the element named by the k-th letter to w[k] and leaves every other element of v unchanged; the value written is computed before anything is overwritten, so v.xy = v.yx swaps.", "quantifier": "all dimensions, all injective index tuples, all configurations, all values, all uninitialised memory contents, w a vector or a swizzle, possibly of the same vector", "why_tests_cant": "All permutations and partial selections times configurations; uninitialised temporaries.", "anchors": ["include/Mathter/Vector/Swizzle.hpp: operator=, Delinearize, Blend, DelinearizationGenerator, BlendGenerator"]}
{"id": "C07", "title": "Writing a swizzle with repeated letters is configuration independent", "statement": "v.<letters> = w gives the same vector with SIMD enabled and disabled and has defined behaviour, for every letter tuple, including repeated letters.", "quantifier": "all index tuples, configurations and values", "why_tests_cant": "Any single test binary has one configuration only.", "anchors": ["include/Mathter/Vector/Swizzle.hpp: Delinearize, DelinearizationGenerator::get_occurence"]}
{"id": "C08", "title": "Assigning a swizzle from another vector's swizzle of the same letters", "statement": "a.<letters> = b.<letters> changes only the named elements of a, like the doc comment of operator= says.", "quantifier": "all dimensions, letters, values and configurations", "why_tests_cant": "Which overload is selected depends on whether the two swizzle types coincide; tests only cover differing types.", "anchors": ["include/Mathter/Vector/Swizzle.hpp: operator=(const Swizzle<...>&), implicitly declared copy assignment"]}
{"id": "C09", "title": "Swizzle accessor tables are complete and correctly named", "statement": "For every dimension d in 1..4 and length l in 1..4 there is exactly one accessor for each of the d^l index tuples, its name spells its indices, and no two accessors share a name.", "quantifier": "all dimensions and all tuples (stated for every alphabet and length)", "why_tests_cant": "A generated table of 340 rows; the claim is about all rows and about the generator.", "anchors": ["support/SwizzleCodegen/swizzle_codegen.py: generate_accessors", "include/Mathter/Vector/SwizzleInc/Swizzle4.hpp.inc"]}
{"id": "C10", "title": "Concatenating constructor", "statement": "Vector(p1, ..., pn) of scalars, vectors and swizzles holds the elements of the parts in order, for every way of splitting the dimension into parts, and zero in the padding.", "quantifier": "all part lists whose dimensions sum to Dim, all configurations", "why_tests_cant": "Unbounded number of part shapes.", "anchors": ["include/Mathter/Vector/Vector.hpp: Assign, Vector(const Parts&...)", "include/Mathter/Vector/Concat.hpp: operator|"]}
{"id": "C11", "title": "Homogeneous up- and down-conversion", "statement": "Converting an n-vector to n+1 appends 1; converting n+1 to n divides the first n elements by the last; down after up is the identity and down is invariant under scaling by any nonzero factor.", "quantifier": "all dimensions, values, packing and configurations", "why_tests_cant": "Quantifies over all values and dimensions; the down-conversion has separate SIMD and scalar code.", "anchors": ["include/Mathter/Vector/Vector.hpp: Vector(const Vector<T2,Dim-1>&), Vector(const Vector<T2,Dim+1>&)"]}
{"id": "C12", "title": "Conversion, fill and pointer constructors preserve elements", "statement": "Converting between packings keeps every element; Vector(all) has all elements equal to the argument; Vector(ptr) copies the Dim pointed-to elements in order and reads no more.", "quantifier": "all dimensions, packings, configurations, values", "why_tests_cant": "All configurations/packings.", "anchors": ["include/Mathter/Vector/Vector.hpp: converting, fill and pointer constructors, ZeroPadding"]}
{"id": "C13", "title": "Dot is a Hermitian inner product", "statement": "Dot is linear in its first argument, Dot(a,b) is the conjugate of Dot(b,a), Dot(a,a) is real, nonnegative and zero only for the zero vector; LengthSquared and Length are derived from it, and the Cauchy-Schwarz and triangle inequalities hold for Length and Distance.", "quantifier": "all dimensions, all real and complex vectors", "why_tests_cant": "Algebraic laws over all values.", "anchors": ["include/Mathter/Vector/Math.hpp: Dot, LengthSquared, Length, Distance"]}
{"id": "C14", "title": "Precise length equals length", "statement": "LengthPrecise(v) equals Length(v) whenever the scale factor lies in the clamp range or the vector is zero, and DistancePrecise equals Distance, for real and complex vectors.", "quantifier": "all dimensions and vectors, any positive lower clamp bound", "why_tests_cant": "All values.", "anchors": ["include/Mathter/Vector/Math.hpp: ScaleElements, LengthPrecise, DistancePrecise"]}
{"id": "C15", "title": "Normalisation", "statement": "Normalize(v) for v not zero has length 1 and is a positive multiple of v; NormalizePrecise(v) equals Normalize(v) for v not zero and returns the fallback unit vector for v zero, so its result always has length 1.", "quantifier": "all dimensions, all real or complex vectors, including zero", "why_tests_cant": "All values; the zero case relies on NaN propagation through 0/0.", "anchors": ["include/Mathter/Vector/Math.hpp: Normalize, NormalizePrecise", "include/Mathter/Common/MathUtil.hpp: Normalize"]}
{"id": "C16", "title": "Cross product", "statement": "The N-dimensional cross product of N-1 vectors satisfies Dot(cross, w) = det of the vectors followed by w; hence it is orthogonal to each argument and alternating; the 2D and 3D special cases agree with it; too few arguments raise an exception.", "quantifier": "all dimensions for which the determinant routine is exact, all vectors", "why_tests_cant": "All dimensions and values.", "anchors": ["include/Mathter/Vector/Math.hpp: Cross, CrossND"]}
{"id": "C17", "title": "Gram-Schmidt orthogonalisation", "statement": "For linearly independent input vectors the outputs are pairwise orthogonal, nonzero and the first k outputs span the same space as the first k inputs, for every k.", "quantifier": "all dimensions, any number of vectors, real and complex", "why_tests_cant": "Unbounded number of vectors; loop invariant.", "anchors": ["include/Mathter/Vector/Math.hpp: GramSchmidtOrthogonalize"]}
{"id": "C18", "title": "Clamp, Saturate, Min, Max", "statement": "Clamp(v, lo, hi) with lo <= hi has every element in [lo, hi], leaves in-range elements alone and is idempotent; Saturate is Clamp to [0,1]; Min/Max of a vector are attained bounds.", "quantifier": "all vectors and bounds", "why_tests_cant": "All values.", "anchors": ["include/Mathter/Vector/Math.hpp: Clamp, Saturate, Min, Max", "include/Mathter/Utility.hpp: Clamp, Saturate"]}
{"id": "C19", "title": "Compensated sums are as accurate as a doubled precision", "statement": "For real element types, with round-to-nearest of precision p and no overflow or underflow, the sum returned by SumCompensated differs from the exact sum S of the elements by at most u*|S| plus a term of second order in u = 2^-p times the sum of magnitudes (as if computed in twice the precision and rounded once); in exact arithmetic it returns (Sum(v), 0) and DotCompensated returns (Dot(a,b), 0).", "quantifier": "all dimensions and representable values, every binary precision, every round-to-nearest tie rule", "why_tests_cant": "All values and all rounding behaviours.", "anchors": ["include/Mathter/Vector/Math.hpp: SumCompensated, DotCompensated", "include/Mathter/Common/MathUtil.hpp: Fast2Sum"]}
{"id": "C20", "title": "Matrix element access is layout independent", "statement": "Writing m(i,j)=x then reading m(k,l) returns x if (k,l)=(i,j) and the previous value otherwise; the element-list constructor puts the values in reading order; none of this depends on layout or packing.", "quantifier": "all shapes, layouts, packings, indices and values", "why_tests_cant": "All shapes and layouts.", "anchors": ["include/Mathter/Matrix/Matrix.hpp: operator(), Matrix(scalars...), stripes"]}
{"id": "C21", "title": "Converting between layout and order preserves the transform", "statement": "Converting a matrix to another layout keeps all elements; converting to the other order transposes them; applying the converted matrix to any vector (on the side its order demands) gives the same result, and converting back restores the matrix.", "quantifier": "all shapes, layouts, orders, packings, values and vectors", "why_tests_cant": "All combinations of template parameters and values.", "anchors": ["include/Mathter/Matrix/Matrix.hpp: converting constructors", "include/Mathter/Matrix/Cast.hpp: SetOrder, FlipOrder, FlipLayoutAndOrder"]}
{"id": "C22", "title": "Row, Column, Extract and Insert", "statement": "Row(i)/Column(j) read the i-th row/j-th column, the setters replace exactly it; Extract reads the block at the offset, Insert overwrites exactly that block; Extract after Insert returns the inserted block and Insert of an extracted block is a no-op; the result does not depend on layout.", "quantifier": "all shapes, offsets that fit, layouts and values", "why_tests_cant": "All shapes/offsets.", "anchors": ["include/Mathter/Matrix/Matrix.hpp: Row, Column, Extract, Insert"]}
{"id": "C23", "title": "Matrix product equals the mathematical product for every layout pair", "statement": "(A*B)(i,j) = sum_k A(i,k)*B(k,j) for each of the layout combinations and packings; hence the product is associative and does not depend on how operands are stored.", "quantifier": "all shapes, layout pairs, packings, values", "why_tests_cant": "Several separately written kernels; all shapes.", "anchors": ["include/Mathter/Matrix/Arithmetic.hpp: Multiply"]}
{"id": "C24", "title": "Vector-matrix product", "statement": "v*M (follow-vector) has j-th element sum_i v_i M(i,j) and M*v (precede-vector) has i-th element sum_j M(i,j) v_j, in both layouts; applying a product of matrices equals applying them one after another in the order's direction.", "quantifier": "all shapes, layouts, values", "why_tests_cant": "All shapes and values; four kernels.", "anchors": ["include/Mathter/Matrix/Arithmetic.hpp: operator*(Vector, Matrix), operator*(Matrix, Vector)"]}
{"id": "C25", "title": "Homogeneous and affine application to shorter vectors", "statement": "Multiplying an n-vector by an (n+1)x(n+1) matrix equals appending 1, multiplying and dividing by the last coordinate; by an affine (n+1)xn / nx(n+1) matrix equals the linear part plus the translation.", "quantifier": "all dimensions, layouts, orders and values with nonzero last coordinate", "why_tests_cant": "All values and layouts.", "anchors": ["include/Mathter/Matrix/Arithmetic.hpp: homogeneous and affine operator*"]}
{"id": "C26", "title": "Elementwise matrix arithmetic", "statement": "+, -, elementwise product/quotient, scalar product/quotient and unary minus act element by element for every layout pair.", "quantifier": "all shapes, layout pairs, packings, values", "why_tests_cant": "Separate same-layout and mixed-layout code paths.", "anchors": ["include/Mathter/Matrix/Arithmetic.hpp: operator+,-, Hadamard, scalar ops", "include/Mathter/Matrix/Comparison.hpp: operator=="]}
{"id": "C27", "title": "Transpose and conjugate transpose", "statement": "Transpose(M)(i,j)=M(j,i), ConjTranspose conjugates as well; both are involutions and reverse products.", "quantifier": "all shapes, layouts, values", "why_tests_cant": "All shapes and values.", "anchors": ["include/Mathter/Matrix/Math.hpp: Transpose, ConjTranspose"]}
{"id": "C28", "title": "Determinant of 2x2, 3x3 and 4x4 matrices", "statement": "Determinant returns the Leibniz determinant.", "quantifier": "all matrices over any commutative ring (integers included), every layout", "why_tests_cant": "Polynomial identity over all values.", "anchors": ["include/Mathter/Matrix/Math.hpp: Determinant (2,3,4)"]}
{"id": "C29", "title": "Determinant of larger matrices", "statement": "Determinant returns the mathematical determinant for every square matrix of dimension 5 and above (and 1).", "quantifier": "all dimensions and matrices", "why_tests_cant": "Needs all dimensions and all zero patterns; random test matrices never have zero leading minors.", "anchors": ["include/Mathter/Matrix/Math.hpp: Determinant (generic, Bareiss)"]}
{"id": "C30", "title": "Inverse of 2x2, 3x3 and 4x4 matrices", "statement": "For an invertible matrix Inverse(M)*M = M*Inverse(M) = identity.", "quantifier": "all invertible matrices over a field, both orders and layouts", "why_tests_cant": "Rational identity over all values.", "anchors": ["include/Mathter/Matrix/Math.hpp: Inverse (2,3,4)"]}
{"id": "C31", "title": "Inverse of larger matrices", "statement": "For an invertible matrix of any dimension Inverse(M) (via the pivoted LU decomposition) satisfies M*Inverse(M) = identity = Inverse(M)*M.", "quantifier": "all dimensions, all invertible matrices", "why_tests_cant": "All dimensions and zero patterns.", "anchors": ["include/Mathter/Matrix/Math.hpp: Inverse (generic)", "include/Mathter/Decompositions/DecomposeLU.hpp: DecompositionLUP::Inverse"]}
{"id": "C32", "title": "Trace, Norm and matrix reductions", "statement": "Trace is the sum of diagonal elements (cyclic and transpose invariant), Sum/Min/Max range over all elements and only those, NormSquared is the sum of squared magnitudes and NormPrecise equals Norm.", "quantifier": "all shapes, layouts and values", "why_tests_cant": "All shapes and values.", "anchors": ["include/Mathter/Matrix/Math.hpp: Trace, Norm, NormPrecise, Min, Max, Sum"]}
{"id": "C33", "title": "Triangular solvers", "statement": "SolveUpperTriangular(A,b) / SolveLowerTriangular(A,b) return x with Ax=b for every triangular A with nonzero diagonal (xA=b for the follow-vector order), and that solution is the only one.", "quantifier": "all dimensions, all triangular systems, single and multiple right hand sides", "why_tests_cant": "Loop correctness for all dimensions.", "anchors": ["include/Mathter/Matrix/Algorithm.hpp: SolveUpperTriangular, SolveLowerTriangular"]}
{"id": "C34", "title": "LU decomposition", "statement": "Where no zero pivot is met, DecomposeLU returns L unit lower triangular and U upper triangular with L*U = A, and it meets no zero pivot exactly when the leading principal minors of order 1..n-1 are nonzero.", "quantifier": "all dimensions and matrices", "why_tests_cant": "All dimensions.", "anchors": ["include/Mathter/Decompositions/DecomposeLU.hpp: DecomposeLU"]}
{"id": "C35", "title": "LUP decomposition", "statement": "DecomposeLUP always returns a permutation P, unit lower triangular L with entries of magnitude at most 1 and upper triangular U with the permuted A equal to L*U, for every square matrix including singular ones.", "quantifier": "all dimensions, all matrices (singular included)", "why_tests_cant": "All dimensions and pivot sequences.", "anchors": ["include/Mathter/Decompositions/DecomposeLU.hpp: DecomposeLUP, ExpandPermutation"]}
{"id": "C36", "title": "Solving with LU and LUP", "statement": "For an invertible system Solve(b) returns the x with Ax=b (or xA=b for follow-vector order) for vectors and for several right hand sides.", "quantifier": "all dimensions, invertible matrices, right hand sides, both orders", "why_tests_cant": "All dimensions.", "anchors": ["include/Mathter/Decompositions/DecomposeLU.hpp: DecompositionLU::Solve, DecompositionLUP::Solve, Permute, InversePermute"]}
{"id": "C37", "title": "QR decomposition", "statement": "For every matrix with at least as many rows as columns DecomposeQR returns Q unitary (Q^H Q = I), R upper triangular and Q*R = A.", "quantifier": "all shapes with rows >= columns, all real and complex matrices, rank deficient included", "why_tests_cant": "All shapes, zero columns; Householder loop invariant.", "anchors": ["include/Mathter/Decompositions/DecomposeQR.hpp: DecomposeQR, Householder"]}
{"id": "C38", "title": "LQ decomposition", "statement": "For every matrix with at most as many rows as columns DecomposeLQ returns L lower triangular, Q unitary with L*Q = A.", "quantifier": "all shapes with rows <= columns, all matrices", "why_tests_cant": "All shapes.", "anchors": ["include/Mathter/Decompositions/DecomposeQR.hpp: DecomposeLQ"]}
{"id": "C39", "title": "Solving with QR/LQ is least squares", "statement": "For full column rank, QR Solve(b) minimises |Ax-b| among all x (and solves exactly when square); Inverse() is a left inverse and for square matrices the inverse.", "quantifier": "all shapes and full-rank systems", "why_tests_cant": "Optimality over all x.", "anchors": ["include/Mathter/Decompositions/DecomposeQR.hpp: Solve, Inverse"]}
{"id": "C40", "title": "SVD reconstruction invariant", "statement": "After every rotation step of DecomposeSVD the current factors satisfy U*X*V = A with U and V unitary, so at termination U*S*V reproduces A up to the dropped off-diagonal residue.", "quantifier": "all shapes, all matrices, any number of sweeps", "why_tests_cant": "Invariant over unboundedly many rotation steps.", "anchors": ["include/Mathter/Decompositions/DecomposeSVD.hpp: one-sided and two-sided Jacobi"]}
{"id": "C41", "title": "2x2 SVD kernels diagonalise", "statement": "The 2x2 helper rotations are rotations and make the 2x2 product diagonal for every input, including degenerate ones.", "quantifier": "all 2x2 inputs", "why_tests_cant": "All values with degenerate branches.", "anchors": ["include/Mathter/Decompositions/DecomposeSVD.hpp: 2x2 helpers"]}
{"id": "C42", "title": "Singular values are nonnegative", "statement": "The S returned by DecomposeSVD contains nonnegative values and the decomposition is defined for every matrix including the zero matrix.", "quantifier": "all matrices", "why_tests_cant": "Includes exceptional inputs such as diagonal matrices with negative entries and the zero matrix.", "anchors": ["include/Mathter/Decompositions/DecomposeSVD.hpp: DecomposeSVD"]}
{"id": "C43", "title": "Solving with SVD", "statement": "Solve(b) and Inverse() of an SVD give the least-squares solution / pseudoinverse for every shape, with all memory accesses in range.", "quantifier": "all shapes and full rank systems", "why_tests_cant": "Index ranges for all shapes.", "anchors": ["include/Mathter/Decompositions/DecomposeSVD.hpp: Solve, Inverse"]}
{"id": "C44", "title": "Quaternion product is the Hamilton product in every layout", "statement": "p*q is Hamilton's product irrespective of the storage layouts of p and q; it is associative, distributive and has 1 as unit; + , -, scalar ops act componentwise.", "quantifier": "all quaternions over a commutative ring, all layouts", "why_tests_cant": "All values and layout pairs.", "anchors": ["include/Mathter/Quaternion/Arithmetic.hpp: Multiply, operators", "include/Mathter/Quaternion/Quaternion.hpp: canonical access"]}
{"id": "C45", "title": "Quaternion conjugate, inverse and length", "statement": "Conj reverses products, q*Conj(q) is the squared length, Inverse(q)*q = q*Inverse(q) = 1 for q not zero, and lengths multiply.", "quantifier": "all quaternions", "why_tests_cant": "All values.", "anchors": ["include/Mathter/Quaternion/Math.hpp: Conj, Inverse, Length, LengthSquared, Normalize"]}
{"id": "C46", "title": "Rotating vectors with quaternions", "statement": "q(v) for q not zero is a linear isometry of determinant 1, (p*q)(v) = p(q(v)), and q and any nonzero multiple of q act equally.", "quantifier": "all nonzero quaternions and vectors", "why_tests_cant": "All values.", "anchors": ["include/Mathter/Quaternion/RotationArithmetic.hpp: operator*", "include/Mathter/Quaternion/Quaternion.hpp: operator()"]}
{"id": "C47", "title": "Quaternion to matrix conversion", "statement": "The matrix of a unit quaternion applied to v equals q(v); it is orthogonal with determinant 1; products of quaternions map to composed matrices in both orders and layouts.", "quantifier": "all unit quaternions, vectors, orders and layouts", "why_tests_cant": "All values.", "anchors": ["include/Mathter/Quaternion/Quaternion.hpp: QuaternionToMatrix"]}
{"id": "C48", "title": "Matrix to quaternion conversion", "statement": "Converting a rotation matrix to a quaternion and back returns the matrix, for every rotation matrix.", "quantifier": "all rotation matrices including half turns", "why_tests_cant": "Half turns are a measure-zero set random tests miss.", "anchors": ["include/Mathter/Quaternion/Quaternion.hpp: MatrixToQuaternion"]}
{"id": "C49", "title": "Quaternion Exp, Log and Pow", "statement": "Exp(Log(q)) = q for nonzero q, Pow(q,a+b)=Pow(q,a)*Pow(q,b) and Pow(q,1)=q, |Exp(q)| = e^Re(q).", "quantifier": "all quaternions in the domain", "why_tests_cant": "All values.", "anchors": ["include/Mathter/Quaternion/Math.hpp: Exp, Log, Pow"]}
{"id": "C50", "title": "Angle and Axis", "statement": "A unit quaternion built from axis and angle returns that axis and angle (angle in the principal range).", "quantifier": "all unit axes and angles in (0, 2 pi)", "why_tests_cant": "All values.", "anchors": ["include/Mathter/Quaternion/Math.hpp: Angle, Axis", "include/Mathter/Transforms/Rotation3DBuilder.hpp"]}
{"id": "C51", "title": "Rotation builders are proper rotations", "statement": "Rotation(angle), RotationX/Y/Z(angle), RotationAxisAngle(axis,angle) as matrices are orthogonal with determinant 1, fix the axis, turn counter-clockwise, and angles add under composition.", "quantifier": "all angles, all unit axes, all matrix shapes accepted, both orders", "why_tests_cant": "All values.", "anchors": ["include/Mathter/Transforms/Rotation2DBuilder.hpp", "include/Mathter/Transforms/Rotation3DBuilder.hpp"]}
{"id": "C52", "title": "Rotation builders agree between matrix and quaternion", "statement": "The matrix and the quaternion produced by the same rotation builder rotate every vector identically.", "quantifier": "all angles, axes and vectors, both orders", "why_tests_cant": "All values.", "anchors": ["include/Mathter/Transforms/Rotation3DBuilder.hpp: single axis, tri-axis, axis-angle, quaternion builders"]}
{"id": "C53", "title": "Multi-axis rotations compose in the documented order", "statement": "RotationAxis3<a,b,c>/RotationRPY/RotationEuler apply the first rotation first, for any axis choice and both orders.", "quantifier": "all axis triples, angles, orders", "why_tests_cant": "All triples and values.", "anchors": ["include/Mathter/Transforms/Rotation3DBuilder.hpp: RotationAxis3, RotationEuler, RotationRPY"]}
{"id": "C54", "title": "Scale, Translation, Identity and Zero builders", "statement": "Applying Scale(s) multiplies componentwise, Translation(t) adds t, Identity() does nothing, Zero() gives zero, for every matrix shape and order the builder converts to.", "quantifier": "all dimensions, shapes, orders, layouts, vectors", "why_tests_cant": "All shapes/dimensions.", "anchors": ["include/Mathter/Transforms/ScaleBuilder.hpp", "include/Mathter/Transforms/TranslationBuilder.hpp", "include/Mathter/Transforms/IdentityBuilder.hpp", "include/Mathter/Transforms/ZeroBuilder.hpp"]}
{"id": "C55", "title": "Shear builder", "statement": "Shear(slope, principal, modulator) maps v to v plus slope*v[modulator] along principal; the general form v -> v + slope*Dot(v, modulatorAxis)*principalAxis; inverse by negating the slope for orthogonal axes.", "quantifier": "all dimensions, axes, slopes, vectors", "why_tests_cant": "All dimensions.", "anchors": ["include/Mathter/Transforms/ShearBuilder.hpp"]}
{"id": "C56", "title": "Orthographic projection maps the box to NDC", "statement": "Orthographic(min,max,near,far) maps min to (-1,..,near) and max to (1,..,far), affinely, for any dimension.", "quantifier": "all dimensions, boxes with min != max, near/far values", "why_tests_cant": "All dimensions/values.", "anchors": ["include/Mathter/Transforms/OrthographicBuilder.hpp"]}
{"id": "C57", "title": "Perspective projection", "statement": "Perspective maps the near plane to ndc near and the far plane to ndc far, divides the lateral coordinates by depth, preserves lines of sight, and negative aspect ratios/fov invert the corresponding image axes as documented.", "quantifier": "all field of views, ratios, plane distances, dimensions", "why_tests_cant": "All values.", "anchors": ["include/Mathter/Transforms/PerspectiveBuilder.hpp"]}
{"id": "C58", "title": "LookAt view transform", "statement": "LookAt maps the eye to the origin and the target direction to the last axis, and is a rigid motion (orthonormal linear part), for eye != target and linearly independent up vectors, with requested axis flips applied.", "quantifier": "all eye/target/up with independence, all dimensions supported, flips, orders", "why_tests_cant": "All values.", "anchors": ["include/Mathter/Transforms/ViewBuilder.hpp"]}
{"id": "C59", "title": "Bezier curves", "statement": "Evaluation equals the Bernstein form for every order, hits first and last control points at 0 and 1, is affinely invariant and stays in the convex hull for t in [0,1].", "quantifier": "all orders, dimensions, control points and parameters", "why_tests_cant": "All orders.", "anchors": ["include/Mathter/Geometry/BezierCurve.hpp: operator(), EvalInterpolRecurse"]}
{"id": "C60", "title": "Lines, rays, segments and hyperplanes", "statement": "PointAt/InterpolOf are mutually inverse on the object, constructors through two points pass through both, plane distance is zero exactly on the plane and has the documented sign, conversions between line and plane describe the same point set.", "quantifier": "all dimensions, points and directions", "why_tests_cant": "All values.", "anchors": ["include/Mathter/Geometry/Line.hpp", "include/Mathter/Geometry/Ray.hpp", "include/Mathter/Geometry/LineSegment.hpp", "include/Mathter/Geometry/Hyperplane.hpp"]}
{"id": "C61", "title": "Triangle area and centroid", "statement": "Area is half the parallelogram area (Heron's formula agrees with the Gram determinant), independent of corner order and rigid motions, zero exactly for collinear corners; Centroid is the mean of the corners.", "quantifier": "all triangles in any dimension", "why_tests_cant": "All values.", "anchors": ["include/Mathter/Geometry/Triangle.hpp: Area, Centroid"]}
{"id": "C62", "title": "Plane intersections", "statement": "Intersect(plane, line/ray/segment) returns a point lying on both exactly when there is a unique common point in the documented parameter range, and nothing otherwise.", "quantifier": "all planes, lines, rays, segments, any dimension", "why_tests_cant": "All values incl. parallel and endpoint cases.", "anchors": ["include/Mathter/Geometry/Intersection.hpp: plane x line/ray/segment"]}
{"id": "C63", "title": "Planar line and segment intersections", "statement": "Intersect of two 2D lines (or segments) returns the unique common point when one exists and nothing when parallel (or when the segments do not meet).", "quantifier": "all 2D lines and segments", "why_tests_cant": "All values incl. degenerate.", "anchors": ["include/Mathter/Geometry/Intersection.hpp: line x line, segment x segment"]}
{"id": "C64", "title": "Ray-triangle intersection", "statement": "A returned hit lies on the ray and is the barycentric combination it reports; a hit is reported exactly when ray and closed triangle meet transversally (outside the epsilon band).", "quantifier": "all rays and triangles in 3D", "why_tests_cant": "All values.", "anchors": ["include/Mathter/Geometry/Intersection.hpp: ray x triangle"]}
{"id": "C65", "title": "Vector text round trip", "statement": "Printing a vector to a stream and reading it back yields the same vector for every element type whose own printing and parsing round-trip and every dimension; reading rejects too few and too many elements and missing brackets with an exception.", "quantifier": "all dimensions, element texts, surrounding whitespace", "why_tests_cant": "All strings and dimensions.", "anchors": ["include/Mathter/IoStream.hpp: ReadArray, SplitArray, PrintArray, ParseArray, operator<<, operator>>"]}
{"id": "C66", "title": "Matrix text round trip", "statement": "Printing a matrix and reading it back yields the same matrix for every shape and layout; ragged or wrongly sized input is rejected.", "quantifier": "all shapes, layouts, contents", "why_tests_cant": "All strings and shapes.", "anchors": ["include/Mathter/IoStream.hpp: matrix operator<<, operator>>"]}
{"id": "C67", "title": "Complex element text round trip", "statement": "Printing a vector of complex numbers and reading it back yields the same vector, for all values.", "quantifier": "all complex vectors including those with zero imaginary part", "why_tests_cant": "All values; special cases zero imaginary part.", "anchors": ["include/Mathter/IoStream.hpp: PrintElement, ParseElement"]}
{"id": "C68", "title": "Quaternion text round trip", "statement": "Printing a quaternion and reading it back gives a quaternion describing the same rotation.", "quantifier": "all unit quaternions", "why_tests_cant": "All values and whitespace variants.", "anchors": ["include/Mathter/IoStream.hpp: quaternion operator<<, operator>>"]}
{"id": "C69", "title": "Unrolled loops visit the same indices as plain loops", "statement": "ForUnrolled<First,Last,Step,Limit> calls the body with First, First+Step, ... exactly while the bound (Last, exclusive) is not reached, in that order, whether or not the unrolling limit is exceeded.", "quantifier": "all First, Last, nonzero Step (either sign) and Limit", "why_tests_cant": "All parameters; both branches.", "anchors": ["include/Mathter/Common/OptimizationUtil.hpp: ForUnrolled"]}
{"id": "C70", "title": "Scalar utilities", "statement": "Rad2Deg and Deg2Rad are mutually inverse, Clamp/Saturate return a value in range and are idempotent, scalar Normalize returns a unit-magnitude number with the same argument.", "quantifier": "all scalars", "why_tests_cant": "All values.", "anchors": ["include/Mathter/Utility.hpp", "include/Mathter/Common/MathUtil.hpp: Normalize"]}
{"id": "C71", "title": "Assigning between swizzles of packed and unpacked vectors", "statement": "v.<letters> = w.<letters2> is defined and sets exactly the named elements also when v and w differ in packing.", "quantifier": "all dimensions, letters, packings, configurations", "why_tests_cant": "The out-of-range copy only happens where the two swizzles' padded lengths differ; a test sees a silently corrupted stack at most.", "anchors": ["include/Mathter/Vector/Swizzle.hpp: Swizzle::operator=(const Swizzle<...>&)"]}
{"id": "C72", "title": "Arithmetic with swizzles", "statement": "v OP w.<letters>, w.<letters> OP v, swizzle OP swizzle, swizzle OP scalar, scalar OP swizzle and unary minus of a swizzle give element by element what the same expression gives with the swizzle copied to a vector first; the uninitialised padding of a linearised swizzle never influences the result nor makes a division undefined.", "quantifier": "all dimensions, letters, packings, configurations, element values, contents of uninitialised memory", "why_tests_cant": "All letter tuples times all widths, and uninitialised memory that a test run happens to find as zero.", "anchors": ["include/Mathter/Vector/Arithmetic.hpp: operators with Swizzle"]}
{"id": "C73", "title": "Compound assignment, also with aliasing", "statement": "a OP= b, a OP= scalar, a OP= b.<letters> and a.<letters> OP= b change exactly the elements on the left to old-left OP right where the right-hand side is read before anything is written, also if both sides are the same vector.", "quantifier": "all dimensions, letters, packings, including a OP= a.<letters> and a.<letters> OP= a.<letters2>", "why_tests_cant": "Aliasing bugs show only for particular overlaps of letters and register widths.", "anchors": ["include/Mathter/Vector/Arithmetic.hpp: compound assignments"]}
{"id": "C74", "title": "FMTA is accurate whatever the cancellation", "statement": "FMTA(a,b,c,d) = a*b + c*d has a relative error of about three units of roundoff for all floating-point arguments, even if the two products cancel almost completely; the result is zero only if a*b + c*d is.", "quantifier": "all floating-point arguments of any precision of at least three bits (no overflow or underflow), any rounding to nearest, all dimensions and packings", "why_tests_cant": "The worst cases are rare bit patterns near exact cancellation; a test with typical numbers passes also for the plain a*b + c*d.", "anchors": ["include/Mathter/Vector/Arithmetic.hpp: FMTA, FMA", "include/Mathter/Common/Functional.hpp: fma"]}
{"id": "C75", "title": "The 3D cross product is accurate component by component", "statement": "Every component of Cross(a,b) in three dimensions has a relative error of about three units of roundoff, also for nearly parallel vectors, and it is zero exactly if the exact component is zero, so Cross(a,b) is the zero vector exactly if a and b are parallel.", "quantifier": "all 3D vectors of floating-point numbers (no overflow or underflow), all packings and configurations", "why_tests_cant": "Nearly parallel vectors of arbitrary bit patterns.", "anchors": ["include/Mathter/Vector/Math.hpp: Cross", "include/Mathter/Vector/Arithmetic.hpp: FMTA"]}
{"id": "C76", "title": "Rounding errors of sums, dot products and lengths", "statement": "The computed Sum, Dot, LengthSquared, Length and Distance differ from the exact values by at most the textbook bounds ((1+u)^k - 1 times the sum of absolute values, with k about the dimension), in whatever order the compiler, the SIMD width or std::reduce sums the elements.", "quantifier": "all dimensions, packings, configurations, all summation orders, all floating-point elements (no overflow or underflow), any rounding to nearest", "why_tests_cant": "std::reduce and the horizontal SIMD sums leave the order open, so each platform computes different digits; the bound is over all orders and all inputs.", "anchors": ["include/Mathter/Vector/Math.hpp: Sum, Dot, LengthSquared, Length, Distance"]}
{"id": "C77", "title": "LengthPrecise neither overflows nor underflows", "statement": "LengthPrecise(v) has a small relative error for every vector of finite numbers, also if the squares of the elements overflow or vanish; it is not finite only if the exact length is about the largest finite number.", "quantifier": "all dimensions, summation orders, floating-point formats with overflow and gradual underflow, any rounding to nearest, all finite vectors", "why_tests_cant": "The failing inputs of the plain Length are at the edges of the exponent range in every combination of elements; denormal elements additionally lose precision.", "anchors": ["include/Mathter/Vector/Math.hpp: LengthPrecise, ScaleElements"]}
{"id": "C78", "title": "NormalizePrecise works for all finite vectors", "statement": "NormalizePrecise(v, degenerate) is finite for all non-zero vectors of finite numbers, each element has the sign of v's element and is within a few units of roundoff (or of the smallest positive number) of v/||v||; for the zero vector it is degenerate.", "quantifier": "all dimensions, summation orders, floating-point formats with overflow and gradual underflow, any rounding to nearest, all finite vectors", "why_tests_cant": "Edges of the exponent range in every combination of elements.", "anchors": ["include/Mathter/Vector/Math.hpp: NormalizePrecise, ScaleElements"]}
{"id": "C79", "title": "Random fills every element once, in reading order", "statement": "A vector, matrix or quaternion converted from Random(distribution, engine) contains the next numbers of the generator in reading order (scalar part first for quaternions), one number per element and no more, in every layout, so a seeded engine gives the same matrix in both layouts.", "quantifier": "all shapes, layouts, orders, packings, all generators and their states, all previous contents of the memory", "why_tests_cant": "A test with a seed compares against the implementation's own order; independence of layout and of leftover memory is over all shapes.", "anchors": ["include/Mathter/Transforms/RandomBuilder.hpp: RandomBuilder"]}
{"id": "C80", "title": "Default construction", "statement": "A default-constructed vector or matrix has all elements null with MATHTER_NULL_INITIALIZE, all elements the invalid value (signaling NaN, else quiet NaN, else infinity, else the maximum, else null) with MATHTER_INVALID_INITIALIZE and is left as the memory was with MATHTER_DONT_INITIALIZE; padding is always zero. Without a macro, debug builds use the invalid value and release builds do not initialise.", "quantifier": "all dimensions, packings, configurations, scalar types, contents of the memory", "why_tests_cant": "Each macro combination is a separate build, and padding is invisible through the interface.", "anchors": ["include/Mathter/Common/DeterministicInitializer.hpp", "include/Mathter/Vector/Vector.hpp: Vector(), ZeroPadding", "include/Mathter/Matrix/Matrix.hpp: Matrix()"]}
{"id": "C81", "title": "Concatenation with | and quaternion literals", "statement": "a | b for scalars, vectors and swizzles is the vector of a's elements followed by b's, packed exactly if both are packed vectors or swizzles, and | is associative including the deduced type. The literals _i, _j, _k are multiples of Hamilton's units and s + x_i + y_j + z_k is Quaternion(s, x, y, z).", "quantifier": "all operand kinds, dimensions, packings, values, uninitialised memory", "why_tests_cant": "All combinations of operand kinds and lengths.", "anchors": ["include/Mathter/Vector/Concat.hpp: operator|", "include/Mathter/Vector/Vector.hpp: GetConcatDim, GetConcatPacking", "include/Mathter/Quaternion/Literals.hpp"]}
{"id": "C82", "title": "Rounding errors of matrix products", "statement": "Every element of the product of two matrices, of a vector and a matrix or of a matrix and a vector of floats differs from the exact value by at most ((1+u)^k - 1) times the sum of the absolute values of its k products, for both layouts of each operand, any SIMD width, any summation order and whether or not multiplications and additions are fused.", "quantifier": "all shapes, layout pairs, orders, packings, configurations, all floating-point elements (no overflow or underflow), all summation orders, fused or separate operations", "why_tests_cant": "Three different algorithms are chosen by layout, and digits differ between platforms with and without FMA; a test compares a few matrices with an ad-hoc tolerance.", "anchors": ["include/Mathter/Matrix/Arithmetic.hpp: impl::Multiply, operator*", "include/Mathter/Common/Functional.hpp: madd"]}
{"id": "C83", "title": "Triangular solvers are backward stable", "statement": "Each column (row) that SolveUpperTriangular or SolveLowerTriangular returns is the exact solution for a triangular matrix whose elements differ from those of A relatively by no more than n rounding errors, however ill-conditioned A is.", "quantifier": "all dimensions, right-hand sides, all triangular matrices of floats with non-zero diagonal (no overflow or underflow), any rounding to nearest, fused or separate operations, both orders", "why_tests_cant": "For ill-conditioned matrices the result itself can be far from the true solution, so a test has nothing to compare it with; the existence of a nearby matrix is a statement about all inputs.", "anchors": ["include/Mathter/Matrix/Algorithm.hpp: SolveUpperTriangular, SolveLowerTriangular"]}
{"id": "C84", "title": "LU and LUP factorisations are stable", "statement": "The factors that DecomposeLU and DecomposeLUP compute in floating point are triangular with unit diagonal in L, and their product is the (row-permuted) matrix up to n rounding errors times |L||U|; the multipliers of LUP are at most 1 in absolute value. Solve and the generic Inverse return exact solutions of systems perturbed by at most 3n+2 rounding errors times |L||U|.", "quantifier": "all dimensions, all matrices of floats (for LU: meeting no zero pivot), all right-hand sides, any rounding to nearest (no overflow or underflow), fused or separate operations", "why_tests_cant": "Residuals of random well-conditioned matrices say nothing about the worst case; the bound is over all matrices.", "anchors": ["include/Mathter/Decompositions/DecomposeLU.hpp: DecomposeLU, DecomposeLUP, DecompositionLU::Solve, DecompositionLUP::Solve", "include/Mathter/Matrix/Math.hpp: Inverse"]}
{"id": "C85", "title": "The sweeps of the SVD make progress and the loops end", "statement": "Each rotation of `DecomposeSVD` removes exactly the squares of the elements it annihilates from the sum of the squares of the off-diagonal elements (two-sided: of the working matrix; one-sided: of the matrix of inner products of the columns), so that a sweep lowers that sum by at least the square of the error it reports. The two-sided algorithm therefore ends for every nonzero matrix after at most 2*Rows*Columns/tolerance^2 + 3 sweeps; and with floating point numbers, of which there are finitely many, the loop of both algorithms ends whatever the sweeps compute.", "quantifier": "all matrices of all sizes, real and complex, any tolerance > 0, any choice of the signs of zeros", "why_tests_cant": "Termination for all matrices cannot be shown by running the loop on some of them; a matrix on which the sweeps cycle would hang the caller.", "anchors": ["include/Mathter/Decompositions/DecomposeSVD.hpp: DecomposeSVDJacobiTwoSided, DecomposeSVDJacobiOneSided, GivensRotateLeft, GivensRotateRight"]}
{"id": "C86", "title": "Changing the order keeps the transform or the elements, as asked", "statement": "FlipOrder(m, true_type) and SetOrder<o>(m, true_type) return a matrix that transforms every vector exactly as m does, in the new order convention; with false_type every stored element, padding included, stays where it was, so that the transform becomes the transposed one when the order changes.", "quantifier": "all sizes, layouts, packings, both orders, all element values and all transformed vectors", "why_tests_cant": "the equality concerns all matrices and all vectors in every combination of order, layout and packing", "anchors": ["include/Mathter/Matrix/Cast.hpp: FlipOrder, SetOrder", "include/Mathter/Matrix/Matrix.hpp: Matrix (converting constructors)"]}
{"id": "C87", "title": "Real, Imag, Conj and Abs fit together element by element", "statement": "For every real or complex vector or matrix, Real + i*Imag gives back the elements, Real - i*Imag is Conj, Abs is non-negative and its square is Real^2 + Imag^2; Sqrt returns the non-negative square root of every non-negative element; Fill sets every element.", "quantifier": "all dimensions, layouts, packings and SIMD configurations, all element values (exact arithmetic)", "why_tests_cant": "the SIMD and scalar paths, real and complex types and layouts multiply; the relations are about all values", "anchors": ["include/Mathter/Vector/Math.hpp: Abs, Real, Imag, Conj, Sqrt, Fill", "include/Mathter/Matrix/Math.hpp: Abs, Real, Imag, Conj", "include/Mathter/Common/Functional.hpp: abs, real, imag, conj, sqrt"]}
{"id": "C88", "title": "Compound assignments of matrices use the old values throughout", "statement": "a += b, a -= b, a /= b, a op= x and v *= M leave in the left operand what the binary operator would have returned, also when the right operand is the matrix itself or one of its elements; division is defined exactly when no divisor is zero.", "quantifier": "all sizes, layouts and packings of both operands, all element values, all aliasing of operand and target", "why_tests_cant": "aliasing and mixed layouts are rarely tested; the claim is for all values and sizes", "anchors": ["include/Mathter/Matrix/Arithmetic.hpp: operator+=, operator-=, operator/=, operator*="]}
{"id": "C89", "title": "Comparisons with swizzles and single letters are those of the elements", "statement": "!= of vectors, swizzles and matrices holds exactly when some pair of corresponding elements differs, independent of the side; a single letter compares with a scalar by ==, !=, <, >, <=, >= as the element it names, from either side.", "quantifier": "all dimensions, index tuples, packings, layouts, orders and element values (NaN excluded)", "why_tests_cant": "index tuples and element values cannot be enumerated", "anchors": ["include/Mathter/Vector/Comparison.hpp: operator==, operator!=, operator<, operator>, operator<=, operator>=", "include/Mathter/Matrix/Comparison.hpp: operator!="]}
{"id": "C90", "title": "Abs of integer vectors is the absolute value", "statement": "For integer vectors Abs returns the mathematical absolute value of every element, independent of SIMD.", "quantifier": "all bit widths, dimensions, packings and element values", "why_tests_cant": "the exception is a single value per type, and the outcomes with and without SIMD differ", "anchors": ["include/Mathter/Vector/Math.hpp: Abs", "include/Mathter/Common/Functional.hpp: abs"]}
{"id": "C91", "title": "The common type of mixed arguments does not depend on their order", "statement": "Vector constructors, Scale and Translation accept a list of arithmetic arguments of different types exactly when the values can be added, in whatever order they are written, and the element type is that of the sum.", "quantifier": "all lists of any length of the integer, floating point and complex types", "why_tests_cant": "the lists of types cannot be enumerated, and a call that fails to compile cannot be part of an ordinary test", "anchors": ["include/Mathter/Common/TypeTraits.hpp: common_arithmetic_type", "include/Mathter/Vector/Vector.hpp: Vector", "include/Mathter/Transforms/ScaleBuilder.hpp: Scale", "include/Mathter/Transforms/TranslationBuilder.hpp: Translation"]}
{"id": "C92", "title": "NaN elements are never hidden by sums and lengths", "statement": "If an element of a vector is NaN then Sum, Dot, Length, Distance, LengthPrecise, SumCompensated are NaN and Normalize returns only NaN, whatever the other elements are, with and without SIMD and for any order of reduction.", "quantifier": "all dimensions, packings, SIMD configurations, reduction orders, positions of the NaN, all other element values including infinities", "why_tests_cant": "NaN can stand at any place among any other values; reduction orders vary with the target", "anchors": ["include/Mathter/Vector/Math.hpp: Sum, Dot, Length, Distance, LengthPrecise, Normalize, SumCompensated"]}
{"id": "C93", "title": "Vectors with infinite elements have infinite length", "statement": "Length and LengthPrecise of a vector with an infinite element and no NaN element are positive infinity; Normalize turns the finite elements of such a vector into zeros and the infinite ones into NaN.", "quantifier": "all dimensions, packings, SIMD configurations, reduction orders, all finite or infinite values of the other elements", "why_tests_cant": "the scaling of LengthPrecise divides infinities; the claim is over all combinations of elements", "anchors": ["include/Mathter/Vector/Math.hpp: Length, LengthPrecise, ScaleElements"]}
{"id": "C94", "title": "NormalizePrecise uses the fallback only for null vectors", "statement": "NormalizePrecise(v, degenerate) returns the fallback exactly when every element of v is zero.", "quantifier": "all dimensions, packings, SIMD configurations, all vectors including those with NaN and infinite elements", "why_tests_cant": "which inputs reach the fallback depends on comparisons with NaN and on the range of the intermediate values for all vectors", "anchors": ["include/Mathter/Vector/Math.hpp: NormalizePrecise, ScaleElements"]}
{"id": "C95", "title": "Min, Max and Clamp do not depend on the order of elements or on SIMD", "statement": "Max(v) and Min(v) are the largest and smallest element, Max(a,b), Min(a,b) and Clamp work element by element, with results that do not depend on the order of the elements or on SIMD, also when elements are infinite or NaN.", "quantifier": "all dimensions, packings, SIMD configurations, reduction orders, all element values including NaN and infinities", "why_tests_cant": "positions and values of NaN, orders of reduction and targets multiply", "anchors": ["include/Mathter/Vector/Math.hpp: Max, Min, MaxElement, MinElement, Clamp", "include/Mathter/Common/Functional.hpp", "include/Mathter/Utility.hpp: Clamp, Saturate"]}
{"id": "C96", "title": "Equality of vectors with NaN elements follows IEEE 754", "statement": "v == w holds exactly when corresponding elements are equal and none is NaN, and v != w is its negation; a vector differs from itself exactly when an element is NaN.", "quantifier": "all dimensions, packings, SIMD configurations and element values including NaN and infinities", "why_tests_cant": "a comparison of storage instead of elements agrees on nearly all values", "anchors": ["include/Mathter/Vector/Comparison.hpp: operator==, operator!="]}
{"id": "C97", "title": "SumCompensated agrees with Sum on infinite results", "statement": "If a vector has NaN or infinite elements, SumCompensated returns NaN or the infinity that Sum returns. For finite elements, when nothing overflows, the result is the compensated sum of real rounding arithmetic (whose accuracy is another property).", "quantifier": "all dimensions, packings, SIMD configurations, reduction orders and element values", "why_tests_cant": "positions and signs of infinities and the values around them cannot be enumerated", "anchors": ["include/Mathter/Vector/Math.hpp: SumCompensated, Sum", "include/Mathter/Common/MathUtil.hpp: Fast2Sum"]}
{"id": "C98", "title": "Compound assignments and literals of quaternions follow the algebra", "statement": "p += q, p -= q, p *= q, p += x, p -= x, p *= x, p /= x leave in p the result of the operation on the old value of p, converted to its type; != holds exactly when a member differs; a + b_i + c_j + d_k is the quaternion with these parts and the literals multiply like the units; a quaternion is rebuilt from ScalarPart and VectorPart and from its vector.", "quantifier": "all layouts, scalar types and conversions of the operands, all element values, also with the operand being the assigned object (exact arithmetic)", "why_tests_cant": "layouts, types and aliasing multiply, and the relations are about all values", "anchors": ["include/Mathter/Quaternion/Arithmetic.hpp: operator+=, operator-=, operator*=, operator/=", "include/Mathter/Quaternion/Comparison.hpp: operator!=", "include/Mathter/Quaternion/Literals.hpp", "include/Mathter/Quaternion/Quaternion.hpp: ScalarPart, VectorPart"]}
{"id": "C99", "title": "Quaternion products, inverses and rotations are accurate in floating point", "statement": "The product of two quaternions computed in floating point differs from the exact product by at most 2((1+u)^4-1) times the product of the norms; Inverse exists for every nonzero quaternion and is accurate to about nine rounding errors; q(v) differs from the exact rotation by no more than about 26 rounding errors times the length of v, also when q is not a unit quaternion.", "quantifier": "all quaternions of floats and all vectors, both layouts, any rounding to nearest (no overflow or underflow), any SIMD configuration and reduction order", "why_tests_cant": "the worst case over all quaternions and vectors cannot be sampled, and cancellation makes single elements inaccurate", "anchors": ["include/Mathter/Quaternion/Arithmetic.hpp: impl::Multiply, operator*", "include/Mathter/Quaternion/Math.hpp: Conj, Inverse, LengthSquared", "include/Mathter/Quaternion/RotationArithmetic.hpp: operator()"]}
{"id": "C100", "title": "The QR decomposition is backward stable in floating point", "statement": "The R that DecomposeQR computes in floating point is upper triangular, and there is a matrix Q with exactly orthonormal columns, close to the computed one, such that Q R differs from the given matrix by a small multiple (about 80 n (m+5) rounding errors for m rows and n columns) of each column. The product of the computed factors reproduces the matrix and the computed Q has orthonormal columns to a similar accuracy. The same holds for DecomposeLQ, row by row.", "quantifier": "all matrices with at least as many rows as columns (LQ: columns as rows) of any size for which that multiple is below one, any condition number or rank, any rounding to nearest (no overflow or underflow), with or without fused operations, any SIMD configuration and reduction order", "why_tests_cant": "rounding errors depend on every element, the size and the compiler; tests compare a few matrices with a tolerance", "anchors": ["include/Mathter/Decompositions/DecomposeQR.hpp: DecomposeQR, DecomposeLQ, HouseholderReflection", "include/Mathter/Vector/Math.hpp: LengthPrecise"]}
{"id": "C101", "title": "Solving with the QR decomposition is backward stable in floating point", "statement": "Every column of DecompositionQR::Solve(b) computed in floating point is the exact least squares solution (for square matrices: the exact solution) of a system whose matrix and right hand side differ from the given ones by small multiples of their columns, unless a diagonal element of R is zero, which cannot happen for matrices whose smallest singular value exceeds the rounding error.", "quantifier": "all matrices with at least as many rows as columns, of any size for which the bound is below one, all right hand sides with any number of columns, layout and packing, any rounding to nearest (no overflow or underflow), with or without fused operations, any SIMD configuration and reduction order", "why_tests_cant": "the error depends on the condition of each system; tests compare solutions of a few well conditioned systems", "anchors": ["include/Mathter/Decompositions/DecomposeQR.hpp: DecompositionQR::Solve, SolveUnordered", "include/Mathter/Matrix/Algorithm.hpp: SolveUpperTriangular", "include/Mathter/Matrix/Arithmetic.hpp: operator*"]}
{"id": "C102", "title": "Closed-form determinants are accurate in floating point", "statement": "The determinant of a 2x2, 3x3 or 4x4 matrix computed in floating point differs from the exact determinant by at most 2, 5 or 11 rounding errors, respectively, times the permanent of the absolute values of the matrix (the sum of the absolute values of all products that make up the determinant).", "quantifier": "all 2x2, 3x3, 4x4 matrices of floats, both layouts and packings, any rounding to nearest (no overflow or underflow), with or without fused operations, any SIMD configuration and reduction order", "why_tests_cant": "cancellation depends on all elements together; tests compare a few determinants with a tolerance", "anchors": ["include/Mathter/Matrix/Math.hpp: Determinant"]}
{"id": "C103", "title": "Closed-form inverses are accurate in floating point", "statement": "If the determinant of a 2x2, 3x3 or 4x4 matrix exceeds the rounding error of its computation, Inverse does not divide by zero and each element of the result differs from that of the exact inverse by the rounding error of its cofactor and the relative error of the determinant.", "quantifier": "all 2x2, 3x3, 4x4 matrices of floats whose determinant exceeds 2, 5 or 11 rounding errors times the permanent of the absolute values, both layouts and packings, any rounding to nearest (no overflow or underflow), with or without fused operations, any SIMD configuration and reduction order", "why_tests_cant": "the error depends on every element and its cofactor; tests invert a few matrices and multiply back with a tolerance", "anchors": ["include/Mathter/Matrix/Math.hpp: Inverse"]}
{"id": "C104", "title": "The one-sided SVD is accurate in floating point", "statement": "For real tall matrices the Jacobi rotations of the one-sided SVD never divide by zero, every rotation has cosine and sine of length one up to a few rounding errors and at most 45 degrees, it makes its Gram matrix diagonal up to 30 u times the element it removes and leaves the two rotated columns orthogonal up to about 20 u and the error of their inner products, V is within rounding errors of an orthogonal matrix, and if no singular value is below the first one times (about) the square root of the machine epsilon, U * diag(S) * V reproduces every row of A up to about 24 u times the number of rotations, the singular values are not negative and the columns of U have length one up to rounding errors.", "quantifier": "all real matrices of any shape with at least one row and column, all numbers of sweeps (whether or not they have converged), all roundings with relative error u (no overflow/underflow), fused and separate operations", "why_tests_cant": "rounding errors accumulate over sweeps; tests compare a few random matrices against a tolerance", "anchors": ["include/Mathter/Decompositions/DecomposeSVD.hpp: DecomposeSVDJacobiOneSided", "include/Mathter/Decompositions/DecomposeSVD.hpp: DiagonalizeHermitian2x2", "include/Mathter/Decompositions/DecomposeSVD.hpp: MinimizeDiagonalizingRotation", "include/Mathter/Decompositions/DecomposeSVD.hpp: GivensRotateRight"]}
{"id": "C105", "title": "Transform builders convert to exactly the matrix shapes that fit their transform", "statement": "A builder for transforms of n-dimensional vectors (Scale, Translation, Shear, rotations, Orthographic, Perspective, LookAt) can be converted to a matrix type if and only if matrices of that order and shape can represent the transform: n x n for linear ones, n x (n+1) or (n+1) x n according to the order for affine ones, (n+1) x (n+1) for all; never by two conversion operators at once.", "quantifier": "all dimensions, both orders, all numbers of rows and columns", "why_tests_cant": "a conversion that does not exist cannot be called by a test, and the tests instantiate a few fixed shapes", "anchors": ["include/Mathter/Transforms/ScaleBuilder.hpp: ScaleBuilder", "include/Mathter/Transforms/TranslationBuilder.hpp: TranslationBuilder", "include/Mathter/Transforms/ShearBuilder.hpp: ShearBuilderGeneral", "include/Mathter/Transforms/Rotation3DBuilder.hpp: Rotation3DAxisBuilder, Rotation3DTriAxisBuilder, Rotation3DAxisAngleBuilder", "include/Mathter/Transforms/Rotation2DBuilder.hpp: Rotation2DBuilder", "include/Mathter/Transforms/OrthographicBuilder.hpp: OrthographicBuilder", "include/Mathter/Transforms/PerspectiveBuilder.hpp: PerspectiveBuilder", "include/Mathter/Transforms/ViewBuilder.hpp: ViewBuilder"]}
{"id": "C106", "title": "The two-sided SVD is accurate in floating point", "statement": "For real matrices with at least as many rows as columns, the two-sided Jacobi SVD finds rotations of length one up to about 10 rounding errors for every 2x2 block (none is divided by zero) that leave at most 600 u times the largest element of the block of the two elements they are to remove, U and V are within rounding errors of matrices with orthonormal columns, and U * diag(S) * V differs from A by at most the rounding errors of the rotations (about 30 u for each of them) and the elements that were left off the diagonal, relative to the Frobenius norm; these are within the tolerance if the last sweep has found nothing to do, and within about 1200 u in any case for matrices with two rows. The loop ends for every nonzero matrix.", "quantifier": "all real matrices of any shape with at least as many rows as columns, all numbers of sweeps (whether or not they have converged), all roundings with relative error u (no overflow/underflow), fused and separate operations, any std::hypot with a relative error below one", "why_tests_cant": "rounding errors accumulate over sweeps, and whether the loop ends depends on every rounding; tests compare a few random matrices against a tolerance", "anchors": ["include/Mathter/Decompositions/DecomposeSVD.hpp: DecomposeSVDJacobiTwoSided", "include/Mathter/Decompositions/DecomposeSVD.hpp: DecomposeSVD2x2", "include/Mathter/Decompositions/DecomposeSVD.hpp: DecomposeRQ2x2", "include/Mathter/Decompositions/DecomposeSVD.hpp: DiagonalizeTriangular2x2", "include/Mathter/Decompositions/DecomposeSVD.hpp: GivensRotateLeft, GivensRotateRight"]}
{"id": "C107", "title": "Arithmetic of integer vectors follows C++ arithmetic with and without SIMD", "statement": "Sums, differences, products, quotients and negatives of integer vectors give every element the value that the C++ operator gives for the elements (after promotion and the usual conversions), with and without SIMD: exact if it is representable, modulo 2^bits for unsigned results. Whether an operation is defined depends only on the elements.", "quantifier": "all integer types (8 to 64 bits, signed and unsigned, mixed), all dimensions, packings, configurations and elements, padding lanes included", "why_tests_cant": "the failures need particular values at the ends of the range, padding lanes that no test can see, and a certain instruction set", "anchors": ["include/Mathter/Vector/Arithmetic.hpp: divides_safe", "include/Mathter/Vector/OperationUtil.hpp: DoBinaryOp, is_invocable_batched, FillMaskedWithFirst"]}
{"id": "C108", "title": "Sums and inner products of integer vectors are exact if they can be", "statement": "Sum and Dot of integer vectors return the exact sum if it is representable, in every configuration and order of summation, and the congruent value otherwise for unsigned and small types; the squared distance of unsigned vectors is exact if it is representable although the differences wrap around.", "quantifier": "all integer types, dimensions, packings, configurations, orders of summation and elements", "why_tests_cant": "overflow in partial sums depends on the order of summation and the values", "anchors": ["include/Mathter/Vector/Math.hpp: Sum, Dot, LengthSquared, Distance"]}
{"id": "C109", "title": "Both SVD algorithms end for every matrix of floats", "statement": "The loops of the one-sided and of the two-sided Jacobi SVD end after a number of sweeps that depends only on the floating-point format, whatever the elements of the matrix are (NaN, infinities, numbers whose products overflow), because the largest error of a sweep is never NaN and must decrease for the loop to go on.", "quantifier": "all real matrices of any size with any floating-point elements, any rounding into a finite set of numbers and infinities, any results of the 2x2 kernel and of std::hypot, fused and separate operations", "why_tests_cant": "a loop that does not end for some bit pattern is not found by a few matrices, and a test cannot wait for it", "anchors": ["include/Mathter/Decompositions/DecomposeSVD.hpp: DecomposeSVDJacobiTwoSided", "include/Mathter/Decompositions/DecomposeSVD.hpp: DecomposeSVDJacobiOneSided"]}
{"id": "C110", "title": "The SVD of a matrix without finite values reports NaN singular values", "statement": "If an element of the matrix is NaN or infinite, or the matrix is null, no singular value that DecomposeSVD returns is a number. The one-sided algorithm sorts lengths that are then all NaN, so that its comparison is consistent; in builds with assertions its assertion fails.", "quantifier": "all real matrices of any size with such elements at any positions, both algorithms, any kernel, SIMD configuration, layout and reduction order", "why_tests_cant": "the positions of the elements decide whether comparisons see them; tests try one or two matrices", "anchors": ["include/Mathter/Decompositions/DecomposeSVD.hpp: DecomposeSVDJacobiTwoSided", "include/Mathter/Decompositions/DecomposeSVD.hpp: DecomposeSVDJacobiOneSided", "include/Mathter/Decompositions/DecomposeSVD.hpp: DiagonalizeHermitian2x2", "include/Mathter/Matrix/Math.hpp: ScaleElements"]}
{"id": "C111", "title": "Conversions between quaternions and rotation matrices are accurate in floating point", "statement": "The matrix of a quaternion of nearly unit length is within about 12 rounding errors (and twice the deviation of the squared length) of the exact rotation, element by element, and the identity elsewhere. The quaternion of a matrix close to a rotation that is not a half turn is close to the quaternion of the rotation, with an error that grows with the inverse square of the scalar part; so the round trip returns q/|q|.", "quantifier": "all quaternions with a positive scalar part (up to sign: all rotations other than half turns), all matrices within a tolerance of a rotation, all matrix sizes and orders, both layouts, all roundings with relative error u (no overflow/underflow), fused and separate operations", "why_tests_cant": "the error depends on how close the rotation is to a half turn; tests compare a few rotations against a tolerance", "anchors": ["include/Mathter/Quaternion/Quaternion.hpp: QuaternionToMatrix, MatrixToQuaternion"]}
{"id": "C112", "title": "Sums, inner products and lengths of complex vectors are accurate in floating point", "statement": "Sum of a complex vector is accurate in both parts, Dot relative to the products of the moduli, and LengthSquared, Length, LengthPrecise, Distance and DistancePrecise have a small relative error, with bounds that depend on the dimension only and not on the order of summation, SIMD or fused operations.", "quantifier": "all dimensions, packings, configurations, orders of reduction, complex elements, all roundings with relative error u (no overflow/underflow), fused and separate operations", "why_tests_cant": "the rounding errors depend on the order in which a register or std::reduce combines the elements; tests compare a few vectors", "anchors": ["include/Mathter/Vector/Math.hpp: Sum, Dot, LengthSquared, Length, Distance"]}
{"id": "C113", "title": "Compensated sums of complex vectors are compensated in both parts", "statement": "SumCompensated and DotCompensated of complex vectors return a sum whose error is of second order, as for real vectors.", "quantifier": "all dimensions and complex elements, all roundings, any accurate std::abs", "why_tests_cant": "the loss needs elements whose moduli are ordered differently from their parts", "anchors": ["include/Mathter/Vector/Math.hpp: SumCompensated, DotCompensated", "include/Mathter/Common/MathUtil.hpp: Fast2Sum"]}
{"id": "C114", "title": "Interpolation on segments and B\u00e9zier curves is accurate in floating point and exact at the ends", "statement": "BezierCurve::PointAt differs from the Bernstein form by at most 3*Order rounding errors relative to the largest coordinate of the control points (for parameters in [0, 1]), LineSegment::Interpol by at most three; at the parameters 0 and 1 both return the first and the last point exactly.", "quantifier": "all orders and dimensions, control points and parameters, all roundings with relative error u (no overflow/underflow), fused and separate operations", "why_tests_cant": "the error accumulates over the passes of the algorithm and depends on the parameter; tests evaluate a few points", "anchors": ["include/Mathter/Geometry/BezierCurve.hpp: PointAt", "include/Mathter/Geometry/LineSegment.hpp: Interpol"]}
{"id": "C115", "title": "Interpolated points stay within the bounds of the control points", "statement": "For parameters in [0, 1], the coordinates returned by BezierCurve::PointAt and LineSegment::Interpol are within the range of the coordinates of the control points, so that in particular a constant curve is constant.", "quantifier": "all orders, control points and parameters in [0, 1], all roundings to nearest", "why_tests_cant": "the range is left by one unit in the last place for special parameters only", "anchors": ["include/Mathter/Geometry/BezierCurve.hpp: PointAt", "include/Mathter/Geometry/LineSegment.hpp: Interpol"]}
{"id": "C116", "title": "Points on lines, distances from planes and intersections with planes are accurate in floating point", "statement": "Line::PointAt and Hyperplane::Distance have errors of a few roundings relative to their terms. Intersect of a hyperplane and a line returns a point that is on the line and satisfies the equation of the plane up to rounding errors relative to the terms of the equation, plus the deviation of the normal from unit length times the scalar; nothing is returned only if the inner product of normal and direction is below its own rounding error.", "quantifier": "all dimensions, planes, lines and points, all roundings with relative error u (no overflow/underflow), any order of reduction, fused and separate operations", "why_tests_cant": "the residual depends on the angle of the line and on the sizes of the coordinates; tests use a few well-conditioned lines", "anchors": ["include/Mathter/Geometry/Line.hpp: PointAt", "include/Mathter/Geometry/Hyperplane.hpp: Distance, Base", "include/Mathter/Geometry/Intersection.hpp: IntersectHyperplaneLine, Intersect"]}
{"id": "C117", "title": "A NaN in a matrix is not hidden by matrix algebra", "statement": "If a matrix or vector contains a NaN, every element of a product made from it is NaN (a whole row for a NaN on the left, a whole column for one on the right), the determinant of dimensions 2 to 4 is NaN, every element of the inverse of dimensions 2 to 4 is NaN, and the solution of a triangular system, of a system solved with LU or LUP and the inverse of larger matrices contain a NaN in every column (row).", "quantifier": "all dimensions, positions of the NaN, layouts, orders, packing, vectorisation and reduction orders, all roundings, fused and separate operations", "why_tests_cant": "the path of the NaN depends on its position and on pivots chosen by comparisons with NaN; tests use finite matrices", "anchors": ["include/Mathter/Matrix/Arithmetic.hpp: operator*", "include/Mathter/Matrix/Math.hpp: Determinant, Inverse", "include/Mathter/Matrix/Algorithm.hpp: SolveUpperTriangular, SolveLowerTriangular", "include/Mathter/Decompositions/DecomposeLU.hpp: DecomposeLU, DecomposeLUP, Solve, Inverse"]}
{"id": "C118", "title": "The determinant of a large matrix with a NaN is NaN", "statement": "Determinant of a matrix of dimension 5 or more that contains a NaN is NaN.", "quantifier": "all dimensions of at least 5, positions of the NaN, roundings, fused and separate operations", "why_tests_cant": "a NaN outside of the first row is lost only if a zero pivot makes the algorithm stop or swap rows", "anchors": ["include/Mathter/Matrix/Math.hpp: Determinant, BareissAlgorithm"]}
{"id": "C119", "title": "Rotations and shears are accurate in floating point", "statement": "The matrices and quaternions of Rotation, RotationX/Y/Z, RotationAxis, RotationAxisAngle, RotationAxis3, RotationEuler and RotationRPY, and the matrices of Shear, map every vector to within a few rounding errors of the exact rotation (shear) by the given angles around the given axes, in the documented order of composition; an axis normalised in floating point passes the check of its length, and the lengths of rotated vectors change by a few rounding errors only.", "quantifier": "all angles, axes within 1/100 of a unit vector, vectors, orders, shapes, layouts of quaternions, all roundings with relative error u <= 1/1000 (no overflow/underflow), sine and cosine functions with an absolute error, fused and separate operations", "why_tests_cant": "the error depends on angle, axis and vector; tests compare a few rotations with a tolerance", "anchors": ["include/Mathter/Transforms/Rotation2DBuilder.hpp: Set", "include/Mathter/Transforms/Rotation3DBuilder.hpp: RotationMatrixSingleAxis, RotationMatrixAxisAngle, RotationQuaternionAxisAngle, Rotation3DTriAxisBuilder", "include/Mathter/Transforms/ShearBuilder.hpp: ShearMatrixGeneral"]}
{"id": "C120", "title": "Projections are accurate in floating point", "statement": "Orthographic maps every position to within about ten rounding errors of the exact image, relative to the terms of the affine map, and rejects exactly the volumes without extent. Perspective maps the lateral coordinates of positions in front of the eye with a relative error of five rounding errors, and the depth with an error of seven rounding errors relative to its two terms; it rejects exactly the planes, angles and ratios that the exact builder rejects.", "quantifier": "all dimensions, volumes, planes, ratios and positions, orders and shapes, all roundings with relative error u <= 1/1000 (no overflow/underflow), fields of view whose half is a float, a tangent function with one ulp of error, fused and separate operations", "why_tests_cant": "the error depends on the ratio of the planes and the offset of the volume; tests use a few volumes with a tolerance", "anchors": ["include/Mathter/Transforms/OrthographicBuilder.hpp: OrthographicBuilder", "include/Mathter/Transforms/PerspectiveBuilder.hpp: PerspectiveBuilder"]}
{"id": "C121", "title": "A NaN coordinate never makes a finite intersection", "statement": "If a coordinate of a plane, line, ray, segment or triangle is NaN and Intersect reports an intersection, all coordinates of the reported point are NaN.", "quantifier": "all dimensions, operands, positions of the NaN, vectorisation and reduction orders, all roundings, fused and separate operations", "why_tests_cant": "comparisons with NaN are false, so that each test of an algorithm must be written the right way round; tests use finite coordinates", "anchors": ["include/Mathter/Geometry/Intersection.hpp: Intersect, IntersectHyperplaneLine, IsWithin"]}
{"id": "C122", "title": "Rays and segments hit nothing if a coordinate is NaN", "statement": "Intersect of a ray or a segment with a plane, line, segment or triangle reports no intersection if a coordinate of either operand is NaN.", "quantifier": "all dimensions, operands, positions of the NaN, vectorisation and reduction orders, all roundings, fused and separate operations", "why_tests_cant": "a hit on a triangle with a NaN corner shows up only as a false occlusion; tests use finite coordinates", "anchors": ["include/Mathter/Geometry/Intersection.hpp: Intersect"]}
{"id": "C123", "title": "Measurements and directions computed from NaN are NaN", "statement": "Hyperplane::Distance, Line::PointAt, LineSegment::InterpolOf, Triangle::Area, Triangle::Centroid, Line::Through, LineSegment::Direction and GramSchmidtOrthogonalize return NaN in the coordinates that depend on a NaN coordinate.", "quantifier": "all dimensions, operands, positions of the NaN, vectorisation and reduction orders, all roundings, fused and separate operations", "why_tests_cant": "a fallback or a comparison can hide the NaN in one of the functions; tests use finite coordinates", "anchors": ["include/Mathter/Geometry/Line.hpp: Through, PointAt", "include/Mathter/Geometry/LineSegment.hpp: Direction, InterpolOf", "include/Mathter/Geometry/Hyperplane.hpp: Distance", "include/Mathter/Geometry/Triangle.hpp: Area, Centroid", "include/Mathter/Vector/Math.hpp: GramSchmidtOrthogonalize, NormalizePrecise"]}
{"id": "C124", "title": "A finite result is accurate even if results in between can overflow", "statement": "If Sum, Dot, Length, Distance, an element of a matrix product or a determinant up to 4x4 comes out finite, it is as accurate as without overflow. If a column of the solution of a triangular system is finite, no divisor was zero and the column solves a nearby system; if the factors of DecomposeLU or DecomposeLUP are finite, they are triangular and their product is close to the matrix.", "quantifier": "all dimensions, finite inputs, layouts, orders, packings, vectorisation and reduction orders, all roundings that overflow to infinities (no underflow), fused and separate operations", "why_tests_cant": "overflow happens at particular magnitudes in particular intermediate results; a comparison or a division can turn an infinity into a finite number", "anchors": ["include/Mathter/Vector/Math.hpp: Sum, Dot, Length, Distance", "include/Mathter/Matrix/Arithmetic.hpp: operator*", "include/Mathter/Matrix/Math.hpp: Determinant", "include/Mathter/Matrix/Algorithm.hpp: SolveUpperTriangular, SolveLowerTriangular", "include/Mathter/Decompositions/DecomposeLU.hpp: DecomposeLU, DecomposeLUP"]}
{"id": "C125", "title": "Finite solutions and inverses are accurate", "statement": "If a column of the solution of a linear system by LU or LUP decomposition is finite, it solves a nearby system; if Inverse is finite, it is close to the inverse.", "quantifier": "all dimensions, matrices and right-hand sides of finite numbers, orders and layouts, all roundings that overflow to infinities (no underflow), fused and separate operations", "why_tests_cant": "an overflow in between can be divided away, leaving finite numbers; tests use matrices of moderate size", "anchors": ["include/Mathter/Decompositions/DecomposeLU.hpp: DecomposeLU, DecomposeLUP, Solve", "include/Mathter/Matrix/Math.hpp: Inverse"]}
{"id": "C126", "title": "Products of integer matrices and small determinants are exact modulo the size of the type", "statement": "Each element of a product of matrices, or of a matrix and a vector, of integers of the same or different types is congruent to the mathematical one modulo the size of the result type, and equal to it if it fits; likewise Trace and determinants up to 4x4 for the element type. Unsigned results without promotion are always defined; signed ones are if the sums of the absolute values of the products fit.", "quantifier": "all dimensions, integer types and their combinations, layouts, orders, packings, vectorisation and reduction orders", "why_tests_cant": "overflow depends on types, promotion, vectorisation and the order of the sums; tests use small numbers of one type", "anchors": ["include/Mathter/Matrix/Arithmetic.hpp: Multiply, operator*", "include/Mathter/Matrix/Math.hpp: Trace, Determinant"]}
{"id": "C127", "title": "Determinants of integer matrices are exact if they fit in the element type", "statement": "Determinant of a matrix of integers is defined and equals the mathematical determinant whenever that fits in the element type.", "quantifier": "all dimensions, integer types and matrices", "why_tests_cant": "which minors occur on the way and whether they fit depends on the matrix; tests use small matrices with small determinants", "anchors": ["include/Mathter/Matrix/Math.hpp: Determinant, BareissAlgorithm"]}
{"id": "C128", "title": "The one-sided SVD of a matrix with elements up to the largest number does not overflow before the scale is applied again", "statement": "For a non-zero matrix of finite numbers of any magnitude the singular values found by DecomposeSVD with the one-sided Jacobi algorithm are the rounded lengths, times signs, of the columns of the matrix times an orthogonal matrix, up to rounding errors relative to the Frobenius norm: none of them is NaN, and one is infinite only if such a length overflows.", "quantifier": "all matrices of finite numbers, dimensions, layouts, vectorisation and orders of sums, formats whose range holds 144 times the number of elements, and numbers of sweeps", "why_tests_cant": "intermediate overflow depends on the elements, on the rotations and on the number of sweeps; tests use matrices of moderate size", "anchors": ["include/Mathter/Decompositions/DecomposeSVD.hpp: DecomposeSVDJacobiOneSided, DiagonalizeHermitian2x2, MinimizeDiagonalizingRotation, GivensRotateRight", "include/Mathter/Matrix/Math.hpp: ScaleElements"]}
{"id": "C129", "title": "Rounded intersections of rays and triangles lie near both, and clear hits are found", "statement": "A point returned by Intersect(Ray, Triangle) is, up to rounding errors relative to the determinant of the two edges and the direction, a point of the ray at a parameter of at least epsilon and a point of the triangle. A hit inside the triangle by a margin of a few rounding errors, at a parameter that exceeds epsilon by such a margin, is returned, with an accurate parameter.", "quantifier": "all rays and triangles of floats, every precision, contraction of multiplications and additions, reduction order of dot products", "why_tests_cant": "the errors depend on the shape of the triangle and the angle of the ray; tests use a few rays and exact coordinates", "anchors": ["include/Mathter/Geometry/Intersection.hpp: Intersect", "include/Mathter/Vector/Math.hpp: Cross, Dot", "include/Mathter/Geometry/Ray.hpp: PointAt"]}
{"id": "C130", "title": "A ray through the common edge of two triangles hits at least one of them", "statement": "If a ray hits the common edge of two triangles, neither of them nearly parallel to it, Intersect(Ray, Triangle) returns a point for at least one of them.", "quantifier": "all pairs of triangles with a common edge and all rays through it, every precision", "why_tests_cant": "whether the sum of the rounded barycentric coordinates exceeds 1 depends on the digits of the reciprocal of the determinant; tests avoid edges", "anchors": ["include/Mathter/Geometry/Intersection.hpp: Intersect"]}
{"id": "C131", "title": "NormPrecise of matrices neither overflows nor underflows", "statement": "NormPrecise(M) of a real or complex matrix of finite numbers, however large or small, is finite whenever the Frobenius norm with a small margin is in range, and its error is a few rounding errors per element plus half of the smallest positive number. The norm of the zero matrix is 0.", "quantifier": "all matrices of finite floats, sizes, layouts and packings, every format with gradual underflow, every rounding to nearest, every order of the sums", "why_tests_cant": "the squares of the elements overflow or underflow for most of the exponent range; tests use a few matrices of moderate size", "anchors": ["include/Mathter/Matrix/Math.hpp: NormPrecise", "include/Mathter/Matrix/Math.hpp: Sum, Max, Abs, Real, Imag"]}
{"id": "C132", "title": "Area and centroid of a triangle are accurate", "statement": "Triangle::Area() of a triangle with floating-point corners is a number close to the true area, and Triangle::Centroid() is the mean of the corners up to three roundings.", "quantifier": "all triangles in all dimensions, every rounding to nearest, every order of the reductions, all configurations", "why_tests_cant": "Heron's formula subtracts nearly equal numbers for thin triangles; whether the rounded half perimeter is less than the longest side depends on the last bits of the corners", "anchors": ["include/Mathter/Geometry/Triangle.hpp: Area", "include/Mathter/Geometry/Triangle.hpp: Centroid", "include/Mathter/Vector/Math.hpp: LengthPrecise"]}
{"id": "C133", "title": "Orthogonalised vectors are orthogonal and span the inputs, up to rounding", "statement": "The vectors written by GramSchmidtOrthogonalize for floating-point inputs are orthogonal up to a small relative error, every input is up to a small relative error a combination of the outputs up to its own, and no division by zero occurs unless an output is exactly zero.", "quantifier": "all dimensions, all numbers of vectors, every rounding with small relative error, every order of the reductions, with and without contraction", "why_tests_cant": "the lack of orthogonality depends on cancellation in the last bits of nearly dependent inputs; tests use well-separated vectors", "anchors": ["include/Mathter/Vector/Math.hpp: GramSchmidtOrthogonalize", "include/Mathter/Vector/Math.hpp: NormalizePrecise", "include/Mathter/Vector/Math.hpp: Dot"]}
{"id": "C134", "title": "Look-at matrices are orthonormal and look at the target, up to rounding", "statement": "The rotation of LookAt in two and three dimensions, computed with floats, has columns that are unit vectors and orthogonal up to a small error; the column of the look axis points from the target to the eye up to a small error, and the target gets a side coordinate of nearly zero in camera space.", "quantifier": "all eye, target and up vectors with a look axis not parallel to the up vector, every rounding with small relative error, every order of the reductions, with and without contraction, all axis flips", "why_tests_cant": "errors depend on the last bits of the inputs and on how close the up vector is to the look axis; tests use axis-aligned cameras", "anchors": ["include/Mathter/Transforms/ViewBuilder.hpp: LookAt", "include/Mathter/Transforms/ViewBuilder.hpp: ViewBuilder", "include/Mathter/Vector/Math.hpp: GramSchmidtOrthogonalize", "include/Mathter/Vector/Math.hpp: Cross"]}
{"id": "C135", "title": "Angle, axis, exponential, logarithm and power of quaternions are accurate up to rounding", "statement": "Angle and Axis, computed with floats, have a small relative error for every quaternion; Exp has a small error relative to the length of the result, and its vector part an error relative to the vector part of the argument; Log and Pow of quaternions, including those close to the identity, have a small relative error as well.", "quantifier": "all quaternions, both layouts, every rounding with small relative error, every order of the reductions, every library of elementary functions with small relative error", "why_tests_cant": "whether a formula loses accuracy near a particular argument depends on the last bits of the inputs; tests use rotations by large angles and loose tolerances", "anchors": ["include/Mathter/Quaternion/Math.hpp: Angle", "include/Mathter/Quaternion/Math.hpp: Axis", "include/Mathter/Quaternion/Math.hpp: Exp", "include/Mathter/Quaternion/Math.hpp: Log", "include/Mathter/Quaternion/Math.hpp: Pow"]}
{"id": "C136", "title": "Solving and inverting with a computed SVD is backward stable", "statement": "Solve of a computed singular value decomposition with nonzero singular values returns a vector that no other vector beats in the residual by more than rounding errors relative to the sizes of the matrix, the solution and the right-hand side; for square matrices the residual itself is that small, however ill-conditioned the matrix is. Inverse returns a left inverse of matrices with at least as many rows as columns and a right inverse of the others, up to rounding errors times the product of the norms of the matrix and the result. The factors need only be orthonormal and reproduce the matrix up to small errors, which the two-sided Jacobi algorithm guarantees.", "quantifier": "all real matrices of all sizes and shapes for which the loops of Solve stay within bounds, all right-hand sides with any number of columns, both orders, every rounding with relative error u (no overflow/underflow), every layout and every order of the reductions in the products", "why_tests_cant": "a residual test on a few well-conditioned matrices cannot tell a backward stable solver from an unstable one", "anchors": ["include/Mathter/Decompositions/DecomposeSVD.hpp: Solve", "include/Mathter/Decompositions/DecomposeSVD.hpp: Inverse"]}
{"id": "C137", "title": "Segments that intersect are reported to intersect, at a point near both", "statement": "Line::Through, LineSegment::Direction, Length and InterpolOf have small errors relative to the distances involved. If Intersect of two lines through points, or of two proper segments in the plane, returns a point, it is near both lines or segments, up to rounding errors relative to the coordinates. If two segments have a common point and are not parallel, Intersect returns a point.", "quantifier": "all points, all proper segments and lines in the plane (direction, length and parameter in every dimension), every rounding with relative error u (no overflow/underflow), every order of the reductions, contracted or not", "why_tests_cant": "whether the rounded intersection passes the range check depends on the last digit of the direction; tests use axis-aligned or generously overlapping segments", "anchors": ["include/Mathter/Geometry/Intersection.hpp: Intersect", "include/Mathter/Geometry/Intersection.hpp: IsWithin", "include/Mathter/Geometry/Line.hpp: Through", "include/Mathter/Geometry/LineSegment.hpp: InterpolOf", "include/Mathter/Geometry/Hyperplane.hpp: Hyperplane"]}
{"id": "C138", "title": "A path of segments from one side of a plane to the other is reported to intersect the plane", "statement": "Intersect(Hyperplane, LineSegment) includes the start and excludes the end of the segment, so for a path of any number of segments that starts on or on one side of a plane with unit normal and ends on the other side, at least one segment is reported to intersect the plane. A reported point is near the segment and near the plane.", "quantifier": "all planes with unit normal, all paths of any length, every dimension; in exact arithmetic, and for every rounding with relative error u (no overflow/underflow), every order of the reductions, contracted or not", "why_tests_cant": "the corner of a path falls between two segments only for special offsets of the plane; tests use one segment that crosses the plane in its middle", "anchors": ["include/Mathter/Geometry/Intersection.hpp: Intersect", "include/Mathter/Geometry/Hyperplane.hpp: Base", "include/Mathter/Geometry/LineSegment.hpp: Line"]}
{"id": "C139", "title": "Vectors, matrices and quaternions of floats survive being written to a stream and read back", "statement": "Writing a vector, matrix or quaternion of floats to a stream and reading it back gives the same value. With P significant digits the elements are kept up to the rounding to P digits; with 9 digits in single and 17 digits in double precision they are kept exactly; a text with up to 6 (15) digits is kept when it is read and written again.", "quantifier": "all vectors and matrices of every size and all unit quaternions, every binary precision p, every number P of digits, every rounding to nearest with any rule for ties (exponents unbounded)", "why_tests_cant": "there are 2^32 or 2^64 values per element; tests write small integers and fractions that need few digits", "anchors": ["include/Mathter/IoStream.hpp: PrintElement", "include/Mathter/IoStream.hpp: ParseElement", "include/Mathter/IoStream.hpp: PrintArray", "include/Mathter/IoStream.hpp: ParseArray"]}
{"id": "C140", "title": "Finite quaternion products, inverses, rotations and unit vectors are accurate even if intermediate values overflow", "statement": "If intermediate results overflow to infinities, every finite element of a product of quaternions, of Inverse(q), of q(v) and of Normalize(v) is still accurate to the bounds that hold without overflow; a wrong finite value never comes out.", "quantifier": "all finite inputs, every dimension, every configuration and reduction order, every rounding that may return infinities", "why_tests_cant": "the failing inputs have elements beyond the square root of the largest float, which tests do not use; whether a finite result is right cannot be seen from the result", "anchors": ["include/Mathter/Quaternion/Math.hpp: Inverse", "include/Mathter/Quaternion/Math.hpp: Normalize", "include/Mathter/Quaternion/Arithmetic.hpp: Multiply", "include/Mathter/Quaternion/RotationArithmetic.hpp: operator()", "include/Mathter/Vector/Math.hpp: Normalize"]}
{"id": "C141", "title": "A finite intersection is right even if results in between overflow", "statement": "If results in between overflow to infinities or NaN, a finite point reported by Intersect (plane and line, ray or segment; two lines or segments in the plane; ray and triangle), a finite Distance from a plane and a finite PointAt are still accurate to the bounds that hold without overflow, and an intersection that exists is not missed because of the overflow.", "quantifier": "all finite inputs, every dimension, every configuration and reduction order, every rounding that may return infinities", "why_tests_cant": "the failing inputs have coordinates beyond the square root of the largest float; a finite point that is reported does not show that a comparison with NaN or infinity let it through", "anchors": ["include/Mathter/Geometry/Intersection.hpp: Intersect", "include/Mathter/Geometry/Line.hpp: Through", "include/Mathter/Geometry/Hyperplane.hpp: Distance", "include/Mathter/Geometry/Line.hpp: PointAt"]}
{"id": "C142", "title": "Underflow is harmless in sums and costs little in sums of products", "statement": "With gradual underflow, sums (also compensated ones) of floats come out as if there were no underflow, and dot products, matrix products, quaternion products, lengths and distances lose at most about half of the smallest positive number for each product, on top of their usual error. Length and Normalize work for every vector that is not zero.", "quantifier": "all vectors, matrices and quaternions of floats, every size, configuration, layout and reduction order, fused or not, every rounding to nearest with gradual underflow", "why_tests_cant": "tests use numbers around one; underflow needs elements below 2^-63 in single precision and the loss is invisible in any relative comparison of larger elements", "anchors": ["include/Mathter/Vector/Math.hpp: Sum", "include/Mathter/Vector/Math.hpp: SumCompensated", "include/Mathter/Vector/Math.hpp: Dot", "include/Mathter/Vector/Math.hpp: Length", "include/Mathter/Vector/Math.hpp: Distance", "include/Mathter/Vector/Math.hpp: Normalize", "include/Mathter/Quaternion/Math.hpp: Inverse"]}
{"id": "C143", "title": "DecomposeQRorLQ picks a decomposition that solves the system the matrix stands for", "statement": "DecomposeQRorLQ factors matrices of every shape and both multiplication orders, its Inverse() is the pseudoinverse of every matrix of full rank, and its Solve() solves Ax = b for matrices that precede vectors and xA = b for matrices that follow them, in the least squares sense if there are more equations than unknowns.", "quantifier": "all real and complex matrices of every shape, both orders, any number of right-hand sides", "why_tests_cant": "the choice is made at compile time per shape and order; each combination is a separate instantiation, and the tests check that two of them do not throw and the factors of one", "anchors": ["include/Mathter/Decompositions/DecomposeQR.hpp: DecomposeQRorLQ", "include/Mathter/Decompositions/DecomposeQR.hpp: DecomposeLQ", "include/Mathter/Decompositions/DecomposeQR.hpp: MATHTER_QR_SOLVE_ORDER_ERROR"]}
{"id": "C144", "title": "Products of complex matrices are accurate in floating point", "statement": "Real and imaginary part of every element of a product of complex matrices, or of a complex matrix and a vector, differ from the exact value by at most (1 + u)^(2k) - 1 times the sum of the products of the moduli of the k pairs of elements that enter, for every pair of layouts, with and without SIMD and fused operations. (A part that is small because terms cancel can be lost.)", "quantifier": "all complex matrices and vectors of floats, every size, layout, packing, configuration, reduction order and fusion", "why_tests_cant": "the order of operations, and even the formula for the real part, depends on layout, SIMD and fused operations; tests compare a few products with a tolerance", "anchors": ["include/Mathter/Matrix/Arithmetic.hpp: Multiply", "include/Mathter/Common/Functional.hpp: madd", "include/Mathter/Vector/Arithmetic.hpp: MultiplyAdd"]}
{"id": "C145", "title": "Clear hits of planes by lines and rays are found, and clear misses are not reported", "statement": "In floating point, the intersection of a plane with a line that is not nearly parallel to it is found, at a point near the exact one. A ray that meets the plane clearly ahead of its base is reported to do so, and a ray whose line meets it clearly behind its base is reported to miss. Whatever is reported lies near the ray and the plane. (Clearly: by more than the rounding errors of the numbers involved, divided by the cosine of the angle to the normal.)", "quantifier": "all planes with unit normals up to rounding, all lines and rays of every dimension, every rounding, fused or not, every implementation of the inner product", "why_tests_cant": "the result depends on rounding exactly where the ray starts near the plane or runs nearly parallel to it; tests use a handful of clear cases", "anchors": ["include/Mathter/Geometry/Intersection.hpp: Intersect", "include/Mathter/Geometry/Intersection.hpp: IntersectHyperplaneLine", "include/Mathter/Geometry/Ray.hpp: PointAt"]}
{"id": "C146", "title": "Complex linear systems are solved backward-stably", "statement": "In floating point, the triangular solvers return, for every right-hand side, the exact solution for a complex matrix whose elements differ by a small relative amount (in modulus). The complex LU and LUP factors multiply to the matrix up to a small multiple of the product of their moduli. The LUP multipliers are at most 1 up to rounding, so the factor L cannot amplify. Solving with either, and the generic inverse, gives exact solutions of systems perturbed by that much. Textbook complex division and modulus are accurate enough for all this.", "quantifier": "all complex matrices and right-hand sides of every size and both multiplication orders, every rounding to nearest with at least 8 bits, fused or separate complex products, every division and modulus of the stated accuracy; without overflow and underflow", "why_tests_cant": "the errors depend on the data, the size, how the compiler contracts complex products and how complex division is implemented; tests compare a few complex examples with a tolerance", "anchors": ["include/Mathter/Matrix/Algorithm.hpp: SolveUpperTriangular", "include/Mathter/Matrix/Algorithm.hpp: SolveLowerTriangular", "include/Mathter/Decompositions/DecomposeLU.hpp: DecomposeLU", "include/Mathter/Decompositions/DecomposeLU.hpp: DecomposeLUP", "include/Mathter/Decompositions/DecomposeLU.hpp: Solve", "include/Mathter/Matrix/Math.hpp: Inverse"]}
{"id": "C147", "title": "Determinants and inverses of small complex matrices are accurate", "statement": "In floating point, the determinants of complex 2\u00d72, 3\u00d73 and 4\u00d74 matrices are off by at most about 6, 15 and 33 rounding errors, relative to the sum of the moduli of the terms of the determinant. When the determinant is larger than that error, the inverse exists, and each element is as accurate as its cofactor and the determinant allow.", "quantifier": "all complex 2\u00d72, 3\u00d73 and 4\u00d74 matrices, both layouts, every rounding function with relative error at most 1/16, fused or separate complex products, every summation order of the reductions, every complex division of six rounding errors; without overflow and underflow", "why_tests_cant": "the errors depend on the data and on how the compiler contracts complex products; tests compare a few complex matrices with a tolerance", "anchors": ["include/Mathter/Matrix/Math.hpp: Determinant", "include/Mathter/Matrix/Math.hpp: Inverse"]}
{"id": "C148", "title": "The SVD handles matrices of every shape", "statement": "DecomposeSVD decomposes a wide matrix through its transpose: for every shape the factors multiply to the matrix, and Inverse is its pseudoinverse. Solve for a vector returns the least squares solution of the system.", "quantifier": "all matrices of every shape for which the algorithm ends with a thin decomposition, real and complex, both orders of multiplication, all right-hand sides", "why_tests_cant": "there are infinitely many shapes and the vector overload is a template that is only compiled when used; the tests call it with a few shapes", "anchors": ["include/Mathter/Decompositions/DecomposeSVD.hpp: DecomposeSVD", "include/Mathter/Decompositions/DecomposeSVD.hpp: Solve", "include/Mathter/Decompositions/DecomposeSVD.hpp: Inverse"]}
{"id": "C149", "title": "Unit-vector assertions accept what the library computes", "statement": "Line, Ray and Hyperplane assert that directions and normals are normalised. Vectors that the library normalised pass in every constructor and conversion: Line::Through and LineSegment::Line never fail, not even for equal points, and what one class or precision accepts, another does too.", "quantifier": "all points, all dimensions, every order of the sums, every precision whose accumulated error stays below 1/50000 (single precision up to hundreds of dimensions)", "why_tests_cant": "the assertions compare rounded lengths with a tolerance; tests sample a few directions, and whether any of the infinitely many directions fails is a bound on rounding errors", "anchors": ["include/Mathter/Geometry/Line.hpp: Through", "include/Mathter/Geometry/LineSegment.hpp: Line", "include/Mathter/Geometry/Hyperplane.hpp: Hyperplane", "include/Mathter/Geometry/Ray.hpp: Ray"]}
{"id": "C150", "title": "Complex QR and LQ decompositions are backward stable", "statement": "In floating point, the R of DecomposeQR of a complex matrix is upper triangular, and a matrix with exactly orthonormal columns times that R is the given matrix with columns changed by a small multiple of their own length; the returned Q is close to that matrix. DecomposeLQ likewise by rows.", "quantifier": "all complex matrices of every shape up to the size the precision allows (hundreds of rows and columns in single precision), every order of summation, fused or unfused products, every accurate modulus and quotient", "why_tests_cant": "the error of one matrix shows nothing about the worst matrix; nearly dependent columns and pivots that nearly vanish are where orthogonality is lost in other algorithms", "anchors": ["include/Mathter/Decompositions/DecomposeQR.hpp: DecomposeQR", "include/Mathter/Decompositions/DecomposeQR.hpp: DecomposeLQ", "include/Mathter/Decompositions/DecomposeQR.hpp: HouseholderReflection"]}
{"id": "C151", "title": "Complex least squares with QR is backward stable", "statement": "In floating point, DecompositionQR::Solve on the factors of a complex matrix returns, column by column, the exact least squares solution for a matrix and a right hand side close to the given ones, and the exact solution of such a system for square matrices; it has a result whenever the matrix is not too close to rank deficiency.", "quantifier": "all complex matrices with at least as many rows as columns up to the size the precision allows, all right hand sides with any number of columns, every layout, packing and order of summation, fused or unfused products", "why_tests_cant": "residuals of sampled systems do not bound the error of nearly dependent ones, and whether the computed triangle can become singular for a regular matrix is a statement about all matrices", "anchors": ["include/Mathter/Decompositions/DecomposeQR.hpp: Solve", "include/Mathter/Decompositions/DecomposeQR.hpp: SolveUnordered", "include/Mathter/Matrix/Algorithm.hpp: SolveUpperTriangular"]}
{"id": "C152", "title": "The rounding of determinants of dimension 5 and above", "statement": "In floating point, Determinant of a matrix of dimension 5 or above returns the exact determinant of a matrix close to the given one.", "quantifier": "all matrices of dimension 5 and above (and 1), every precision and rounding to nearest, fused or unfused products", "why_tests_cant": "tests compare determinants of a few matrices of moderate entries; whether a small pivot can destroy the result depends on the order in which pivots come up, and a bound of the error is a statement about all matrices", "anchors": ["include/Mathter/Matrix/Math.hpp: BareissAlgorithm", "include/Mathter/Matrix/Math.hpp: Determinant"]}
{"id": "C153", "title": "The rounding of determinants of complex matrices of dimension 5 and above", "statement": "In floating point, Determinant of a complex matrix of dimension 5 or above returns the exact determinant of a matrix close to the given one.", "quantifier": "all complex matrices of dimension 5 and above (and 1), every precision from 8 bits, every rounding to nearest, fused or unfused products, every division with a relative error of at most six rounding errors", "why_tests_cant": "tests compare determinants of a few matrices of moderate entries; whether a small pivot can destroy the result depends on the order in which pivots come up, and a bound of the error is a statement about all matrices", "anchors": ["include/Mathter/Matrix/Math.hpp: BareissAlgorithm", "include/Mathter/Matrix/Math.hpp: Determinant"]}
{"id": "C154", "title": "Accurate constants and conversion of angles in floating point", "statement": "Each member of Constants<float>, Constants<double> and Constants<long double> (80 bits) is the number of the format nearest to the mathematical constant; Rad2Deg and Deg2Rad are accurate to about three rounding errors, and converting there and back returns the angle up to four.", "quantifier": "formats of 24, 53 and 64 bits, a long double of the same precision or of at least four bits more, every rounding to nearest, all angles; the conversion there and back in every precision from 6 bits", "why_tests_cant": "tests compare the conversions for a few angles within a tolerance; a wrong digit of a literal far to the right, or a double rounding that goes the wrong way, stays within it", "anchors": ["include/Mathter/Utility.hpp: Constants", "include/Mathter/Utility.hpp: Rad2Deg", "include/Mathter/Utility.hpp: Deg2Rad"]}
{"id": "C155", "title": "Rounding errors of normalising and orthogonalising complex vectors", "statement": "Normalize and NormalizePrecise of a complex vector that is not zero have in every element a relative error of a few rounding errors times the dimension, so that the result has length 1 up to that; NormalizePrecise of the zero vector is the first unit vector. GramSchmidtOrthogonalize of complex vectors divides by zero only after a result that is exactly zero; every input is, up to a small error, its output plus a combination of the earlier outputs with coefficients that are not large, and the output is orthogonal to each earlier one up to an error relative to the length of the input plus what the earlier outputs lack of orthogonality.", "quantifier": "all dimensions d with 8100 (d + 3) 2^-p <= 1, lists of vectors of every length, every precision p from 8 bits, every rounding to nearest, every reduction order, parts of products contracted or not", "why_tests_cant": "tests orthogonalise a few well-conditioned lists of real vectors within a tolerance; a missing conjugate shows only with complex elements", "anchors": ["include/Mathter/Vector/Math.hpp: Normalize", "include/Mathter/Vector/Math.hpp: NormalizePrecise", "include/Mathter/Vector/Math.hpp: GramSchmidtOrthogonalize"]}
{"id": "C156", "title": "Rounding errors of the sums, traces and norms of matrices", "statement": "Sum of a matrix with r rows and n columns of floats differs from the exact sum of its elements by at most (1 + 2^-p)^(r + n) - 1 times the sum of their absolute values, part by part if they are complex; Trace by at most (1 + 2^-p)^(n - 1) - 1 times the sum of the absolute values on the diagonal. NormSquared and Norm have a relative error of at most (1 + 2^-p)^(r + n + 1) - 1 and (1 + 2^-p)^(r + n + 2) - 1, and of one more factor for complex elements.", "quantifier": "all sizes, layouts, element orders and matrices, every rounding, every reduction order with or without registers, real and complex elements, parts of products contracted or not", "why_tests_cant": "tests compare a few sums and norms of small integers, which are exact", "anchors": ["include/Mathter/Matrix/Math.hpp: Sum", "include/Mathter/Matrix/Math.hpp: Trace", "include/Mathter/Matrix/Math.hpp: NormSquared", "include/Mathter/Matrix/Math.hpp: Norm"]}
{"id": "C157", "title": "Floating point arithmetic on small integers is exact", "statement": "If the elements are integers (or multiples of a power of two) and the absolute values of the terms add up to at most 2^p (times that power), then Sum, Dot and LengthSquared of vectors, the components of Cross in space, the elements of products of matrices and vectors, products of quaternions, Sum, Trace and NormSquared of matrices and Determinant of 2x2 and 3x3 matrices return the exact value, and Length, Distance and Norm the correctly rounded one, whatever the layout, the registers and the order of summation. The bound is sharp: no Sum of 2^p and 1 is exact.", "quantifier": "all dimensions, layouts, orders of summation, configurations and precisions p, every rounding to nearest, multiply-add fused or not", "why_tests_cant": "tests compare integers with one build, where any order of summation would show the same; the bound up to which they may be relied on does not show", "anchors": ["include/Mathter/Vector/Math.hpp: Sum", "include/Mathter/Vector/Math.hpp: Dot", "include/Mathter/Vector/Math.hpp: Length", "include/Mathter/Vector/Math.hpp: Distance", "include/Mathter/Vector/Math.hpp: Cross", "include/Mathter/Matrix/Arithmetic.hpp: operator*", "include/Mathter/Quaternion/Arithmetic.hpp: operator*", "include/Mathter/Matrix/Math.hpp: Sum", "include/Mathter/Matrix/Math.hpp: Trace", "include/Mathter/Matrix/Math.hpp: Norm", "include/Mathter/Matrix/Math.hpp: Determinant"]}
{"id": "C158", "title": "NaN, infinities and overflow in the sum, trace and norm of a matrix", "statement": "Sum and Norm of a matrix with a NaN element are NaN, and so is Trace if the NaN is on the diagonal. Norm is NaN for no other matrix: without a NaN it is positive infinity or a number that is not negative, and it is positive infinity as soon as an element is infinite. If results overflow on the way but Sum, Trace or Norm comes out finite, the error bounds for evaluation without overflow hold.", "quantifier": "all matrix sizes, layouts, orders of summation, configurations and elements including NaN and infinities, every rounding that keeps signs and may overflow", "why_tests_cant": "tests try a few finite matrices; no test covers all positions of NaN and infinities in all layouts and orders of summation", "anchors": ["include/Mathter/Matrix/Math.hpp: Sum", "include/Mathter/Matrix/Math.hpp: Trace", "include/Mathter/Matrix/Math.hpp: NormSquared", "include/Mathter/Matrix/Math.hpp: Norm"]}
