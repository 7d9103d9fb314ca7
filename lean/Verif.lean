import Verif.Lemmas.Bareiss
import Verif.Lemmas.BareissZero
import Verif.Lemmas.ComplexDominantDet
import Verif.Lemmas.DominantDet
import Verif.Lemmas.IeeeFinite
import Verif.Lemmas.IeeeIntersection
import Verif.Lemmas.IeeeLinear
import Verif.Lemmas.IeeeRange
import Verif.Lemmas.IeeeSVD
import Verif.Lemmas.LinearSolve
import Verif.Lemmas.LoopRel
import Verif.Lemmas.MachineBareiss
import Verif.Lemmas.MachineDet
import Verif.Lemmas.MachineInt
import Verif.Lemmas.MachineMatrix
import Verif.Lemmas.Matrix
import Verif.Lemmas.QR
import Verif.Lemmas.Quaternion
import Verif.Lemmas.Range
import Verif.Lemmas.RangeNorm
import Verif.Lemmas.RoundedAnnihilate
import Verif.Lemmas.RoundedAnnihilateTwo
import Verif.Lemmas.RoundedArea
import Verif.Lemmas.RoundedBareiss
import Verif.Lemmas.RoundedComplexBareiss
import Verif.Lemmas.RoundedComplexDominant
import Verif.Lemmas.RoundedComplexGram
import Verif.Lemmas.RoundedComplexQR
import Verif.Lemmas.RoundedComplexSolve
import Verif.Lemmas.RoundedConversion
import Verif.Lemmas.RoundedDominant
import Verif.Lemmas.RoundedGram
import Verif.Lemmas.RoundedLook
import Verif.Lemmas.RoundedNear
import Verif.Lemmas.RoundedOne
import Verif.Lemmas.RoundedQR
import Verif.Lemmas.RoundedQuatExp
import Verif.Lemmas.RoundedSVD
import Verif.Lemmas.RoundedSVDSolve
import Verif.Lemmas.RoundedSVDTwo
import Verif.Lemmas.RoundedSegment
import Verif.Lemmas.RoundedSolve
import Verif.Lemmas.RoundedTransforms
import Verif.Lemmas.RoundedTriangle
import Verif.Lemmas.SVD
import Verif.Lemmas.SVDKernel
import Verif.Lemmas.SVDOne
import Verif.Lemmas.Swizzle
import Verif.Lemmas.Transforms
import Verif.Lemmas.Tree
import Verif.Lemmas.Vector
import Verif.Lemmas.VectorMath
import Verif.Model.BuilderShapes
import Verif.Model.CommonType
import Verif.Model.Construct
import Verif.Model.Determinant
import Verif.Model.Element
import Verif.Model.Elementwise
import Verif.Model.Fma
import Verif.Model.Geometry
import Verif.Model.Ieee
import Verif.Model.IeeeGeometry
import Verif.Model.IeeeLinear
import Verif.Model.IeeeMatrixNorm
import Verif.Model.IeeeQuaternion
import Verif.Model.IeeeSVD
import Verif.Model.IoStream
import Verif.Model.LinearSolve
import Verif.Model.Loop
import Verif.Model.MachineInt
import Verif.Model.MachineMatrix
import Verif.Model.Matrix
import Verif.Model.MatrixNorm
import Verif.Model.QR
import Verif.Model.QRorLQ
import Verif.Model.Quaternion
import Verif.Model.QuaternionAssign
import Verif.Model.RangeNorm
import Verif.Model.RangeReduce
import Verif.Model.RoundedArea
import Verif.Model.RoundedAssert
import Verif.Model.RoundedBareiss
import Verif.Model.RoundedComplex
import Verif.Model.RoundedComplexBareiss
import Verif.Model.RoundedComplexDeterminant
import Verif.Model.RoundedComplexGram
import Verif.Model.RoundedComplexLeastSquares
import Verif.Model.RoundedComplexLinear
import Verif.Model.RoundedComplexMatrix
import Verif.Model.RoundedComplexQR
import Verif.Model.RoundedConversion
import Verif.Model.RoundedDeterminant
import Verif.Model.RoundedGeometry
import Verif.Model.RoundedGram
import Verif.Model.RoundedLinear
import Verif.Model.RoundedLook
import Verif.Model.RoundedMatrixNorm
import Verif.Model.RoundedQR
import Verif.Model.RoundedQuatExp
import Verif.Model.RoundedQuaternion
import Verif.Model.RoundedReduce
import Verif.Model.RoundedSVD
import Verif.Model.RoundedSVDSolve
import Verif.Model.RoundedSVDTwo
import Verif.Model.RoundedSegment
import Verif.Model.RoundedTransforms
import Verif.Model.RoundedTriangle
import Verif.Model.RoundedUtility
import Verif.Model.SVD
import Verif.Model.SVDShape
import Verif.Model.Swizzle
import Verif.Model.SwizzleArith
import Verif.Model.SwizzleTable
import Verif.Model.Transforms
import Verif.Model.Utility
import Verif.Model.Vector
import Verif.Model.VectorMath
import Verif.Model.VectorReduce
import Verif.Props.Bareiss
import Verif.Props.BuilderShapes
import Verif.Props.CommonType
import Verif.Props.Compensated
import Verif.Props.Construct
import Verif.Props.Cross
import Verif.Props.Determinant
import Verif.Props.Elementwise
import Verif.Props.Fma
import Verif.Props.Geometry
import Verif.Props.GramSchmidt
import Verif.Props.Ieee
import Verif.Props.IeeeFinite
import Verif.Props.IeeeGeometry
import Verif.Props.IeeeIntersection
import Verif.Props.IeeeLinear
import Verif.Props.IeeeMatrixNorm
import Verif.Props.IeeeQuaternion
import Verif.Props.IeeeRange
import Verif.Props.IeeeSVD
import Verif.Props.Intersection
import Verif.Props.IoStream
import Verif.Props.LinearSolve
import Verif.Props.LookAt
import Verif.Props.MachineInt
import Verif.Props.MachineMadd
import Verif.Props.MachineMatrix
import Verif.Props.Matrix
import Verif.Props.MatrixNorm
import Verif.Props.Projection
import Verif.Props.QR
import Verif.Props.QRorLQ
import Verif.Props.Quaternion
import Verif.Props.QuaternionAngle
import Verif.Props.QuaternionAssign
import Verif.Props.QuaternionExp
import Verif.Props.RangeNorm
import Verif.Props.RangeReduce
import Verif.Props.RoundedAnnihilate
import Verif.Props.RoundedArea
import Verif.Props.RoundedAssert
import Verif.Props.RoundedBareiss
import Verif.Props.RoundedComplex
import Verif.Props.RoundedComplexBareiss
import Verif.Props.RoundedComplexDeterminant
import Verif.Props.RoundedComplexGram
import Verif.Props.RoundedComplexLeastSquares
import Verif.Props.RoundedComplexLinear
import Verif.Props.RoundedComplexMatrix
import Verif.Props.RoundedComplexQR
import Verif.Props.RoundedConversion
import Verif.Props.RoundedCrossing
import Verif.Props.RoundedDeterminant
import Verif.Props.RoundedExact
import Verif.Props.RoundedGeometry
import Verif.Props.RoundedGram
import Verif.Props.RoundedLinear
import Verif.Props.RoundedLook
import Verif.Props.RoundedMatrixNorm
import Verif.Props.RoundedProjection
import Verif.Props.RoundedQR
import Verif.Props.RoundedQuatExp
import Verif.Props.RoundedQuatPow
import Verif.Props.RoundedQuaternion
import Verif.Props.RoundedRay
import Verif.Props.RoundedReduce
import Verif.Props.RoundedSVD
import Verif.Props.RoundedSVDSolve
import Verif.Props.RoundedSVDTwo
import Verif.Props.RoundedSegment
import Verif.Props.RoundedTransforms
import Verif.Props.RoundedTriangle
import Verif.Props.RoundedUtility
import Verif.Props.SVD
import Verif.Props.SVDExit
import Verif.Props.SVDKernel
import Verif.Props.SVDOneSided
import Verif.Props.SVDProgress
import Verif.Props.SVDShape
import Verif.Props.SVDSolve
import Verif.Props.Swizzle
import Verif.Props.SwizzleArith
import Verif.Props.TextDigits
import Verif.Props.Transforms
import Verif.Props.Underflow
import Verif.Props.Utility
import Verif.Props.VectorArith
import Verif.Props.VectorMath
import Verif.Props.VectorReduce
import Verif.Props.Watertight
import Verif.Spec.BareissRun
import Verif.Spec.BareissRunC
import Verif.Spec.Bordered
import Verif.Spec.Decimal
import Verif.Spec.Frobenius
import Verif.Spec.Ieee
import Verif.Spec.IeeeRange
import Verif.Spec.IeeeSVD
import Verif.Spec.IntRange
import Verif.Spec.Norm
import Verif.Spec.NormC
import Verif.Spec.Permanent
import Verif.Spec.Quaternion
import Verif.Spec.Range
import Verif.Spec.RoundedTriangle
import Verif.Spec.Rounding
import Verif.Spec.Transform
import Verif.Spec.Underflow
import Verif.Spec.Watertight
