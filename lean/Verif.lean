import Verif.Model.Core
import Verif.Model.Traits
import Verif.Model.Complex
import Verif.Model.Polynomial
import Verif.Model.Scalars
import Verif.Model.SVector
import Verif.Model.SMatrix
import Verif.Model.Dyn
import Verif.Spec.Basic
import Verif.Proof.Rel
import Verif.Proof.Loops
import Verif.Spec.Maps
import Verif.Proof.Hom
import Verif.Proof.Elem
import Verif.Spec.Poly
import Verif.Proof.PolyExact
import Verif.Proof.Panics
import Verif.Spec.Cx
import Verif.Spec.Denote
import Verif.Proof.Containers
import Verif.Props.Polynomial
import Verif.Props.Rings
import Verif.Props.Complex
import Verif.Props.SLinalg
import Verif.Proof.TreeEval
import Verif.Props.DynExpr
import Verif.Props.DynLinalg
import Verif.Proof.DynLoop
import Verif.Props.DynStore
import Verif.Props.DynAssign
import Verif.Props.DynDot
import Verif.Props.DE
import Verif.Props.ComplexFns
import Verif.Props.Ackley
import Verif.Props.Rounding
import Verif.Proof.IeeeRun
import Verif.Proof.IeeeRange
import Verif.Props.Ieee
import Verif.Props.IeeeSpecial
import Verif.Props.IeeeSqrt
import Verif.Props.IeeeSqrtErr
import Verif.Props.Eq
import Verif.Props.IeeeLaws
import Verif.Props.DEIeee
import Verif.Props.DERel
import Verif.Spec.CxRound
import Verif.Proof.CxRound
import Verif.Props.CxRound
import Verif.Spec.Libm
import Verif.Props.Libm
import Verif.Spec.LibmSym
import Verif.Props.LibmSym
import Verif.Model.Ackley
import Verif.Spec.Ackley
import Verif.Props.AckleyIeee
import Verif.Props.Minimise
import Verif.Props.DynAlgebra
import Verif.Witness.Polynomial
import Verif.Witness.Complex
import Verif.Witness.ComplexFns
import Verif.Witness.SLinalg
import Verif.Witness.Rings
import Verif.Witness.Eq
import Verif.Witness.Dyn
import Verif.Witness.DE
import Verif.Witness.Ieee
import Verif.Witness.Libm
import Verif.Witness.Minimise
import Verif.Witness.Form
import Verif.Props.FormErr
import Verif.Witness.FormErr
import Verif.Props.DEProb
import Verif.Props.DEStuck
import Verif.Witness.DEProb
import Verif.Witness.DEStuck
import Verif.Props.DEGrid
import Verif.Witness.DEGrid
import Verif.Props.Track
import Verif.Props.IntFloat
import Verif.Witness.Track
import Verif.Tests.Dyn
import Verif.Tests.Static
import Verif.Tests.Algebra
import Verif.Props.SqrtCheck
import Verif.Props.DESpan
import Verif.Witness.DESpan
import Verif.Spec.CForm
import Verif.Proof.CPerturb
import Verif.Props.CForm
import Verif.Witness.CForm
import Verif.Spec.LnCheck
import Verif.Proof.LnMul
import Verif.Props.LnCheck
import Verif.Witness.LnCheck
import Verif.Spec.PForm
import Verif.Proof.PFormMul
import Verif.Proof.PForm
import Verif.Proof.PFormRun
import Verif.Proof.PFormNum
import Verif.Props.PForm
import Verif.Witness.PForm
import Verif.Spec.Euler
import Verif.Proof.Euler
import Verif.Props.Euler
import Verif.Witness.Euler
import Verif.Proof.Backward
import Verif.Props.Backward
import Verif.Witness.Backward
import Verif.Spec.Order
import Verif.Proof.NonNeg
import Verif.Props.Order
import Verif.Witness.Order
import Verif.Props.Gram
import Verif.Props.DESym
import Verif.Witness.DESym
import Verif.Witness.Gram
import Verif.Props.DECost
import Verif.Witness.DECost
import Verif.Spec.Generic
import Verif.Proof.Generic
import Verif.Proof.Count
import Verif.Proof.Dual
import Verif.Props.Generic
import Verif.Props.GenericCount
import Verif.Props.Dual
import Verif.Witness.Generic
import Verif.Spec.Scale
import Verif.Proof.Scale
import Verif.Proof.ScaleRun
import Verif.Props.Scale
import Verif.Witness.Scale
import Verif.Spec.DEScale
import Verif.Proof.DERef
import Verif.Props.DEScale
import Verif.Witness.DEScale
import Verif.Props.Magnitude
import Verif.Witness.Magnitude
import Verif.Props.Word
import Verif.Witness.Word
import Verif.Props.C84
import Verif.Witness.DynEff
import Verif.Spec.TanCheck
import Verif.Proof.TanAdd
import Verif.Proof.TanAdd2
import Verif.Proof.TanAdd3
import Verif.Props.TanCheck
import Verif.Witness.TanCheck
import Verif.Spec.Apriori
import Verif.Proof.AprioriDiv
import Verif.Proof.AprioriSqrt
import Verif.Proof.Apriori
import Verif.Proof.AprioriLimit
import Verif.Props.Apriori
import Verif.Witness.Apriori
import Verif.Spec.DESpread
import Verif.Proof.DESpread
import Verif.Proof.DEMoments
import Verif.Proof.DEProposal
import Verif.Proof.DEDrift
import Verif.Props.DESpread
import Verif.Witness.DESpread
import Verif.Spec.DENoise
import Verif.Props.DENoise
import Verif.Witness.DENoise
import Verif.Spec.Mirror
import Verif.Props.Mirror
import Verif.Witness.Mirror
import Verif.Model.ElemEff
import Verif.Spec.ElemEff
import Verif.Proof.ElemEff
import Verif.Props.ElemEff
import Verif.Witness.ElemEff
import Verif.Spec.Tape
import Verif.Proof.Tape
import Verif.Props.Tape
import Verif.Witness.Tape
import Verif.Proof.CxMul5
import Verif.Props.CxMul5
import Verif.Witness.CxMul5
import Verif.Proof.LinErr
import Verif.Props.LinErr
import Verif.Witness.LinErr
import Verif.Spec.Bits
import Verif.Props.Bits
import Verif.Witness.Bits
import Verif.Props.Sticky
import Verif.Witness.Sticky
import Verif.Props.Nesting
import Verif.Witness.Nesting
import Verif.Props.Ball
import Verif.Witness.Ball
import Verif.Props.Growth
import Verif.Witness.Growth
import Verif.Props.Checks
import Verif.Witness.Checks
import Verif.Props.Convert
import Verif.Witness.Convert
