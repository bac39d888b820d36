import Verif.Model.Traits
import Mathlib.Algebra.Ring.Defs
import Mathlib.Data.Matrix.Mul

/-!
# Specification vocabulary: what theorems assume of element types

Nothing here refers to how a container is implemented.
-/

namespace Magnesia

/-- The operations of the element type `T` that the Rust trait `Ring` provides *implement the mathematical ring `R`*
through the interpretation `φ`: whenever an operation returns, its result denotes the mathematical result. An operation
is allowed to panic (see `NeverPanics`). -/
structure Implements {T R : Type} [RRing T] [Ring R] (φ : T → R) : Prop where
  zero : φ RZero.zero = 0
  one : φ ROne.one = 1
  add : ∀ a b, (AddAssignRef.addAssign a b).panic = none → φ (AddAssignRef.addAssign a b).val = φ a + φ b
  sub : ∀ a b, (SubAssignRef.subAssign a b).panic = none → φ (SubAssignRef.subAssign a b).val = φ a - φ b
  mul : ∀ a b c, MulRefs.mulRefs a b = .ok c → φ c = φ a * φ b
  neg : ∀ a c, RNeg.neg a = .ok c → φ c = -φ a

/-- No ring operation of the element type panics. -/
structure NeverPanics (T : Type) [RRing T] : Prop where
  add : ∀ a b : T, (AddAssignRef.addAssign a b).panic = none
  sub : ∀ a b : T, (SubAssignRef.subAssign a b).panic = none
  mul : ∀ a b : T, ∃ c, MulRefs.mulRefs a b = .ok c
  neg : ∀ a : T, ∃ c, RNeg.neg a = .ok c

/-- `e` is a panic that some ring operation of the element type can raise. -/
def ElementPanic (T : Type) [RRing T] (e : Panic) : Prop :=
  ∃ a b : T, (AddAssignRef.addAssign a b).panic = some e ∨ (SubAssignRef.subAssign a b).panic = some e ∨
    MulRefs.mulRefs a b = .error e ∨ RNeg.neg a = .error e

/-- The by-value operators of the element type implement `R` through `φ`. -/
structure ImplementsV {T R : Type} [RZero T] [RAdd T T T] [RSub T T T] [RMul T T T] [RAddAssign T T] [RSubAssign T T]
    [Ring R] (φ : T → R) : Prop where
  zero : φ RZero.zero = 0
  add : ∀ a b c : T, RAdd.add a b = .ok c → φ c = φ a + φ b
  sub : ∀ a b c : T, RSub.sub a b = .ok c → φ c = φ a - φ b
  mul : ∀ a b c : T, RMul.mul a b = .ok c → φ c = φ a * φ b
  addAssign : ∀ a b : T, (RAddAssign.addAssign a b).panic = none → φ (RAddAssign.addAssign a b).val = φ a + φ b
  subAssign : ∀ a b : T, (RSubAssign.subAssign a b).panic = none → φ (RSubAssign.subAssign a b).val = φ a - φ b

/-- No by-value operator of the element type panics. -/
structure NeverPanicsV (T : Type) [RAdd T T T] [RSub T T T] [RMul T T T] [RAddAssign T T] [RSubAssign T T] :
    Prop where
  add : ∀ a b : T, ∃ c : T, RAdd.add a b = .ok c
  sub : ∀ a b : T, ∃ c : T, RSub.sub a b = .ok c
  mul : ∀ a b : T, ∃ c : T, RMul.mul a b = .ok c
  addAssign : ∀ a b : T, (RAddAssign.addAssign a b).panic = none
  subAssign : ∀ a b : T, (RSubAssign.subAssign a b).panic = none

/-- By-value and by-reference operators of the element type do the same (true of every Rust number type). -/
structure ValueOpsAgree (T : Type) [RRing T] [RAdd T T T] [RSub T T T] [RMul T T T] [RAddAssign T T]
    [RSubAssign T T] : Prop where
  add : ∀ a b : T, (RAdd.add a b : Res T) = (AddAssignRef.addAssign a b).toRes
  sub : ∀ a b : T, (RSub.sub a b : Res T) = (SubAssignRef.subAssign a b).toRes
  mul : ∀ a b : T, (RMul.mul a b : Res T) = MulRefs.mulRefs a b
  addAssign : ∀ a b : T, RAddAssign.addAssign a b = AddAssignRef.addAssign a b
  subAssign : ∀ a b : T, RSubAssign.subAssign a b = SubAssignRef.subAssign a b

/-- `a + b` computed with the operator the trait `Ring` provides (`+=` with a reference). -/
def ringAdd {T : Type} [AddAssignRef T] (a b : T) : Res T := (AddAssignRef.addAssign a b).toRes

/-- `a - b` computed with the operator the trait `Ring` provides (`-=` with a reference). -/
def ringSub {T : Type} [SubAssignRef T] (a b : T) : Res T := (SubAssignRef.subAssign a b).toRes

/-- The laws the documentation of the trait `Ring` (src/algebra/ring.rs:48-108) asks of an implementation, as equations
between computations (`T::zero()`, `T::one()`, `+=`, `-=`, `mul_refs`, unary `-`). -/
structure RingLaws (T : Type) [RRing T] : Prop where
  add_assoc : ∀ a b c : T, (do ringAdd (← ringAdd a b) c) = (do ringAdd a (← ringAdd b c))
  add_comm : ∀ a b : T, ringAdd a b = ringAdd b a
  add_zero : ∀ a : T, ringAdd a RZero.zero = .ok a
  add_neg : ∀ a : T, (do ringAdd a (← RNeg.neg a)) = .ok RZero.zero
  sub_eq : ∀ a b : T, ringSub a b = (do ringAdd a (← RNeg.neg b))
  mul_assoc : ∀ a b c : T, (do MulRefs.mulRefs (← MulRefs.mulRefs a b) c) = (do MulRefs.mulRefs a (← MulRefs.mulRefs b c))
  mul_one : ∀ a : T, MulRefs.mulRefs a ROne.one = .ok a
  one_mul : ∀ a : T, MulRefs.mulRefs ROne.one a = .ok a
  left_distrib : ∀ a b c : T, (do MulRefs.mulRefs a (← ringAdd b c)) =
    (do ringAdd (← MulRefs.mulRefs a b) (← MulRefs.mulRefs a c))
  right_distrib : ∀ a b c : T, (do MulRefs.mulRefs (← ringAdd a b) c) =
    (do ringAdd (← MulRefs.mulRefs a c) (← MulRefs.mulRefs b c))

/-- The element type's division (trait `Field`) implements division in `R`: dividing by anything that does not denote
zero, if it returns, gives a quotient. Nothing is said about division by zero. -/
structure ImplementsField {T R : Type} [RField T] [Ring R] (φ : T → R) : Prop extends Implements φ where
  div : ∀ a b c, φ b ≠ 0 → DivRefs.divRefs a b = .ok c → φ c * φ b = φ a

end Magnesia
