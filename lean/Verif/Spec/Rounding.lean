import Verif.Spec.Basic
import Mathlib.Algebra.Order.Field.Basic
import Mathlib.Algebra.Order.Group.Unbundled.Abs

/-!
# Scalars with rounding

The standard model of floating point arithmetic: every operation that returns may round its result in any way as long as
the relative error is at most `u`, plus an absolute error of at most `η` for (underflowing) products and quotients.
An operation may also not return (trapped exception). `φ` is the numerical value of a scalar, in any ordered field `K`.
`Verif/Props/Ieee.lean` shows that IEEE-754 arithmetic is an instance.
-/

namespace Magnesia

variable {T K : Type} [Field K] [LinearOrder K]

/-- The operators of the trait `Ring` are exact up to rounding. -/
structure RoundsRing [RRing T] (φ : T → K) (u η : K) : Prop where
  u_nonneg : 0 ≤ u
  η_nonneg : 0 ≤ η
  zero : φ RZero.zero = 0
  one : φ ROne.one = 1
  add : ∀ a b c : T, ringAdd a b = .ok c → |φ c - (φ a + φ b)| ≤ u * |φ a + φ b|
  sub : ∀ a b c : T, ringSub a b = .ok c → |φ c - (φ a - φ b)| ≤ u * |φ a - φ b|
  mul : ∀ a b c : T, MulRefs.mulRefs a b = .ok c → |φ c - φ a * φ b| ≤ u * |φ a * φ b| + η
  neg : ∀ a c : T, RNeg.neg a = .ok c → φ c = -φ a

/-- The trait `Field`: division by zero does not return (it traps). -/
structure RoundsField [RField T] (φ : T → K) (u η : K) : Prop extends RoundsRing φ u η where
  div : ∀ a b c : T, DivRefs.divRefs a b = .ok c → φ b ≠ 0 ∧ |φ c - φ a / φ b| ≤ u * |φ a / φ b| + η

/-- The square root. `|r - √a| ≤ u √a`, written without the square root, which need not be a member of `K`. -/
structure RoundsSqrt [RSqrt T] (φ : T → K) (u : K) : Prop where
  u_le_one : u ≤ 1
  sqrt : ∀ a c : T, RSqrt.sqrt a = .ok c → 0 ≤ φ c ∧ (1 - u) ^ 2 * φ a ≤ φ c ^ 2 ∧ φ c ^ 2 ≤ (1 + u) ^ 2 * φ a

/-- The by-value operators. -/
structure RoundsV [RZero T] [RAdd T T T] [RMul T T T] [RAddAssign T T] (φ : T → K) (u η : K) : Prop where
  u_nonneg : 0 ≤ u
  η_nonneg : 0 ≤ η
  zero : φ RZero.zero = 0
  add : ∀ a b c : T, RAdd.add a b = .ok c → |φ c - (φ a + φ b)| ≤ u * |φ a + φ b|
  mul : ∀ a b c : T, RMul.mul a b = .ok c → |φ c - φ a * φ b| ≤ u * |φ a * φ b| + η
  addAssign : ∀ a b c : T, (RAddAssign.addAssign a b).toRes = .ok c → |φ c - (φ a + φ b)| ≤ u * |φ a + φ b|

end Magnesia
