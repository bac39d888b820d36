import Verif.Model.Core

/-!
# The trait bounds of the crate as classes without laws

Every method may panic. References versus values: for a bound such as `for<'a> T: Add<&'a T>` or
`&'a T: Add<&'b T>` the same class as for `T: Add<T>` is used (simplification: for the scalar types of Rust all four
flavours are generated by one macro of the standard library and compute the same value). `Clone` is the identity.
-/

namespace Magnesia

/-- src/algebra/ring.rs:10-13 `trait Zero`. -/
class RZero (T : Type) where
  zero : T

/-- src/algebra/ring.rs:29-32 `trait One`. -/
class ROne (T : Type) where
  one : T

/-- `std::ops::AddAssign<&T> for T`, as required by `Ring` (src/algebra/ring.rs:114). -/
class AddAssignRef (T : Type) where
  addAssign : T → T → Upd T

/-- `std::ops::SubAssign<&T> for T`, as required by `Ring` (src/algebra/ring.rs:115). -/
class SubAssignRef (T : Type) where
  subAssign : T → T → Upd T

/-- src/algebra/ops_with_ref.rs:10-22 `trait MulRefs`. -/
class MulRefs (T : Type) where
  mulRefs : T → T → Res T

/-- src/algebra/ops_with_ref.rs:39-51 `trait DivRefs`. -/
class DivRefs (T : Type) where
  divRefs : T → T → Res T

/-- `std::ops::Neg<Output = T> for T`. -/
class RNeg (T : Type) where
  neg : T → Res T

/-- `std::cmp::PartialEq`: `==`. -/
class RPartialEq (T : Type) where
  eq : T → T → Bool

/-- src/algebra/ring.rs:109-120 `trait Ring` (a marker trait: only the listed super traits, no laws). -/
class RRing (T : Type) extends RZero T, ROne T, AddAssignRef T, SubAssignRef T, MulRefs T, RNeg T, RPartialEq T

/-- src/algebra/field.rs:16 `trait Field: Ring + DivRefs`. -/
class RField (T : Type) extends RRing T, DivRefs T

/-- `std::ops::Add<U, Output = V> for T`. -/
class RAdd (T U : Type) (V : outParam Type) where
  add : T → U → Res V

/-- `std::ops::Sub<U, Output = V> for T`. -/
class RSub (T U : Type) (V : outParam Type) where
  sub : T → U → Res V

/-- `std::ops::Mul<U, Output = V> for T`. -/
class RMul (T U : Type) (V : outParam Type) where
  mul : T → U → Res V

/-- `std::ops::Div<U, Output = V> for T`. -/
class RDiv (T U : Type) (V : outParam Type) where
  div : T → U → Res V

/-- `std::ops::AddAssign<U> for T` (by value). -/
class RAddAssign (T U : Type) where
  addAssign : T → U → Upd T

/-- `std::ops::SubAssign<U> for T` (by value). -/
class RSubAssign (T U : Type) where
  subAssign : T → U → Upd T

/-- src/algebra/conj.rs:5-8 `trait Conj`. -/
class RConj (T : Type) where
  conj : T → Res T

/-- `std::cmp::PartialOrd`, restricted to `<` and `<=` (`a >= b` is `b <= a`). -/
class RPartialOrd (T : Type) where
  lt : T → T → Bool
  le : T → T → Bool

/-- src/functions/abs.rs:2-8 `trait Abs` (with `type Output`). -/
class RAbs (T : Type) (O : outParam Type) where
  abs : T → Res O

/-- src/functions/sqrt.rs:2-7 `trait Sqrt`. -/
class RSqrt (T : Type) where
  sqrt : T → Res T

/-- src/functions/atan2.rs:3-9 `trait Atan2`: `self.atan2(other)`. -/
class RAtan2 (T : Type) where
  atan2 : T → T → Res T

/-- src/functions/exp.rs:2-6 `trait Exp`. -/
class RExp (T : Type) where
  exp : T → Res T

/-- src/functions/log.rs:2-6 `trait Ln`. -/
class RLn (T : Type) where
  ln : T → Res T

/-- src/functions/sin.rs:2-6 `trait Sin`. -/
class RSin (T : Type) where
  sin : T → Res T

/-- src/functions/cos.rs:2-6 `trait Cos`. -/
class RCos (T : Type) where
  cos : T → Res T

/-- src/functions/sinh.rs:2-6 `trait Sinh`. -/
class RSinh (T : Type) where
  sinh : T → Res T

/-- src/functions/cosh.rs:2-6 `trait Cosh`. -/
class RCosh (T : Type) where
  cosh : T → Res T

/-- src/functions/tan.rs:2-6 `trait Tan`. -/
class RTan (T : Type) where
  tan : T → Res T

/-- src/functions/asin.rs:2-6 `trait Asin`. -/
class RAsin (T : Type) where
  asin : T → Res T

end Magnesia
