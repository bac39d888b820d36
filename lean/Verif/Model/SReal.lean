import Verif.Model.Complex
import Mathlib.Analysis.SpecialFunctions.Trigonometric.Inverse
import Mathlib.Analysis.SpecialFunctions.Trigonometric.Arctan
import Mathlib.Analysis.SpecialFunctions.Complex.Arg
import Mathlib.Analysis.SpecialFunctions.Log.Basic

/-!
# Exact real scalars with the functions of src/functions/

`SReal` idealises `f32`/`f64`: no rounding, no overflow. An operation that has no real value (division by zero, square
root of a negative number, logarithm of a number that is not positive; in IEEE arithmetic: NaN or an infinity) stops with
the pseudo panic `undefinedReal`. So a computation that returns has met no such operation.
-/

namespace Magnesia

open RZero ROne

/-- A real number. -/
@[ext] structure SReal where
  val : ℝ

namespace SReal

instance : RZero SReal := ⟨⟨0⟩⟩
instance : ROne SReal := ⟨⟨1⟩⟩
noncomputable instance : AddAssignRef SReal := ⟨fun a b => .done ⟨a.val + b.val⟩⟩
noncomputable instance : SubAssignRef SReal := ⟨fun a b => .done ⟨a.val - b.val⟩⟩
noncomputable instance : MulRefs SReal := ⟨fun a b => .ok ⟨a.val * b.val⟩⟩
noncomputable instance : RNeg SReal := ⟨fun a => .ok ⟨-a.val⟩⟩
noncomputable instance : RPartialEq SReal := ⟨fun a b => decide (a.val = b.val)⟩
noncomputable instance : RPartialOrd SReal := ⟨fun a b => decide (a.val < b.val), fun a b => decide (a.val ≤ b.val)⟩
noncomputable instance : RRing SReal where

/-- Division; undefined by zero. -/
noncomputable def div (a b : SReal) : Res SReal := if b.val = 0 then .error .undefinedReal else .ok ⟨a.val / b.val⟩

noncomputable instance : DivRefs SReal := ⟨div⟩
noncomputable instance : RField SReal where
noncomputable instance : RAdd SReal SReal SReal := ⟨fun a b => .ok ⟨a.val + b.val⟩⟩
noncomputable instance : RSub SReal SReal SReal := ⟨fun a b => .ok ⟨a.val - b.val⟩⟩
noncomputable instance : RMul SReal SReal SReal := ⟨fun a b => .ok ⟨a.val * b.val⟩⟩
noncomputable instance : RDiv SReal SReal SReal := ⟨div⟩
noncomputable instance : RAddAssign SReal SReal := ⟨fun a b => .done ⟨a.val + b.val⟩⟩
noncomputable instance : RSubAssign SReal SReal := ⟨fun a b => .done ⟨a.val - b.val⟩⟩
instance : RConj SReal := ⟨fun a => .ok a⟩

/-- src/functions/abs.rs:10-16, 28-34, 46-52, 64-70 (`f32`, `&f32`, `f64`, `&f64`): `std`'s `abs`. -/
noncomputable instance : RAbs SReal SReal := ⟨fun a => .ok ⟨|a.val|⟩⟩

/-- src/functions/sqrt.rs:9-13, 47-51: `std`'s `sqrt`; undefined for negative numbers. -/
noncomputable instance : RSqrt SReal := ⟨fun a => if a.val < 0 then .error .undefinedReal else .ok ⟨Real.sqrt a.val⟩⟩

/-- `std`'s `atan2` (documentation of `f64::atan2`, `y.atan2(x)`): `0` for `x = y = 0`; `arctan(y/x)` in `[-π/2, π/2]` for
`x ≥ 0` (`±π/2` for `x = 0`); `arctan(y/x) + π` in `(π/2, π]` for `x < 0`, `y ≥ 0`; `arctan(y/x) - π` in `(-π, -π/2)` for
`x < 0`, `y < 0`. -/
noncomputable def atan2 (y x : ℝ) : ℝ :=
  if x = 0 then (if y = 0 then 0 else if 0 < y then Real.pi / 2 else -(Real.pi / 2))
  else if 0 < x then Real.arctan (y / x)
  else if 0 ≤ y then Real.arctan (y / x) + Real.pi
  else Real.arctan (y / x) - Real.pi

/-- src/functions/atan2.rs:11-15, 75-79: `std`'s `atan2`. -/
noncomputable instance : RAtan2 SReal := ⟨fun y x => .ok ⟨atan2 y.val x.val⟩⟩

/-- src/functions/exp.rs:8-12, 32-36: `std`'s `exp`. -/
noncomputable instance : RExp SReal := ⟨fun a => .ok ⟨Real.exp a.val⟩⟩
/-- src/functions/log.rs:8-12, 26-30: `std`'s `ln`; undefined for numbers that are not positive. -/
noncomputable instance : RLn SReal := ⟨fun a => if a.val ≤ 0 then .error .undefinedReal else .ok ⟨Real.log a.val⟩⟩
/-- src/functions/sin.rs:8-12, 26-30: `std`'s `sin`. -/
noncomputable instance : RSin SReal := ⟨fun a => .ok ⟨Real.sin a.val⟩⟩
/-- src/functions/cos.rs:8-12, 32-36: `std`'s `cos`. -/
noncomputable instance : RCos SReal := ⟨fun a => .ok ⟨Real.cos a.val⟩⟩
/-- src/functions/sinh.rs:8-12, 22-26: `std`'s `sinh`. -/
noncomputable instance : RSinh SReal := ⟨fun a => .ok ⟨Real.sinh a.val⟩⟩
/-- src/functions/cosh.rs:8-12, 22-26: `std`'s `cosh`. -/
noncomputable instance : RCosh SReal := ⟨fun a => .ok ⟨Real.cosh a.val⟩⟩
/-- src/functions/tan.rs:8-12, 24-28: `std`'s `tan`; undefined at the poles. -/
noncomputable instance : RTan SReal := ⟨fun a => if Real.cos a.val = 0 then .error .undefinedReal else .ok ⟨Real.tan a.val⟩⟩
/-- src/functions/asin.rs:8-12, 24-28: `std`'s `asin`; undefined outside `[-1, 1]`. -/
noncomputable instance : RAsin SReal := ⟨fun a => if |a.val| ≤ 1 then .ok ⟨Real.arcsin a.val⟩ else .error .undefinedReal⟩

/-- src/optimize/test_functions.rs:7-10 `ackley`: `E` and `PI` are the exact constants here, `exp_m1(x)` is `e^x - 1`.
(The function is only defined for `f32`.) -/
noncomputable def ackley (x y : ℝ) : ℝ :=
  -20 * (Real.exp (-0.2 * Real.sqrt (0.5 * (x * x + y * y))) - 1)
    - (Real.exp (0.5 * (Real.cos (2 * Real.pi * x) + Real.cos (2 * Real.pi * y))) - Real.exp 1)

end SReal

end Magnesia
