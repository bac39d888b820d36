import Verif.Tests.Basic

/-!
# Tests of src/algebra/ and of the correctly rounded functions in src/functions/
-/

namespace Magnesia.Tests

open RZero ROne

/-! ## polynomial.rs -/

/-- `Polynomial::from_coefficients(vec![…])` of `i32` numbers -/
abbrev poly (l : List I32) : Poly I32 := .fromCoefficients l

/-- polynomial.rs:42-48: `p(2) = 1 + 2 * 2 + 3 * 2 * 2` -/
example : (poly [1, 2, 3]).evalRef 2 ≟ .ok 17 := by decide +kernel
/-- polynomial.rs:61-66 -/
example : (poly [1, 2, 3]).eval 2 ≟ .ok 17 := by decide +kernel
/-- polynomial.rs:78-82 -/
example : (zero : Poly I32).eval 5 ≟ .ok 0 := by decide +kernel
/-- polynomial.rs:90-94 -/
example : (one : Poly I32).eval 5 ≟ .ok 1 := by decide +kernel
/-- polynomial.rs:111-117 -/
example : (poly [1, 2, 3]).add (poly [2, 3, 4]) ≟ .ok (poly [3, 5, 7]) := by decide +kernel
/-- polynomial.rs:135-141 -/
example : ((poly [1, 2, 3]).addAssignV (poly [2, 3, 4])).toRes ≟ .ok (poly [3, 5, 7]) := by decide +kernel
/-- polynomial.rs:154-160 -/
example : ((poly [1, 2, 3]).addAssignRef (poly [2, 3, 4])).toRes ≟ .ok (poly [3, 5, 7]) := by decide +kernel
/-- polynomial.rs:170-176 -/
example : (poly [1, 2, 3]).sub (poly [2, 3, 5]) ≟ .ok (poly [-1, -1, -2]) := by decide +kernel
/-- polynomial.rs:184-190 -/
example : ((poly [1, 2, 3]).subAssignV (poly [2, 3, 5])).toRes ≟ .ok (poly [-1, -1, -2]) := by decide +kernel
/-- polynomial.rs:203-209 -/
example : ((poly [1, 2, 3]).subAssignRef (poly [2, 3, 5])).toRes ≟ .ok (poly [-1, -1, -2]) := by decide +kernel
/-- polynomial.rs:219-227 -/
example : (poly [1, 2, 3]).mul (poly [0, 1]) ≟ .ok (poly [0, 1, 2, 3]) := by decide +kernel
/-- polynomial.rs:235-243 -/
example : ((poly [1, 2, 3]).mulAssign (poly [0, 1])).toRes ≟ .ok (poly [0, 1, 2, 3]) := by decide +kernel
/-- polynomial.rs:263-271 -/
example : (poly [1, 2, 3]).mulRef (poly [0, 1]) ≟ .ok (poly [0, 1, 2, 3]) := by decide +kernel
/-- polynomial.rs:283-288 -/
example : (poly [1, 2, 3]).neg ≟ .ok (poly [-1, -2, -3]) := by decide +kernel

/-! ## ring.rs, conj.rs, ops_with_ref.rs -/

/-- ring.rs:21-25 -/
example : .ok (zero : MInt 64 true) ≟ .ok 0 := by decide +kernel
/-- ring.rs:40-44 -/
example : .ok (one : Ieee .f32) ≟ .ok 1.0 := by decide +kernel
/-- conj.rs:23-29 -/
example : RConj.conj (-5 : MInt 16 true) ≟ .ok (-5) := by decide +kernel
/-- ops_with_ref.rs:24-30 (there with `u16`) -/
example : MulRefs.mulRefs (19 : MInt 16 true) 13 ≟ RMul.mul (19 : MInt 16 true) (13 : MInt 16 true) := by decide +kernel
/-- ops_with_ref.rs:53-59 -/
example : DivRefs.divRefs (19.12 : Ieee .f64) (-5.234) ≟ RDiv.div (19.12 : Ieee .f64) (-5.234 : Ieee .f64) := by decide +kernel

/-! ## complex.rs -/

/-- `Complex::new` of `i32`, `f32` numbers -/
abbrev ci (a b : I32) : Complex I32 := .new a b
abbrev cf (a b : Ieee .f32) : Complex (Ieee .f32) := .new a b

/-- complex.rs:18-23 -/
example : .ok (Complex.new 1.0 2.0 : Complex (Ieee .f64)).re ≟ .ok 1.0 ∧
    .ok (Complex.new 1.0 2.0 : Complex (Ieee .f64)).im ≟ .ok 2.0 := by decide +kernel
/-- complex.rs:35-40 -/
example : (Complex.new 1.0 2.0 : Complex (Ieee .f64)).conj ≟ .ok (.new 1.0 (-2.0)) := by decide +kernel
/-- complex.rs:53-58 -/
example : (ci 1 2).sqrNorm ≟ .ok 5 := by decide +kernel
/-- complex.rs:78-86 and 99-107 -/
example : (cf 3 4).abs ≟ .ok 5 ∧ (cf 1 (-1)).abs ≟ RSqrt.sqrt (2 : Ieee .f32) := by decide +kernel
/-- complex.rs:136-141 -/
example : .ok (zero : Complex (Ieee .f32)).re ≟ .ok 0.0 ∧ .ok (zero : Complex (Ieee .f32)).im ≟ .ok 0.0 := by decide +kernel
/-- complex.rs:149-154 -/
example : .ok (one : Complex I32).re ≟ .ok 1 ∧ .ok (one : Complex I32).im ≟ .ok 0 := by decide +kernel
/-- complex.rs:164-170 -/
example : (ci 1 2).add (ci 3 4) ≟ .ok (ci 4 6) := by decide +kernel
/-- complex.rs:179-185 -/
example : ((ci 1 2).addAssignV (ci 3 4)).toRes ≟ .ok (ci 4 6) := by decide +kernel
/-- complex.rs:197-203 -/
example : ((ci 1 2).addAssignRef (ci 3 4)).toRes ≟ .ok (ci 4 6) := by decide +kernel
/-- complex.rs:213-219 -/
example : (ci 1 2).sub (ci 3 4) ≟ .ok (ci (-2) (-2)) := by decide +kernel
/-- complex.rs:228-234 -/
example : ((ci 1 2).subAssignV (ci 3 4)).toRes ≟ .ok (ci (-2) (-2)) := by decide +kernel
/-- complex.rs:246-252 -/
example : ((ci 1 2).subAssignRef (ci 3 4)).toRes ≟ .ok (ci (-2) (-2)) := by decide +kernel
/-- complex.rs:265-270 -/
example : (ci 1 2).mul (ci 1 2) ≟ .ok (ci (-3) 4) := by decide +kernel
/-- complex.rs:291-296 -/
example : ((ci 1 2).mulAssign (ci 1 2)).toRes ≟ .ok (ci (-3) 4) := by decide +kernel
/-- complex.rs:315-321 -/
example : (ci 1 2).mulRef (ci 1 2) ≟ .ok (ci (-3) 4) := by decide +kernel
/-- complex.rs:341-349 -/
example : (do (← (cf 1.0 2.0).mul (cf 1.0 1.0)).divRef (cf 1.0 1.0)) ≟ .ok (cf 1.0 2.0) := by decide +kernel
/-- complex.rs:362-368 -/
example : (do (← (cf 1.0 2.0).mul (cf 1.0 1.0)).div (cf 1.0 1.0)) ≟ .ok (cf 1.0 2.0) := by decide +kernel
/-- complex.rs:381-388 -/
example : (cf 3 5).divScalarRefRef 4 ≟ .ok (cf 0.75 1.25) := by decide +kernel
/-- complex.rs:401-408 -/
example : (cf 3 5).divScalarRef 4 ≟ .ok (cf 0.75 1.25) := by decide +kernel
/-- complex.rs:429-434 -/
example : (ci 1 2).neg ≟ .ok (ci (-1) (-2)) := by decide +kernel

/-! ## abs.rs, sqrt.rs -/

/-- `f32::INFINITY`, `f64::INFINITY` -/
abbrev inf {F : Fmt} : Ieee F := .inf false
/-- `is_nan()` of a returned number -/
def isNan {F : Fmt} (x : Res (Ieee F)) : Bool := match x with | .ok .nan => true | _ => false

/-- abs.rs:18-26 and 36-44 -/
example : RAbs.abs (0 : Ieee .f32) ≟ .ok (0 : Ieee .f32) ∧ RAbs.abs (1 : Ieee .f32) ≟ .ok (1 : Ieee .f32) ∧
    RAbs.abs (5 : Ieee .f32) ≟ .ok (5 : Ieee .f32) ∧ RAbs.abs (inf : Ieee .f32) ≟ .ok (inf : Ieee .f32) ∧
    RAbs.abs (-2 : Ieee .f32) ≟ .ok (2 : Ieee .f32) ∧ RAbs.abs (-inf : Ieee .f32) ≟ .ok (inf : Ieee .f32) := by decide +kernel
/-- abs.rs:54-62 and 72-80 -/
example : RAbs.abs (0 : Ieee .f64) ≟ .ok (0 : Ieee .f64) ∧ RAbs.abs (1 : Ieee .f64) ≟ .ok (1 : Ieee .f64) ∧
    RAbs.abs (5 : Ieee .f64) ≟ .ok (5 : Ieee .f64) ∧ RAbs.abs (inf : Ieee .f64) ≟ .ok (inf : Ieee .f64) ∧
    RAbs.abs (-2 : Ieee .f64) ≟ .ok (2 : Ieee .f64) ∧ RAbs.abs (-inf : Ieee .f64) ≟ .ok (inf : Ieee .f64) := by decide +kernel

/-- sqrt.rs:15-21 (`SQRT_2` is the literal in `core`) -/
example : RSqrt.sqrt (1 : Ieee .f32) ≟ .ok 1 ∧ RSqrt.sqrt (4 : Ieee .f32) ≟ .ok 2 ∧ RSqrt.sqrt (9 : Ieee .f32) ≟ .ok 3 ∧
    RSqrt.sqrt (2 : Ieee .f32) ≟ .ok 1.41421356237309504880168872420969808 := by decide +kernel
/-- sqrt.rs:23-27 -/
example : RSqrt.sqrt (0 : Ieee .f32) ≟ .ok 0 ∧ RSqrt.sqrt (-0 : Ieee .f32) ≟ .ok 0 := by decide +kernel
/-- sqrt.rs:29-33 -/
example : isNan (RSqrt.sqrt (-1 : Ieee .f32)) ∧ isNan (RSqrt.sqrt (-50 : Ieee .f32)) := by decide +kernel
/-- sqrt.rs:35-39 -/
example : RSqrt.sqrt (inf : Ieee .f32) ≟ .ok inf ∧ isNan (RSqrt.sqrt (-inf : Ieee .f32)) := by decide +kernel
/-- sqrt.rs:41-45 -/
example : isNan (RSqrt.sqrt (.nan : Ieee .f32)) ∧ isNan (RSqrt.sqrt (-.nan : Ieee .f32)) := by decide +kernel
/-- sqrt.rs:53-59 -/
example : RSqrt.sqrt (1 : Ieee .f64) ≟ .ok 1 ∧ RSqrt.sqrt (4 : Ieee .f64) ≟ .ok 2 ∧ RSqrt.sqrt (9 : Ieee .f64) ≟ .ok 3 ∧
    RSqrt.sqrt (2 : Ieee .f64) ≟ .ok 1.41421356237309504880168872420969808 := by decide +kernel
/-- sqrt.rs:61-65 -/
example : RSqrt.sqrt (0 : Ieee .f64) ≟ .ok 0 ∧ RSqrt.sqrt (-0 : Ieee .f64) ≟ .ok 0 := by decide +kernel
/-- sqrt.rs:67-71 -/
example : isNan (RSqrt.sqrt (-1 : Ieee .f64)) ∧ isNan (RSqrt.sqrt (-50 : Ieee .f64)) := by decide +kernel
/-- sqrt.rs:73-77 -/
example : RSqrt.sqrt (inf : Ieee .f64) ≟ .ok inf ∧ isNan (RSqrt.sqrt (-inf : Ieee .f64)) := by decide +kernel
/-- sqrt.rs:79-83 -/
example : isNan (RSqrt.sqrt (.nan : Ieee .f64)) ∧ isNan (RSqrt.sqrt (-.nan : Ieee .f64)) := by decide +kernel

end Magnesia.Tests
