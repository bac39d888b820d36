import Verif.Spec.LnCheck
import Verif.Spec.Euler

/-!
# The check of the crate's randomized test of the complex tangent
-/

namespace Magnesia

open RZero ROne

variable {F : Fmt}

/-- `c` is a floating point number nearest to the real number `r`. -/
def Nearest (c : Ieee F) (r : ℝ) : Prop :=
  c.Finite ∧ ∀ y : Ieee F, y.Finite → |(c.value : ℝ) - r| ≤ |(y.value : ℝ) - r|

/-- On every finite argument of magnitude up to `R`, the scalar functions that `sin` and `cos` of a complex number call return
a floating point number nearest to the exact value. No library can be more accurate. -/
structure CorrectlyRounded (F : Fmt) [RSin (Ieee F)] [RCos (Ieee F)] [RSinh (Ieee F)] [RCosh (Ieee F)] (R : ℝ) : Prop where
  sin : ∀ a : Ieee F, a.Finite → |(a.value : ℝ)| ≤ R → ∃ c, RSin.sin a = .ok c ∧ Nearest c (Real.sin a.value)
  cos : ∀ a : Ieee F, a.Finite → |(a.value : ℝ)| ≤ R → ∃ c, RCos.cos a = .ok c ∧ Nearest c (Real.cos a.value)
  sinh : ∀ a : Ieee F, a.Finite → |(a.value : ℝ)| ≤ R → ∃ c, RSinh.sinh a = .ok c ∧ Nearest c (Real.sinh a.value)
  cosh : ∀ a : Ieee F, a.Finite → |(a.value : ℝ)| ≤ R → ∃ c, RCosh.cosh a = .ok c ∧ Nearest c (Real.cosh a.value)

section

variable [RSin (Ieee F)] [RCos (Ieee F)] [RSinh (Ieee F)] [RCosh (Ieee F)]

/-- `one - ta * tb` for the computed tangents `ta`, `tb` of `a`, `b` (src/algebra/complex.rs:559-560, 562-563). -/
def tanDenominator (a b : Complex (Ieee F)) : Res (Complex (Ieee F)) := do
  let ta ← a.tan
  let tb ← b.tan
  (⟨one, zero⟩ : Complex (Ieee F)).sub (← ta.mul tb)

/-- `(ta + tb) / (one - ta * tb)` (src/algebra/complex.rs:559-560, 562-563). -/
def tanExpected (a b : Complex (Ieee F)) : Res (Complex (Ieee F)) := do
  let ta ← a.tan
  let tb ← b.tan
  let n : Complex (Ieee F) ← ta.add tb
  n.div (← tanDenominator a b)

/-- `(tc.sqr_norm() + 1.0).max(1.0 / (one - ta * tb).sqr_norm()) * (8.0 * f32::EPSILON)` (src/algebra/complex.rs:565-566). -/
def tanTolerance (a b tc : Complex (Ieee F)) : Res (Ieee F) := do
  let s ← tc.sqrNorm
  let n ← (← tanDenominator a b).sqrNorm
  pure (((s.add one).fmax ((one : Ieee F).div n)).mul ((Ieee.ofInt 8).mul .epsilon))

/-- The body of `test_tan_complex_f32` (src/algebra/complex.rs:558-567) for one pair `a`, `b`: does the assertion hold? -/
def tanCheck (a b : Complex (Ieee F)) : Res Bool := do
  let c : Complex (Ieee F) ← a.add b
  let tc ← c.tan
  let expected ← tanExpected a b
  let diffAbs ← (← (tc.sub expected : Res (Complex (Ieee F)))).abs
  let tolerance ← tanTolerance a b tc
  pure (diffAbs.fle tolerance)

end

end Magnesia
