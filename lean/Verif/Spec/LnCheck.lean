import Verif.Spec.SqrtCheck
import Verif.Spec.Libm

/-!
# The logarithm of a product, and the check of the crate's randomized test of the complex logarithm
-/

namespace Magnesia

open RZero ROne

variable {F : Fmt}

/-- `t` is an angle of the point `z`. On the negative real axis both `π` and `-π` are. -/
def IsArg (t : ℝ) (z : ℂ) : Prop := |t| ≤ Real.pi ∧ z = ‖z‖ * _root_.Complex.exp (t * _root_.Complex.I)

/-- A scalar logarithm with relative error `ε` plus absolute error `θ` on positive numbers, and an `atan2` with absolute
error `δ`. On the negative real axis `atan2` may return `π` or `-π`, as it likes. -/
structure LogLib (F : Fmt) [RLn (Ieee F)] [RAtan2 (Ieee F)] (ε θ δ : ℝ) : Prop where
  ε_nonneg : 0 ≤ ε
  θ_nonneg : 0 ≤ θ
  ln : ∀ a : Ieee F, a.Finite → 0 < a.value → ∃ c, RLn.ln a = .ok c ∧ c.Finite ∧
    |(c.value : ℝ) - Real.log a.value| ≤ ε * |Real.log a.value| + θ
  atan2 : ∀ y x : Ieee F, y.Finite → x.Finite → (⟨x.value, y.value⟩ : ℂ) ≠ 0 → ∃ c, RAtan2.atan2 y x = .ok c ∧ c.Finite ∧
    ∃ t, IsArg t ⟨x.value, y.value⟩ ∧ |(c.value : ℝ) - t| ≤ δ

/-- `f32::max`: the larger operand; a NaN is ignored. -/
def Ieee.fmax (a b : Ieee F) : Ieee F :=
  match a, b with
  | .nan, _ => b
  | _, .nan => a
  | _, _ => if a.flt b then b else a

/-- The tolerance of the test (src/algebra/complex.rs:601): `(a.abs().max(1 / a.abs()) + b.abs().max(1 / b.abs())) * EPSILON`. -/
def lnTolerance (a b : Complex (Ieee F)) : Res (Ieee F) := do
  let absA ← a.abs
  let absB ← b.abs
  pure (((absA.fmax ((one : Ieee F).div absA)).add (absB.fmax ((one : Ieee F).div absB))).mul .epsilon)

/-- `ln(a * b) - ln(a) - ln(b)` as the test computes it (src/algebra/complex.rs:597-600, 602). -/
def lnDiff [RLn (Ieee F)] [RAtan2 (Ieee F)] (a b : Complex (Ieee F)) : Res (Complex (Ieee F)) := do
  let c ← a.mul b
  let lnA ← a.ln
  let lnB ← b.ln
  let lnC ← c.ln
  let d ← lnC.sub lnA
  d.sub lnB

/-- The body of `test_ln_complex_f32` (src/algebra/complex.rs:595-610) for one pair `a`, `b`: do the assertions hold? `pi` is
the constant `PI`. -/
def lnCheck [RLn (Ieee F)] [RAtan2 (Ieee F)] (pi : Ieee F) (a b : Complex (Ieee F)) : Res Bool := do
  let diff ← lnDiff a b
  let tolerance ← lnTolerance a b
  pure (diff.re.abs.fle ((Ieee.ofInt 10).mul tolerance) &&
    if (one : Ieee F).flt diff.im then (diff.im.sub ((Ieee.ofInt 2).mul pi)).abs.fle ((Ieee.ofInt 8).mul .epsilon)
    else if diff.im.flt (one : Ieee F).neg then (diff.im.add ((Ieee.ofInt 2).mul pi)).abs.fle ((Ieee.ofInt 8).mul .epsilon)
    else diff.im.abs.fle ((Ieee.ofInt 8).mul pi))

end Magnesia
