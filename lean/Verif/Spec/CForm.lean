import Verif.Spec.Libm
import Mathlib.Analysis.SpecialFunctions.Pow.Complex

/-!
# Formulas of complex functions: what they mean, how they are computed, and how far the two can be apart

The error bound is that of running error analysis: each operation adds its own rounding error, and passes on the error of
its operands, multiplied by how strongly the function varies near the operand.
-/

namespace Magnesia

open RZero ROne

/-- Formulas of complex numbers: inputs, the constants zero and one, the field operations, conjugation, multiplication by a
real input, and the functions of the crate. -/
inductive CForm
  | var (i : ℕ)
  | zero
  | one
  | add (a b : CForm)
  | sub (a b : CForm)
  | mul (a b : CForm)
  | div (a b : CForm)
  | neg (a : CForm)
  | conj (a : CForm)
  /-- Multiplication by the real number which is the real part of input `i`. -/
  | scale (a : CForm) (i : ℕ)
  | exp (a : CForm)
  | sin (a : CForm)
  | cos (a : CForm)
  | sinh (a : CForm)
  | cosh (a : CForm)
  | ln (a : CForm)
  | sqrt (a : CForm)

namespace CForm

/-- The meaning of a formula in the complex plane. -/
noncomputable def exact (x : ℕ → ℂ) : CForm → ℂ
  | var i => x i
  | zero => 0
  | one => 1
  | add a b => a.exact x + b.exact x
  | sub a b => a.exact x - b.exact x
  | mul a b => a.exact x * b.exact x
  | div a b => a.exact x / b.exact x
  | neg a => -a.exact x
  | conj a => (starRingEnd ℂ) (a.exact x)
  | scale a i => a.exact x * (x i).re
  | exp a => _root_.Complex.exp (a.exact x)
  | sin a => _root_.Complex.sin (a.exact x)
  | cos a => _root_.Complex.cos (a.exact x)
  | sinh a => _root_.Complex.sinh (a.exact x)
  | cosh a => _root_.Complex.cosh (a.exact x)
  | ln a => _root_.Complex.log (a.exact x)
  | sqrt a => a.exact x ^ (1 / 2 : ℂ)

variable {F : Fmt} [RExp (Ieee F)] [RSin (Ieee F)] [RCos (Ieee F)] [RSinh (Ieee F)] [RCosh (Ieee F)] [RLn (Ieee F)]
  [RAtan2 (Ieee F)]

/-- Computing a formula with the operations of `Complex<f64>` (or another format). -/
def run (x : ℕ → Complex (Ieee F)) : CForm → Res (Complex (Ieee F))
  | var i => .ok (x i)
  | zero => .ok RZero.zero
  | one => .ok ROne.one
  | add a b => do (← a.run x).add (← b.run x)
  | sub a b => do (← a.run x).sub (← b.run x)
  | mul a b => do (← a.run x).mul (← b.run x)
  | div a b => do (← a.run x).div (← b.run x)
  | neg a => do (← a.run x).neg
  | conj a => do (← a.run x).conj
  | scale a i => do (← a.run x).mulScalar (x i).re
  | exp a => do (← a.run x).exp
  | sin a => do (← a.run x).sin
  | cos a => do (← a.run x).cos
  | sinh a => do (← a.run x).sinh
  | cosh a => do (← a.run x).cosh
  | ln a => do (← a.run x).ln
  | sqrt a => do (← a.run x).sqrt

/-- The computed number as a point of the plane. -/
noncomputable def got (x : ℕ → Complex (Ieee F)) (f : CForm) : ℂ :=
  match f.run x with
  | .ok z => cval z
  | .error _ => 0

end CForm

/-! ### Errors of single operations -/

/-- Bound for the error of `ln` at `z`: of the real part and of the imaginary part, see C58. -/
noncomputable def lnErr (F : Fmt) (ε θ : ℝ) (z : ℂ) : ℝ :=
  ((1 + F.u) * (1 + ε) - 1) * |(_root_.Complex.log z).re| +
    (1 + F.u) * (1 + ε) / 2 * (sqrNormErr F ‖z‖ / (1 - sqrNormErr F ‖z‖)) + (1 + F.u) * θ / 2 + F.η +
  (ε * |(_root_.Complex.log z).im| + θ)

/-- Relative error of a complex quotient, see C57. -/
noncomputable def Fmt.du (F : Fmt) : ℝ := Real.sqrt 2 * ((1 + F.u) ^ 4 / (2 - (1 + F.u) ^ 2) - 1)

/-- The distance of `z` from the branch cut, the real numbers `≤ 0`. -/
noncomputable def cutDist (z : ℂ) : ℝ := if 0 ≤ z.re then ‖z‖ else |z.im|

namespace CForm

variable {F : Fmt} [RExp (Ieee F)] [RSin (Ieee F)] [RCos (Ieee F)] [RSinh (Ieee F)] [RCosh (Ieee F)] [RLn (Ieee F)]
  [RAtan2 (Ieee F)]

/-- The running error bound. In each line: the rounding error of the operation, and the error passed on by the operands.
`a.got x` is the computed value of the operand `a`. -/
noncomputable def err (ε θ : ℝ) (x : ℕ → Complex (Ieee F)) : CForm → ℝ
  | var _ => 0
  | zero => 0
  | one => 0
  | add a b => F.u * ‖a.got x + b.got x‖ + (a.err ε θ x + b.err ε θ x)
  | sub a b => F.u * ‖a.got x - b.got x‖ + (a.err ε θ x + b.err ε θ x)
  | mul a b => (F.cu * ‖a.got x * b.got x‖ + F.cη) +
      (a.err ε θ x * ‖b.got x‖ + ‖a.got x‖ * b.err ε θ x + a.err ε θ x * b.err ε θ x)
  | div a b => F.du * ‖a.got x / b.got x‖ +
      (a.err ε θ x * ‖b.got x‖ + ‖a.got x‖ * b.err ε θ x) / (‖b.got x‖ * (‖b.got x‖ - b.err ε θ x))
  | neg a => a.err ε θ x
  | conj a => a.err ε θ x
  | scale a i => (F.u * ‖a.got x * (cval (x i)).re‖ + Real.sqrt 2 * F.η) + a.err ε θ x * |(cval (x i)).re|
  | exp a => fnErr F ε θ (Real.exp (a.got x).re + 1) (_root_.Complex.exp (a.got x)) +
      ‖_root_.Complex.exp (a.got x)‖ * (Real.exp (a.err ε θ x) - 1)
  | sin a => fnErr F ε θ (1 + Real.cosh (a.got x).im) (_root_.Complex.sin (a.got x)) +
      2 * Real.cosh (|(a.got x).im| + a.err ε θ x / 2) * Real.sinh (a.err ε θ x / 2)
  | cos a => fnErr F ε θ (1 + Real.cosh (a.got x).im) (_root_.Complex.cos (a.got x)) +
      2 * Real.cosh (|(a.got x).im| + a.err ε θ x / 2) * Real.sinh (a.err ε θ x / 2)
  | sinh a => fnErr F ε θ (Real.cosh (a.got x).re + 1) (_root_.Complex.sinh (a.got x)) +
      2 * Real.cosh (|(a.got x).re| + a.err ε θ x / 2) * Real.sinh (a.err ε θ x / 2)
  | cosh a => fnErr F ε θ (Real.cosh (a.got x).re + 1) (_root_.Complex.cosh (a.got x)) +
      2 * Real.cosh (|(a.got x).re| + a.err ε θ x / 2) * Real.sinh (a.err ε θ x / 2)
  | ln a => lnErr F ε θ (a.got x) + a.err ε θ x / (‖a.got x‖ - a.err ε θ x)
  | sqrt a => 12 * F.u * ‖a.got x ^ (1 / 2 : ℂ)‖ + a.err ε θ x / (2 * Real.sqrt (‖a.got x‖ - a.err ε θ x))

/-- The computed value, if there is one, has the property `p`. -/
def Out (x : ℕ → Complex (Ieee F)) (f : CForm) (p : Complex (Ieee F) → Prop) : Prop := ∀ z, f.run x = .ok z → p z

/-- No part is so large or so small that a quotient or root could overflow or underflow. -/
def Moderate (k : ℕ) (z : Complex (Ieee F)) : Prop := z.re.Between (-k) k ∧ z.im.Between (-k) k

/-- No intermediate result overflows, operands of quotients and roots are of moderate size, denominators stay away from
zero and arguments of the logarithm and the square root from the branch cut (by more than their error). -/
def Safe (k : ℕ) (ε θ : ℝ) (x : ℕ → Complex (Ieee F)) : CForm → Prop
  | var i => CFinite (x i)
  | zero => True
  | one => True
  | add a b => a.Safe k ε θ x ∧ b.Safe k ε θ x ∧ (add a b).Out x CFinite
  | sub a b => a.Safe k ε θ x ∧ b.Safe k ε θ x ∧ (sub a b).Out x CFinite
  | mul a b => a.Safe k ε θ x ∧ b.Safe k ε θ x ∧ (mul a b).Out x CFinite
  | div a b => a.Safe k ε θ x ∧ b.Safe k ε θ x ∧ a.Out x (Moderate k) ∧ b.Out x (Moderate k) ∧ b.err ε θ x < ‖b.got x‖
  | neg a => a.Safe k ε θ x
  | conj a => a.Safe k ε θ x
  | scale a i => a.Safe k ε θ x ∧ (scale a i).Out x CFinite
  | exp a => a.Safe k ε θ x ∧ (exp a).Out x CFinite
  | sin a => a.Safe k ε θ x ∧ (sin a).Out x CFinite
  | cos a => a.Safe k ε θ x ∧ (cos a).Out x CFinite
  | sinh a => a.Safe k ε θ x ∧ (sinh a).Out x CFinite
  | cosh a => a.Safe k ε θ x ∧ (cosh a).Out x CFinite
  | ln a => a.Safe k ε θ x ∧ a.Out x (fun z => ∀ s, z.sqrNorm = .ok s → s.Finite) ∧ sqrNormErr F ‖a.got x‖ < 1 ∧
      a.err ε θ x < cutDist (a.got x) ∧ (ln a).Out x CFinite
  | sqrt a => a.Safe k ε θ x ∧ a.Out x (Moderate k) ∧ (a.err ε θ x = 0 ∨ a.err ε θ x < cutDist (a.got x))

/-- The tangent: the crate computes it as the quotient of sine and cosine. -/
def tan (a : CForm) : CForm := div (sin a) (cos a)

end CForm

end Magnesia
