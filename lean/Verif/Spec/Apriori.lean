import Verif.Spec.CForm
import Verif.Spec.LnCheck
import Verif.Spec.Euler

/-!
# How far a formula of complex functions can be off, in terms of exact values only

The inputs of the computation are floating point numbers within `d i` of the true inputs `x i`. The bound and the conditions
refer to the true values of the formula and its parts, not to anything computed.
-/

namespace Magnesia

/-- The error of a computed function: `W` is the absolute value of the true value, `P` how far the uncertainty of the argument
moves it, `M` bounds the scalar factors the parts are products of. Without underflow and with `θ = 0`, it is about
`(2 ε + u) W + P`. -/
noncomputable def fnStep (F : Fmt) (ε θ M W P : ℝ) : ℝ :=
  ((1 + ε) ^ 2 * (1 + F.u) - 1) * (W + P) + Real.sqrt 2 * ((1 + ε) ^ 2 * (1 + F.u) * (θ ^ 2 + M * θ + F.η)) + P

namespace CForm

/-- The a-priori error bound: `x` are the true inputs, `d` their uncertainties. -/
noncomputable def apriori (F : Fmt) (k : ℕ) (ε θ δ : ℝ) (x : ℕ → ℂ) (d : ℕ → ℝ) : CForm → ℝ
  | var i => d i
  | zero => 0
  | one => 0
  | add a b => F.u * (‖a.exact x + b.exact x‖ + (a.apriori F k ε θ δ x d + b.apriori F k ε θ δ x d)) +
      (a.apriori F k ε θ δ x d + b.apriori F k ε θ δ x d)
  | sub a b => F.u * (‖a.exact x - b.exact x‖ + (a.apriori F k ε θ δ x d + b.apriori F k ε θ δ x d)) +
      (a.apriori F k ε θ δ x d + b.apriori F k ε θ δ x d)
  | mul a b => (F.cu * ((‖a.exact x‖ + a.apriori F k ε θ δ x d) * (‖b.exact x‖ + b.apriori F k ε θ δ x d)) + F.cη) +
      (a.apriori F k ε θ δ x d * ‖b.exact x‖ + ‖a.exact x‖ * b.apriori F k ε θ δ x d +
        a.apriori F k ε θ δ x d * b.apriori F k ε θ δ x d)
  | div a b => (6.5 * F.u * ((‖a.exact x‖ + a.apriori F k ε θ δ x d) / (‖b.exact x‖ - b.apriori F k ε θ δ x d)) +
        8 * F.η * 4 ^ k) +
      (a.apriori F k ε θ δ x d * ‖b.exact x‖ + ‖a.exact x‖ * b.apriori F k ε θ δ x d) /
        (‖b.exact x‖ * (‖b.exact x‖ - b.apriori F k ε θ δ x d))
  | neg a => a.apriori F k ε θ δ x d
  | conj a => a.apriori F k ε θ δ x d
  | scale a i => (F.u * ((‖a.exact x‖ + a.apriori F k ε θ δ x d) * (|(x i).re| + d i)) + Real.sqrt 2 * F.η) +
      (a.apriori F k ε θ δ x d * |(x i).re| + ‖a.exact x‖ * d i + a.apriori F k ε θ δ x d * d i)
  | exp a => fnStep F ε θ (Real.exp ((a.exact x).re + a.apriori F k ε θ δ x d) + 1) ‖_root_.Complex.exp (a.exact x)‖
      (‖_root_.Complex.exp (a.exact x)‖ * (Real.exp (a.apriori F k ε θ δ x d) - 1))
  | sin a => fnStep F ε θ (1 + Real.cosh (|(a.exact x).im| + a.apriori F k ε θ δ x d)) ‖_root_.Complex.sin (a.exact x)‖
      (2 * Real.cosh (|(a.exact x).im| + a.apriori F k ε θ δ x d / 2) * Real.sinh (a.apriori F k ε θ δ x d / 2))
  | cos a => fnStep F ε θ (1 + Real.cosh (|(a.exact x).im| + a.apriori F k ε θ δ x d)) ‖_root_.Complex.cos (a.exact x)‖
      (2 * Real.cosh (|(a.exact x).im| + a.apriori F k ε θ δ x d / 2) * Real.sinh (a.apriori F k ε θ δ x d / 2))
  | sinh a => fnStep F ε θ (1 + Real.cosh (|(a.exact x).re| + a.apriori F k ε θ δ x d)) ‖_root_.Complex.sinh (a.exact x)‖
      (2 * Real.cosh (|(a.exact x).re| + a.apriori F k ε θ δ x d / 2) * Real.sinh (a.apriori F k ε θ δ x d / 2))
  | cosh a => fnStep F ε θ (1 + Real.cosh (|(a.exact x).re| + a.apriori F k ε θ δ x d)) ‖_root_.Complex.cosh (a.exact x)‖
      (2 * Real.cosh (|(a.exact x).re| + a.apriori F k ε θ δ x d / 2) * Real.sinh (a.apriori F k ε θ δ x d / 2))
  | ln a => (((1 + F.u) * (1 + ε) - 1) * (|Real.log ‖a.exact x‖| +
          a.apriori F k ε θ δ x d / (‖a.exact x‖ - a.apriori F k ε θ δ x d)) +
        (1 + F.u) * (1 + ε) * (1.01 * F.u) + (1 + F.u) * θ / 2 + F.η + δ) +
      a.apriori F k ε θ δ x d / (‖a.exact x‖ - a.apriori F k ε θ δ x d)
  | sqrt a => (12.2 * F.u * Real.sqrt (‖a.exact x‖ + a.apriori F k ε θ δ x d) + 2 * F.η) +
      a.apriori F k ε θ δ x d / (2 * Real.sqrt (‖a.exact x‖ - a.apriori F k ε θ δ x d))

/-- The true value and its uncertainty are within `2 ^ -k` and `2 ^ k`. -/
def Sized (F : Fmt) (k : ℕ) (ε θ δ : ℝ) (x : ℕ → ℂ) (d : ℕ → ℝ) (a : CForm) : Prop :=
  (2 : ℝ) ^ (-(k : ℤ)) ≤ ‖a.exact x‖ - a.apriori F k ε θ δ x d ∧ ‖a.exact x‖ + a.apriori F k ε θ δ x d ≤ 2 ^ (k : ℤ)

/-- Conditions on true values and uncertainties: sums and products do not overflow, operands of quotients, logarithms and
roots are at most `2 ^ k`, denominators and arguments of logarithms and roots at least `2 ^ -k`, arguments of other functions
at most `R`, and arguments of logarithms and roots stay away from the branch cut. -/
def Tame (F : Fmt) (k : ℕ) (R ε θ δ : ℝ) (x : ℕ → ℂ) (d : ℕ → ℝ) : CForm → Prop
  | var _ => True
  | zero => True
  | one => True
  | add a b => a.Tame F k R ε θ δ x d ∧ b.Tame F k R ε θ δ x d ∧
      ‖a.exact x + b.exact x‖ + (a.apriori F k ε θ δ x d + b.apriori F k ε θ δ x d) ≤ 2 ^ F.emax
  | sub a b => a.Tame F k R ε θ δ x d ∧ b.Tame F k R ε θ δ x d ∧
      ‖a.exact x - b.exact x‖ + (a.apriori F k ε θ δ x d + b.apriori F k ε θ δ x d) ≤ 2 ^ F.emax
  | mul a b => a.Tame F k R ε θ δ x d ∧ b.Tame F k R ε θ δ x d ∧
      4 * ((‖a.exact x‖ + a.apriori F k ε θ δ x d) * (‖b.exact x‖ + b.apriori F k ε θ δ x d)) + 4 ≤ 2 ^ F.emax
  | div a b => a.Tame F k R ε θ δ x d ∧ b.Tame F k R ε θ δ x d ∧ ‖a.exact x‖ + a.apriori F k ε θ δ x d ≤ 2 ^ (k : ℤ) ∧
      b.Sized F k ε θ δ x d
  | neg a => a.Tame F k R ε θ δ x d
  | conj a => a.Tame F k R ε θ δ x d
  | scale a i => a.Tame F k R ε θ δ x d ∧ (‖a.exact x‖ + a.apriori F k ε θ δ x d) * (|(x i).re| + d i) ≤ 2 ^ F.emax
  | exp a => a.Tame F k R ε θ δ x d ∧ |(a.exact x).re| + a.apriori F k ε θ δ x d ≤ R ∧
      |(a.exact x).im| + a.apriori F k ε θ δ x d ≤ R
  | sin a => a.Tame F k R ε θ δ x d ∧ |(a.exact x).re| + a.apriori F k ε θ δ x d ≤ R ∧
      |(a.exact x).im| + a.apriori F k ε θ δ x d ≤ R
  | cos a => a.Tame F k R ε θ δ x d ∧ |(a.exact x).re| + a.apriori F k ε θ δ x d ≤ R ∧
      |(a.exact x).im| + a.apriori F k ε θ δ x d ≤ R
  | sinh a => a.Tame F k R ε θ δ x d ∧ |(a.exact x).re| + a.apriori F k ε θ δ x d ≤ R ∧
      |(a.exact x).im| + a.apriori F k ε θ δ x d ≤ R
  | cosh a => a.Tame F k R ε θ δ x d ∧ |(a.exact x).re| + a.apriori F k ε θ δ x d ≤ R ∧
      |(a.exact x).im| + a.apriori F k ε θ δ x d ≤ R
  | ln a => a.Tame F k R ε θ δ x d ∧ a.Sized F k ε θ δ x d ∧ a.apriori F k ε θ δ x d < cutDist (a.exact x)
  | sqrt a => a.Tame F k R ε θ δ x d ∧ a.Sized F k ε θ δ x d ∧ a.apriori F k ε θ δ x d < cutDist (a.exact x)

end CForm

end Magnesia

namespace Magnesia.CForm

/-- A formula is regular at the inputs `x`: no denominator is zero, the arguments of logarithms and roots are not on the branch
cut, and the parts of the arguments of the other functions are less than `R` in magnitude. -/
def Regular (R : ℝ) (x : ℕ → ℂ) : CForm → Prop
  | var _ => True
  | zero => True
  | one => True
  | add a b => a.Regular R x ∧ b.Regular R x
  | sub a b => a.Regular R x ∧ b.Regular R x
  | mul a b => a.Regular R x ∧ b.Regular R x
  | div a b => a.Regular R x ∧ b.Regular R x ∧ b.exact x ≠ 0
  | neg a => a.Regular R x
  | conj a => a.Regular R x
  | scale a _ => a.Regular R x
  | exp a => a.Regular R x ∧ |(a.exact x).re| < R ∧ |(a.exact x).im| < R
  | sin a => a.Regular R x ∧ |(a.exact x).re| < R ∧ |(a.exact x).im| < R
  | cos a => a.Regular R x ∧ |(a.exact x).re| < R ∧ |(a.exact x).im| < R
  | sinh a => a.Regular R x ∧ |(a.exact x).re| < R ∧ |(a.exact x).im| < R
  | cosh a => a.Regular R x ∧ |(a.exact x).re| < R ∧ |(a.exact x).im| < R
  | ln a => a.Regular R x ∧ a.exact x ∈ _root_.Complex.slitPlane
  | sqrt a => a.Regular R x ∧ a.exact x ∈ _root_.Complex.slitPlane

end Magnesia.CForm
