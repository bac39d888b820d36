import Verif.Spec.SqrtCheck
import Verif.Spec.Libm

/-!
# Euler's formulas, and the checks of the crate's tests of `sin`, `cos`, `sinh` and `cosh`
-/

namespace Magnesia

open RZero ROne

variable {F : Fmt}

/-- For every finite argument of magnitude up to `R`, `f` returns a finite number within `ε |g a| + θ` of `g a`. -/
def AccurateUpTo (R : ℝ) (f : Ieee F → Res (Ieee F)) (g : ℝ → ℝ) (ε θ : ℝ) : Prop :=
  ∀ a : Ieee F, a.Finite → |(a.value : ℝ)| ≤ R → ∃ c, f a = .ok c ∧ c.Finite ∧
    |(c.value : ℝ) - g a.value| ≤ ε * |g a.value| + θ

/-- The scalar functions that the complex functions call, on arguments of magnitude up to `R`. -/
structure FnLib (F : Fmt) [RExp (Ieee F)] [RSin (Ieee F)] [RCos (Ieee F)] [RSinh (Ieee F)] [RCosh (Ieee F)]
    (R ε θ : ℝ) : Prop where
  ε_nonneg : 0 ≤ ε
  θ_nonneg : 0 ≤ θ
  exp : AccurateUpTo (F := F) R RExp.exp Real.exp ε θ
  sin : AccurateUpTo (F := F) R RSin.sin Real.sin ε θ
  cos : AccurateUpTo (F := F) R RCos.cos Real.cos ε θ
  sinh : AccurateUpTo (F := F) R RSinh.sinh Real.sinh ε θ
  cosh : AccurateUpTo (F := F) R RCosh.cosh Real.cosh ε θ

section

variable [RExp (Ieee F)] [RSin (Ieee F)] [RCos (Ieee F)]

/-- `((i * z).exp() - (-i * z).exp()) / (i * 2)` (src/algebra/complex.rs:477, 480). -/
def sinEuler (z : Complex (Ieee F)) : Res (Complex (Ieee F)) := do
  let i : Complex (Ieee F) := ⟨zero, one⟩
  let e1 ← (← i.mul z).exp
  let e2 ← (← (← i.neg).mul z).exp
  (← e1.sub e2).div (← i.mulScalar (.ofInt 2))

/-- `((i * z).exp() + (-i * z).exp()) / Complex::new(2, 0)` (src/algebra/complex.rs:497, 500). -/
def cosEuler (z : Complex (Ieee F)) : Res (Complex (Ieee F)) := do
  let i : Complex (Ieee F) := ⟨zero, one⟩
  let e1 ← (← i.mul z).exp
  let e2 ← (← (← i.neg).mul z).exp
  (← e1.add e2).div ⟨.ofInt 2, zero⟩

/-- `(z.exp() - (-z).exp()) / Complex::new(2, 0)` (src/algebra/complex.rs:519). -/
def sinhEuler (z : Complex (Ieee F)) : Res (Complex (Ieee F)) := do
  let e1 ← z.exp
  let e2 ← (← z.neg).exp
  (← e1.sub e2).div ⟨.ofInt 2, zero⟩

/-- `(z.exp() + (-z).exp()) / Complex::new(2, 0)` (src/algebra/complex.rs:538). -/
def coshEuler (z : Complex (Ieee F)) : Res (Complex (Ieee F)) := do
  let e1 ← z.exp
  let e2 ← (← z.neg).exp
  (← e1.add e2).div ⟨.ofInt 2, zero⟩

/-- The assertion of the tests: `(a - b).abs() <= z.abs().exp() * 2 * EPSILON` (src/algebra/complex.rs:481, 501, 520, 539),
where `a` is the result of the method and `b` that of the formula. -/
def eulerCheck (f g : Complex (Ieee F) → Res (Complex (Ieee F))) (z : Complex (Ieee F)) : Res Bool := do
  let a ← f z
  let b ← g z
  let d ← (← a.sub b).abs
  let e ← RExp.exp (← z.abs)
  pure (d.fle ((e.mul (.ofInt 2)).mul .epsilon))

end

/-- Bound for the error of Euler's formula for the value `w`, where the exponentials have the absolute values `e^t` and
`e^-t`. With `θ = 0` and without underflow, it is about `(2 ε + u) cosh t + u |w|`. -/
noncomputable def eulerErr (F : Fmt) (ε θ t : ℝ) (w : ℂ) : ℝ :=
  (1 + F.u) * (((1 + ε) ^ 2 * (1 + F.u) - 1) * Real.cosh t +
    Real.sqrt 2 * ((1 + ε) ^ 2 * (1 + F.u) * (θ ^ 2 + (1 + Real.cosh t) * θ + F.η))) + F.u * ‖w‖ + 2 * F.η

end Magnesia
