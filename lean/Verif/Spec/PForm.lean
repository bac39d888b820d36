import Verif.Spec.Poly
import Verif.Spec.FormErr

/-!
# Formulas of polynomials, and error bounds for them over floating point numbers

* `PForm T`: any nesting of `+`, `-`, `*` and negation of given polynomials, `NForm T`: the same for numbers, and the values
  of polynomial formulas at number formulas.
* `run`: the corresponding calls of the API of the crate.
* `den`: the exact meaning, a polynomial of Mathlib or a number.
* `mag`, `factor`, `under` determine the error bound `err` of property C71, each by recursion on the formula:
  `mag` is the formula with all coefficients replaced by their absolute values and differences by sums; `factor` is how much
  a term can be off, relatively; `under` is what products that underflow (by at most `η` each) can contribute.
-/

namespace Magnesia

open Polynomial

variable {T K : Type} [NormedField K]

/-- Formulas of polynomials. -/
inductive PForm (T : Type) where
  | poly (p : Poly T)
  | zero
  | one
  | add (a b : PForm T)
  | sub (a b : PForm T)
  | neg (a : PForm T)
  | mul (a b : PForm T)

/-- Formulas of numbers, including values of polynomials. -/
inductive NForm (T : Type) where
  | num (x : T)
  | zero
  | one
  | add (a b : NForm T)
  | sub (a b : NForm T)
  | neg (a : NForm T)
  | mul (a b : NForm T)
  | eval (p : PForm T) (x : NForm T)

/-- `1 + X + ... + X^(n - 1)` -/
noncomputable def geo (n : ℕ) : ℝ[X] := ∑ i ∈ Finset.range n, X ^ i

namespace PForm

/-- Compute the formula with the operators of `Polynomial<T>`. -/
def run [RRing T] : PForm T → Res (Poly T)
  | poly p => .ok p
  | zero => .ok RZero.zero
  | one => .ok ROne.one
  | add a b => do RAdd.add (← a.run) (← b.run)
  | sub a b => do RSub.sub (← a.run) (← b.run)
  | neg a => do RNeg.neg (← a.run)
  | mul a b => do RMul.mul (← a.run) (← b.run)

/-- The number of coefficients of the result. -/
def len : PForm T → ℕ
  | poly p => p.a.length
  | zero => 0
  | one => 1
  | add a b => max a.len b.len
  | sub a b => max a.len b.len
  | neg a => a.len
  | mul a b => if a.len = 0 ∨ b.len = 0 then 0 else a.len + b.len - 1

/-- The exact meaning. -/
noncomputable def den (φ : T → K) : PForm T → K[X]
  | poly p => p.toPolynomial φ
  | zero => 0
  | one => 1
  | add a b => a.den φ + b.den φ
  | sub a b => a.den φ - b.den φ
  | neg a => -a.den φ
  | mul a b => a.den φ * b.den φ

/-- The sum of the absolute values of the terms. -/
noncomputable def mag (φ : T → K) : PForm T → ℝ[X]
  | poly p => p.toPolynomial fun x => ‖φ x‖
  | zero => 0
  | one => 1
  | add a b => a.mag φ + b.mag φ
  | sub a b => a.mag φ + b.mag φ
  | neg a => a.mag φ
  | mul a b => a.mag φ * b.mag φ

/-- The relative error of a term, plus one. A coefficient of a product is a sum of at most `min a.len b.len` products. -/
noncomputable def factor (u v : ℝ) : PForm T → ℝ
  | add a b => max (a.factor u v) (b.factor u v) * (1 + u)
  | sub a b => max (a.factor u v) (b.factor u v) * (1 + u)
  | neg a => a.factor u v
  | mul a b => a.factor u v * b.factor u v * (1 + v) * (1 + u) ^ min a.len b.len
  | _ => 1

/-- The contribution of underflow. -/
noncomputable def under (η : ℝ) (φ : T → K) : PForm T → ℝ[X]
  | add a b => a.under η φ + b.under η φ
  | sub a b => a.under η φ + b.under η φ
  | neg a => a.under η φ
  | mul a b => a.under η φ * b.under η φ + a.mag φ * b.under η φ + a.under η φ * b.mag φ + C η * (geo a.len * geo b.len)
  | _ => 0

/-- The given coefficients that coefficient `k` of the formula depends on have the property. -/
def Uses (fin : T → Prop) : PForm T → ℕ → Prop
  | poly p, k => ∀ x, p.a[k]? = some x → fin x
  | add a b, k => a.Uses fin k ∧ b.Uses fin k
  | sub a b, k => a.Uses fin k ∧ b.Uses fin k
  | neg a, k => a.Uses fin k
  | mul a b, k => ∀ i j, i + j = k → i < a.len → j < b.len → a.Uses fin i ∧ b.Uses fin j
  | _, _ => True

/-- The error bound for coefficient `k`: relative errors and underflow. -/
noncomputable def err (u v η : ℝ) (φ : T → K) (f : PForm T) (k : ℕ) : ℝ :=
  (f.factor u v - 1) * (f.mag φ).coeff k + f.factor u v * (f.under η φ).coeff k

/-- The given coefficients are finite, and the results of all operations are estimated to be at most `B` in absolute value. -/
def Within (fin : T → Prop) (B u v η : ℝ) (φ : T → K) : PForm T → Prop
  | poly p => ∀ x ∈ p.a, fin x
  | add a b => a.Within fin B u v η φ ∧ b.Within fin B u v η φ ∧
      ∀ k, (add a b).factor u v * (((add a b).mag φ).coeff k + ((add a b).under η φ).coeff k) ≤ B
  | sub a b => a.Within fin B u v η φ ∧ b.Within fin B u v η φ ∧
      ∀ k, (sub a b).factor u v * (((sub a b).mag φ).coeff k + ((sub a b).under η φ).coeff k) ≤ B
  | neg a => a.Within fin B u v η φ
  | mul a b => a.Within fin B u v η φ ∧ b.Within fin B u v η φ ∧
      ∀ k, (mul a b).factor u v * (((mul a b).mag φ).coeff k + ((mul a b).under η φ).coeff k) ≤ B
  | _ => True

end PForm

namespace NForm

/-- Compute the formula with the operators of `T` and `Polynomial::eval`. -/
def run [RRing T] [RAdd T T T] [RSub T T T] [RMul T T T] : NForm T → Res T
  | num x => .ok x
  | zero => .ok RZero.zero
  | one => .ok ROne.one
  | add a b => do RAdd.add (← a.run) (← b.run)
  | sub a b => do RSub.sub (← a.run) (← b.run)
  | neg a => do RNeg.neg (← a.run)
  | mul a b => do RMul.mul (← a.run) (← b.run)
  | eval p x => do (← p.run).eval (← x.run)

/-- The exact meaning. -/
noncomputable def den (φ : T → K) : NForm T → K
  | num x => φ x
  | zero => 0
  | one => 1
  | add a b => a.den φ + b.den φ
  | sub a b => a.den φ - b.den φ
  | neg a => -a.den φ
  | mul a b => a.den φ * b.den φ
  | eval p x => (p.den φ).eval (x.den φ)

/-- The sum of the absolute values of the terms. -/
noncomputable def mag (φ : T → K) : NForm T → ℝ
  | num x => ‖φ x‖
  | zero => 0
  | one => 1
  | add a b => a.mag φ + b.mag φ
  | sub a b => a.mag φ + b.mag φ
  | neg a => a.mag φ
  | mul a b => a.mag φ * b.mag φ
  | eval p x => (p.mag φ).eval (x.mag φ)

/-- The relative error of a term, plus one. Horner's scheme multiplies by `x` and adds once for each coefficient. -/
noncomputable def factor (u v : ℝ) : NForm T → ℝ
  | add a b => max (a.factor u v) (b.factor u v) * (1 + u)
  | sub a b => max (a.factor u v) (b.factor u v) * (1 + u)
  | neg a => a.factor u v
  | mul a b => a.factor u v * b.factor u v * (1 + v)
  | eval p x => p.factor u v * (x.factor u v * (1 + v) * (1 + u)) ^ p.len
  | _ => 1

/-- The contribution of underflow. -/
noncomputable def under (η : ℝ) (φ : T → K) : NForm T → ℝ
  | add a b => a.under η φ + b.under η φ
  | sub a b => a.under η φ + b.under η φ
  | neg a => a.under η φ
  | mul a b => a.under η φ * b.under η φ + a.mag φ * b.under η φ + a.under η φ * b.mag φ + η
  | eval p x => (p.mag φ + p.under η φ + C η * geo p.len).eval (x.mag φ + x.under η φ) - (p.mag φ).eval (x.mag φ)
  | _ => 0

/-- The given numbers and coefficients that the formula depends on have the property. -/
def Uses (fin : T → Prop) : NForm T → Prop
  | num x => fin x
  | add a b => a.Uses fin ∧ b.Uses fin
  | sub a b => a.Uses fin ∧ b.Uses fin
  | neg a => a.Uses fin
  | mul a b => a.Uses fin ∧ b.Uses fin
  | eval p x => (∀ k < p.len, p.Uses fin k) ∧ (p.len ≠ 0 → x.Uses fin)
  | _ => True

/-- The error bound: relative errors and underflow. -/
noncomputable def err (u v η : ℝ) (φ : T → K) (f : NForm T) : ℝ :=
  (f.factor u v - 1) * f.mag φ + f.factor u v * f.under η φ

/-- The given numbers are finite, and the results of all operations are estimated to be at most `B` in absolute value. The
intermediate results of Horner's scheme at a point below 1 can exceed the value, but not the estimate at 1. -/
def Within (fin : T → Prop) (B u v η : ℝ) (φ : T → K) : NForm T → Prop
  | num x => fin x
  | add a b => a.Within fin B u v η φ ∧ b.Within fin B u v η φ ∧
      (add a b).factor u v * ((add a b).mag φ + (add a b).under η φ) ≤ B
  | sub a b => a.Within fin B u v η φ ∧ b.Within fin B u v η φ ∧
      (sub a b).factor u v * ((sub a b).mag φ + (sub a b).under η φ) ≤ B
  | neg a => a.Within fin B u v η φ
  | mul a b => a.Within fin B u v η φ ∧ b.Within fin B u v η φ ∧
      (mul a b).factor u v * ((mul a b).mag φ + (mul a b).under η φ) ≤ B
  | eval p x => p.Within fin B u v η φ ∧ x.Within fin B u v η φ ∧
      (eval p x).factor u v * (p.mag φ + p.under η φ + C η * geo p.len).eval (max 1 (x.mag φ + x.under η φ)) ≤ B
  | _ => True

end NForm

end Magnesia
