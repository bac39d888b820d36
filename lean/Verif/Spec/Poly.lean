import Verif.Model.Polynomial
import Mathlib.Algebra.Polynomial.Eval.Defs
import Mathlib.Algebra.BigOperators.Group.Finset.Basic

/-!
# What a coefficient vector denotes
-/

namespace Magnesia

/-- The `k`-th coefficient of `p` under the interpretation `φ`; missing coefficients are zero. -/
def Poly.coef {T R : Type} [Zero R] (φ : T → R) (p : Poly T) (k : ℕ) : R := (p.a[k]?).elim 0 φ

/-- The formal polynomial (Mathlib's `R[X]`) denoted by a coefficient vector: `∑ φ(a_k) X^k`. -/
noncomputable def Poly.toPolynomial {T R : Type} [Ring R] (φ : T → R) (p : Poly T) : Polynomial R :=
  ∑ k ∈ Finset.range p.a.length, Polynomial.monomial k (p.coef φ k)

end Magnesia
