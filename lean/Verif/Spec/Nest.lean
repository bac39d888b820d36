import Verif.Spec.Basic
import Verif.Spec.Poly
import Verif.Spec.Denote
import Verif.Spec.Maps
import Mathlib.Algebra.Polynomial.Basic
import Mathlib.Data.Matrix.Mul

/-!
# Nested container types

`Nest` names the Rust types obtained from a scalar type by nesting `Complex`, `Polynomial` and square `SMatrix` to any
depth, e.g. `Polynomial<Complex<SMatrix<T, 3, 3>>>`.
-/

namespace Magnesia

/-- A nesting of containers around a scalar type. -/
inductive Nest where
  | scalar
  | complex (t : Nest)
  | poly (t : Nest)
  | matrix (n : ℕ) (t : Nest)

/-- The Rust type described by a nesting. -/
def Nest.type (T : Type) : Nest → Type
  | .scalar => T
  | .complex t => Complex (t.type T)
  | .poly t => Poly (t.type T)
  | .matrix n t => SMatrix (t.type T) n n

/-- Its `Ring` implementation, as resolved by Rust's trait system. -/
@[instance_reducible] def Nest.rring (T : Type) [RRing T] : (t : Nest) → RRing (t.type T)
  | .scalar => inferInstanceAs (RRing T)
  | .complex t => @Complex.instRRing _ (Nest.rring T t)
  | .poly t => @Poly.instRRing _ (Nest.rring T t)
  | .matrix n t => @SMatrix.instRRing _ n (Nest.rring T t)

/-- A ring together with its carrier. -/
structure SomeRing where
  carrier : Type
  ring : Ring carrier

/-- The mathematical ring described by a nesting. -/
noncomputable def Nest.ring (R : Type) [Ring R] : Nest → SomeRing
  | .scalar => ⟨R, inferInstance⟩
  | .complex t => ⟨Cx (t.ring R).carrier, @Cx.instRing _ (t.ring R).ring⟩
  | .poly t => ⟨@Polynomial (t.ring R).carrier (@Ring.toSemiring _ (t.ring R).ring), @Polynomial.ring _ (t.ring R).ring⟩
  | .matrix n t => ⟨Matrix (Fin n) (Fin n) (t.ring R).carrier, @Matrix.instRing (Fin n) _ _ _ (t.ring R).ring⟩

/-- What a nested value denotes. -/
noncomputable def Nest.denote {T R : Type} [RRing T] [Ring R] (φ : T → R) : (t : Nest) → t.type T → (t.ring R).carrier
  | .scalar => φ
  | .complex t => Complex.toCx (t.denote φ)
  | .poly t => @Poly.toPolynomial _ _ (t.ring R).ring (t.denote φ)
  | .matrix _ t => SMatrix.toMatrix (t.denote φ)

/-- Apply `f` to every scalar of a nested value. -/
def Nest.map {T T' : Type} (f : T → T') : (t : Nest) → t.type T → t.type T'
  | .scalar => f
  | .complex t => Complex.map (t.map f)
  | .poly t => Poly.map (t.map f)
  | .matrix _ t => SMatrix.map (t.map f)

end Magnesia
