import Verif.Spec.Cx
import Verif.Spec.Poly
import Verif.Model.Complex
import Verif.Model.SMatrix
import Verif.Model.Scalars
import Mathlib.Data.Matrix.Mul

/-!
# What complex numbers, vectors and matrices denote
-/

namespace Magnesia

variable {T R : Type}

/-- The element of `R[i]` denoted by a `Complex<T>`. -/
def Complex.toCx (φ : T → R) (z : Complex T) : Cx R := ⟨φ z.re, φ z.im⟩
/-- The mathematical vector denoted by an `SVector`. -/
def SVector.toFun {n : ℕ} (φ : T → R) (v : SVector T n) : Fin n → R := fun i => φ (v.val i)
/-- The mathematical matrix denoted by an `SMatrix`. -/
def SMatrix.toMatrix {r c : ℕ} (φ : T → R) (m : SMatrix T r c) : Matrix (Fin r) (Fin c) R :=
  Matrix.of fun i j => φ (m.val i j)

/-- An integer literal of a machine integer type (used in examples). -/
def MInt.lit {w : ℕ} {chk : Bool} (i : ℤ) : MInt w chk := ⟨BitVec.ofInt w i⟩

/-- `i32` with overflow checks (debug build). -/
abbrev I32 := MInt 32 true
/-- `i8` with overflow checks (debug build). -/
abbrev I8 := MInt 8 true
/-- `i8` without overflow checks (release build). -/
abbrev W8 := MInt 8 false

end Magnesia
