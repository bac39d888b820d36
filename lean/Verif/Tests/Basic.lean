import Verif.Model.Dyn
import Verif.Model.Complex
import Verif.Model.Polynomial
import Verif.Model.SVector
import Verif.Model.SMatrix
import Verif.Spec.Denote
import Verif.Spec.IntFloat
import Mathlib.Data.Fin.VecNotation

/-!
# The crate's own tests, run on the model

`Verif/Tests/` transcribes the unit tests and documentation tests of `/repo/src` and runs them on the model. This proves
nothing about the crate; it is evidence that the model is the code. Each example cites the lines of the test.

Literals have the type the Rust test gives them (`i32` by default, overflow checks on). Tests of the real functions of
`std` against themselves (`exp.rs`, `sin.rs`, …) and tests with random numbers are not included.
-/

namespace Magnesia.Tests

/-- `assert_eq!(a, b)` succeeds: no panic on either side, and `a == b`. -/
def passes {T : Type} [RPartialEq T] (a b : Res T) : Bool :=
  match a, b with
  | .ok a, .ok b => RPartialEq.eq a b
  | _, _ => false

@[inherit_doc] scoped infix:50 " ≟ " => passes

scoped instance {w : ℕ} {chk : Bool} {n : ℕ} : OfNat (MInt w chk) n := ⟨.lit n⟩
scoped instance {w : ℕ} {chk : Bool} : Neg (MInt w chk) := ⟨fun a => ⟨-a.bv⟩⟩
scoped instance {F : Fmt} {n : ℕ} : OfNat (Ieee F) n := ⟨.ofInt n⟩
scoped instance {F : Fmt} : Neg (Ieee F) := ⟨Ieee.neg⟩
scoped instance {F : Fmt} : OfScientific (Ieee F) := ⟨fun m s e => .round (OfScientific.ofScientific m s e)⟩
scoped instance {T U : Type} [RPartialEq T] [RPartialEq U] : RPartialEq (T × U) :=
  ⟨fun a b => RPartialEq.eq a.1 b.1 && RPartialEq.eq a.2 b.2⟩
/-- Lengths and indices. -/
scoped instance : RPartialEq ℕ := ⟨fun a b => decide (a = b)⟩

/-- A 64 bit machine, overflow checks on (as in `cargo test`). -/
def x64 : Profile := ⟨64, true⟩

/-- `[a, b, …]` used as a `VectorExpr`. -/
abbrev arr {T : Type} (l : List T) : VExpr T := sliceExpr l
/-- `[[a, b], [c, d], …]` used as a `MatrixExpr`. -/
abbrev arr2 {T : Type} {r c : ℕ} (a : Fin r → Fin c → T) : MExpr T := arrayExpr a

end Magnesia.Tests
