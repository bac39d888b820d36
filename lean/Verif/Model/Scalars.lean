import Verif.Model.Traits
import Mathlib.Data.BitVec
import Mathlib.Algebra.Field.Basic

/-!
# Element types

* `MInt w chk` : the signed integers `i8 … i128`, `isize` (`w` bits) in a build with (`chk = true`) or without
  (`chk = false`) overflow checks.
* `Exact R` : exact arithmetic in a ring / field `R` (an idealised element type; with `R = ℝ` it idealises `f64`).
-/

namespace Magnesia

/-- A signed two's complement integer of `w` bits; `chk` is Rust's `overflow-checks` build setting
(`true` in debug builds, `false` in release builds). src/algebra/ring.rs:122-127 (`Ring for i8 … isize`). -/
structure MInt (w : Nat) (chk : Bool) where
  bv : BitVec w
deriving DecidableEq, Repr

namespace MInt

variable {w : Nat} {chk : Bool}

/-- The mathematical value. -/
def toInt (a : MInt w chk) : Int := a.bv.toInt

/-- Result of an operation whose overflow condition is `o` and whose wrapped result is `r`: overflow panics iff
overflow checks are on. -/
def guard (o : Bool) (r : BitVec w) : Res (MInt w chk) :=
  if chk && o then .error .overflow else .ok ⟨r⟩

/-- Rust `a + b` on integers. -/
def add (a b : MInt w chk) : Res (MInt w chk) := guard (a.bv.saddOverflow b.bv) (a.bv + b.bv)
/-- Rust `a - b` on integers. -/
def sub (a b : MInt w chk) : Res (MInt w chk) := guard (a.bv.ssubOverflow b.bv) (a.bv - b.bv)
/-- Rust `a * b` on integers. -/
def mul (a b : MInt w chk) : Res (MInt w chk) := guard (a.bv.smulOverflow b.bv) (a.bv * b.bv)
/-- Rust `-a` on integers. -/
def neg (a : MInt w chk) : Res (MInt w chk) := guard a.bv.negOverflow (-a.bv)
/-- Rust `a / b` on integers: truncating; division by zero and `MIN / -1` panic in every build. -/
def div (a b : MInt w chk) : Res (MInt w chk) :=
  if b.bv = 0 then .error .divByZero
  else if a.bv = BitVec.intMin w ∧ b.bv = -1 then .error .overflow
  else .ok ⟨a.bv.sdiv b.bv⟩

/-- src/algebra/ring.rs:15-19: `T::from(0i8)`. -/
instance : RZero (MInt w chk) := ⟨⟨0⟩⟩
/-- src/algebra/ring.rs:34-38: `T::from(1i8)`. -/
instance : ROne (MInt w chk) := ⟨⟨1⟩⟩
instance : AddAssignRef (MInt w chk) := ⟨fun a b => Upd.ofRes a (add a b)⟩
instance : SubAssignRef (MInt w chk) := ⟨fun a b => Upd.ofRes a (sub a b)⟩
/-- src/algebra/ops_with_ref.rs:15-22. -/
instance : MulRefs (MInt w chk) := ⟨mul⟩
instance : RNeg (MInt w chk) := ⟨neg⟩
instance : RPartialEq (MInt w chk) := ⟨fun a b => decide (a = b)⟩
/-- src/algebra/ring.rs:122-127. -/
instance : RRing (MInt w chk) where
instance : RAdd (MInt w chk) (MInt w chk) (MInt w chk) := ⟨add⟩
instance : RSub (MInt w chk) (MInt w chk) (MInt w chk) := ⟨sub⟩
instance : RMul (MInt w chk) (MInt w chk) (MInt w chk) := ⟨mul⟩
instance : RDiv (MInt w chk) (MInt w chk) (MInt w chk) := ⟨div⟩
instance : RAddAssign (MInt w chk) (MInt w chk) := ⟨fun a b => Upd.ofRes a (add a b)⟩
instance : RSubAssign (MInt w chk) (MInt w chk) := ⟨fun a b => Upd.ofRes a (sub a b)⟩
/-- src/algebra/conj.rs:10-14: conjugation of integers is the identity. -/
instance : RConj (MInt w chk) := ⟨fun a => .ok a⟩

end MInt

/-- Exact arithmetic in `R`. No operation panics. -/
@[ext] structure Exact (R : Type) where
  val : R

namespace Exact

variable {R : Type}

instance [DecidableEq R] : DecidableEq (Exact R) := fun a b =>
  decidable_of_iff (a.val = b.val) (by rw [Exact.ext_iff])

instance [Zero R] : RZero (Exact R) := ⟨⟨0⟩⟩
instance [One R] : ROne (Exact R) := ⟨⟨1⟩⟩
instance [Add R] : AddAssignRef (Exact R) := ⟨fun a b => .done ⟨a.val + b.val⟩⟩
instance [Sub R] : SubAssignRef (Exact R) := ⟨fun a b => .done ⟨a.val - b.val⟩⟩
instance [Mul R] : MulRefs (Exact R) := ⟨fun a b => .ok ⟨a.val * b.val⟩⟩
instance [Neg R] : RNeg (Exact R) := ⟨fun a => .ok ⟨-a.val⟩⟩
instance [DecidableEq R] : RPartialEq (Exact R) := ⟨fun a b => decide (a.val = b.val)⟩
instance [Ring R] [DecidableEq R] : RRing (Exact R) where
/-- Division by zero of exact scalars is not a panic; its value is Mathlib's `x / 0 = 0` and every theorem about
division therefore carries a non-zero hypothesis. -/
instance [Div R] : DivRefs (Exact R) := ⟨fun a b => .ok ⟨a.val / b.val⟩⟩
instance [DivisionRing R] [DecidableEq R] : RField (Exact R) where
instance [Add R] : RAdd (Exact R) (Exact R) (Exact R) := ⟨fun a b => .ok ⟨a.val + b.val⟩⟩
instance [Sub R] : RSub (Exact R) (Exact R) (Exact R) := ⟨fun a b => .ok ⟨a.val - b.val⟩⟩
instance [Mul R] : RMul (Exact R) (Exact R) (Exact R) := ⟨fun a b => .ok ⟨a.val * b.val⟩⟩
instance [Div R] : RDiv (Exact R) (Exact R) (Exact R) := ⟨fun a b => .ok ⟨a.val / b.val⟩⟩
instance [Add R] : RAddAssign (Exact R) (Exact R) := ⟨fun a b => .done ⟨a.val + b.val⟩⟩
instance [Sub R] : RSubAssign (Exact R) (Exact R) := ⟨fun a b => .done ⟨a.val - b.val⟩⟩
/-- src/algebra/conj.rs:10-21: conjugation of real scalars is the identity. -/
instance : RConj (Exact R) := ⟨fun a => .ok a⟩
/-- A total order (no NaN). -/
instance [LinearOrder R] : RPartialOrd (Exact R) := ⟨fun a b => decide (a.val < b.val), fun a b => decide (a.val ≤ b.val)⟩

end Exact

end Magnesia
