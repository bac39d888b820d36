import Verif.Spec.Program
import Verif.Spec.Ieee

/-!
# Running error analysis

`Tracked F` is a kind of number that carries along with the exact value a bound on the error of a floating point
computation in the format `F`, and a flag that says that no overflow can have happened so far. Its arithmetic follows the
textbook rules of running error analysis. It is an element type like any other, so every program over the API can be run
with it. Property C65 says that the bound and the flag can be trusted.
-/

namespace Magnesia

open RZero ROne

variable {F : Fmt}

/-- Exact value, bound on the absolute error, and "no overflow". -/
structure Tracked (F : Fmt) where
  val : ℚ
  err : ℚ
  safe : Bool

namespace Tracked

/-- The result of an operation with exact value `v` whose operands' errors change the result by at most `d`. One rounding
adds `u` times the magnitude plus `η` (for underflow) - unless nothing was off so far and the result need not be rounded. -/
def rounded (F : Fmt) (v d η : ℚ) (safe : Bool) : Tracked F :=
  ⟨v, if d = 0 ∧ F.roundQ v = v then 0 else d + F.u * (|v| + d) + η, safe && decide (|v| + d ≤ 2 ^ F.emax)⟩

/-- Sums do not underflow. -/
def add (a b : Tracked F) : Tracked F := rounded F (a.val + b.val) (a.err + b.err) 0 (a.safe && b.safe)
def sub (a b : Tracked F) : Tracked F := rounded F (a.val - b.val) (a.err + b.err) 0 (a.safe && b.safe)
def mul (a b : Tracked F) : Tracked F :=
  rounded F (a.val * b.val) (|a.val| * b.err + a.err * |b.val| + a.err * b.err) F.η (a.safe && b.safe)
def neg (a : Tracked F) : Tracked F := ⟨-a.val, a.err, a.safe⟩

instance : RZero (Tracked F) := ⟨⟨0, 0, true⟩⟩
instance : ROne (Tracked F) := ⟨⟨1, 0, true⟩⟩
instance : AddAssignRef (Tracked F) := ⟨fun a b => .done (add a b)⟩
instance : SubAssignRef (Tracked F) := ⟨fun a b => .done (sub a b)⟩
instance : MulRefs (Tracked F) := ⟨fun a b => .ok (mul a b)⟩
instance : RNeg (Tracked F) := ⟨fun a => .ok (neg a)⟩
instance : RPartialEq (Tracked F) := ⟨fun a b => decide (a.val = b.val)⟩
instance : RRing (Tracked F) where
instance : RAdd (Tracked F) (Tracked F) (Tracked F) := ⟨fun a b => .ok (add a b)⟩
instance : RSub (Tracked F) (Tracked F) (Tracked F) := ⟨fun a b => .ok (sub a b)⟩
instance : RMul (Tracked F) (Tracked F) (Tracked F) := ⟨fun a b => .ok (mul a b)⟩
instance : RAddAssign (Tracked F) (Tracked F) := ⟨fun a b => .done (add a b)⟩
instance : RSubAssign (Tracked F) (Tracked F) := ⟨fun a b => .done (sub a b)⟩
instance : RConj (Tracked F) := ⟨fun a => .ok a⟩

/-- The exact value as an element of exact arithmetic. -/
def exact (a : Tracked F) : Exact ℚ := ⟨a.val⟩

/-- A given floating point number, taken as exact. -/
def ofFloat (x : Ieee F) : Tracked F := ⟨x.value, 0, decide x.Finite⟩

end Tracked

/-- The tracked value `t` is right about the floating point number `x`: if `x` is finite, its error is within the bound; and
if no overflow was possible, `x` is finite. -/
def Tracks (x : Ieee F) (t : Tracked F) : Prop :=
  0 ≤ t.err ∧ (x.Finite → |x.value - t.val| ≤ t.err) ∧ (t.safe = true → x.Finite)

/-- A floating point number together with a tracked value that is right about it. -/
structure Outcome (F : Fmt) where
  computed : Ieee F
  tracked : Tracked F
  right : Tracks computed tracked

namespace Outcome

/-- The exact value. -/
def exact (r : Outcome F) : Exact ℚ := r.tracked.exact

end Outcome

end Magnesia
