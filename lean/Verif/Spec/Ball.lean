import Verif.Spec.Program
import Verif.Spec.Ieee

/-!
# Self-validating numbers

`Ball F` is an element type a user could supply: two floating point numbers, a midpoint, which is computed as usual, and a radius.
The radius is computed with the same floating point operations, which round to nearest and not upwards; to make up for this every
result is increased a little (`up`). In Rust, for `f64`: `fn up(y) { y + y * (8.0 * f64::EPSILON) + f64::from_bits(2) }`.
Property C98 says that the exact result is never farther from the midpoint than the radius.
-/

namespace Magnesia

open RZero ROne

variable {F : Fmt}

namespace Ieee

/-- `2^k` (of the types `f32` and `f64`, if in the range). -/
def pow2 (F : Fmt) (k : ℤ) : Ieee F := .round (2 ^ k)

/-- Eight times the distance between one and the next larger number. -/
def slack (F : Fmt) : Ieee F := pow2 F (4 - F.p)
/-- The distance between one and the next larger number (`f64::EPSILON`). -/
def eps (F : Fmt) : Ieee F := pow2 F (1 - F.p)
/-- Twice the smallest positive number. -/
def tiny (F : Fmt) : Ieee F := pow2 F (F.emin - F.p + 2)

/-- Slightly more than `y`. -/
def up (y : Ieee F) : Ieee F := (y.add (y.mul (slack F))).add (tiny F)

/-- An upper bound of the sum of non-negative numbers. -/
def addUp (a b : Ieee F) : Ieee F := up (a.add b)
/-- An upper bound of the product of non-negative numbers. -/
def mulUp (a b : Ieee F) : Ieee F := up (a.mul b)

end Ieee

open Ieee

/-- A midpoint and a radius. -/
structure Ball (F : Fmt) where
  mid : Ieee F
  rad : Ieee F
deriving DecidableEq

namespace Ball

def add (a b : Ball F) : Ball F :=
  let m := a.mid.add b.mid
  ⟨m, addUp (addUp a.rad b.rad) (mulUp m.abs (eps F))⟩
def sub (a b : Ball F) : Ball F :=
  let m := a.mid.sub b.mid
  ⟨m, addUp (addUp a.rad b.rad) (mulUp m.abs (eps F))⟩
def mul (a b : Ball F) : Ball F :=
  let m := a.mid.mul b.mid
  ⟨m, addUp (addUp (mulUp a.mid.abs b.rad) (mulUp a.rad b.mid.abs))
    (addUp (mulUp a.rad b.rad) (addUp (mulUp m.abs (eps F)) (tiny F)))⟩
def neg (a : Ball F) : Ball F := ⟨a.mid.neg, a.rad⟩

instance : RZero (Ball F) := ⟨⟨zero, zero⟩⟩
instance : ROne (Ball F) := ⟨⟨one, zero⟩⟩
instance : AddAssignRef (Ball F) := ⟨fun a b => .done (add a b)⟩
instance : SubAssignRef (Ball F) := ⟨fun a b => .done (sub a b)⟩
instance : MulRefs (Ball F) := ⟨fun a b => .ok (mul a b)⟩
instance : RNeg (Ball F) := ⟨fun a => .ok (neg a)⟩
instance : RPartialEq (Ball F) := ⟨fun a b => RPartialEq.eq a.mid b.mid⟩
instance : RRing (Ball F) where
instance : RAdd (Ball F) (Ball F) (Ball F) := ⟨fun a b => .ok (add a b)⟩
instance : RSub (Ball F) (Ball F) (Ball F) := ⟨fun a b => .ok (sub a b)⟩
instance : RMul (Ball F) (Ball F) (Ball F) := ⟨fun a b => .ok (mul a b)⟩
instance : RAddAssign (Ball F) (Ball F) := ⟨fun a b => .done (add a b)⟩
instance : RSubAssign (Ball F) (Ball F) := ⟨fun a b => .done (sub a b)⟩
instance : RConj (Ball F) := ⟨fun a => .ok a⟩

/-- A given number, taken as exact. -/
def ofFloat (x : Ieee F) : Ball F := ⟨x, zero⟩

/-- Unless something is infinite or NaN, the exact number is in the ball. -/
def Contains (b : Ball F) (e : Exact ℚ) : Prop := b.mid.Finite → b.rad.Finite → |b.mid.value - e.val| ≤ b.rad.value

end Ball

end Magnesia
