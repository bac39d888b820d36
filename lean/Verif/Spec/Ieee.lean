import Verif.Model.Ieee

/-!
# Values of floating point numbers; trapping arithmetic
-/

namespace Magnesia

/-- Unit roundoff: `2^-p` (`2^-24` for `f32`, `2^-53` for `f64`). -/
def Fmt.u (F : Fmt) : ℚ := 2 ^ (-(F.p : ℤ))

/-- Half of the smallest positive number: the largest underflow error. -/
def Fmt.η (F : Fmt) : ℚ := 2 ^ (F.emin - F.p)

namespace Ieee

variable {F : Fmt}

/-- Neither NaN nor infinite. -/
def Finite : Ieee F → Prop
  | zero _ => True
  | fin _ _ _ => True
  | _ => False

instance : DecidablePred (Finite (F := F))
  | nan => .isFalse id
  | inf _ => .isFalse id
  | zero _ => .isTrue trivial
  | fin _ _ _ => .isTrue trivial

/-- The rational number denoted by a finite floating point number (0 for the others). -/
def value : Ieee F → ℚ
  | fin x _ _ => x
  | _ => 0

/-- Zero, or of magnitude between `2^lo` and `2^hi`. -/
def Between (lo hi : ℤ) (a : Ieee F) : Prop :=
  a.Finite ∧ (a.value = 0 ∨ 2 ^ lo ≤ |a.value| ∧ |a.value| ≤ 2 ^ hi)

end Ieee

/-- IEEE arithmetic in which overflow, division by zero and invalid operations end the computation, and, if `ud`,
underflow of a product or quotient as well. A computation in this arithmetic that returns is a computation in which none
of these exceptions occurs, and gives the same result as ordinary IEEE arithmetic (`Verif/Props/Ieee.lean`). -/
structure Trap (F : Fmt) (ud : Bool) where
  val : Ieee F
  finite : val.Finite

namespace Trap

variable {F : Fmt} {ud : Bool}

/-- Return `r`, unless it is not finite, or `ud` and the exact result `x` is non-zero and below the smallest normal
number. -/
def ret (x : ℚ) (r : Ieee F) : Res (Trap F ud) :=
  if h : r.Finite ∧ ¬ (ud = true ∧ x ≠ 0 ∧ |x| < 2 ^ F.emin) then .ok ⟨r, h.1⟩ else .error .undefinedReal

/-- Return `r`, unless it is not finite. -/
def retF (r : Ieee F) : Res (Trap F ud) := if h : r.Finite then .ok ⟨r, h⟩ else .error .undefinedReal

def add (a b : Trap F ud) : Res (Trap F ud) := retF (a.val.add b.val)
def sub (a b : Trap F ud) : Res (Trap F ud) := retF (a.val.sub b.val)
def mul (a b : Trap F ud) : Res (Trap F ud) := ret (a.val.value * b.val.value) (a.val.mul b.val)
def div (a b : Trap F ud) : Res (Trap F ud) := ret (a.val.value / b.val.value) (a.val.div b.val)
def sqrt (a : Trap F ud) : Res (Trap F ud) := retF a.val.sqrt
def neg (a : Trap F ud) : Res (Trap F ud) := retF a.val.neg
def abs (a : Trap F ud) : Res (Trap F ud) := retF a.val.abs

instance : RZero (Trap F ud) := ⟨⟨.zero false, trivial⟩⟩
instance : ROne (Trap F ud) := ⟨⟨.fin 1 one_ne_zero F.representable_one, trivial⟩⟩
instance : AddAssignRef (Trap F ud) := ⟨fun a b => Upd.ofRes a (add a b)⟩
instance : SubAssignRef (Trap F ud) := ⟨fun a b => Upd.ofRes a (sub a b)⟩
instance : MulRefs (Trap F ud) := ⟨mul⟩
instance : DivRefs (Trap F ud) := ⟨div⟩
instance : RNeg (Trap F ud) := ⟨neg⟩
instance : RPartialEq (Trap F ud) := ⟨fun a b => Ieee.feq a.val b.val⟩
instance : RPartialOrd (Trap F ud) := ⟨fun a b => Ieee.flt a.val b.val, fun a b => Ieee.fle a.val b.val⟩
instance : RRing (Trap F ud) where
instance : RField (Trap F ud) where
instance : RSqrt (Trap F ud) := ⟨sqrt⟩
instance : RAbs (Trap F ud) (Trap F ud) := ⟨abs⟩
instance : RAdd (Trap F ud) (Trap F ud) (Trap F ud) := ⟨add⟩
instance : RSub (Trap F ud) (Trap F ud) (Trap F ud) := ⟨sub⟩
instance : RMul (Trap F ud) (Trap F ud) (Trap F ud) := ⟨mul⟩
instance : RDiv (Trap F ud) (Trap F ud) (Trap F ud) := ⟨div⟩
instance : RAddAssign (Trap F ud) (Trap F ud) := ⟨fun a b => Upd.ofRes a (add a b)⟩
instance : RSubAssign (Trap F ud) (Trap F ud) := ⟨fun a b => Upd.ofRes a (sub a b)⟩
instance : RConj (Trap F ud) := ⟨fun a => .ok a⟩

/-- The numerical value. -/
def value (a : Trap F ud) : ℚ := a.val.value

end Trap

end Magnesia
