import Verif.Spec.Program
import Verif.Spec.Ieee

/-!
# Specification of property C80: changing units by powers of two
-/

namespace Magnesia

variable {F : Fmt}

/-- `b` is exactly `2^k` times `a` (both finite; zeros have the same sign). -/
def Ieee.Scaled (k : ℤ) : Ieee F → Ieee F → Prop
  | .zero s, .zero t => s = t
  | .fin x _ _, .fin y _ _ => y = x * 2 ^ k
  | _, _ => False

instance (k : ℤ) : (a b : Ieee F) → Decidable (a.Scaled k b)
  | .zero s, .zero t => inferInstanceAs (Decidable (s = t))
  | .fin x _ _, .fin y _ _ => inferInstanceAs (Decidable (y = x * 2 ^ k))
  | .zero _, .fin _ _ _ => .isFalse id
  | .fin _ _ _, .zero _ => .isFalse id
  | .nan, _ => .isFalse (by cases ‹Ieee F› <;> exact id)
  | .inf _, _ => .isFalse (by cases ‹Ieee F› <;> exact id)
  | .zero _, .nan => .isFalse id
  | .zero _, .inf _ => .isFalse id
  | .fin _ _ _, .nan => .isFalse id
  | .fin _ _ _, .inf _ => .isFalse id

/-- A number computed in two systems of units, with the exponent of its unit (none: zero, in any unit). The operations panic
if the arithmetic overflows or underflows in one of the systems, or if numbers of different units are added. -/
structure Gauged (F : Fmt) where
  a : Trap F true
  b : Trap F true
  unit : Option ℤ

namespace Gauged

/-- The unit of a sum. -/
def addUnit : Option ℤ → Option ℤ → Res (Option ℤ)
  | none, e => .ok e
  | d, none => .ok d
  | some d, some e => if d = e then .ok (some d) else .error .user

/-- The unit of a product. -/
def mulUnit : Option ℤ → Option ℤ → Option ℤ
  | some d, some e => some (d + e)
  | _, _ => none

def add (x y : Gauged F) : Res (Gauged F) := do pure ⟨← x.a.add y.a, ← x.b.add y.b, ← addUnit x.unit y.unit⟩
def sub (x y : Gauged F) : Res (Gauged F) := do pure ⟨← x.a.sub y.a, ← x.b.sub y.b, ← addUnit x.unit y.unit⟩
def mul (x y : Gauged F) : Res (Gauged F) := do pure ⟨← x.a.mul y.a, ← x.b.mul y.b, mulUnit x.unit y.unit⟩
def neg (x : Gauged F) : Res (Gauged F) := do pure ⟨← x.a.neg, ← x.b.neg, x.unit⟩

instance : RZero (Gauged F) := ⟨⟨RZero.zero, RZero.zero, none⟩⟩
instance : ROne (Gauged F) := ⟨⟨ROne.one, ROne.one, some 0⟩⟩
instance : AddAssignRef (Gauged F) := ⟨fun a b => Upd.ofRes a (add a b)⟩
instance : SubAssignRef (Gauged F) := ⟨fun a b => Upd.ofRes a (sub a b)⟩
instance : MulRefs (Gauged F) := ⟨mul⟩
instance : RNeg (Gauged F) := ⟨neg⟩
instance : RPartialEq (Gauged F) := ⟨fun a b => Ieee.feq a.a.val b.a.val⟩
instance : RRing (Gauged F) where
instance : RAdd (Gauged F) (Gauged F) (Gauged F) := ⟨add⟩
instance : RSub (Gauged F) (Gauged F) (Gauged F) := ⟨sub⟩
instance : RMul (Gauged F) (Gauged F) (Gauged F) := ⟨mul⟩
instance : RAddAssign (Gauged F) (Gauged F) := ⟨fun a b => Upd.ofRes a (add a b)⟩
instance : RSubAssign (Gauged F) (Gauged F) := ⟨fun a b => Upd.ofRes a (sub a b)⟩
instance : RConj (Gauged F) := ⟨fun a => .ok a⟩

/-- In the second system the basic unit is `2^k` times smaller: the numbers agree with their units. -/
def Consistent (k : ℤ) (x : Gauged F) : Prop :=
  match x.unit with
  | some d => x.a.val.Scaled (k * d) x.b.val
  | none => ∀ j, x.a.val.Scaled j x.b.val

end Gauged

end Magnesia
