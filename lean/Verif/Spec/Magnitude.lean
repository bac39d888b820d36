import Verif.Spec.Program

/-!
# Worst cases

Numbers that bound the magnitude of other numbers: every operation yields the largest magnitude its result can have, and panics if
that is more than `M`.
-/

namespace Magnesia

/-- A bound on a magnitude. -/
structure Mag (M : ℕ) where
  val : ℕ
deriving DecidableEq

namespace Mag

variable {M : ℕ}

/-- The bound `x`, or a panic if it exceeds `M`. -/
def upTo (x : ℕ) : Res (Mag M) := if x ≤ M then .ok ⟨x⟩ else .error .overflow

/-- Both for `a + b` and for `a - b`. -/
def add (a b : Mag M) : Res (Mag M) := upTo (a.val + b.val)
/-- For `a * b`. -/
def mul (a b : Mag M) : Res (Mag M) := upTo (a.val * b.val)
/-- For `-a`. -/
def neg (a : Mag M) : Res (Mag M) := upTo a.val

instance : RZero (Mag M) := ⟨⟨0⟩⟩
instance : ROne (Mag M) := ⟨⟨1⟩⟩
instance : AddAssignRef (Mag M) := ⟨fun a b => Upd.ofRes a (add a b)⟩
instance : SubAssignRef (Mag M) := ⟨fun a b => Upd.ofRes a (add a b)⟩
instance : MulRefs (Mag M) := ⟨mul⟩
instance : RNeg (Mag M) := ⟨neg⟩
instance : RPartialEq (Mag M) := ⟨fun a b => decide (a = b)⟩
instance : RRing (Mag M) where
instance : RAdd (Mag M) (Mag M) (Mag M) := ⟨add⟩
instance : RSub (Mag M) (Mag M) (Mag M) := ⟨add⟩
instance : RMul (Mag M) (Mag M) (Mag M) := ⟨mul⟩
instance : RAddAssign (Mag M) (Mag M) := ⟨fun a b => Upd.ofRes a (add a b)⟩
instance : RSubAssign (Mag M) (Mag M) := ⟨fun a b => Upd.ofRes a (add a b)⟩
instance : RConj (Mag M) := ⟨fun a => .ok a⟩

end Mag

/-- A machine integer and a bound on its magnitude. -/
structure Bounded (w M : ℕ) where
  num : MInt w true
  mag : Mag M
  le : |num.toInt| ≤ mag.val

/-- The integers a signed machine integer of `w` bits can hold. -/
def InRange (w : ℕ) (x : ℤ) : Prop := -2 ^ (w - 1) ≤ x ∧ x < 2 ^ (w - 1)

end Magnesia
