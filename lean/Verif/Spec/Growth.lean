import Verif.Spec.Program
import Verif.Spec.Ieee

/-!
# Bounds that are known before the inputs are

Two element types. `MaxMag F` computes how large the results of a program can become, with floating point operations; it forgets
signs, so that differences become sums. `Growth F` counts how many rounding errors can pile up, as in textbook theorems like
"the error of a dot product is at most `((1+u)^n - 1) Σ |aᵢ| |bᵢ|`". Both only depend on bounds of the inputs. Property C99 says that
they are right, for every program and all inputs within the bounds.
-/

namespace Magnesia

open RZero ROne

variable {F : Fmt}

/-- A bound of a magnitude. -/
structure MaxMag (F : Fmt) where
  val : Ieee F
deriving DecidableEq

namespace MaxMag

instance : RZero (MaxMag F) := ⟨⟨zero⟩⟩
instance : ROne (MaxMag F) := ⟨⟨one⟩⟩
instance : AddAssignRef (MaxMag F) := ⟨fun a b => .done ⟨a.val.add b.val⟩⟩
instance : SubAssignRef (MaxMag F) := ⟨fun a b => .done ⟨a.val.add b.val⟩⟩
instance : MulRefs (MaxMag F) := ⟨fun a b => .ok ⟨a.val.mul b.val⟩⟩
instance : RNeg (MaxMag F) := ⟨fun a => .ok a⟩
instance : RPartialEq (MaxMag F) := ⟨fun a b => decide (a = b)⟩
instance : RRing (MaxMag F) where
instance : RAdd (MaxMag F) (MaxMag F) (MaxMag F) := ⟨fun a b => .ok ⟨a.val.add b.val⟩⟩
instance : RSub (MaxMag F) (MaxMag F) (MaxMag F) := ⟨fun a b => .ok ⟨a.val.add b.val⟩⟩
instance : RMul (MaxMag F) (MaxMag F) (MaxMag F) := ⟨fun a b => .ok ⟨a.val.mul b.val⟩⟩
instance : RAddAssign (MaxMag F) (MaxMag F) := ⟨fun a b => .done ⟨a.val.add b.val⟩⟩
instance : RSubAssign (MaxMag F) (MaxMag F) := ⟨fun a b => .done ⟨a.val.add b.val⟩⟩
instance : RConj (MaxMag F) := ⟨fun a => .ok a⟩

end MaxMag

/-- How many roundings a result depends on, one after the other; a bound of its exact magnitude; and how often (weighted)
something can have underflowed. -/
structure Growth (F : Fmt) where
  depth : ℕ
  size : ℚ
  under : ℚ

namespace Growth

/-- The textbook bound of the error. -/
def bound (g : Growth F) : ℚ := ((1 + F.u) ^ g.depth - 1) * g.size + g.under * F.η

/-- A sum or a difference: it does not underflow. -/
def add (a b : Growth F) : Growth F := ⟨max a.depth b.depth + 1, a.size + b.size, (1 + F.u) * (a.under + b.under)⟩
def mul (a b : Growth F) : Growth F := ⟨a.depth + b.depth + 1, a.size * b.size,
  (1 + F.u) * ((1 + F.u) ^ a.depth * a.size * b.under + a.under * ((1 + F.u) ^ b.depth * b.size) + a.under * b.under * F.η) + 1⟩

instance : RZero (Growth F) := ⟨⟨0, 0, 0⟩⟩
instance : ROne (Growth F) := ⟨⟨0, 1, 0⟩⟩
instance : AddAssignRef (Growth F) := ⟨fun a b => .done (add a b)⟩
instance : SubAssignRef (Growth F) := ⟨fun a b => .done (add a b)⟩
instance : MulRefs (Growth F) := ⟨fun a b => .ok (mul a b)⟩
instance : RNeg (Growth F) := ⟨fun a => .ok a⟩
instance : RPartialEq (Growth F) := ⟨fun a b => decide (a.size = b.size)⟩
instance : RRing (Growth F) where
instance : RAdd (Growth F) (Growth F) (Growth F) := ⟨fun a b => .ok (add a b)⟩
instance : RSub (Growth F) (Growth F) (Growth F) := ⟨fun a b => .ok (add a b)⟩
instance : RMul (Growth F) (Growth F) (Growth F) := ⟨fun a b => .ok (mul a b)⟩
instance : RAddAssign (Growth F) (Growth F) := ⟨fun a b => .done (add a b)⟩
instance : RSubAssign (Growth F) (Growth F) := ⟨fun a b => .done (add a b)⟩
instance : RConj (Growth F) := ⟨fun a => .ok a⟩

/-- An exact input of at most this magnitude. -/
def ofBound (b : Ieee F) : Growth F := ⟨0, b.value, 0⟩

end Growth

/-- An input together with a bound of its magnitude. -/
structure BoundedInput (F : Fmt) where
  bound : Ieee F
  input : Ieee F
  finite : input.Finite
  le : |input.value| ≤ bound.value

end Magnesia
