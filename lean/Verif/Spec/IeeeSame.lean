import Verif.Spec.Ieee
import Verif.Model.Complex
import Verif.Model.Polynomial
import Mathlib.Data.List.Forall2

/-!
# Equality of floating point numbers up to the sign of a zero
-/

namespace Magnesia

/-- The same number, except that the sign of a zero is ignored; NaN is the same as NaN. (`==`, but with NaN equal to
itself.) -/
def Ieee.Same {F : Fmt} (a b : Ieee F) : Prop := a = b ∨ ∃ s t, a = .zero s ∧ b = .zero t

variable {F : Fmt}

/-- Both parts equal up to the sign of a zero. -/
def Complex.SameC (z w : Complex (Ieee F)) : Prop := Ieee.Same z.re w.re ∧ Ieee.Same z.im w.im

/-- Coefficient-wise the same numbers up to signs of zeros. -/
def Poly.SameP (p q : Poly (Ieee F)) : Prop := List.Forall₂ Ieee.Same p.a q.a

/-- The coefficient of a sum: the sum of the coefficients where both exist, otherwise the one that exists, untouched. -/
def optSum : Option (Ieee F) → Option (Ieee F) → Option (Ieee F)
  | some x, some y => some (x.add y)
  | some x, none => some x
  | none, y => y

end Magnesia
