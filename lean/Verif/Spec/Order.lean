import Verif.Model.Ieee

/-!
# Specification of property C74
-/

namespace Magnesia

variable {F : Fmt}

/-- `0 ≤ a ≤ b` as the program compares numbers (`<=` is false if an operand is NaN). -/
def Ordered (a b : Ieee F) : Prop := RPartialOrd.le (RZero.zero : Ieee F) a = true ∧ RPartialOrd.le a b = true

end Magnesia
