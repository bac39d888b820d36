import Verif.Spec.DE
import Mathlib.Data.Real.Basic
import Mathlib.Data.Nat.Log

/-!
# What a wrong answer of a comparator costs
-/

namespace Magnesia

variable {T : Type} {N : ℕ}

/-- What a call `compare(a, b)` costs, if the objective `f` is to be minimised: nothing, if the point declared better (the
first argument for `true`, the second one for `false`) is at least as good as the other, otherwise the difference. -/
noncomputable def Call.loss (f : Pt T N → ℝ) (call : Call T N) : ℝ :=
  if call.answer then max 0 (f call.a - f call.b) else max 0 (f call.b - f call.a)

end Magnesia
