import Verif.Model.Ieee
import Verif.Spec.Ieee
import Verif.Model.Complex
import Mathlib.Analysis.Complex.Norm

/-!
# Complex numbers of floating point numbers, as points of the complex plane
-/

namespace Magnesia

variable {F : Fmt}

/-- Neither part is NaN or infinite. -/
def CFinite (z : Complex (Ieee F)) : Prop := z.re.Finite ∧ z.im.Finite

/-- The point of the complex plane. -/
def cval (z : Complex (Ieee F)) : ℂ := ⟨z.re.value, z.im.value⟩

/-- Relative error of a complex product, in the norm: `(1 + u)(1 + √2 u) - 1`, slightly more than `2.4 u`. -/
noncomputable def Fmt.cu (F : Fmt) : ℝ := (1 + F.u) * (1 + Real.sqrt 2 * F.u) - 1

/-- Absolute error of a complex product whose partial products underflow. -/
noncomputable def Fmt.cη (F : Fmt) : ℝ := 2 * Real.sqrt 2 * (1 + F.u) * F.η

end Magnesia
