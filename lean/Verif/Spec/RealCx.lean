import Verif.Model.SReal
import Mathlib.Analysis.SpecialFunctions.Complex.Log

/-!
# Reading a `Complex<T>` of exact reals as a complex number
-/

namespace Magnesia

/-- The complex number a `Complex<T>` stands for. -/
def Complex.toC (z : Complex SReal) : ℂ := ⟨z.re.val, z.im.val⟩

/-- The computation `x` returns (so it meets no undefined operation), and its value is the complex number `v`. -/
def Yields (x : Res (Complex SReal)) (v : ℂ) : Prop := ∃ r, x = .ok r ∧ r.toC = v

/-- The computation `x` returns, and its value is the real number `v`. -/
def YieldsReal (x : Res SReal) (v : ℝ) : Prop := ∃ r, x = .ok r ∧ r.val = v

/-- The principal square root of `z`: the root in the right half plane, on its boundary the one with non-negative
imaginary part. -/
def IsPrincipalRoot (s z : ℂ) : Prop := s * s = z ∧ 0 ≤ s.re ∧ (s.re = 0 → 0 ≤ s.im)

end Magnesia
