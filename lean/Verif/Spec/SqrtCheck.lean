import Verif.Model.Complex
import Verif.Spec.IntFloat

/-!
# The check of the crate's randomized test of the complex square root
-/

namespace Magnesia

open RZero

variable {F : Fmt}

/-- `f32::EPSILON`, `f64::EPSILON`: the distance `2^(1-p)` from 1 to the next floating point number. -/
def Ieee.epsilon : Ieee F := .round (2 ^ (1 - (F.p : ℤ)))

/-- The body of `test_sqrt_complex_f32` (src/algebra/complex.rs:661-669) for one `z`: do both assertions hold? Everything,
also the error and the tolerance, is computed in the same arithmetic as the root. -/
def sqrtCheck (z : Complex (Ieee F)) : Res Bool := do
  let s ← z.sqrt
  let ss ← s.mul s
  let d : Complex (Ieee F) ← z.sub ss
  let error ← d.abs
  let a ← z.abs
  let tolerance := ((Ieee.ofInt 4).mul .epsilon).mul a
  pure ((zero : Ieee F).fle s.re && error.fle tolerance)

end Magnesia
