import Verif.Spec.DE
import Verif.Spec.Ieee

/-!
# How fast coordinates can grow in floating point arithmetic
-/

namespace Magnesia

/-- A bound on the magnitude of all coordinates after `t` iterations if it is `M` before the first: an iteration with
the weight `w` multiplies it by at most `1 + 2w`, up to three roundings and one underflow. -/
def Fmt.growth (F : Fmt) (w M : ℚ) : ℕ → ℚ
  | 0 => M
  | t + 1 => (1 + F.u) ^ 3 * (1 + 2 * w) * F.growth w M t + (1 + F.u) * F.η

end Magnesia
