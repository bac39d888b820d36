import Verif.Model.Ackley
import Verif.Spec.Ieee
import Mathlib.Analysis.SpecialFunctions.Trigonometric.Basic

/-!
# What is assumed of the functions `exp`, `exp_m1` and `cos` of `f32`
-/

namespace Magnesia

open RZero ROne

/-- Symmetries, exact values and ranges. -/
structure AckleyLib.Sane (L : AckleyLib) : Prop where
  cos_even : ∀ a, L.cos a.neg = L.cos a
  cos_zero : ∀ s, L.cos (.zero s) = one
  cos_range : ∀ a, a.Finite → (L.cos a).Finite ∧ |(L.cos a).value| ≤ 1
  cos_undefined : ∀ a, ¬ a.Finite → L.cos a = .nan
  expM1_zero : ∀ s, L.expM1 (.zero s) = .zero s
  /-- `-1 ≤ exp_m1(a) ≤ 0` for `a ≤ 0`, minus infinity included -/
  expM1_range : ∀ a, Ieee.fle a zero = true → (L.expM1 a).Finite ∧ -1 ≤ (L.expM1 a).value ∧ (L.expM1 a).value ≤ 0
  exp_one : L.exp one = AckleyLib.E
  /-- `0 ≤ exp(a) ≤ E` for `-1 ≤ a ≤ 1` -/
  exp_range : ∀ a, a.Finite → |a.value| ≤ 1 → (L.exp a).Finite ∧ 0 ≤ (L.exp a).value ∧ (L.exp a).value ≤ AckleyLib.E.value
  exp_nan : L.exp .nan = .nan

/-- Error bounds on the arguments that occur: `ε` (relative) plus `θ` (absolute). -/
structure AckleyLib.Accurate (L : AckleyLib) (ε θ : ℝ) : Prop where
  cos : ∀ a, a.Finite → (L.cos a).Finite ∧
    |((L.cos a).value : ℝ) - Real.cos a.value| ≤ ε * |Real.cos a.value| + θ
  expM1 : ∀ a, a.Finite → a.value ≤ 0 → (L.expM1 a).Finite ∧
    |((L.expM1 a).value : ℝ) - (Real.exp a.value - 1)| ≤ ε * |Real.exp a.value - 1| + θ
  exp : ∀ a, a.Finite → |a.value| ≤ 2 → (L.exp a).Finite ∧
    |((L.exp a).value : ℝ) - Real.exp a.value| ≤ ε * |Real.exp a.value| + θ

end Magnesia
