import Verif.Spec.CxRound
import Mathlib.Analysis.SpecialFunctions.Trigonometric.Basic
import Mathlib.Analysis.SpecialFunctions.Complex.Log

/-!
# Accuracy and symmetry of the scalar functions of the standard library

`f32::exp`, `f32::sin`, … "have unspecified precision" (documentation of `std`) and depend on the platform. So they are not
defined in the model: the theorems hold for every implementation, with an error bound as a hypothesis.
-/

namespace Magnesia

variable {F : Fmt}

/-- `f` never panics, and for a finite argument a finite result is within `ε` (relative) plus `θ` (absolute) of `g`. -/
def Accurate (f : Ieee F → Res (Ieee F)) (g : ℝ → ℝ) (ε θ : ℝ) : Prop :=
  ∀ a, ∃ c, f a = .ok c ∧ (a.Finite → c.Finite → |(c.value : ℝ) - g a.value| ≤ ε * |g a.value| + θ)

/-- The functions `exp`, `sin`, `cos`, `sinh` and `cosh` of the floating point type `Ieee F`. -/
structure AccurateFns (F : Fmt) [RExp (Ieee F)] [RSin (Ieee F)] [RCos (Ieee F)] [RSinh (Ieee F)] [RCosh (Ieee F)]
    (ε θ : ℝ) : Prop where
  ε_nonneg : 0 ≤ ε
  θ_nonneg : 0 ≤ θ
  exp : Accurate (F := F) RExp.exp Real.exp ε θ
  sin : Accurate (F := F) RSin.sin Real.sin ε θ
  cos : Accurate (F := F) RCos.cos Real.cos ε θ
  sinh : Accurate (F := F) RSinh.sinh Real.sinh ε θ
  cosh : Accurate (F := F) RCosh.cosh Real.cosh ε θ

/-- The logarithm (of positive numbers) and the two-argument arctangent (off the branch cut). -/
structure AccurateLog (F : Fmt) [RLn (Ieee F)] [RAtan2 (Ieee F)] (ε θ : ℝ) : Prop where
  ε_nonneg : 0 ≤ ε
  θ_nonneg : 0 ≤ θ
  ln : ∀ a : Ieee F, ∃ c, RLn.ln a = .ok c ∧ (a.Finite → 0 < a.value → c.Finite →
    |(c.value : ℝ) - Real.log a.value| ≤ ε * |Real.log a.value| + θ)
  atan2 : ∀ y x : Ieee F, ∃ c, RAtan2.atan2 y x = .ok c ∧ (y.Finite → x.Finite →
    (⟨x.value, y.value⟩ : ℂ) ∈ _root_.Complex.slitPlane →
    c.Finite → |(c.value : ℝ) - _root_.Complex.arg ⟨x.value, y.value⟩| ≤ ε * |_root_.Complex.arg ⟨x.value, y.value⟩| + θ)

/-- The computed part `x` approximates `a b`, where `a` and `b` were computed with errors `ε`, `θ`. -/
def NearProduct (F : Fmt) (ε θ : ℝ) (x : Ieee F) (a b : ℝ) : Prop :=
  |(x.value : ℝ) - a * b| ≤ ((1 + ε) ^ 2 * (1 + F.u) - 1) * |a * b| +
    (1 + ε) ^ 2 * (1 + F.u) * (θ ^ 2 + (|a| + |b|) * θ + F.η)

/-- Bound for the error of a complex function with the exact value `w`, in the norm. `M` bounds the magnitude of the factors
the parts are products of. Without underflow and with `θ = 0`, it is about `(2 ε + u) |w|`. -/
noncomputable def fnErr (F : Fmt) (ε θ M : ℝ) (w : ℂ) : ℝ :=
  ((1 + ε) ^ 2 * (1 + F.u) - 1) * ‖w‖ + Real.sqrt 2 * ((1 + ε) ^ 2 * (1 + F.u) * (θ ^ 2 + M * θ + F.η))

/-- Bound for the relative error of `sqr_norm` at a point of absolute value `r`. -/
noncomputable def sqrNormErr (F : Fmt) (r : ℝ) : ℝ := (1 + F.u) ^ 2 * (1 + 2 * F.η / r ^ 2) - 1

end Magnesia
