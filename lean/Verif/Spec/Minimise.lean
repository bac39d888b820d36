import Verif.Spec.Ackley
import Verif.Spec.DE
import Verif.Spec.DEIeee

/-!
# The documented use of the optimizer: minimising the Ackley function
-/

namespace Magnesia

/-- The Ackley function in `f32` at a point (src/optimize/differential_evolution.rs:21, `ackley(lhs[0], lhs[1])`). -/
def ackleyAt (L : AckleyLib) (p : Pt (Ieee .f32) 2) : Ieee .f32 := L.ackley (p 0) (p 1)

/-- Both coordinates are numbers (not NaN, not infinite) of magnitude at most `r`. -/
def InSquare (r : ℚ) (p : Pt (Ieee .f32) 2) : Prop := ∀ c, (p c).Finite ∧ |(p c).value| ≤ r

/-- The documented call (src/optimize/differential_evolution.rs:8-25): any bounds within `-5..5`, any generator as
promised by `rand`, and the comparator `ackley(lhs[0], lhs[1]) < ackley(rhs[0], rhs[1])`. -/
structure AckleyRun {G S : Type} (L : AckleyLib) (env : DEnv (Ieee .f32) (Ieee .f32) 2 G S)
    (bounds : Fin 2 → Ieee .f32 × Ieee .f32) : Prop where
  contract : env.RandContract
  compares : env.Compares (fun a b => RPartialOrd.lt (ackleyAt L a) (ackleyAt L b))
  lower : ∀ c, (bounds c).1.Finite ∧ |(bounds c).1.value| ≤ 5
  upper : ∀ c, (bounds c).2.Finite ∧ |(bounds c).2.value| ≤ 5

/-- The library functions `exp`, `exp_m1`, `cos` have a total error of at most `2^-10`. -/
def AckleyLib.Decent (L : AckleyLib) : Prop := ∃ ε θ : ℝ, 0 ≤ ε ∧ 0 ≤ θ ∧ ε + θ ≤ 1 / 2 ^ 10 ∧ L.Accurate ε θ

end Magnesia
