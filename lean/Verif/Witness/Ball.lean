import Verif.Props.Ball
import Verif.Witness.Track

/-!
# Concrete cases meeting the hypotheses of C98
-/

namespace Magnesia.Witness

open RZero

/-- A ball around `x / 10` that is not centred. -/
def offBall (x : ℤ) : {q : Ball .f32 × Exact ℚ // q.1.Contains q.2} :=
  ⟨(⟨tenth x, f32 (1 / 1000)⟩, ⟨(tenth x).value + 1 / 2000⟩), fun _ _ => by
    show |(tenth x).value - ((tenth x).value + 1 / 2000)| ≤ (f32 (1 / 1000)).value
    rw [sub_add_cancel_left, abs_neg]
    decide +kernel⟩

example := C98_programs x64 Γ (fun _ => trivial) .dmat trivial prog (env offBall 7)
example := C98_midpoints x64 Γ (fun _ => trivial) .dmat trivial prog (env (fun x => Ball.ofFloat (tenth x)) 7)
example := C98_scalar x64 Γ (fun _ => trivial) progE (env tenth 7) _ runE_tenth

/-- The ball of the run. -/
def bres : Ball .f32 := (runE (fun x => Ball.ofFloat (tenth x)) 7).getD ⟨zero, zero⟩
theorem runE_ball : progE.run (Γ := Γ) (T := Ball .f32) x64 (fun i => (Γ i).map Ball.ofFloat trivial (env tenth 7 i)) =
    .ok ⟨bres.mid, bres.rad⟩ := by
  have e : (fun i => (Γ i).map Ball.ofFloat trivial (env tenth 7 i)) = env (fun x => Ball.ofFloat (tenth x)) 7 := by
    funext i
    by_cases h : i = 0
    · subst h; rfl
    · simp only [env, h, if_false]; rfl
  rw [e]
  exact Res.eq_ok (d := (⟨zero, zero⟩ : Ball .f32)) (by decide +kernel)
example := C98_sign x64 Γ (fun _ => trivial) progE (env tenth 7) _ _ runE_ball (by decide +kernel) (by decide +kernel)
/-- In this run the sign is certain, the radius is small, the exact result is not the computed one and the ball contains it. -/
example : bres.mid.flt bres.rad.neg = true ∧ bres.rad.Finite ∧ bres.rad.value < 1 / 10 ^ 4 ∧
    (match runE (fun x => (tenth x).toExact) 7 with
      | .ok e => decide (0 < |bres.mid.value - e.val| ∧ |bres.mid.value - e.val| ≤ bres.rad.value)
      | _ => false) = true := by decide +kernel

/-- Two numbers and balls that contain them. -/
example := C98_tight (⟨f32 (1 / 3), f32 (1 / 1000)⟩ : Ball .f32) ⟨f32 (-7), f32 (1 / 7)⟩ ⟨1 / 3⟩ ⟨-7⟩
  (fun _ _ => by decide +kernel) (fun _ _ => by decide +kernel)

/-- There the sum has a radius that is finite and at most a millionth larger than the sum of the radii and one rounding. -/
example : ((⟨f32 (1 / 3), f32 (1 / 1000)⟩ : Ball .f32).add ⟨f32 (-7), f32 (1 / 7)⟩).rad.Finite ∧
    ((⟨f32 (1 / 3), f32 (1 / 1000)⟩ : Ball .f32).add ⟨f32 (-7), f32 (1 / 7)⟩).rad.value <
      (1 / 1000 + 1 / 7) * (1 + 1 / 10 ^ 5) := by decide +kernel

end Magnesia.Witness
