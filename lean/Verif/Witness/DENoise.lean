import Verif.Props.DENoise
import Verif.Spec.DERel
import Verif.Witness.Ieee

/-!
# Cases for C89
-/

namespace Magnesia.Witness

/-- A run whose comparator errs by up to 1/2. -/
example : True := by
  obtain ⟨env, f, fuel, bounds, cp, w, s, s', result, initial, hc, h, _, hε, _⟩ := C89_attained (ε := 1 / 2) (by norm_num)
  have := C89_tolerance hc h f hε
  have := C89_total hc h f
  trivial

/-- A comparator that minimises `-x₀`, while the objective is `-x₀ + 1/3` at odd points. -/
example : True := by
  obtain ⟨fuel, result, s', h⟩ := demo_returns (n := 9) ⟨by norm_num, by decide, by decide, by decide, by decide⟩ 20 demoStart
  have := C89_approximate (fun a : Pt (Exact ℤ) 2 => -(a 0).val) (fun v => (v : ℝ)) (fun a b h => by exact_mod_cast h)
    (fun a => -((a 0).val : ℝ) + if (a 0).val % 2 = 1 then 1 / 3 else 0) (δ := 1 / 3) (fun x => by
      push_cast
      split <;> norm_num) demo_contract (fun a b s => by simp [demo]) h
  trivial

/-- `1/10` at even points, `1/3` at odd points, rounded to `f32`. -/
def parityObjective (a : Pt (Exact ℤ) 2) : Ieee .f32 := if (a 0).val % 2 = 0 then f32 (1 / 10) else f32 (1 / 3)

def parityEnv : DEnv (Exact ℤ) (Exact ℤ) 2 ℕ Unit :=
  demo.withComparator fun a b s => (.ok (Ieee.flt (parityObjective a) (parityObjective b)), s)

theorem parity_contract : parityEnv.RandContract := { demo_contract with }

theorem parity_fair : parityEnv.Fair := by
  have hd : ∀ m n g, parityEnv.afterDraws n m g = demo.afterDraws n m g := by
    intro m
    induction m with
    | zero => intro n g; rfl
    | succ m ih => intro n g; exact ih n _
  intro n g a ha
  obtain ⟨m, hm⟩ := demo_fair n g a ha
  exact ⟨m, by rw [hd]; exact hm⟩

example : True := by
  obtain ⟨F, result, s', h⟩ := C42_returns (env := parityEnv) (n := 9) (cp := ⟨1⟩) (w := ⟨1⟩) (bounds := fun _ => ((⟨0⟩ : Exact ℤ), ⟨4⟩))
    (iters := 20) parity_contract parity_fair ⟨fun a b s h => (by cases h), demo_genuine.uniform, demo_genuine.arith⟩ (fun _ _ _ _ => ⟨_, rfl⟩)
    (fun _ _ _ => ⟨_, rfl⟩)
    ⟨by norm_num, by decide, by decide, by decide, by decide⟩ (fun _ g => ⟨⟨0 + g % (4 - 0)⟩, rfl⟩) (.inl (by omega)) demoStart
  have := C89_float (env := parityEnv) parityObjective (fun x => by unfold parityObjective; split <;> decide +kernel)
    (fun a => if (a 0).val % 2 = 0 then 1 / 10 else 1 / 3) (δ := 1 / 10 ^ 6) (fun x => by
      unfold parityObjective
      split
      · have h : |(f32 (1 / 10)).value - 1 / 10| ≤ 1 / 10 ^ 6 := by decide +kernel
        have h' := (Rat.cast_le (K := ℝ)).2 h
        push_cast at h'
        exact h'
      · have h : |(f32 (1 / 3)).value - 1 / 3| ≤ 1 / 10 ^ 6 := by decide +kernel
        have h' := (Rat.cast_le (K := ℝ)).2 h
        push_cast at h'
        exact h') parity_contract (fun a b s => rfl) (h F le_rfl)
  trivial

end Magnesia.Witness
