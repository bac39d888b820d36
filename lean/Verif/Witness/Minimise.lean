import Verif.Props.Minimise

/-!
# Concrete cases for property C61
-/

namespace Magnesia.Witness

open RZero ROne AckleyLib

/-- The documented call with a generator that counts: `gen_range(lo..hi)` is zero every other pair of draws where possible,
otherwise `lo`; the library is `exampleLib`. -/
noncomputable def demoA : DEnv (Ieee .f32) (Ieee .f32) 2 ℕ Unit where
  genIndex n g := (if n = 0 then .error .emptyRange else .ok (g % n), g + 1)
  genUniform lo hi g := (if lo.flt hi then .ok (if g % 4 < 2 ∧ lo.fle zero ∧ (zero : Ieee .f32).flt hi then zero else lo)
    else .error .emptyRange, g + 1)
  genUnit g := (.zero false, g + 1)
  compare a b s := (.ok ((ackleyAt exampleLib a).flt (ackleyAt exampleLib b)), s)

theorem demoA_contract : demoA.RandContract where
  index_empty g := rfl
  index_returns n g hn := ⟨g % n, if_neg (by omega)⟩
  index_range n g k h := by
    unfold demoA at h
    by_cases hn : n = 0
    · simp [hn] at h
    · simp [hn] at h
      rw [← h]; exact Nat.mod_lt _ (by omega)
  uniform_empty lo hi g h := if_neg (by rw [show lo.flt hi = false from h]; simp)
  uniform_range lo hi g x h := by
    change (if lo.flt hi = true then Except.ok (if g % 4 < 2 ∧ lo.fle zero ∧ (zero : Ieee .f32).flt hi then zero else lo)
      else Except.error Panic.emptyRange) = .ok x at h
    show lo.fle x = true ∧ x.flt hi = true
    split_ifs at h with h1 h2
    · cases h; exact h2.2
    · cases h
      refine ⟨?_, h1⟩
      have hn : lo ≠ .nan := by rintro rfl; rw [Ieee.flt_nan_left] at h1; cases h1
      obtain ⟨k, hk⟩ := Ieee.key_some hn
      simp [Ieee.fle, hk]
  unit_range _ := by
    show (Ieee.zero false : Ieee .f32).flt (.zero false) = false ∧ (Ieee.zero false : Ieee .f32).flt one = true
    decide +kernel

theorem demoA_fair : demoA.Fair := by
  have hd : ∀ m n g, demoA.afterDraws n m g = demo.afterDraws n m g := by
    intro m
    induction m with
    | zero => intro n g; rfl
    | succ m ih => intro n g; exact ih _ _
  intro n g a ha
  obtain ⟨m, hm⟩ := demo_fair n g a ha
  exact ⟨m, by rw [hd]; exact hm⟩

/-- The bounds of the documentation: `[(-5.0, 5.0); 2]`. -/
def boundsA : Fin 2 → Ieee .f32 × Ieee .f32 := fun _ => (lit (-5), lit 5)

theorem demoA_run : AckleyRun exampleLib demoA boundsA where
  contract := demoA_contract
  compares _ _ _ := rfl
  lower _ := by show (lit (-5)).Finite ∧ |(lit (-5)).value| ≤ 5; decide +kernel
  upper _ := by show (lit 5).Finite ∧ |(lit 5).value| ≤ 5; decide +kernel

theorem exampleLib_decent : exampleLib.Decent :=
  ⟨1 / 2 ^ 21, 1 / 2 ^ 21, by positivity, by positivity, by norm_num, exampleLib_ok.2⟩

theorem lt_5 : (lit (-5)).flt (lit 5) = true := by decide +kernel

/-- The parameters of the documentation: 20 points, crossover probability 0.9, weight 0.8. -/
theorem demoA_returns (iters : ℕ) (s : DEWorld (Ieee .f32) 2 ℕ Unit) : ∃ F result s', ∀ fuel, F ≤ fuel →
    demoA.optimize fuel boundsA 20 (lit (9 / 10)) (lit (8 / 10)) iters s = (.ok result, s') :=
  C61_returns demoA_run demoA_fair (by omega) (by decide +kernel) (by decide +kernel)
    (fun _ g => ⟨_, if_pos lt_5⟩)
    (fun lo hi g h => by simp only [demoA] at h; split at h <;> cases h) iters s

/-- 500 iterations, as in the documentation. -/
theorem run500 : ∃ fuel result s', demoA.optimize fuel boundsA 20 (lit (9 / 10)) (lit (8 / 10)) 500 ⟨0, (), []⟩ = (.ok result, s') := by
  obtain ⟨F, r, s', h⟩ := demoA_returns 500 ⟨0, (), []⟩
  exact ⟨F, r, s', h F le_rfl⟩

/-- In the first iteration the origin is compared. -/
theorem run500_origin : ∃ fuel result s', demoA.optimize fuel boundsA 20 (lit (9 / 10)) (lit (8 / 10)) 500 ⟨0, (), []⟩ = (.ok result, s') ∧
    ∃ calls, s'.log = (⟨0, (), []⟩ : DEWorld (Ieee .f32) 2 ℕ Unit).log ++ calls ∧
      ∃ call ∈ calls, (fun _ => zero : Pt (Ieee .f32) 2) = call.a ∨ (fun _ => zero : Pt (Ieee .f32) 2) = call.b := by
  obtain ⟨fuel, r, s', h⟩ := run500
  refine ⟨fuel, r, s', h, ?_⟩
  obtain ⟨hn, R, calls, h1, h2, h3, h4, _⟩ := DEnv.optimize_ok demoA_contract h
  refine ⟨calls, h1, ⟨R.trial 0, R.pop 0 (slot hn 0), R.answer 0⟩, ?_, .inr ?_⟩
  · rw [h4.calls_eq]
    exact List.mem_append_left _ (List.mem_map.2 ⟨0, by simp, rfl⟩)
  · funext c
    have := h3 (slot hn 0) c
    have e : (demoA.genUniform (boundsA c).1 (boundsA c).2 (coordState demoA.genUniform boundsA c 0)).1 = .ok zero := by
      have h0 : ∀ c : Fin 2, coordState demoA.genUniform boundsA c 0 = c := by
        intro c
        match c with
        | 0 => rfl
        | 1 => rfl
      rw [h0]
      have hz : (lit (-5)).fle (zero : Ieee .f32) = true ∧ (zero : Ieee .f32).flt (lit 5) = true := by decide +kernel
      show (if (lit (-5)).flt (lit 5) = true then Except.ok (if (c : ℕ) % 4 < 2 ∧ (lit (-5)).fle zero ∧ (zero : Ieee .f32).flt (lit 5) then zero else lit (-5))
        else Except.error Panic.emptyRange) = _
      rw [if_pos lt_5, if_pos ⟨by omega, hz⟩]
    exact Except.ok.inj (e.symm.trans this)

example := C61_confined exampleLib_decent demoA_run run500.choose_spec.choose_spec.choose_spec
example := C61_best exampleLib_decent demoA_run run500_origin.choose_spec.choose_spec.choose_spec.1
  run500_origin.choose_spec.choose_spec.choose_spec.2.choose_spec.1
  run500_origin.choose_spec.choose_spec.choose_spec.2.choose_spec.2
example := C61_real (ε := 1 / 2 ^ 21) (θ := 1 / 2 ^ 21) (by positivity) (by positivity) (by norm_num) exampleLib_ok.2 demoA_run
  run500_origin.choose_spec.choose_spec.choose_spec.1
  run500_origin.choose_spec.choose_spec.choose_spec.2.choose_spec.1
  run500_origin.choose_spec.choose_spec.choose_spec.2.choose_spec.2
example := C61_documented_assertion exampleLib_decent demoA_run run500_origin.choose_spec.choose_spec.choose_spec.1
  run500_origin.choose_spec.choose_spec.choose_spec.2.choose_spec.1
  run500_origin.choose_spec.choose_spec.choose_spec.2.choose_spec.2
  (show (ackley exampleLib (.zero false) (.zero false)).value ≤ 1 / 4 by rw [C60_origin _ exampleLib_ok.1]; exact (show (0 : ℚ) ≤ 1 / 4 by norm_num)) 1
/-- Two runs with the same random numbers and a common bound on the draws. -/
theorem runs_both : ∃ fuel result s' result' s'', demoA.optimize fuel boundsA 20 (lit (9 / 10)) (lit (8 / 10)) 100 ⟨7, (), []⟩ = (.ok result, s') ∧
    demoA.optimize fuel boundsA 20 (lit (9 / 10)) (lit (8 / 10)) 500 ⟨7, (), []⟩ = (.ok result', s'') := by
  obtain ⟨F, r, s', h⟩ := demoA_returns 100 ⟨7, (), []⟩
  obtain ⟨F', r', s'', h'⟩ := demoA_returns 500 ⟨7, (), []⟩
  exact ⟨max F F', r, s', r', s'', h _ (le_max_left _ _), h' _ (le_max_right _ _)⟩
example := C61_more_iterations exampleLib_decent demoA_run (show 100 ≤ 500 by omega)
  runs_both.choose_spec.choose_spec.choose_spec.choose_spec.choose_spec.1
  runs_both.choose_spec.choose_spec.choose_spec.choose_spec.choose_spec.2
example := C61_returns demoA_run demoA_fair (n := 20) (cp := lit (9 / 10)) (w := lit (8 / 10)) (by omega) (by decide +kernel) (by decide +kernel)
    (fun _ g => ⟨_, if_pos lt_5⟩)
    (fun lo hi g h => by simp only [demoA] at h; split at h <;> cases h) 500 ⟨3, (), []⟩
example := C60_accuracy_wide _ (B := 20) (by positivity) (by positivity) (by norm_num) exampleLib_ok.2 (lit (1 / 10)) (lit (-19))
  (by decide +kernel) (by decide +kernel) (by norm_num) (by norm_num)
  (by have : |(lit (1 / 10)).value| ≤ 20 := by decide +kernel
      exact_mod_cast this)
  (by have : |(lit (-19)).value| ≤ 20 := by decide +kernel
      exact_mod_cast this)

end Magnesia.Witness
