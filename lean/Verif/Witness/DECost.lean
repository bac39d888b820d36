import Verif.Props.DECost
import Verif.Witness.DE
import Verif.Witness.DEProb

/-!
# Concrete cases of the theorems of `Props/DECost.lean`
-/

namespace Magnesia.Witness

/-- The run `run6` and its counter. -/
theorem needs6 : ∃ k, demo.Needs b3 5 ⟨1⟩ ⟨1⟩ 6 (at_ 1) k := C77_defined.1 ⟨10, _, _, run6.choose_spec⟩

example := C77_unique needs6.choose_spec needs6.choose_spec
example := C77_at_least demo_contract needs6.choose_spec
example := C77_at_most (s := at_ 1) demo_contract run6.choose_spec needs6.choose_spec

/-- Six iterations with five points of two coordinates: here 45 random numbers; the least possible number is 40. -/
example : demo.Needs b3 5 ⟨1⟩ ⟨1⟩ 6 (at_ 1) 45 := by
  obtain ⟨r, hr⟩ := ran (x := demo.counted.optimize 10 b3 5 ⟨1⟩ ⟨1⟩ 6 ⟨(1, 0), (), []⟩) (by decide +kernel)
  exact ⟨10, r, _, hr, by decide +kernel⟩

example := C77_expected dice_contract dice_ideal dice_compares dice_mutation dice_valid 5 () []
example := C77_expected_float (n := 4) (cp := f32 (1 / 2)) (w := f64 (3 / 4)) diceF_contract diceF_ideal (fun _ _ _ => rfl)
  (by norm_num) (by decide +kernel) (by decide +kernel) 9 () []

example := C77_population 7 (show 4 ≤ 5 by norm_num) (show 5 ≤ 60 by norm_num)
example := C77_per_iteration 7 (show 4 ≤ 5 by norm_num)

end Magnesia.Witness
