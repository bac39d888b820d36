import Verif.Props.DEStuck
import Verif.Witness.DEProb

/-!
# Concrete cases of `Props/DEStuck.lean`
-/

namespace Magnesia.Witness

open MeasureTheory ENNReal

/-- Multiples of 3 do not leave the multiples of 3. -/
example := C81_confined (E := diceBook) dice_contract dice_ideal dice_compares dice_mutation dice_valid 5 () []
  (fun _ => {x | (3 : ℤ) ∣ x.val}) (fun _ x hx y hy z hz => by
    simp only [Set.mem_ofPred_eq, diceBook] at *
    exact dvd_add hx ((dvd_sub hy hz).mul_right 2))

/-- So an optimum which is not divisible by 3 is missed with positive probability. -/
example := C81_failure (E := diceBook) dice_contract dice_ideal dice_compares dice_mutation dice_valid 5 () []
  (fun _ => {x | (3 : ℤ) ∣ x.val}) (fun _ x hx y hy z hz => by
    simp only [Set.mem_ofPred_eq, diceBook] at *
    exact dvd_add hx ((dvd_sub hy hz).mul_right 2)) {x | (x 1).val = 1} (fun x hx => ⟨1, by
    simp only [Set.mem_ofPred_eq] at *
    omega⟩)

example := C81_stuck (cp := diceBook.cp) (w := ⟨2⟩) dice_contract dice_ideal dice_compares dice_valid 5 () [] (fun _ => ⟨3⟩)

/-- The point whose coordinates are both -2. -/
def corner : Pt (Ieee .f64) 2 := fun _ => f64 (-2)
theorem corner_ok (c : Fin 2) : (corner c).Finite ∧ corner c ≠ .zero true := by
  simp only [corner]
  decide +kernel
theorem corner_drawn : ((PMF.uniformOfFinset (.range 2) ⟨0, by simp⟩).map fun k : ℕ => if k = 1 then (ROne.one : Ieee .f64) else f64 (-2))
    (f64 (-2)) ≠ 0 := by
  rw [← PMF.mem_support_iff, PMF.mem_support_map_iff]
  exact ⟨0, (PMF.mem_support_uniformOfFinset_iff _ _).2 (by simp), by simp⟩

example := C81_stuck_float (n := 4) (cp := f32 (1 / 2)) (w := f64 (3 / 4)) diceF_contract diceF_ideal (fun _ _ _ => rfl) (by norm_num)
  (by decide +kernel) (by decide +kernel) 9 () [] corner corner_ok
example := C81_no_guarantee (n := 4) (cp := f32 (1 / 2)) (w := f64 (3 / 4)) diceF_contract diceF_ideal (fun _ _ _ => rfl) (by norm_num)
  (by decide +kernel) (by decide +kernel) {x | 0 < (x 1).value} corner (by simp only [Set.mem_ofPred_eq, corner]; decide +kernel)
  corner_ok (fun _ => corner_drawn)

end Magnesia.Witness
