import Verif.Props.DESym
import Verif.Witness.DEProb

/-!
# Cases for C76
-/

namespace Magnesia.Witness

open MeasureTheory ENNReal

/-- The dice with another objective. -/
noncomputable def diceOf (f : Pt (Exact ℤ) 2 → ℤ) : DEnv (Exact ℤ) (Exact ℚ) 2 (ℕ → Unit01) Unit :=
  { dice with compare := fun a b s => (.ok (decide (f a < f b)), s) }

theorem diceOf_contract (f : Pt (Exact ℤ) 2 → ℤ) : (diceOf f).RandContract where
  index_empty := dice_contract.index_empty
  index_returns := dice_contract.index_returns
  index_range := dice_contract.index_range
  uniform_empty := dice_contract.uniform_empty
  uniform_range := dice_contract.uniform_range
  unit_range := dice_contract.unit_range

/-- The coordinates of `dice` in the other order. -/
noncomputable abbrev swapped := diceOf fun a => (a 1).val + 2 * (a 0).val

theorem swapped_ideal : swapped.Ideal (stream unif) (diceBounds ∘ Equiv.swap 0 1) (diceBook.D ∘ Equiv.swap 0 1) diceBook.U where
  index := dice_ideal.index
  uniform c := dice_ideal.uniform (Equiv.swap 0 1 c)
  unit := dice_ideal.unit

example := C76_permute (μ := stream unif) (μ' := stream unif) (env := dice) (env' := swapped) (bounds := diceBounds)
  (bounds' := diceBounds ∘ Equiv.swap 0 1)
  (Equiv.swap 0 1) (better' := fun a b => decide ((a 1).val + 2 * (a 0).val < (b 1).val + 2 * (b 0).val))
  (fun _ _ => rfl) dice_contract dice_ideal dice_compares (diceOf_contract _) swapped_ideal (fun _ _ _ => rfl) dice_mutation
  dice_valid 5 () [] () [] low

/-- A symmetric problem. -/
noncomputable abbrev fair := diceOf fun a => (a 0).val + (a 1).val

noncomputable def fairBook : Textbook (Exact ℤ) (Exact ℚ) 2 :=
  { diceBook with D := fun _ => diceBook.D 0, better := fun a b => decide ((a 0).val + (a 1).val < (b 0).val + (b 1).val) }

theorem fair_ideal : fair.Ideal (stream unif) (fun _ => diceBounds 0) fairBook.D fairBook.U where
  index := dice_ideal.index
  uniform _ := dice_ideal.uniform 0
  unit := dice_ideal.unit

example := C76_symmetric (μ := stream unif) (env := fair) (bounds := fun _ => diceBounds 0) (E := fairBook) (Equiv.swap 0 1) (fun _ => rfl)
  (fun x y => by simp [fairBook, add_comm]) (diceOf_contract _) fair_ideal (fun _ _ _ => rfl) dice_mutation dice_valid
  5 () [] {x | (x 0).val = -3}

/-- Other units: `1 - x₀` and `3 - x₁`. -/
noncomputable def mirrored : DEnv (Exact ℤ) (Exact ℚ) 2 (ℕ → Unit01) Unit where
  genIndex := dice.genIndex
  genUniform lo hi g := (if lo.val < hi.val then .ok ⟨hi.val - 1 - scale (hi.val - lo.val).toNat (g 0)⟩ else .error .emptyRange,
    fun k => g (k + 1))
  genUnit := dice.genUnit
  compare a b s := (.ok (decide ((b 0).val + 2 * (b 1).val < (a 0).val + 2 * (a 1).val)), s)

theorem mirrored_contract : mirrored.RandContract where
  index_empty := dice_contract.index_empty
  index_returns := dice_contract.index_returns
  index_range := dice_contract.index_range
  uniform_empty lo hi g h := if_neg (by simpa [RPartialOrd.lt] using h)
  uniform_range lo hi g x h := by
    unfold mirrored at h
    by_cases hl : lo.val < hi.val
    · simp only [if_pos hl] at h
      cases h
      have := scale_lt (m := (hi.val - lo.val).toNat) (by omega) (g 0)
      simp only [RPartialOrd.le, RPartialOrd.lt, decide_eq_true_eq]
      omega
    · simp only [if_neg hl] at h; cases h
  unit_range := dice_contract.unit_range

/-- The units. -/
def unitB : Fin 2 → ℤ := fun c => if c = 0 then 1 else 3

theorem mirrored_ideal : mirrored.Ideal (stream unif) diceBounds
    (fun c => (diceBook.D c).map fun x => (⟨-1 * x.val + unitB c⟩ : Exact ℤ)) diceBook.U where
  index := dice_ideal.index
  uniform c := by
    fin_cases c
    · have := scale_isSample (m := 8) (by norm_num) (fun k : ℕ => (⟨-1 * (-3 + k) + 1⟩ : Exact ℤ))
      have e : ∀ k : ℕ, (4 - k : ℤ) = -k + 3 + 1 := fun k => by ring
      simpa [e, mirrored, diceBounds, diceBook, PMF.map_comp, Function.comp_def, unitB] using this
    · have := scale_isSample (m := 4) (by norm_num) (fun k : ℕ => (⟨-1 * (0 + k) + 3⟩ : Exact ℤ))
      have e : ∀ k : ℕ, (3 - k : ℤ) = -k + 3 := fun k => by ring
      simpa [e, mirrored, diceBounds, diceBook, PMF.map_comp, Function.comp_def, unitB] using this
  unit := dice_ideal.unit

example := C76_affine (μ := stream unif) (μ' := stream unif) (env := dice) (env' := mirrored) (bounds := diceBounds)
  (bounds' := diceBounds) (better' := fun a b => decide ((b 0).val + 2 * (b 1).val < (a 0).val + 2 * (a 1).val))
  (fun _ => -1) unitB (fun _ => rfl) (fun x y => by
    simp only [diceBook]
    congr 1
    ext
    constructor <;> intro h <;> linarith)
  dice_contract dice_ideal dice_compares mirrored_contract mirrored_ideal (fun _ _ _ => rfl) dice_valid 5 () [] () [] low

/-- Both at once. -/
noncomputable def turned : DEnv (Exact ℤ) (Exact ℚ) 2 (ℕ → Unit01) Unit :=
  { mirrored with compare := fun a b s => (.ok (decide ((b 1).val + 2 * (b 0).val < (a 1).val + 2 * (a 0).val)), s) }

theorem turned_contract : turned.RandContract where
  index_empty := mirrored_contract.index_empty
  index_returns := mirrored_contract.index_returns
  index_range := mirrored_contract.index_range
  uniform_empty := mirrored_contract.uniform_empty
  uniform_range := mirrored_contract.uniform_range
  unit_range := mirrored_contract.unit_range

noncomputable def turnedBook : Textbook (Exact ℤ) (Exact ℚ) 2 :=
  { diceBook with
    D := fun c => (diceBook.D (Equiv.swap 0 1 c)).map fun x => ⟨-1 * x.val + unitB (Equiv.swap 0 1 c)⟩
    better := fun a b => decide ((b 1).val + 2 * (b 0).val < (a 1).val + 2 * (a 0).val) }

theorem turned_ideal : turned.Ideal (stream unif) (diceBounds ∘ Equiv.swap 0 1) turnedBook.D turnedBook.U where
  index := mirrored_ideal.index
  uniform c := mirrored_ideal.uniform (Equiv.swap 0 1 c)
  unit := mirrored_ideal.unit

theorem turned_recoded : Recoded diceBook turnedBook (Equiv.swap 0 1) fun c x => ⟨-1 * x.val + unitB (Equiv.swap 0 1 c)⟩ where
  initial _ := rfl
  random := rfl
  cp := rfl
  mutation c x y z := by
    simp only [diceBook, turnedBook, Exact.mk.injEq]
    ring
  better x y := by
    simp only [diceBook, turnedBook, recode, Equiv.swap_apply_left, Equiv.swap_apply_right, unitB]
    congr 1
    ext
    constructor <;> intro h <;> linarith

example := C76_recoded turned_recoded dice_contract dice_ideal dice_compares dice_mutation dice_valid turned_contract
  turned_ideal (fun _ _ _ => rfl) dice_mutation dice_valid 5 () [] () [] low

/-- Floating point: the dice with the coordinates in the other order. -/
noncomputable def swappedF : DEnv (Ieee .f64) (Ieee .f32) 2 (ℕ → Unit01) Unit :=
  { diceF with compare := fun a b s => demoF.compare (a ∘ Equiv.swap 0 1) (b ∘ Equiv.swap 0 1) s }

theorem swappedF_contract : swappedF.RandContract where
  index_empty := diceF_contract.index_empty
  index_returns := diceF_contract.index_returns
  index_range := diceF_contract.index_range
  uniform_empty := diceF_contract.uniform_empty
  uniform_range := diceF_contract.uniform_range
  unit_range := diceF_contract.unit_range

theorem swappedF_ideal : swappedF.Ideal (stream unif) boundsF
    ((fun _ => (PMF.uniformOfFinset (.range 2) ⟨0, by simp⟩).map fun k : ℕ => if k = 1 then (ROne.one : Ieee .f64) else f64 (-2)) ∘
      Equiv.swap (0 : Fin 2) 1)
    ((PMF.uniformOfFinset (.range 4) ⟨0, by simp⟩).map fun k : ℕ => f32 ((k : ℚ) / 4)) where
  index := diceF_ideal.index
  uniform c := diceF_ideal.uniform c
  unit := diceF_ideal.unit

/-- The comparison of `demoF`. -/
noncomputable def betterF (a b : Pt (Ieee .f64) 2) : Bool := (demoF.compare a b ()).1.toOption.getD false

example := C76_float (n := 4) (cp := f32 (1 / 2)) (w := f64 (3 / 4)) (μ := stream unif) (μ' := stream unif) (env := diceF)
  (env' := swappedF) (bounds := boundsF) (bounds' := boundsF) (better := betterF)
  (better' := fun a b => betterF (a ∘ Equiv.swap 0 1) (b ∘ Equiv.swap 0 1)) (Equiv.swap 0 1)
  (fun x y => by simp only [Function.comp_assoc, ← Equiv.coe_trans]; simp) diceF_contract diceF_ideal (fun _ _ _ => rfl) swappedF_contract
  swappedF_ideal (fun _ _ _ => rfl) (by norm_num) (by decide +kernel) (by decide +kernel) 9 () [] () [] {x | 0 < (x 1).value}

end Magnesia.Witness
