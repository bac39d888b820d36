import Verif.Props.DESpread
import Verif.Witness.DEProb

/-!
# Cases for C88
-/

namespace Magnesia.Witness

open MeasureTheory ENNReal

/-- Rational coordinates, one of sixteen equidistant points between the bounds; the better point is the one with the smaller
square of the first coordinate. -/
noncomputable def ratio : DEnv (Exact ℚ) (Exact ℚ) 2 (ℕ → Unit01) Unit where
  genIndex := dice.genIndex
  genUniform lo hi g := (if lo.val < hi.val then .ok ⟨lo.val + (hi.val - lo.val) * (scale 16 (g 0) / 16)⟩ else .error .emptyRange,
    fun k => g (k + 1))
  genUnit := dice.genUnit
  compare a b s := (.ok (decide ((a 0).val ^ 2 < (b 0).val ^ 2)), s)

theorem ratio_contract : ratio.RandContract where
  index_empty := dice_contract.index_empty
  index_returns := dice_contract.index_returns
  index_range := dice_contract.index_range
  uniform_empty lo hi g h := if_neg (by simpa [RPartialOrd.lt] using h)
  uniform_range lo hi g x h := by
    unfold ratio at h
    by_cases hl : lo.val < hi.val
    · simp only [if_pos hl] at h
      cases h
      have h1 := scale_lt (m := 16) (by norm_num) (g 0)
      have h2 : (scale 16 (g 0) : ℚ) < 16 := by exact_mod_cast h1
      have h3 : (0 : ℚ) ≤ scale 16 (g 0) := by positivity
      simp only [RPartialOrd.le, RPartialOrd.lt, decide_eq_true_eq]
      constructor
      · nlinarith
      · nlinarith
    · simp only [if_neg hl] at h; cases h
  unit_range := dice_contract.unit_range

/-- The first coordinate is in `[-1, 3)`, the second in `[1/3, 1)`. -/
def ratioBounds : Fin 2 → Exact ℚ × Exact ℚ := fun c => if c = 0 then (⟨-1⟩, ⟨3⟩) else (⟨1 / 3⟩, ⟨1⟩)

noncomputable def ratioD (c : Fin 2) : PMF (Exact ℚ) := (PMF.uniformOfFinset (.range 16) ⟨0, by simp⟩).map fun k : ℕ =>
  ⟨(ratioBounds c).1.val + ((ratioBounds c).2.val - (ratioBounds c).1.val) * (k / 16)⟩

theorem ratio_ideal : ratio.Ideal (stream unif) ratioBounds ratioD diceBook.U where
  index := dice_ideal.index
  uniform c := by
    have hl : (ratioBounds c).1.val < (ratioBounds c).2.val := by fin_cases c <;> norm_num [ratioBounds]
    have h := scale_isSample (m := 16) (by norm_num) (fun k : ℕ =>
      (⟨(ratioBounds c).1.val + ((ratioBounds c).2.val - (ratioBounds c).1.val) * (k / 16)⟩ : Exact ℚ))
    simpa [ratio, ratioD, hl] using h
  unit := dice_ideal.unit

def ratioBetter (a b : Pt (Exact ℚ) 2) : Bool := decide ((a 0).val ^ 2 < (b 0).val ^ 2)
theorem ratio_compares : ratio.Compares ratioBetter := fun _ _ _ => rfl
theorem ratio_ignores : IgnoresCoord ratioBetter 1 := by
  intro x y x' y' h h'
  simp only [ratioBetter, h 0 (by decide), h' 0 (by decide)]

theorem ratio_valid : ValidParams 7 (⟨1 / 2⟩ : Exact ℚ) (⟨3 / 4⟩ : Exact ℚ) where
  size := by norm_num
  cp_nonneg := by decide +kernel
  cp_le_one := by decide +kernel
  weight_nonneg := by decide +kernel
  weight_le_two := by decide +kernel

/-- A population of five points. -/
def five : Fin 5 → Pt (Exact ℚ) 2 := fun i c => if c = 0 then ⟨i * i⟩ else ⟨1 / (i + 1)⟩

example := C88_law (E := exactBook ratioD diceBook.U ⟨1 / 2⟩ ⟨3 / 4⟩ ratioBetter) (w := ⟨3 / 4⟩) ratio_contract ratio_ideal
  ratio_compares (fun _ _ _ => rfl) (by norm_num) five 2 () []
example := C88_mean (cp := ⟨1 / 2⟩) (w := ⟨3 / 4⟩) ratio_contract ratio_ideal ratio_compares (by norm_num) five 2 () [] 0
example := C88_spread (cp := ⟨1 / 2⟩) (w := ⟨3 / 4⟩) ratio_contract ratio_ideal ratio_compares (by norm_num) five 2 () [] 0 (1 / 2)
example := C88_average_mean (cp := ⟨1 / 2⟩) (w := ⟨3 / 4⟩) ratio_contract ratio_ideal ratio_compares (by norm_num) five () [] 0
example := C88_average_spread (cp := ⟨1 / 2⟩) (w := ⟨3 / 4⟩) ratio_contract ratio_ideal ratio_compares (by norm_num) five () [] 1
example := C88_ignored ratio_contract ratio_ideal ratio_compares ratio_ignores ratio_valid 5 () []

end Magnesia.Witness
