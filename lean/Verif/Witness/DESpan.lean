import Verif.Props.DESpan
import Verif.Witness.DE

/-!
# Concrete cases of property C68
-/

namespace Magnesia.Witness

open RZero ROne

-- runs in which nothing has to collapse
example := C68_coordinate demo_contract run6.choose_spec
example := C68_collapsed demo_contract run6.choose_spec
example := C68_affine_span demo_contract runCp1.choose_spec
example := C68_grid demo_contract run6.choose_spec 1 rfl

/-- The bounds `0..3` and `0..1`: all initial points have second coordinate 0. -/
def b31 : Fin 2 → Exact ℤ × Exact ℤ := fun c => if c = 0 then (⟨0⟩, ⟨3⟩) else (⟨0⟩, ⟨1⟩)

/-- The hypothesis inside `C68_coordinate` is met: with these bounds the second coordinate is 0 forever. -/
theorem stays_zero {fuel n iters : ℕ} {cp w : Exact ℤ} {s s' : DEWorld (Exact ℤ) 2 ℕ Unit} {result : Pt (Exact ℤ) 2}
    (h : demo.optimize fuel b31 n cp w iters s = (.ok result, s')) : (result 1).val = 0 := by
  obtain ⟨hn, R, calls, h1, h3, h4, h5⟩ := C68_coordinate demo_contract h
  refine (h5 0 (by omega) 1 0 fun i => ?_).1
  have := h4.initial i 1
  simp only [b31, RPartialOrd.le, RPartialOrd.lt] at this
  obtain ⟨a, b⟩ := this
  simp at a b
  omega

/-- Such runs exist, and the first coordinate does move. -/
example : (demo.optimize 10 b31 5 ⟨1⟩ ⟨1⟩ 6 (at_ 1)).1.toOption.map (fun p => ((p 0).val, (p 1).val)) =
    some (4, 0) := by decide +kernel

/-- A generator that draws the same number for both coordinates of a point. -/
def demoD : DEnv (Exact ℤ) (Exact ℤ) 2 ℕ Unit :=
  { demo with genUniform := fun lo hi g =>
      (if lo.val < hi.val then .ok ⟨lo.val + (g / 2 : ℕ) % (hi.val - lo.val)⟩ else .error .emptyRange, g + 1) }
theorem demoD_contract : demoD.RandContract where
  index_empty := demo_contract.index_empty
  index_returns := demo_contract.index_returns
  index_range := demo_contract.index_range
  unit_range := demo_contract.unit_range
  uniform_empty lo hi g h := if_neg (by simpa [RPartialOrd.lt] using h)
  uniform_range lo hi g x h := by
    change (if lo.val < hi.val then Except.ok (⟨lo.val + (g / 2 : ℕ) % (hi.val - lo.val)⟩ : Exact ℤ) else .error Panic.emptyRange) = .ok x at h
    split_ifs at h with hl
    cases h
    have h1 := Int.emod_nonneg ((g / 2 : ℕ) : ℤ) (show hi.val - lo.val ≠ 0 by omega)
    have h2 := Int.emod_lt_of_pos ((g / 2 : ℕ) : ℤ) (show 0 < hi.val - lo.val by omega)
    simp only [RPartialOrd.le, RPartialOrd.lt, decide_eq_true_eq]
    constructor <;> omega
theorem runD : ∃ r, demoD.optimize 10 b3 5 (one : Exact ℤ) ⟨1⟩ 6 (at_ 0) =
    (.ok r, (demoD.optimize 10 b3 5 (one : Exact ℤ) ⟨1⟩ 6 (at_ 0)).2) := ran (by decide +kernel)

/-- Its initial points. -/
def initialD : Fin 5 → Pt (Exact ℤ) 2 := fun i _ => ⟨i % 3⟩
theorem drawnD : demoD.Drawn b3 (at_ 0).rng initialD := by
  intro i c
  refine ok_of_some ?_
  revert i c
  decide +kernel

/-- The hypothesis inside `C68_affine_span` is met: the initial points lie on the diagonal `x₀ - x₁ = 0`; the result does. -/
example : ((runD.choose) 0).val = ((runD.choose) 1).val := by
  obtain ⟨hn, R, calls, h1, h3, h4, h5⟩ := C68_affine_span demoD_contract runD.choose_spec
  have := (h5 0 (by omega) ![1, -1] 0 fun i => by
    rw [drawn_unique h3 drawnD]
    simp [initialD]).1
  simp at this
  linarith
/-- The result is not an initial point. -/
example : (demoD.optimize 10 b3 5 (one : Exact ℤ) ⟨1⟩ 6 (at_ 0)).1.toOption.map (fun p => ((p 0).val, (p 1).val)) =
    some (3, 3) := by decide +kernel

/-- The bounds `-2..3` and `1..2` for the `f64` generator, which draws 1 for the second coordinate. -/
def boundsF1 : Fin 2 → Ieee .f64 × Ieee .f64 := fun c => if c = 0 then (f64 (-2), f64 3) else (f64 1, f64 2)
theorem runF1 : ∃ r, demoF.optimize 50 boundsF1 4 (f32 (1 / 2)) (f64 (1 / 2)) 5 ⟨0, (), []⟩ =
    (.ok r, (demoF.optimize 50 boundsF1 4 (f32 (1 / 2)) (f64 (1 / 2)) 5 ⟨0, (), []⟩).2) := ran (by decide +kernel)
example := C68_float demoF_contract runF1.choose_spec
example := C68_float_collapsed demoF_contract runF1.choose_spec
/-- The hypothesis inside `C68_float` is met, for every number of iterations. -/
example {fuel n iters : ℕ} {cp : Ieee .f32} {w : Ieee .f64} {s s' : DEWorld (Ieee .f64) 2 ℕ Unit} {result : Pt (Ieee .f64) 2}
    (h : demoF.optimize fuel boundsF1 n cp w iters s = (.ok result, s')) : (result 1).value = 1 := by
  obtain ⟨hn, R, calls, h1, h3, h4, h5⟩ := C68_float demoF_contract h
  have h0 : (f64 1).Finite ∧ (f64 1).value = 1 := by decide +kernel
  have h2 : (one : Ieee .f64).Finite ∧ (one : Ieee .f64).value = 1 := by decide +kernel
  refine (h5 0 (by omega) 1 1 fun i => ?_).1.2
  have := h3 i 1
  simp only [demoF, boundsF1, if_neg (show ¬ (1 : Fin 2) = 0 by decide)] at this
  split_ifs at this with g1 g2
  all_goals
    injection this with this
    rw [← this]
    first | exact h2 | exact h0

end Magnesia.Witness
