import Verif.Props.FormErr
import Verif.Witness.Ieee
import Verif.Witness.Dyn

/-!
# Concrete cases of property C63
-/

namespace Magnesia.Witness

/-- `[[0.1, -7]]` and `[[0.3], [5]]` in single precision. -/
def rA : Form (Ieee .f32) .mat 1 2 := .mat ![![f32 (1 / 10), f32 (-7)]]
def rB : Form (Ieee .f32) .mat 2 1 := .mat ![![f32 (3 / 10)], ![f32 5]]
def rV : Form (Ieee .f32) .vec 2 1 := .vec ![f32 (1 / 10), f32 (3 / 10)]

/-- `(a * b) * a - a`. -/
def rE : Form (Ieee .f32) .mat 1 2 := rA * rB * rA - rA
theorem rE_fits : rE.Fits x64 := ⟨⟨⟨⟨⟨fits, fits⟩, fits, fits⟩, fits⟩, fits, fits⟩, fits⟩
theorem rE_inner : rE.Inner := ⟨⟨⟨trivial, trivial, .inl (by decide)⟩, trivial, .inl (by decide)⟩, trivial⟩
/-- `a * (b * a) - a`. -/
def rE' : Form (Ieee .f32) .mat 1 2 := rA * (rB * rA) - rA
theorem rE'_fits : rE'.Fits x64 := ⟨⟨⟨fits, fits⟩, ⟨⟨fits, fits⟩, fits, fits⟩, fits⟩, fits⟩
theorem rE'_inner : rE'.Inner := ⟨⟨trivial, ⟨trivial, trivial, .inl (by decide)⟩, .inl (by decide)⟩, trivial⟩

example := C63_real_matrix rE rE_fits rE_inner
/-- Its entries are finite numbers, and rounding happened: the two ways to multiply give different results. -/
example : (match rE.runM x64, rE'.runM x64 with
    | .ok x, .ok y => decide ((∀ z ∈ x.data, z.Finite) ∧ (∀ z ∈ y.data, z.Finite) ∧ x ≠ y)
    | _, _ => false) = true := by decide +kernel
example := C63_identity rE rE' rE_fits rE'_fits rE_inner rE'_inner
  (by simp only [rE, rE']; exact congrArg₂ _ (Matrix.mul_assoc _ _ _) rfl)
example := C63_triple_product (p := x64) (by decide) (by decide) ![![f32 (1 / 10), f32 (-7)]] ![![f32 (3 / 10)], ![f32 5]]
  ![![f32 (1 / 10), f32 (-7)]] fits fits fits fits


/-- The estimate that excludes overflow holds for `a * b`. -/
theorem rAB_within : (rA * rB).Within Ieee.Finite (2 ^ Fmt.f32.emax) Fmt.f32.u Fmt.f32.u Fmt.f32.η Ieee.real := by
  refine ⟨(by decide +kernel : ∀ i j, (![![f32 (1 / 10), f32 (-7)]] i j : Ieee .f32).Finite),
    (by decide +kernel : ∀ i j, (![![f32 (3 / 10)], ![f32 5]] i j : Ieee .f32).Finite), fun i j => ?_⟩
  have e1 : (rA.prod rB).factor (Fmt.f32.u : ℝ) Fmt.f32.u = (1 + (Fmt.f32.u : ℝ)) ^ 2 := by
    show 1 * 1 * (1 + (Fmt.f32.u : ℝ)) * (1 + (Fmt.f32.u : ℝ)) ^ 1 = _
    ring
  have e2 : (rA.prod rB).under (Fmt.f32.η : ℝ) Ieee.real i j = 2 * Fmt.f32.η := by
    show (0 * 0 + rA.mag Ieee.real * 0 + 0 * rB.mag Ieee.real +
      Matrix.of fun _ _ => ((2 : ℕ) : ℝ) * Fmt.f32.η : Matrix (Fin 1) (Fin 1) ℝ) i j = _
    simp
  have e3 : (rA.prod rB).mag Ieee.real i j ≤ 100 := by
    obtain rfl := Subsingleton.elim i 0
    obtain rfl := Subsingleton.elim j 0
    show (∑ k : Fin 2, |((![![f32 (1 / 10), f32 (-7)]] 0 k).value : ℝ)| * |((![![f32 (3 / 10)], ![f32 5]] k 0).value : ℝ)|) ≤ 100
    have h : (∑ k : Fin 2, |(![![f32 (1 / 10), f32 (-7)]] 0 k).value| * |(![![f32 (3 / 10)], ![f32 5]] k 0).value|) ≤ 100 := by
      decide +kernel
    exact_mod_cast h
  rw [e1, e2]
  have hu : (Fmt.f32.u : ℝ) ≤ 1 := by exact_mod_cast (by decide +kernel : Fmt.f32.u ≤ 1)
  have hu0 : (0 : ℝ) ≤ Fmt.f32.u := by exact_mod_cast Fmt.f32.u_pos.le
  have hη : (Fmt.f32.η : ℝ) ≤ 1 := by exact_mod_cast (by decide +kernel : Fmt.f32.η ≤ 1)
  have hB : (1000 : ℝ) ≤ 2 ^ Fmt.f32.emax := by
    show (1000 : ℝ) ≤ 2 ^ (127 : ℤ)
    norm_num
  refine le_trans ?_ hB
  have : (1 + (Fmt.f32.u : ℝ)) ^ 2 ≤ 4 := by nlinarith
  calc _ ≤ 4 * ((rA.prod rB).mag Ieee.real i j + 2 * Fmt.f32.η) := by
        refine mul_le_mul_of_nonneg_right this ?_
        refine add_nonneg ?_ ?_
        · show (0 : ℝ) ≤ ∑ k : Fin 2, |((![![f32 (1 / 10), f32 (-7)]] i k).value : ℝ)| *
            |((![![f32 (3 / 10)], ![f32 5]] k j).value : ℝ)|
          positivity
        · exact_mod_cast (by decide +kernel : (0 : ℚ) ≤ 2 * Fmt.f32.η)
    _ ≤ 1000 := by linarith

/-- So all entries of `a * b` are finite. -/
example := (C63_real_matrix (p := x64) (rA * rB) ⟨⟨fits, fits⟩, fits, fits⟩
  ⟨trivial, trivial, .inl (by decide)⟩).choose_spec.2.2 rAB_within

example := C63_real_vector (p := x64) (Form.add (Form.diagOf (rB * rA)) (rV.elem rV)) ⟨⟨⟨fits, fits⟩, fits, fits⟩, trivial, trivial⟩
  ⟨⟨trivial, trivial, .inl (by decide)⟩, trivial, trivial⟩

/-- `[[0.1 - 7i, 5 + 0.3i]]` -/
def rC : Form (Complex (Ieee .f32)) .mat 1 2 := .mat ![![⟨f32 (1 / 10), f32 (-7)⟩, ⟨f32 5, f32 (3 / 10)⟩]]
example := C63_complex_matrix (p := x64) (rC * rC.h) ⟨⟨fits, fits⟩, fits, fits⟩ ⟨trivial, trivial, .inl (by decide)⟩
example := C63_complex_vector (p := x64) (rC * rC.h).diagOf ⟨⟨fits, fits⟩, fits, fits⟩ ⟨trivial, trivial, .inl (by decide)⟩

end Magnesia.Witness
