import Verif.Props.Nesting
import Verif.Witness.Ieee
import Mathlib.LinearAlgebra.Matrix.Charpoly.Coeff

/-!
# Concrete cases meeting the hypotheses of C97
-/

namespace Magnesia.Witness

open RZero

/-- Checked 32-bit integers denote integers. -/
theorem nestI32 : Implements (MInt.toInt : I32 → ℤ) := implements_checked (by decide)

/-- `1 + 2 x` at `3 + y`, at `y = 5`. -/
example := C97_composition nestI32 [.lit 1, .lit 2] ⟨[.lit 3, .lit 1]⟩ ⟨[.lit 7, .lit 2]⟩ (.lit 5) (.lit 8) (.lit 17) (.lit 17)
  rfl rfl rfl rfl
example := C97_two_variables nestI32 ⟨[⟨[.lit 3, .lit 1]⟩, ⟨[.lit 2]⟩]⟩ ⟨[.lit 11, .lit 1]⟩ [.lit 8, .lit 2] (.lit 4) (.lit 5) (.lit 16)
  (.lit 16) rfl rfl (.cons rfl (.cons rfl .nil)) rfl
example := C97_exchange nestI32 (m := 2) (n := 2) ![![.lit 3, .lit 1], ![.lit 2, .lit 7]] ⟨[.lit 11, .lit 29]⟩ ⟨[.lit 8, .lit 37]⟩
  (.lit 4) (.lit 5) (.lit 156) (.lit 156) rfl rfl rfl rfl
example := C97_matrices_of_polynomials nestI32 (l := 1) (m := 2) (n := 1) ⟨![![⟨[.lit 1, .lit 2]⟩, ⟨[.lit 3]⟩]]⟩
  ⟨![![⟨[.lit 0, .lit 1]⟩], ![⟨[.lit 5]⟩]]⟩ ⟨![![⟨[.lit 15, .lit 1, .lit 2]⟩]]⟩ ((smatrix_mul_entries _ _ _).2 (by decide +kernel)) (.lit 2)
  ⟨![![.lit 5, .lit 3]]⟩ ⟨![![.lit 2], ![.lit 5]]⟩ ⟨![![.lit 25]]⟩ ⟨![![.lit 25]]⟩ (by decide +kernel) (by decide +kernel)
  (by decide +kernel) ((smatrix_mul_entries _ _ _).2 (by decide +kernel))

/-- The matrix with rows `1, 2` and `3, 4`. -/
def nestA : SMatrix I32 2 2 := ⟨![![.lit 1, .lit 2], ![.lit 3, .lit 4]]⟩

example := C97_polynomials_of_matrices nestI32 ⟨[nestA, nestA]⟩ (.lit 2) (.lit 6) _ (Res.eq_ok (d := zero) (by decide +kernel)) 0 1 rfl
example := C97_complex_coefficients nestI32 ⟨[⟨.lit 1, .lit 2⟩, ⟨.lit 3, .lit 4⟩]⟩ (.lit 5) (.lit 16) (.lit 22) ⟨.lit 16, .lit 22⟩ rfl rfl rfl

example := C97_blocks nestI32 (k := 1) (l := 2) (m := 1) ⟨![![nestA, nestA]]⟩ ⟨![![nestA], ![nestA]]⟩ _
  (Res.eq_ok (d := zero) (by decide +kernel)) _ (Res.eq_ok (d := zero) (by decide +kernel))

/-- The characteristic polynomial of this matrix is `x² - 5 x - 2`. -/
example := C97_cayley_hamilton nestI32 nestA _ [.lit (-2), .lit (-5), .lit 1] (by
    intro k
    have e : (nestA.toMatrix MInt.toInt) = !![1, 2; 3, 4] := by decide +kernel
    rw [e, Matrix.charpoly_fin_two]
    match k with
    | 0 => simp [Matrix.trace_fin_two, Matrix.det_fin_two, Poly.fromCoefficients, Poly.coef]; rfl
    | 1 => simp [Matrix.trace_fin_two, Matrix.det_fin_two, Poly.fromCoefficients, Poly.coef]; rfl
    | 2 => simp [Matrix.trace_fin_two, Matrix.det_fin_two, Poly.fromCoefficients, Poly.coef, Polynomial.coeff_X]; rfl
    | k + 3 => simp [Matrix.trace_fin_two, Matrix.det_fin_two, Poly.fromCoefficients, Poly.coef, Polynomial.coeff_X, Polynomial.coeff_X_pow])
  (Res.eq_ok (d := zero) (by decide +kernel))

example := C97_agree nestI32 (n := 2) ⟨[.lit 1, .lit 2]⟩ ⟨[.lit 1, .lit 2]⟩ (by decide) (by decide) ![.lit 0, .lit 1] ![.lit 1, .lit 3]
  ![.lit 1, .lit 3] (by decide +kernel) (by decide +kernel) (by decide +kernel) (by decide +kernel)

/-- Modulo 256 the polynomial `128 x² + 128 x` has the value zero everywhere. -/
example : ∀ x : Fin 256, (Poly.fromCoefficients [.lit 0, .lit 128, .lit 128] : Poly W8).eval (.lit x) = .ok (.lit 0) := by
  decide +kernel

example := C97_complex_as_matrix iz iw _ (Res.eq_ok (d := zero) (by decide +kernel))

/-- The signs of zeros do differ. -/
example : (⟨f32 1, zero⟩ : Complex (Ieee .f32)).mul ⟨.zero true, zero⟩ = .ok ⟨.zero true, zero⟩ := by
  rw [ieee_cmul]
  decide +kernel

end Magnesia.Witness
