import Verif.Props.Sticky
import Verif.Witness.Ieee

/-!
# Concrete cases meeting the hypotheses of C96
-/

namespace Magnesia.Witness

open RZero

example := C96_dot_finite (SVector.mk (ima 0)) (SVector.mk (imb 0)) _ (Res.eq_ok (d := zero) (by decide +kernel)) (by decide +kernel)
example := C96_dot_sticky (F := .f32) ⟨![.inf false, f32 2, f32 1]⟩ ⟨![f32 1, f32 3, .inf true]⟩ 2 (by decide)
example := C96_dot_infinite (F := .f32) ⟨![f32 1, .inf false, f32 2]⟩ ⟨![f32 1, f32 3, f32 1]⟩ false (by decide +kernel) 2
example := C96_dot_nan_entry (F := .f32) ⟨![f32 1, .nan, f32 2]⟩ ⟨![f32 1, f32 3, f32 1]⟩ 1 (.inl rfl)
example := C96_smatrix_finite (SMatrix.mk ima) (SMatrix.mk imb) _ (Res.eq_ok (d := zero) (by decide +kernel)) 1 0 (by decide +kernel) 1
example := C96_smatrix_nan (F := .f32) (l := 1) (m := 2) (n := 1) ⟨![![.nan, f32 1]]⟩ ⟨![![f32 1], ![f32 2]]⟩ ⟨![![.nan]]⟩
  ((smatrix_mul_entries _ _ _).2 (by decide +kernel)) 0
example := C96_mul_vec (SMatrix.mk ima) (SVector.mk (imb 0)) _ (Res.eq_ok (d := zero) (by decide +kernel)) 1 (by decide +kernel) 0
example := C96_dmatrix (p := x64) (m := 1) fits fits ima imb
  (fun i j => ((zero : Ieee .f64).add ((ima i 0).mul (imb 0 j))).add ((ima i 1).mul (imb 1 j))) (by decide +kernel)
example := C96_eval_finite [f32 1, f32 (1 / 3)] (f32 7) _ (Res.eq_ok (d := zero) (by decide +kernel)) (by decide +kernel)
example := C96_polynomial_finite (F := .f32) ⟨[f32 1, f32 (1 / 3)]⟩ ⟨[f32 2, f32 (1 / 7), .inf false]⟩ _
  (Res.eq_ok (d := zero) (by decide +kernel)) 1 0 (f32 (1 / 3)) (f32 2) _ (by decide +kernel) (by decide +kernel)
  (by decide +kernel : _ = some (((zero : Ieee .f32).add ((f32 1).mul (f32 (1 / 7)))).add ((f32 (1 / 3)).mul (f32 2)))) (by decide +kernel)
example := C96_polynomial_nan (F := .f32) ⟨[f32 1, .nan]⟩ ⟨[f32 2, f32 (1 / 7), f32 5]⟩ _
  (Res.eq_ok (d := zero) (by decide +kernel)) 1 2 (by decide +kernel) (by decide +kernel)
example := C96_complex_dot_finite (SVector.mk ![iz, iw]) (SVector.mk ![iw, iw]) _ (Res.eq_ok (d := zero) (by decide +kernel))
  (.inl (by decide +kernel)) 1
example := C96_complex_smatrix_finite (SMatrix.mk cma) (SMatrix.mk cma) _ (Res.eq_ok (d := zero) (by decide +kernel)) 0 1
  (.inr (by decide +kernel)) 1

example : ∃ y : Fin 2 → Fin 2 → Complex (Ieee .f32),
    (do (← (DMatrix.ofFn cma).mul x64 (DMatrix.ofFn cma)).eval) = .ok (DMatrix.ofFn y) := by
  obtain ⟨y, h, _⟩ := C95_complex_static_dynamic (p := x64) (m := 1) fits fits cma cma
  have := C96_complex_dmatrix_finite (p := x64) (m := 1) fits fits cma cma y h
  exact ⟨y, h⟩

/-- One divided by a number so large that the square of its modulus overflows. -/
example := C96_division_hides (F := .f32) ⟨f32 1, zero⟩ ⟨f32 (2 ^ 70), f32 1⟩ (by decide +kernel) (by decide +kernel) (by decide +kernel)

/-- The other part of a square root can be finite: the square of the modulus overflows. -/
example : (⟨f32 (2 ^ 70), zero⟩ : Complex (Ieee .f32)).sqrt = .ok ⟨.inf false, zero⟩ ∧
    (⟨.inf false, zero⟩ : Complex (Ieee .f32)).sqrt = .ok ⟨.inf false, zero⟩ := by
  rw [ieee_csqrt, ieee_csqrt]
  decide +kernel

/-- An infinity that becomes NaN: the opposite infinity follows. -/
example : (SVector.mk ![.inf false, f32 1, f32 1]).dot (SVector.mk ![f32 1, (.inf true : Ieee .f32), f32 1]) = .ok .nan := by
  decide +kernel

end Magnesia.Witness
