import Verif.Props.LinErr
import Verif.Witness.Ieee

/-!
# Concrete cases meeting the hypotheses of C94
-/

namespace Magnesia.Witness

open RZero

example := (C94_nearest (F := .f32) (f32 1) (f32 (1 / 3)) (f32 2)).1 (by decide +kernel)
example := C94_dot_error (SVector.mk (ima 0)) (SVector.mk (imb 1))
example := C94_dvector_dot_error (ima 0) (imb 1)
example := C94_smatrix_mul_error (SMatrix.mk ima) (SMatrix.mk imb)
example := C94_mul_vec_error (SMatrix.mk ima) (SVector.mk (imb 1))
example := C94_dmatrix_mul_error (p := x64) (m := 1) fits fits ima imb
example := C94_dot_nonneg (n := 2) (SVector.mk fun _ => f32 (1 / 3)) (SVector.mk fun _ => f32 (1 / 7)) (by decide +kernel)
  (by decide +kernel)
example := C94_complex_dot_error (F := .f32) (by decide) (SVector.mk (cma 0)) (SVector.mk (cma 1))
example := C94_complex_smatrix_mul_error (F := .f32) (by decide) (SMatrix.mk cma) (SMatrix.mk cma)
example := C94_complex_dmatrix_mul_error (by decide) (p := x64) (m := 1) fits fits cma cma

/-- A sum that is finite and not exact. -/
example : ((f32 1).add (f32 (1 / 3))).Finite ∧ ((f32 1).add (f32 (1 / 3))).value ≠ (f32 1).value + (f32 (1 / 3)).value := by
  decide +kernel

/-- An inner product that is finite and not exact. -/
example : ∃ x, (SVector.mk (n := 2) fun _ => f32 (1 / 3)).dot (SVector.mk fun _ => f32 (1 / 7)) = .ok x ∧ x.Finite ∧
    x.value ≠ ∑ _ : Fin 2, (f32 (1 / 3)).value * (f32 (1 / 7)).value :=
  ⟨_, Res.eq_ok (d := zero) (by decide +kernel), by decide +kernel, by decide +kernel⟩

end Magnesia.Witness
