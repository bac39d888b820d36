import Verif.Props.Bits
import Verif.Witness.Ieee

/-!
# Concrete cases meeting the hypotheses of C95
-/

namespace Magnesia.Witness

open RZero

example := C95_submatrix (SMatrix.mk ima) (SMatrix.mk imb) _ (Res.eq_ok (d := zero) (by decide +kernel)) ![1, 0, 1] ![1]
example := C95_dynamic_submatrix (p := x64) (l' := 3) (n' := 1) fits fits fits fits ima imb
  (fun i j => ((zero : Ieee .f64).add ((ima i 0).mul (imb 0 j))).add ((ima i 1).mul (imb 1 j))) (by decide +kernel) ![1, 0, 1] ![1]
example := C95_polynomial_dot (T := Ieee .f32) ⟨[f32 1, f32 (1 / 3)]⟩ ⟨[f32 2, f32 (1 / 7), f32 5]⟩ _
  (Res.eq_ok (d := zero) (by decide +kernel)) 2 (((zero : Ieee .f32).add ((f32 1).mul (f32 5))).add ((f32 (1 / 3)).mul (f32 (1 / 7))))
  (by decide +kernel)
example := C95_static_dynamic (p := x64) (m := 1) fits fits ima imb
example := C95_complex_static_dynamic (p := x64) (m := 1) fits fits cma cma
example := C95_sparse_dot (n := 1) (m := 3) (F := .f32) (OrderEmbedding.ofStrictMono (fun _ => 1) (fun i j h => by omega))
  ⟨![zero, f32 2, f32 5]⟩ ⟨![f32 3, f32 7, .zero true]⟩ (by
    intro i hi
    match i with
    | 0 => exact ⟨false, by decide +kernel⟩
    | 1 => exact (hi ⟨0, rfl⟩).elim
    | 2 => exact ⟨true, by decide +kernel⟩)
example := C95_complex_sparse_dot (n := 1) (m := 2) (F := .f32) (OrderEmbedding.ofStrictMono (fun _ => 1) (fun i j h => by omega))
  ⟨![zero, iz]⟩ ⟨![iw, iw]⟩ (by
    intro i hi
    match i with
    | 0 => exact ⟨true, false, by decide +kernel⟩
    | 1 => exact (hi ⟨0, rfl⟩).elim)
example := C95_padding (SVector.mk (ima 0)) (SVector.mk (imb 0)) ![zero, f64 3] ![f64 5, .zero true] (by decide +kernel)
example := C95_leading_zeros [f32 1, f32 (1 / 3)] 3 (f32 7) (by decide +kernel)

/-- The two matrix products do differ: one times minus zero. -/
example : (do (← (DMatrix.ofFn fun (_ _ : Fin 1) => f32 1).mul x64 (DMatrix.ofFn fun (_ _ : Fin 1) => (.zero true : Ieee .f32))).eval) =
      .ok (DMatrix.ofFn fun (_ _ : Fin 1) => .zero true) ∧
    (SMatrix.mk fun (_ _ : Fin 1) => f32 1).mul (SMatrix.mk fun (_ _ : Fin 1) => (.zero true : Ieee .f32)) =
      .ok ⟨fun (_ _ : Fin 1) => .zero false⟩ :=
  ⟨by decide +kernel, (smatrix_mul_entries _ _ _).2 (by decide +kernel)⟩

/-- A leading coefficient that is the negative zero can change the sign of a zero. -/
example : (Poly.fromCoefficients [(.zero true : Ieee .f32)]).eval (f32 (-1)) = .ok (.zero true) ∧
    (Poly.fromCoefficients [(.zero true : Ieee .f32), .zero true]).eval (f32 (-1)) = .ok (.zero false) := by
  decide +kernel

/-- Entries paired with infinities or NaN cannot be left out. -/
example : (SVector.mk ![f32 1, zero]).dot (SVector.mk ![f32 1, (.inf false : Ieee .f32)]) = .ok .nan ∧
    (SVector.mk ![f32 1]).dot (SVector.mk ![f32 1]) = .ok (f32 1) := by
  decide +kernel

end Magnesia.Witness
