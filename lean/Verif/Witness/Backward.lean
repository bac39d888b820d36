import Verif.Props.Backward
import Verif.Witness.Ieee

/-!
# Concrete cases of property C73
-/

namespace Magnesia.Witness

open RZero ROne

example := C73_horner [f32 1, f32 2, f32 (-3)] (f32 (1 / 10)) (f32 (117 / 100)) (by decide +kernel) (by decide +kernel)
example := C73_horner_complex [iz, iw, iz] iw _ (Res.eq_ok (d := Complex.mk zero zero) (by decide +kernel)) (by decide +kernel)
example := C73_root [f32 (-1 / 10), f32 (1 / 10)] (f32 1) false (by decide +kernel)
example := C73_dot ia ib _ (Res.eq_ok (d := zero) (by decide +kernel)) (by decide +kernel)
example := C73_dot_complex (SVector.mk ![iz, iw]) (SVector.mk ![iw, iw]) _
  (Res.eq_ok (d := Complex.mk zero zero) (by decide +kernel)) (by decide +kernel)
example := C73_dvector_dot_complex ![iz, iw] ![iw, iw] _
  (Res.eq_ok (d := Complex.mk zero zero) (by decide +kernel)) (by decide +kernel)
example := C73_dvector_dot ia.val ib.val _ (Res.eq_ok (d := zero) (by decide +kernel)) (by decide +kernel)

/-- The product of `ima` and `imb`, computed entry by entry. -/
def imc : Fin 2 → Fin 2 → Ieee .f64 := fun i j =>
  ((ima i 0).mul (imb 0 j)).add ((ima i 1).mul (imb 1 j))

example := C73_mul_vec (SMatrix.mk ima) (SVector.mk fun k => imb k 0) (SVector.mk fun i => imc i 0)
  ((C25_mul_vec_rows _ _ _).2 (by decide +kernel)) (by decide +kernel)
example := C73_mul_vec_complex (SMatrix.mk cma) (SVector.mk ![iz, iw])
  (SVector.mk fun i => Res.getD ((SVector.mk (cma i)).dot (SVector.mk ![iz, iw])) iz)
  ((C25_mul_vec_rows _ _ _).2 (by decide +kernel)) (by decide +kernel)
example := C73_smatrix_mul (SMatrix.mk ima) (SMatrix.mk imb) (SMatrix.mk imc)
  ((smatrix_mul_entries _ _ _).2 (by decide +kernel)) 1 (by decide +kernel)
example := C73_dmatrix_mul (p := x64) (m := 1) fits fits ima imb imc (by decide +kernel) 1 (by decide +kernel)
example := C73_sqrt (F := .f32) (by decide) 59 (by decide) iz between59 between59

end Magnesia.Witness
