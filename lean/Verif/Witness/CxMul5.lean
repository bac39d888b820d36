import Verif.Props.CxMul5
import Verif.Witness.Ieee

/-!
# Concrete cases meeting the hypotheses of C93
-/

namespace Magnesia.Witness

open RZero

example := C93_mul_error (F := .f32) (by decide) iz iw
example := C93_mul_error_normal (F := .f32) (by decide) iz iw _ (Res.eq_ok (d := Complex.mk zero zero) (by decide +kernel))
  (by decide +kernel) (by decide +kernel) (by decide +kernel) (by decide +kernel) (by decide +kernel)
example := C93_horner_error (by decide) [iz, iw, iz] iw _ (Res.eq_ok (d := Complex.mk zero zero) (by decide +kernel))
  (by decide +kernel)
example := C93_dot_error (F := .f32) (by decide) (SVector.mk (cma 0)) (SVector.mk (cma 1))
example := C93_smatrix_mul_error (F := .f32) (by decide) (SMatrix.mk cma) (SMatrix.mk cma)
example := C93_dmatrix_mul_error (by decide) (p := x64) (m := 1) fits fits cma cma
example := C93_div_error (by decide) 25 (by decide) iz iw between25 between25 between25 between25 iw_ne_zero
example := C93_div_constant (F := .f32) (by decide)

/-- Two numbers whose partial products underflow: the product is finite, and not accurate to `√5 u` relatively, so that the
term `2 √2 η` is needed. -/
example : ∃ z w p : Complex (Ieee .f32), z.mul w = .ok p ∧ CFinite p ∧ ¬ NoUnderflow z.re w.re ∧
    5 * (z.re.value * w.re.value) / 4 < p.re.value ∧ w.im.value = 0 ∧ z.im.value = 0 :=
  ⟨⟨f32 (3 / 2 ^ 75), f32 0⟩, ⟨f32 (1 / 2 ^ 76), f32 0⟩, ⟨f32 (1 / 2 ^ 149), f32 0⟩, by decide +kernel⟩

end Magnesia.Witness
