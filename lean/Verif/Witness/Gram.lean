import Verif.Props.Gram
import Verif.Witness.Ieee

/-!
# Concrete cases of property C75
-/

namespace Magnesia.Witness

example := C75_inner_positive ![iz, iw] (by decide +kernel)
example := C75_gram (p := x64) (m := 1) fits fits ima
example := C75_gram_complex (p := x64) (m := 1) fits fits cma

/-- The imaginary part of an inner product of a vector with itself can be NaN although its real part is infinite. -/
example : (match (DVector.ofFn ![Complex.mk (f32 (2 ^ 100)) (f32 (2 ^ 100))]).dot
      (DVector.ofFn ![Complex.mk (f32 (2 ^ 100)) (f32 (2 ^ 100))]) with
    | .ok x => decide (x = ⟨.inf false, .nan⟩)
    | _ => false) = true := by decide +kernel

end Magnesia.Witness
