import Verif.Props.Order
import Verif.Witness.Ieee

/-!
# Concrete cases of property C74
-/

namespace Magnesia.Witness

open RZero ROne

/-- Vectors with entries in order; the largest products overflow. -/
def ova : Fin 2 → Ieee .f32 := ![f32 (1 / 10), f32 0]
def ovb : Fin 2 → Ieee .f32 := ![f32 (1 / 10), f32 (2 ^ 100)]
def ovc : Fin 2 → Ieee .f32 := ![f32 (1 / 3), f32 (3 / 7)]
def oma : Fin 2 → Fin 2 → Ieee .f32 := ![ova, ovc]
def omb : Fin 2 → Fin 2 → Ieee .f32 := ![ovb, ![f32 (1 / 3), f32 1]]

instance decOrdered (a b : Ieee .f32) : Decidable (Ordered a b) := inferInstanceAs (Decidable (_ ∧ _))

example := C74_eval [f32 (1 / 10), f32 0] [f32 (1 / 10), f32 3] [f32 (2 ^ 100)] (f32 (1 / 3)) (f32 (2 ^ 100))
  (by decide +kernel) (by decide +kernel) (by decide +kernel) (.cons (by decide +kernel) (.cons (by decide +kernel) .nil))
  (by decide +kernel)
example := C74_dot ⟨ova⟩ ⟨ovb⟩ ⟨ovc⟩ ⟨ovc⟩ (by decide +kernel) (by decide +kernel)
example := C74_dot ⟨ova⟩ ⟨ovb⟩ ⟨ova⟩ ⟨ovb⟩ (by decide +kernel) (by decide +kernel)
example := C74_dot_term ⟨ovb⟩ ⟨ovc⟩ (by decide +kernel) (by decide +kernel)
example := C74_dvector_dot ova ovb ova ovb (by decide +kernel) (by decide +kernel)
example := C74_mul_vec ⟨oma⟩ ⟨omb⟩ ⟨ova⟩ ⟨ovb⟩ (by decide +kernel) (by decide +kernel)
example := C74_smatrix_mul ⟨oma⟩ ⟨omb⟩ ⟨oma⟩ ⟨omb⟩ (by decide +kernel) (by decide +kernel)
example := C74_dmatrix_mul (p := x64) (m := 1) fits fits oma omb oma omb (by decide +kernel) (by decide +kernel)
example := C74_polynomial_mul ⟨[f32 (1 / 10), f32 0]⟩ ⟨[f32 (1 / 10), f32 3]⟩ ⟨[f32 (1 / 3)]⟩ ⟨[f32 1]⟩
  (.cons (by decide +kernel) (.cons (by decide +kernel) .nil)) (.cons (by decide +kernel) .nil) _ _
  (Res.eq_ok (d := Poly.mk []) (by decide +kernel)) (Res.eq_ok (d := Poly.mk []) (by decide +kernel))
example := C74_add_sub (⟨![f32 (-1 / 10), .inf true]⟩ : SVector (Ieee .f32) 2) ⟨![f32 (-1 / 20), f32 1]⟩
  ⟨![f32 (-7), f32 5]⟩ ⟨![f32 (1 / 3), .inf false]⟩ (by decide +kernel) (by decide +kernel)

end Magnesia.Witness
