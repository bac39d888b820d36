import Verif.Props.Complex
import Verif.Witness.Polynomial

/-!
# Concrete cases of the theorems about complex arithmetic
-/

namespace Magnesia.Witness

open RZero ROne

/-- `3 - 4i` -/
def z : Complex I32 := ⟨.lit 3, .lit (-4)⟩
/-- `5 + 12i` -/
def w : Complex I32 := ⟨.lit 5, .lit 12⟩
/-- `3 + 4i` with rational parts -/
def zq : Complex (Exact ℚ) := ⟨⟨3⟩, ⟨4⟩⟩
/-- `1 + 2i` with rational parts -/
def wq : Complex (Exact ℚ) := ⟨⟨1⟩, ⟨2⟩⟩

theorem exact_injective {R : Type} : Function.Injective (Exact.val : Exact R → R) := fun _ _ h => Exact.ext h
theorem zq_ne : wq.re.val * wq.re.val + wq.im.val * wq.im.val ≠ 0 := by simp only [wq]; norm_num
theorem zq_div_wq : zq.div wq = .ok ⟨⟨11 / 5⟩, ⟨-2 / 5⟩⟩ := by decide +kernel

-- C11
example := C11_commutative_ring (T := Exact ℚ) implements_exact exact_injective neverPanics_exact
example := C11_commutative_ring (T := W8) w8 bv_injective neverPanics_wrapping
example := C11_values i32 z w

-- C12
example := C12_operators_agree valueOpsAgree_mint z w
example := C12_mul_scalar i32 toInt_injective z ⟨.lit 21, .lit (-28)⟩ ⟨.lit 21, .lit (-28)⟩ (.lit 7) rfl rfl
example := C12_mul_scalar_returns neverPanics_wrapping (⟨.lit 100, .lit (-100)⟩ : Complex W8) (.lit 77)

-- C13
example := C13_conj_conj i32 toInt_injective z ⟨.lit 3, .lit 4⟩ z rfl rfl
example := C13_conj_hom i32 toInt_injective z w ⟨.lit 3, .lit 4⟩ ⟨.lit 5, .lit (-12)⟩ rfl rfl
example : ringAdd z w = .ok ⟨.lit 8, .lit 8⟩ ∧ z.mul w = .ok ⟨.lit 63, .lit 16⟩ := ⟨rfl, rfl⟩
example := C13_mul_conj i32 z ⟨.lit 3, .lit 4⟩ ⟨.lit 25, .lit 0⟩ (.lit 25) rfl rfl rfl
example := C13_sqr_norm_mul i32 z w ⟨.lit 63, .lit 16⟩ (.lit 25) (.lit 169) (.lit 4225) rfl rfl rfl rfl
example := C13_sqr_norm_nonneg i32 toInt_injective z (.lit 25) rfl
example := C13_returns neverPanics_wrapping (⟨.lit 100, .lit (-128)⟩ : Complex W8)

-- C14
example := C14_div_mul_cancel implementsField_exact exact_injective zq wq ⟨⟨11 / 5⟩, ⟨-2 / 5⟩⟩ zq zq_ne zq_div_wq
  (by decide +kernel)
example := C14_mul_div_cancel implementsField_exact exact_injective zq wq ⟨⟨-5⟩, ⟨10⟩⟩ zq zq_ne (by decide +kernel)
  (by decide +kernel)
example := C14_ordered implementsField_exact exact_injective zq wq (by decide +kernel)
example := C14_div_returns neverPanics_exact (fun _ _ => ⟨_, rfl⟩) zq wq

-- C15
example := C15_div_scalar z ⟨.lit 1, .lit (-2)⟩ (.lit 2) rfl
example := C15_div_scalar_eq_div implementsField_exact exact_injective (fun _ _ => rfl) zq ⟨⟨3 / 2⟩, ⟨2⟩⟩ ⟨⟨3 / 2⟩, ⟨2⟩⟩ ⟨2⟩
  (by norm_num) (by decide +kernel) (by decide +kernel)

-- C16: `2 + i` over the integers modulo five is not zero, its squared norm is
example := C16_no_inverse (T := Exact (ZMod 5)) implements_exact exact_injective ⟨⟨2⟩, ⟨1⟩⟩ (by decide +kernel)
  (by decide +kernel)
example := C16_nested_complex_not_field i32 toInt_injective ⟨z, w⟩

end Magnesia.Witness
