import Verif.Props.SLinalg
import Verif.Witness.Complex

/-!
# Concrete cases of the theorems about vectors and matrices of static size
-/

namespace Magnesia.Witness

open RZero ROne

/-- A vector of three `i32`. -/
def su : SVector I32 3 := ⟨![.lit 1, .lit 2, .lit 3]⟩
/-- Another. -/
def sv : SVector I32 3 := ⟨![.lit 4, .lit (-5), .lit 6]⟩
/-- Vectors of `i8` in a release build; sums and products wrap around. -/
def bu : SVector W8 3 := ⟨![.lit 100, .lit 2, .lit (-128)]⟩
/-- Another. -/
def bv : SVector W8 3 := ⟨![.lit 77, .lit (-5), .lit (-128)]⟩
/-- Another. -/
def bw : SVector W8 3 := ⟨![.lit (-100), .lit 127, .lit 1]⟩
/-- A 2×3 matrix. -/
def ma : SMatrix I32 2 3 := ⟨![![.lit 1, .lit 2, .lit 3], ![.lit 4, .lit 5, .lit 6]]⟩
/-- A 3×2 matrix. -/
def mb : SMatrix I32 3 2 := ⟨![![.lit 1, .lit 0], ![.lit 0, .lit 1], ![.lit 2, .lit 2]]⟩
/-- 2×3, 3×2 and 2×1 matrices of `i8` in a release build. -/
def wa : SMatrix W8 2 3 := ⟨![![.lit 100, .lit 2, .lit 3], ![.lit 4, .lit 127, .lit 6]]⟩
/-- Another. -/
def wa' : SMatrix W8 2 3 := ⟨![![.lit 1, .lit 2, .lit (-128)], ![.lit 0, .lit 1, .lit 9]]⟩
/-- 3×2. -/
def wb : SMatrix W8 3 2 := ⟨![![.lit 100, .lit 0], ![.lit 0, .lit 1], ![.lit 2, .lit (-7)]]⟩
/-- 3×2. -/
def wb' : SMatrix W8 3 2 := ⟨![![.lit 1, .lit 2], ![.lit 3, .lit 4], ![.lit 5, .lit 6]]⟩
/-- 2×1. -/
def wc : SMatrix W8 2 1 := ⟨![![.lit 100], ![.lit 99]]⟩

/-- Which panic a computation ends with. -/
def _root_.Magnesia.Res.panic? {α : Type} : Res α → Option Panic
  | .ok _ => none
  | .error e => some e
theorem _root_.Magnesia.Res.eq_error {α : Type} {x : Res α} {e : Panic} (h : x.panic? = some e) : x = .error e := by
  cases x with
  | ok a => cases h
  | error e' => cases h; rfl

-- C22
example := C22_dot_value i32 su sv (.lit 12) (by decide +kernel)
example := C22_never_panics neverPanics_wrapping bu bv (.lit 3)
example := C22_only_element_panics (⟨![.lit 1, .lit 100]⟩ : SVector I8 2) ⟨![.lit 1, .lit 100]⟩ (.lit 2) .overflow
  (.inl (Res.eq_error (by decide +kernel)))
example := C22_only_element_panics (⟨![.lit 1, .lit 100]⟩ : SVector I8 2) ⟨![.lit 1, .lit 100]⟩ (.lit 2) .overflow
  (.inr (.inr (.inr (by decide +kernel))))
example := C22_additive_group w8 bv_injective neverPanics_wrapping bu bv bw
example := C22_module w8 bv_injective neverPanics_wrapping bu bv (.lit 77) (.lit 99)
example := C22_dot_bilinear w8 bv_injective neverPanics_wrapping bu bv bw
example := C22_dot_symmetric w8 bv_injective neverPanics_wrapping bu bv

-- C23
example := C23_mul_value i32 ma mb _ (Res.eq_ok (d := zero) (by decide +kernel)) 1 0
example := C23_mul_denotes i32 ma mb _ (Res.eq_ok (d := zero) (by decide +kernel))
example := C23_only_element_panics (⟨![![.lit 100, .lit 1]]⟩ : SMatrix I8 1 2) ⟨![![.lit 2], ![.lit 1]]⟩ .overflow
  (Res.eq_error (by decide +kernel))
example := C23_never_panics neverPanics_wrapping wa wb
example := C23_mul_assoc w8 bv_injective neverPanics_wrapping wa wb wc
example := C23_distrib w8 bv_injective neverPanics_wrapping wa wa' wb wb'
example := C23_one_identity w8 bv_injective neverPanics_wrapping wa

-- C24: `(1+2i, 3) (i, 4-i)ᵀ`, conjugated
/-- A complex row. -/
def ca : SMatrix (Complex I32) 1 2 := ⟨![![⟨.lit 1, .lit 2⟩, ⟨.lit 3, .lit 0⟩]]⟩
/-- A complex column. -/
def cb : SMatrix (Complex I32) 2 1 := ⟨![![⟨.lit 0, .lit 1⟩], ![⟨.lit 4, .lit (-1)⟩]]⟩
example := C24_complex_conj_is_hom i32
example : ((ca.mulRef cb).getD zero).conj.getD zero = ((ca.conj.getD zero).mul (cb.conj.getD zero)).getD zero :=
  C24_conj_mul i32.complex (toCx_injective toInt_injective) (C24_complex_conj_is_hom i32).choose
    (C24_complex_conj_is_hom i32).choose_spec ca _ cb _ _ _ _
    (Res.eq_ok (by decide +kernel)) (Res.eq_ok (by decide +kernel)) (Res.eq_ok (by decide +kernel))
    (Res.eq_ok (by decide +kernel)) (Res.eq_ok (by decide +kernel))

-- C25
example := C25_mul_vec_value i32 ma su _ (Res.eq_ok (d := zero) (by decide +kernel)) 1
example := C25_only_element_panics (⟨![![.lit 100, .lit 1]]⟩ : SMatrix I8 1 2) ⟨![.lit 2, .lit 1]⟩ .overflow
  (Res.eq_error (by decide +kernel))
example := C25_never_panics neverPanics_wrapping wa bu
example := C25_mul_vec_assoc w8 bv_injective neverPanics_wrapping wb wa bu
example := C25_one_mul_vec w8 bv_injective neverPanics_wrapping bu
example := C25_mul_vec_add w8 bv_injective neverPanics_wrapping wa bu bv

end Magnesia.Witness
