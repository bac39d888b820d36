import Verif.Props.DynAlgebra
import Verif.Witness.Dyn

/-!
# Concrete cases of property C62
-/

namespace Magnesia.Witness

open RZero ROne

/-- Overflow-checked `i32` computes in ℤ. -/
theorem computes_i32 : Computes (T := I32) (fun x => x.toInt) id :=
  { i32.toV valueOpsAgree_mint with one := by decide +kernel, conj := fun x y h => by cases h; rfl }

/-- `Wrapping<i8>` computes modulo 2^8. -/
theorem computes_w8 : Computes (T := W8) MInt.bv id :=
  { implements_wrapping.toV valueOpsAgree_mint with one := w8.one, conj := fun x y h => by cases h; rfl }

/-- Complex wrapping integers compute in the Gaussian integers modulo 2^8, with complex conjugation. -/
theorem computes_cw8 : Computes (T := Complex W8) (fun x => x.toCx MInt.bv) C31_complex_conj.1.choose :=
  { (implements_wrapping (w := 8)).complex.toV valueOpsAgree_mint.complex with
    one := by decide +kernel
    conj := C31_complex_conj.1.choose_spec.2 }

/-- `[[1, 2], [3, 4]]` and `[[0, 1], [1, 1]]` as formulas. -/
def mA : Form I32 .mat 2 2 := .mat ![![.lit 1, .lit 2], ![.lit 3, .lit 4]]
def mB : Form I32 .mat 2 2 := .mat ![![.lit 0, .lit 1], ![.lit 1, .lit 1]]
def vU : Form I32 .vec 2 1 := .vec ![.lit 5, .lit (-6)]

/-- `((a * b) * diag(u)).t() - eye`, a formula that evaluates to a non-trivial matrix. -/
def fE : Form I32 .mat 2 2 := (mA * mB * vU.diag).t - .eye 2
def fV : Form I32 .vec 2 1 := Form.conj (.add (.diagOf (mA * mB)) (vU.elem vU))

theorem fE_fits : fE.Fits x64 := ⟨⟨⟨⟨⟨fits, fits⟩, fits, fits⟩, fits⟩, trivial, fits⟩, trivial⟩

example := C62_matrix computes_i32 fE fE_fits ⟨[.lit 9, .lit 20, .lit (-18), .lit (-43)], 2, 2⟩ (by decide +kernel)
example := C62_vector (p := x64) computes_i32 fV ⟨⟨⟨fits, fits⟩, fits, fits⟩, trivial, trivial⟩ ⟨[.lit 27, .lit 43]⟩ (by decide +kernel)

/-- Two formulas with the same meaning. -/
example : fE = ((mA * mB * vU.diag).t - .eye 2 : Form I32 .mat 2 2) ∧
    fE.runM x64 = (vU.diag * (mB * mA.t) - .eye 2 : Form I32 .mat 2 2).runM x64 := ⟨rfl, by decide +kernel⟩

theorem fits3 : (mA * mB * vU.diag).Fits x64 := ⟨⟨⟨⟨fits, fits⟩, fits, fits⟩, fits⟩, trivial, fits⟩
theorem fits3' : (mA * (mB * vU.diag)).Fits x64 := ⟨⟨fits, fits⟩, ⟨⟨fits, fits⟩, trivial, fits⟩, fits⟩
/-- `(a * b) * diag(u)` -/
def m3 : DMatrix I32 := ⟨[.lit 10, .lit (-18), .lit 20, .lit (-42)], 2, 2⟩

example : m3 = m3 := (C62_identity (p := x64) (n := 2) computes_i32 toInt_injective).1 (mA * mB * vU.diag)
  (mA * (mB * vU.diag)) m3 m3 fits3 fits3' (Matrix.mul_assoc _ _ _) (by decide +kernel) (by decide +kernel)

/-- Formulas over wrapping integers, over which nothing panics. -/
def wA : Form W8 .mat 2 3 := .mat ga
def wB : Form W8 .mat 3 2 := .mat gb
theorem conj_w8 (x : W8) : Returns (RConj.conj x) := ⟨x, rfl⟩
theorem wAB_fits : (wA * wB * wA).Fits x64 := ⟨⟨⟨⟨fits, fits⟩, fits, fits⟩, fits⟩, fits, fits⟩
theorem wAB_fits' : (wA * (wB * wA)).Fits x64 := ⟨⟨fits, fits⟩, ⟨⟨fits, fits⟩, fits, fits⟩, fits⟩
theorem wAB_inner : (wA * wB * wA).Inner := ⟨⟨trivial, trivial, .inl (by decide)⟩, trivial, .inl (by decide)⟩
theorem wAB_inner' : (wA * (wB * wA)).Inner := ⟨trivial, ⟨trivial, trivial, .inl (by decide)⟩, .inl (by decide)⟩

example := (C62_returns (p := x64) (n := 1) (neverPanics_wrapping.toV valueOpsAgree_mint) conj_w8).1 (wA * wB * wA) wAB_fits
  wAB_inner
example := C62_equal (p := x64) computes_w8 bv_injective (neverPanics_wrapping.toV valueOpsAgree_mint) conj_w8
  (wA * wB * wA) (wA * (wB * wA)) wAB_fits wAB_fits' wAB_inner wAB_inner' (Matrix.mul_assoc _ _ _)

example := (C62_add_laws (p := x64) computes_i32 toInt_injective mA mB fE).1
example : m3 = m3 := (C62_mul_laws (p := x64) computes_i32 toInt_injective mA mA mB mB vU.diag).1 fits3 fits3' m3 m3
  (by decide +kernel) (by decide +kernel)
example := (C62_transpose_laws (p := x64) computes_i32 toInt_injective mA mB mB vU).2.2.2.1
example := (C62_diag_laws (p := x64) computes_i32 toInt_injective vU vU).1
example := (C62_vector_laws (p := x64) computes_i32 toInt_injective vU fV vU mA mB).1

/-- Complex `i32` numbers. -/
theorem computes_c32 : Computes (Complex.toCx (MInt.toInt : I32 → ℤ)) starHom.toAddMonoidHom :=
  { i32.complex.toV valueOpsAgree_mint.complex with one := by decide +kernel, conj := cx32.conj }
/-- `[[1 + 2i, 3 - i]]` -/
def cA : Form (Complex I32) .mat 1 2 := .mat ![![⟨.lit 1, .lit 2⟩, ⟨.lit 3, .lit (-1)⟩]]
example := C62_hermitian_laws (p := x64) (σ := starHom.toAddMonoidHom)
  (fun x y => (starHom.map_mul x y).trans (mul_comm _ _)) (fun a => by ext <;> simp [starHom, Cx.star]) computes_c32
  (toCx_injective toInt_injective) cA cA (Form.h cA)
example : (Form.h (cA * Form.h cA)).runM x64 = .ok ⟨[⟨.lit 15, .lit 0⟩], 1, 1⟩ := by decide +kernel

end Magnesia.Witness
