import Verif.Props.Checks
import Verif.Witness.Dyn

/-!
# Concrete cases meeting the hypotheses of C100
-/

namespace Magnesia.Witness

open RZero

/-- Equality of machine integers is that of the numbers they denote. -/
theorem eq_w8 (x y : W8) : RPartialEq.eq x y = true ↔ MInt.bv x = MInt.bv y := by
  rw [show RPartialEq.eq x y = decide (x = y) from rfl, decide_eq_true_iff]
  exact ⟨fun h => h ▸ rfl, fun h => by cases x; cases y; exact congrArg _ h⟩
theorem eq_i32 (x y : I32) : RPartialEq.eq x y = true ↔ x.toInt = y.toInt := by
  rw [show RPartialEq.eq x y = decide (x = y) from rfl, decide_eq_true_iff]
  exact ⟨fun h => h ▸ rfl, fun h => by cases x; cases y; exact congrArg _ (BitVec.eq_of_toInt_eq h)⟩

/-- Wrapping 8-bit entries: a product, and the product with one wrong entry, off by 128. -/
def chkA : Fin 2 → Fin 2 → W8 := ![![.lit 100, .lit 2], ![.lit 3, .lit 4]]
def chkB : Fin 2 → Fin 2 → W8 := ![![.lit 5, .lit 6], ![.lit 7, .lit 80]]
def chkC : Fin 2 → Fin 2 → W8 := ![![.lit 2, .lit 248], ![.lit 43, .lit 82]]
def chkW : Fin 2 → Fin 2 → W8 := ![![.lit 2, .lit 120], ![.lit 43, .lit 82]]
theorem chkW_wrong : ∃ i k, MInt.bv (chkW i k) ≠ ∑ j, MInt.bv (chkA i j) * MInt.bv (chkB j k) := ⟨0, 1, by decide +kernel⟩

example := C100_right_product implements_wrapping eq_w8 (SMatrix.mk chkA) (SMatrix.mk chkB) (SMatrix.mk chkC)
  ((smatrix_mul_entries _ _ _).2 (by decide +kernel)) ⟨![.lit 77, .lit 200]⟩ true (by decide +kernel)
example := C100_wrong_product implements_wrapping eq_w8 (SMatrix.mk chkA) (SMatrix.mk chkB) (SMatrix.mk chkW) chkW_wrong
example := C100_repeated implements_wrapping eq_w8 (SMatrix.mk chkA) (SMatrix.mk chkB) (SMatrix.mk chkW) chkW_wrong 10
example := C100_dynamic (p := x64) (implements_wrapping.toV valueOpsAgree_mint) rfl eq_w8 fits fits fits fits fits chkA chkB chkW
/-- The bound is attained: exactly the vectors whose second bit is not set pass. -/
example : (Finset.univ.filter fun s : Fin 2 → Bool => freivalds (SMatrix.mk chkA) (SMatrix.mk chkB) (SMatrix.mk chkW) (bitVector s) = .ok true).card = 2 := by
  decide +kernel
example : freivaldsDyn x64 (DMatrix.ofFn chkA) (DMatrix.ofFn chkB) (DMatrix.ofFn chkC) (bitColumn ![true, true]) = .ok true := by decide +kernel

/-- `(1 + 2x)(3 - x) = 3 + 5x - 2x²`, and not `3 + 5x - 4x²`: this passes at zero only. -/
example := C100_polynomial (implements_checked (by decide)) eq_i32 ⟨[.lit 1, .lit 2]⟩ ⟨[.lit 3, .lit (-1)]⟩ ⟨[.lit 3, .lit 5, .lit (-4)]⟩
example : (pointCheck (T := I32) ⟨[.lit 1, .lit 2]⟩ ⟨[.lit 3, .lit (-1)]⟩ ⟨[.lit 3, .lit 5, .lit (-2)]⟩ (.lit 7)) = .ok true ∧
    (pointCheck (T := I32) ⟨[.lit 1, .lit 2]⟩ ⟨[.lit 3, .lit (-1)]⟩ ⟨[.lit 3, .lit 5, .lit (-4)]⟩ (.lit 7)) = .ok false ∧
    (pointCheck (T := I32) ⟨[.lit 1, .lit 2]⟩ ⟨[.lit 3, .lit (-1)]⟩ ⟨[.lit 3, .lit 5, .lit (-4)]⟩ (.lit 0)) = .ok true := by decide +kernel

end Magnesia.Witness
