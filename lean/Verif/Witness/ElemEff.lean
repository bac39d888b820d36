import Verif.Props.ElemEff
import Verif.Spec.Denote

/-!
# Concrete cases meeting the hypotheses of C91
-/

namespace Magnesia.Witness

/-- `i32` with operators that write a log. -/
abbrev logI32 : EOps (List OpName) I32 := EOps.logged I32

/-- An instrumentation of another kind: a status flag. The world is a flag that says whether some product was negative. -/
def flagged : EOps Bool I32 where
  zero := fun w => (.ok RZero.zero, w)
  one := fun w => (.ok ROne.one, w)
  clone x := fun w => (.ok x, w)
  addAssign x y := fun w => (AddAssignRef.addAssign x y, w)
  subAssign x y := fun w => (SubAssignRef.subAssign x y, w)
  mulRefs x y := fun w => (MulRefs.mulRefs x y, w || decide (x.toInt * y.toInt < 0))
  neg x := fun w => (RNeg.neg x, w)
  conj x := fun w => (RConj.conj x, w)
  add x y := fun w => (RAdd.add x y, w)
  sub x y := fun w => (RSub.sub x y, w)
  mul x y := fun w => (RMul.mul x y, w || decide (x.toInt * y.toInt < 0))
  addAssignV x y := fun w => (RAddAssign.addAssign x y, w)
  subAssignV x y := fun w => (RSubAssign.subAssign x y, w)

theorem flagged_computes : flagged.Computes :=
  ⟨fun _ => rfl, fun _ => rfl, fun _ _ => rfl, fun _ _ _ => rfl, fun _ _ _ => rfl, fun _ _ _ => rfl, fun _ _ => rfl, fun _ _ => rfl,
    fun _ _ _ => rfl, fun _ _ _ => rfl, fun _ _ _ => rfl, fun _ _ _ => rfl, fun _ _ _ => rfl⟩

example := C91_values_polynomial flagged_computes ⟨[.lit 1, .lit 2, .lit 3]⟩ ⟨[.lit 5, .lit (-1)]⟩ (.lit (-2))
/-- The flag is up after `1 + 2x + 3x²` at `x = -2`. -/
example : flagged.polyEval ⟨[.lit 1, .lit 2, .lit 3]⟩ (.lit (-2)) false = (.ok (.lit 9), true) := by decide +kernel
example := C91_values_complex flagged_computes
example := C91_values_complex (C91_values_complex flagged_computes).1
example := C91_values_svector flagged_computes (n := 2) ⟨![.lit 1, .lit 2]⟩ ⟨![.lit 3, .lit 4]⟩ (.lit 5)
example := C91_values_smatrix flagged_computes
example := C91_values_smatrix (C91_values_complex flagged_computes).1
example := C91_values_dynamic flagged_computes

example := C91_log_polynomial (C91_logged I32).2 ⟨[.lit 1, .lit 2, .lit 3]⟩ ⟨[.lit 5, .lit (-1)]⟩ (.lit (-2))
example := C91_log_complex (C91_logged I32).2
example := C91_log_svector (C91_logged I32).2 (n := 2) ⟨![.lit 1, .lit 2]⟩ ⟨![.lit 3, .lit 4]⟩ (.lit 5)
example := C91_log_smatrix (C91_log_complex (C91_logged I32).2).1
example := C91_log_dynamic (C91_logged I32).2

/-- A run and its log. -/
theorem logged_eval : logI32.polyEval ⟨[.lit 1, .lit 2]⟩ (.lit 3) [] =
    (.ok (.lit 7), [.zero, .mulRefs, .addAssign, .mulRefs, .addAssign]) := by decide +kernel

/-- A run that panics (`2 * 2^30` overflows) has written a prefix of that log. -/
example : logI32.polyEval ⟨[.lit 1, .lit 2]⟩ (.lit (2 ^ 30)) [] =
    (.error .overflow, [.zero, .mulRefs, .addAssign, .mulRefs]) := by decide +kernel

example := (C91_counts (T := I32) _).1 _ _ _ logged_eval

end Magnesia.Witness
