import Verif.Spec.Program
import Verif.Spec.Ieee

/-!
# Integers as floating point numbers
-/

namespace Magnesia

variable {F : Fmt} {w : ℕ} {chk : Bool}

namespace Ieee

/-- The floating point number nearest to an integer (Rust's `z as f64`, `f64::from(z)`). -/
def ofInt (z : ℤ) : Ieee F := if z = 0 then .zero false else .round z

/-- The number, if it is finite. (Both zeros are the number 0.) -/
def num : Ieee F → Option ℚ
  | .zero _ => some 0
  | .fin x _ _ => some x
  | _ => none

end Ieee

/-- Every `iN` value is a floating point number of the format: at most `p` bits beside the sign bit. -/
def Fmt.Holds (F : Fmt) (w : ℕ) : Prop := w ≤ F.p + 1

/-- `i32` fits into `f64`, `i16` into `f32`. -/
example : Fmt.f64.Holds 32 ∧ Fmt.f64.Holds 54 ∧ Fmt.f32.Holds 16 ∧ ¬ Fmt.f64.Holds 64 := by
  simp only [Fmt.Holds, Fmt.f64, Fmt.f32]
  norm_num

/-- The integer. -/
def MInt.toRat (z : MInt w chk) : ℚ := z.toInt

/-- The floating point number of an integer. -/
def MInt.toFloat (F : Fmt) (z : MInt w chk) : Ieee F := .ofInt z.toInt

end Magnesia
