import Verif.Props.Magnitude

/-!
# Witnesses for C82
-/

namespace Magnesia.Witness

open RZero ROne

def eleven : Bounded 8 127 := ⟨⟨11⟩, ⟨11⟩, by decide⟩
def minusTen : Bounded 8 127 := ⟨⟨-10⟩, ⟨10⟩, by decide⟩

/-- `11 * -10 - 11`: no `i8` operation exceeds `110 + 11 = 121`. -/
example := C82_programs (w := 8) (M := 127) (by decide) (by decide) ⟨64, true⟩ (fun _ => .ring .scalar) (fun _ => trivial)
  (.ring .scalar) trivial intFloatExample (fun i => show Bounded 8 127 from if i = 0 then eleven else minusTen)
  (show Mag 127 from ⟨121⟩) rfl

example := C82_float (F := .f32) (w := 8) (M := 127) (by decide) C66_formats.2.2.2.1 (by decide) ⟨64, true⟩
  (fun _ => .ring .scalar) (fun _ => trivial) (.ring .scalar) trivial intFloatExample
  (fun i => show Bounded 8 127 from if i = 0 then eleven else minusTen) (show Mag 127 from ⟨121⟩) rfl

def fivePlusSixI : Complex (Bounded 8 127) := ⟨⟨⟨5⟩, ⟨5⟩, by decide⟩, ⟨⟨-6⟩, ⟨6⟩, by decide⟩⟩

/-- `(5 - 6i) * (5 - 6i) - (5 - 6i)` -/
example := C82_complex (w := 8) (M := 127) (by decide) (by decide) ⟨64, true⟩ (fun _ => .ring .scalar) (fun _ => trivial)
  (.ring .scalar) trivial intFloatExample (fun _ => fivePlusSixI)
  (show Complex (Mag 127) from ⟨⟨66⟩, ⟨66⟩⟩) rfl

example := C82_numbers (w := 32) (by decide) ⟨3⟩ ⟨-4⟩ ⟨-1⟩

def magU : SVector (MInt 8 true) 2 := ⟨![⟨10⟩, ⟨-6⟩]⟩
def magV : SVector (MInt 8 true) 2 := ⟨![⟨10⟩, ⟨4⟩]⟩
def magP : SVector (MInt 8 true) 2 := ⟨![⟨10⟩, ⟨6⟩]⟩

example := C82_dot (w := 8) (by decide) magU magV (by decide)
example := C82_dot_iff (w := 8) (by decide) magP magV (by decide)

/-- The condition is sharp: with `10*10 + 7*4 = 128` the dot product overflows. -/
example : (⟨![⟨10⟩, ⟨7⟩]⟩ : SVector (MInt 8 true) 2).dot magV = .error .overflow := by decide +kernel

def magA : SMatrix (MInt 8 true) 1 2 := ⟨![![⟨10⟩, ⟨-6⟩]]⟩
def magB : SMatrix (MInt 8 true) 2 1 := ⟨![![⟨10⟩], ![⟨4⟩]]⟩
def magC : SMatrix (MInt 8 true) 1 2 := ⟨![![⟨10⟩, ⟨6⟩]]⟩

example := C82_smatrix_mul (w := 8) (by decide) magA magB (by decide)
example := C82_smatrix_mul_iff (w := 8) (by decide) magC magB (by decide) (by decide)
example := C82_mul_vec (w := 8) (by decide) magA magV (by decide)
example := C82_dvector_dot (w := 8) magU.val magV.val (by decide)
example := C82_dmatrix_mul (w := 8) (p := ⟨64, true⟩) (l := 1) (m := 1) (n := 1) (by unfold Profile.Fits; norm_num)
  (by unfold Profile.Fits; norm_num) magA.val magB.val (by decide)

example := C82_mul_vec_iff (w := 8) (by decide) magC magV (by decide) (by decide)
example := C82_dvector_dot_iff (w := 8) (by decide) magP.val magV.val (by decide)
example := C82_dmatrix_mul_iff (w := 8) (p := ⟨64, true⟩) (l := 1) (m := 1) (n := 1) (by decide) (by unfold Profile.Fits; norm_num)
  (by unfold Profile.Fits; norm_num) magC.val magB.val (by decide) (by decide)

/-- `20 - 5x + x²` at `-7`: `20 + 35 + 49 = 104` fits `i8`. -/
example := C82_eval (w := 8) (by decide) [⟨20⟩, ⟨-5⟩, ⟨1⟩] ⟨-7⟩ (by decide)
example := C82_eval_iff (w := 8) (by decide) [⟨20⟩, ⟨5⟩, ⟨1⟩] ⟨7⟩ (by decide) (by decide)

theorem magCoef (a : List (MInt 8 true)) (h : ∀ x ∈ a, 0 ≤ x.toInt) (k : ℕ) : 0 ≤ (Poly.mk a).coef MInt.toInt k := by
  unfold Poly.coef
  cases hk : a[k]? with
  | none => exact le_rfl
  | some x => exact h x (List.mem_of_getElem? hk)

/-- `(3 - 4x)(5 + 6x)` -/
example := C82_poly_mul (w := 8) (by decide) ⟨[⟨3⟩, ⟨-4⟩]⟩ ⟨[⟨5⟩, ⟨6⟩]⟩ (by
  intro k
  match k with
  | 0 => decide
  | 1 => decide
  | 2 => decide
  | k + 3 =>
    rw [Finset.sum_eq_zero]
    · decide
    · rintro ⟨i, j⟩ hij
      have : i + j = k + 3 := Finset.mem_antidiagonal.1 hij
      by_cases h : 2 ≤ i
      · rw [coef_eq_zero (show 2 ≤ i from h), abs_zero, zero_mul]
      · have : 2 ≤ j := by omega
        rw [coef_eq_zero (p := (⟨[⟨5⟩, ⟨6⟩]⟩ : Poly (MInt 8 true))) (show 2 ≤ j from this), abs_zero, mul_zero])
example := C82_poly_mul_iff (w := 8) (by decide) ⟨[⟨3⟩, ⟨4⟩]⟩ ⟨[⟨5⟩, ⟨6⟩]⟩ (magCoef _ (by decide)) (magCoef _ (by decide))
example := C82_complex_mul (w := 8) (by decide) ⟨⟨5⟩, ⟨-6⟩⟩ ⟨⟨7⟩, ⟨8⟩⟩

end Magnesia.Witness
