import Verif.Props.Scale
import Verif.Witness.Ieee
import Verif.Witness.Generic

/-!
# Concrete cases meeting the hypotheses of C80
-/

namespace Magnesia.Witness

open RZero ROne

/-- 1/10 (rounded) in metres, and in quarters of a metre. -/
def gx : Gauged .f32 := ⟨t32 (1 / 10), ⟨Ieee.mul (f32 (1 / 10)) (f32 4), by decide +kernel⟩, some 1⟩
/-- A number without unit. -/
def gy : Gauged .f32 := ⟨t32 (1 / 3), t32 (1 / 3), some 0⟩

theorem gx_consistent : gx.Consistent 2 := by
  show Ieee.Scaled (2 * 1) (f32 (1 / 10)) (Ieee.mul (f32 (1 / 10)) (f32 4))
  decide +kernel
theorem gy_consistent : gy.Consistent 2 := by
  show Ieee.Scaled (2 * 0) (f32 (1 / 3)) (f32 (1 / 3))
  decide +kernel

def gin : (i : ℕ) → (Ty.ring Nest.scalar).type {x : Gauged .f32 // x.Consistent 2} :=
  fun i => if i = 0 then (⟨gx, gx_consistent⟩ : {x : Gauged .f32 // x.Consistent 2}) else (⟨gy, gy_consistent⟩ : {x : Gauged .f32 // x.Consistent 2})

/-- `x * y - x`, the same in both units. -/
def grun : Res (Gauged .f32) :=
  Prog.run (T := Gauged .f32) ⟨64, true⟩ (fun i => (Ty.ring Nest.scalar).map Subtype.val trivial (gin i)) intFloatExample

theorem isOk_ok {α : Type} {x : Res α} (h : x.isOk = true) : ∃ r, x = .ok r := by
  cases x with
  | ok r => exact ⟨r, rfl⟩
  | error e => cases h

theorem grun_ok : ∃ r, grun = .ok r := isOk_ok (by decide +kernel)

example := C80_units (F := .f32) 2 ⟨64, true⟩ (fun _ => .ring .scalar) (fun _ => trivial) (.ring .scalar) trivial intFloatExample gin
  grun_ok.choose grun_ok.choose_spec

/-- Adding a number of another unit panics. -/
example : (Gauged.add gx gy).isOk = false := by decide +kernel

/-- `f32 x` times `4`. -/
def four (x : ℚ) : Ieee .f32 := Ieee.mul (f32 x) (f32 4)

def gu : SVector (Ieee .f32) 2 := ⟨![f32 (1 / 10), f32 (-1 / 3)]⟩
def gv : SVector (Ieee .f32) 2 := ⟨![f32 (7 / 10), f32 5]⟩
def gu' : SVector (Ieee .f32) 2 := ⟨![four (1 / 10), four (-1 / 3)]⟩
def gv' : SVector (Ieee .f32) 2 := ⟨![four (7 / 10), four 5]⟩

example := C80_dot (j := 2) (k := 2) gu gv gu' gv' (by decide +kernel) (by decide +kernel) (by decide +kernel) (by decide +kernel) _ _
  rfl rfl (by decide +kernel) (by decide +kernel)

/-- Both sums and both differences are finite. -/
def gw (w : Res (SVector (Ieee .f32) 2)) : SVector (Ieee .f32) 2 := match w with
  | .ok w => w
  | .error _ => ⟨fun _ => .nan⟩

example := (C80_add_sub (k := 2) gu gv gu' gv' (by decide +kernel) (by decide +kernel) (gw (gu.add gv)) (gw (gu'.add gv')) 1
  (by decide +kernel) (by decide +kernel)).1 rfl rfl
example := (C80_add_sub (k := 2) gu gv gu' gv' (by decide +kernel) (by decide +kernel) (gw (gu.sub gv)) (gw (gu'.sub gv')) 1
  (by decide +kernel) (by decide +kernel)).2 rfl rfl

def gma : SMatrix (Ieee .f32) 1 2 := ⟨![![f32 (1 / 10), f32 (-1 / 3)]]⟩
def gma' : SMatrix (Ieee .f32) 1 2 := ⟨![![four (1 / 10), four (-1 / 3)]]⟩
def gmb : SMatrix (Ieee .f32) 2 1 := ⟨![![f32 (7 / 10)], ![f32 5]]⟩
def gmb' : SMatrix (Ieee .f32) 2 1 := ⟨![![four (7 / 10)], ![four 5]]⟩

example := C80_smatrix_mul (j := 2) (k := 2) gma gma' gmb gmb' (by decide +kernel) (by decide +kernel) (by decide +kernel) (by decide +kernel)
  _ _ rfl rfl 0 0 (by decide +kernel) (by decide +kernel)

example := C80_dvector_dot (j := 2) (k := 2) gu.val gv.val gu'.val gv'.val (by decide +kernel) (by decide +kernel) (by decide +kernel)
  (by decide +kernel) _ _ rfl rfl (by decide +kernel) (by decide +kernel)

/-- The entries of a `DMatrix`. -/
def gde (x : Res (DMatrix (Ieee .f32))) : Fin 1 → Fin 1 → Ieee .f32 := match x with
  | .ok x => fun _ _ => x.data.headD .nan
  | .error _ => fun _ _ => .nan

example := C80_dmatrix_mul (p := ⟨64, true⟩) (j := 2) (k := 2) (by unfold Profile.Fits; norm_num) (by unfold Profile.Fits; norm_num)
  gma.val gma'.val gmb.val gmb'.val (by decide +kernel) (by decide +kernel) (by decide +kernel) (by decide +kernel)
  (gde (do (← (DMatrix.ofFn gma.val).mul ⟨64, true⟩ (DMatrix.ofFn gmb.val)).eval))
  (gde (do (← (DMatrix.ofFn gma'.val).mul ⟨64, true⟩ (DMatrix.ofFn gmb'.val)).eval)) rfl rfl 0 0 (by decide +kernel) (by decide +kernel)

/-- A trapped `f32` times `4`. -/
def t4 (x : ℚ) (h : (four x).Finite := by decide +kernel) : Trap .f32 true := ⟨four x, h⟩

def gz : Complex (Trap .f32 true) := ⟨t32 (1 / 10), t32 3⟩
def gz' : Complex (Trap .f32 true) := ⟨t4 (1 / 10), t4 3⟩
def gc : Complex (Trap .f32 true) := ⟨t32 (-7 / 10), t32 (3 / 10)⟩
def gc' : Complex (Trap .f32 true) := ⟨t4 (-7 / 10), t4 (3 / 10)⟩
/-- In the other branch of `sqrt`. -/
def gd : Complex (Trap .f32 true) := ⟨t32 (-7), t32 (-3 / 10)⟩
def gd' : Complex (Trap .f32 true) := ⟨t4 (-7), t4 (-3 / 10)⟩

theorem gmul : ∃ c c', gz.mul gc = .ok c ∧ gz'.mul gc' = .ok c' := by
  obtain ⟨c, h⟩ := isOk_ok (x := gz.mul gc) (by decide +kernel)
  obtain ⟨c', h'⟩ := isOk_ok (x := gz'.mul gc') (by decide +kernel)
  exact ⟨c, c', h, h'⟩

theorem gdiv : ∃ c c', gz.div gc = .ok c ∧ gz'.div gc' = .ok c' := by
  obtain ⟨c, h⟩ := isOk_ok (x := gz.div gc) (by decide +kernel)
  obtain ⟨c', h'⟩ := isOk_ok (x := gz'.div gc') (by decide +kernel)
  exact ⟨c, c', h, h'⟩

theorem gabs : ∃ c c', gz.abs = .ok c ∧ gz'.abs = .ok c' := by
  obtain ⟨c, h⟩ := isOk_ok (x := gz.abs) (by decide +kernel)
  obtain ⟨c', h'⟩ := isOk_ok (x := gz'.abs) (by decide +kernel)
  exact ⟨c, c', h, h'⟩

theorem gsqrt : ∃ c c', gz.sqrt = .ok c ∧ gz'.sqrt = .ok c' := by
  obtain ⟨c, h⟩ := isOk_ok (x := gz.sqrt) (by decide +kernel)
  obtain ⟨c', h'⟩ := isOk_ok (x := gz'.sqrt) (by decide +kernel)
  exact ⟨c, c', h, h'⟩

theorem gsqrt' : ∃ c c', gd.sqrt = .ok c ∧ gd'.sqrt = .ok c' := by
  obtain ⟨c, h⟩ := isOk_ok (x := gd.sqrt) (by decide +kernel)
  obtain ⟨c', h'⟩ := isOk_ok (x := gd'.sqrt) (by decide +kernel)
  exact ⟨c, c', h, h'⟩

example : ∃ c c' : Complex (Trap .f32 true), c.re.val.Scaled 4 c'.re.val ∧ c.im.val.Scaled 4 c'.im.val := by
  obtain ⟨c, c', h, h'⟩ := gmul
  exact ⟨c, c', (C80_complex_mul_div (j := 2) (k := 2) (by decide +kernel) (by decide +kernel) (by decide +kernel) (by decide +kernel)
    c c').1 h h'⟩

example : ∃ c c' : Complex (Trap .f32 true), c.re.val.Scaled 0 c'.re.val ∧ c.im.val.Scaled 0 c'.im.val := by
  obtain ⟨c, c', h, h'⟩ := gdiv
  exact ⟨c, c', (C80_complex_mul_div (j := 2) (k := 2) (by decide +kernel) (by decide +kernel) (by decide +kernel) (by decide +kernel)
    c c').2 h h'⟩

example : ∃ c c' : Trap .f32 true, c.val.Scaled 2 c'.val := by
  obtain ⟨c, c', h, h'⟩ := gabs
  exact ⟨c, c', C80_complex_abs (by decide +kernel) (by decide +kernel) c c' h h'⟩

example : ∃ c c' : Complex (Trap .f32 true), c.re.val.Scaled 1 c'.re.val ∧ c.im.val.Scaled 1 c'.im.val := by
  obtain ⟨c, c', h, h'⟩ := gsqrt
  exact ⟨c, c', C80_complex_sqrt (by decide +kernel) (by decide +kernel) c c' h h'⟩

example : ∃ c c' : Complex (Trap .f32 true), c.re.val.Scaled 1 c'.re.val ∧ c.im.val.Scaled 1 c'.im.val := by
  obtain ⟨c, c', h, h'⟩ := gsqrt'
  exact ⟨c, c', C80_complex_sqrt (by decide +kernel) (by decide +kernel) c c' h h'⟩

end Magnesia.Witness
