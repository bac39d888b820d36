import Verif.Props.Mirror
import Verif.Witness.Scale

/-!
# Concrete cases meeting the hypotheses of C90
-/

namespace Magnesia.Witness

open RZero ROne

/-- `0` and `-0`, and a number that is not zero. -/
example := C90_zeros (F := .f32) ⟨64, true⟩ (fun _ => .ring .scalar) (fun _ => trivial) (.ring .scalar) trivial intFloatExample
  fun i => if i = 0 then ⟨(.zero false, .zero true), .inr ⟨_, _, rfl, rfl⟩⟩ else ⟨(f32 (1 / 3), f32 (1 / 3)), .inl rfl⟩

/-- `1/10` (rounded), negated. -/
def mirx : Graded (Ieee .f32) (ZMod 2) := ⟨f32 (1 / 10), (f32 (1 / 10)).neg, some 1⟩
/-- `1/3` (rounded), unchanged. -/
def miry : Graded (Ieee .f32) (ZMod 2) := ⟨f32 (1 / 3), f32 (1 / 3), some 0⟩

def min2 : (i : ℕ) → (Ty.ring Nest.scalar).type {x : Graded (Ieee .f32) (ZMod 2) // x.Consistent Ieee.flip Ieee.Same} :=
  fun i => if i = 0 then (⟨mirx, .inl rfl⟩ : {x : Graded (Ieee .f32) (ZMod 2) // x.Consistent Ieee.flip Ieee.Same})
    else (⟨miry, .inl rfl⟩ : {x : Graded (Ieee .f32) (ZMod 2) // x.Consistent Ieee.flip Ieee.Same})

/-- `x * y - x` changes its sign with `x`. -/
theorem mrun_ok : ∃ r, Prog.run (T := Graded (Ieee .f32) (ZMod 2)) ⟨64, true⟩
    (fun i => (Ty.ring Nest.scalar).map Subtype.val trivial (min2 i)) intFloatExample = .ok r := ⟨_, rfl⟩

example := C90_signs (F := .f32) ⟨64, true⟩ (fun _ => .ring .scalar) (fun _ => trivial) (.ring .scalar) trivial intFloatExample min2
  mrun_ok.choose mrun_ok.choose_spec

/-- The grade of the result: changed. -/
example : (match Prog.run (T := Graded (Ieee .f32) (ZMod 2)) ⟨64, true⟩
    (fun i => (Ty.ring Nest.scalar).map Subtype.val trivial (min2 i)) intFloatExample with
  | .ok r => Graded.grade r
  | .error _ => none) = some 1 := rfl

/-- Adding a changed and an unchanged number panics. -/
example : (RAdd.add mirx miry : Res (Graded (Ieee .f32) (ZMod 2))).isOk = false := by decide +kernel

/-- `(1/10 + 1/3 i)`, turned by one right angle. -/
def tx : Graded (Complex (Ieee .f32)) (ZMod 4) := ⟨⟨f32 (1 / 10), f32 (1 / 3)⟩, Complex.turn 1 ⟨f32 (1 / 10), (f32 (1 / 3)).neg⟩, some 1⟩
/-- `5 - 7 i`, mirrored. -/
def tyw : Graded (Complex (Ieee .f32)) (ZMod 4) := ⟨⟨f32 5, f32 (-7)⟩, ⟨f32 5, (f32 (-7)).neg⟩, some 0⟩

def tin : (i : ℕ) → (Ty.ring Nest.scalar).type
    {x : Graded (Complex (Ieee .f32)) (ZMod 4) // x.Consistent (Complex.image true) Complex.SameC} :=
  fun i => if i = 0 then
      (⟨tx, .inl rfl, .inl rfl⟩ : {x : Graded (Complex (Ieee .f32)) (ZMod 4) // x.Consistent (Complex.image true) Complex.SameC})
    else (⟨tyw, .inl rfl, .inl rfl⟩ : {x : Graded (Complex (Ieee .f32)) (ZMod 4) // x.Consistent (Complex.image true) Complex.SameC})

theorem trun_ok : ∃ r, Prog.run (T := Graded (Complex (Ieee .f32)) (ZMod 4)) ⟨64, true⟩
    (fun i => (Ty.ring Nest.scalar).map Subtype.val trivial (tin i)) intFloatExample = .ok r := ⟨_, rfl⟩

example := C90_turns (F := .f32) true ⟨64, true⟩ (fun _ => .ring .scalar) (fun _ => trivial) (.ring .scalar) trivial intFloatExample tin
  trun_ok.choose trun_ok.choose_spec

example := C90_conj (F := .f32) ⟨64, true⟩ (fun _ => .ring .scalar) (fun _ => trivial) (.ring .scalar) trivial intFloatExample
  fun i => if i = 0 then ⟨(⟨f32 (1 / 10), f32 (1 / 3)⟩, ⟨f32 (1 / 10), (f32 (1 / 3)).neg⟩), .inl rfl, .inl rfl⟩
    else ⟨(⟨f32 5, f32 (-7)⟩, ⟨f32 5, (f32 (-7)).neg⟩), .inl rfl, .inl rfl⟩

example := C90_real (F := .f32) ⟨64, true⟩ (fun _ => .ring .scalar) (fun _ => trivial) (.ring .scalar) trivial intFloatExample
  fun i => if i = 0 then ⟨(f32 (1 / 10), ⟨f32 (1 / 10), .zero false⟩), fun _ => ⟨.inl rfl, _, rfl⟩⟩
    else ⟨(f32 5, ⟨f32 5, .zero true⟩), fun _ => ⟨.inl rfl, _, rfl⟩⟩

/-- `gu` with all signs changed. -/
def gum : SVector (Ieee .f32) 2 := ⟨fun i => (gu.val i).neg⟩

example := C90_dot (n := 2) 1 0 gu gv gum gv (fun _ => .inl rfl) (fun _ => .inl rfl) _ _ rfl rfl

example := C90_smatrix_mul (l := 1) (m := 2) (n := 1) (fun _ => 1) (fun _ => 0) gma ⟨fun i j => (gma.val i j).neg⟩ gmb gmb
  (fun _ _ => .inl rfl) (fun _ _ => .inl rfl) (match gma.mul gmb with | .ok c => c | .error _ => ⟨fun _ _ => .nan⟩)
  (match (⟨fun i j => (gma.val i j).neg⟩ : SMatrix (Ieee .f32) 1 2).mul gmb with | .ok c => c | .error _ => ⟨fun _ _ => .nan⟩) rfl rfl 0 0

/-- `1/3 + x/10 + 5x²` at `x = 7/10`, and `1/3 - x/10 + 5x²` at `x = -7/10`. -/
example := C90_eval (F := .f32) 1 0 [f32 (1 / 3), f32 (1 / 10), f32 5] [f32 (1 / 3), (f32 (1 / 10)).neg, f32 5] (f32 (7 / 10))
  (f32 (7 / 10)).neg (.inl rfl) (.cons (.inl rfl) (.cons (.inl rfl) (.cons (.inl rfl) .nil))) _ _ rfl rfl

def cu : SVector (Complex (Ieee .f32)) 2 := ⟨![⟨f32 (1 / 10), f32 2⟩, ⟨f32 3, f32 (-1 / 3)⟩]⟩

example := C90_complex_dot (n := 2) true 1 3 cu cu ⟨fun i => Complex.image true 1 (cu.val i)⟩ ⟨fun i => Complex.image true 3 (cu.val i)⟩
  (fun _ => ⟨.inl rfl, .inl rfl⟩) (fun _ => ⟨.inl rfl, .inl rfl⟩) _ _ rfl rfl

/-- `c + d x` at `x` and, with `d` turned back, at `i x`. -/
example := C90_complex_eval (F := .f32) false 1 0 [⟨f32 (1 / 10), f32 2⟩, ⟨f32 3, f32 (-1 / 3)⟩]
  [⟨f32 (1 / 10), f32 2⟩, ⟨f32 (-1 / 3), (f32 3).neg⟩] ⟨f32 5, f32 7⟩ ⟨(f32 7).neg, f32 5⟩ ⟨.inl rfl, .inl rfl⟩
  (.cons ⟨.inl rfl, .inl rfl⟩ (.cons ⟨.inl rfl, .inl rfl⟩ .nil)) _ _ rfl rfl

end Magnesia.Witness
