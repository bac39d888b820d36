import Mathlib.Algebra.Ring.Defs
import Mathlib.Tactic.NoncommRing
import Mathlib.Tactic.Abel

/-!
# The ring `R[i]` of pairs over a ring `R`

The mathematical object that `Complex<T>` is meant to implement: pairs `(re, im)` with
`(a + bi)(c + di) = (ac - bd) + (ad + bc)i`. (`Mathlib`'s `ℂ` is the case `R = ℝ`, see `Verif/Props/ComplexReal.lean`.)
-/

namespace Magnesia

/-- Pairs `re + im * i` over `R`. -/
@[ext] structure Cx (R : Type) where
  re : R
  im : R
deriving DecidableEq

namespace Cx

variable {R : Type}

instance [Zero R] : Zero (Cx R) := ⟨⟨0, 0⟩⟩
instance [Zero R] [One R] : One (Cx R) := ⟨⟨1, 0⟩⟩
instance [Add R] : Add (Cx R) := ⟨fun a b => ⟨a.re + b.re, a.im + b.im⟩⟩
instance [Sub R] : Sub (Cx R) := ⟨fun a b => ⟨a.re - b.re, a.im - b.im⟩⟩
instance [Neg R] : Neg (Cx R) := ⟨fun a => ⟨-a.re, -a.im⟩⟩
instance [Mul R] [Add R] [Sub R] : Mul (Cx R) :=
  ⟨fun a b => ⟨a.re * b.re - a.im * b.im, a.re * b.im + a.im * b.re⟩⟩

section
variable [Ring R] (a b : Cx R)
@[simp] theorem zero_re : (0 : Cx R).re = 0 := rfl
@[simp] theorem zero_im : (0 : Cx R).im = 0 := rfl
@[simp] theorem one_re : (1 : Cx R).re = 1 := rfl
@[simp] theorem one_im : (1 : Cx R).im = 0 := rfl
@[simp] theorem add_re : (a + b).re = a.re + b.re := rfl
@[simp] theorem add_im : (a + b).im = a.im + b.im := rfl
@[simp] theorem sub_re : (a - b).re = a.re - b.re := rfl
@[simp] theorem sub_im : (a - b).im = a.im - b.im := rfl
@[simp] theorem neg_re : (-a).re = -a.re := rfl
@[simp] theorem neg_im : (-a).im = -a.im := rfl
@[simp] theorem mul_re : (a * b).re = a.re * b.re - a.im * b.im := rfl
@[simp] theorem mul_im : (a * b).im = a.re * b.im + a.im * b.re := rfl
end

instance [Ring R] : Ring (Cx R) where
  add_assoc a b c := by ext <;> simp [add_assoc]
  zero_add a := by ext <;> simp
  add_zero a := by ext <;> simp
  add_comm a b := by ext <;> simp [add_comm]
  left_distrib a b c := by ext <;> simp <;> noncomm_ring
  right_distrib a b c := by ext <;> simp <;> noncomm_ring
  zero_mul a := by ext <;> simp
  mul_zero a := by ext <;> simp
  mul_assoc a b c := by ext <;> simp <;> noncomm_ring
  one_mul a := by ext <;> simp
  mul_one a := by ext <;> simp
  neg_add_cancel a := by ext <;> simp
  sub_eq_add_neg a b := by ext <;> simp [sub_eq_add_neg]
  nsmul := nsmulRec
  zsmul := zsmulRec

instance [CommRing R] : CommRing (Cx R) where
  mul_comm a b := by ext <;> (simp [mul_comm]; try abel)

end Cx

end Magnesia
