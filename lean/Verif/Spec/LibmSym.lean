import Verif.Spec.Libm
import Verif.Spec.IeeeSame

/-!
# Symmetries and special values of the scalar functions of the standard library

Every implementation of `sin`, `cos`, … in use is exactly odd or even, and exact at zero. The theorems hold for every
implementation with these properties.
-/

namespace Magnesia

open RZero ROne

variable {F : Fmt}

/-- `f` never panics, and `f (-a) = -f a`, bit for bit. -/
def IsOdd (f : Ieee F → Res (Ieee F)) : Prop := ∀ a, ∃ c, f a = .ok c ∧ f a.neg = .ok c.neg

/-- `f` never panics, and `f (-a) = f a`, bit for bit. -/
def IsEven (f : Ieee F → Res (Ieee F)) : Prop := ∀ a, ∃ c, f a = .ok c ∧ f a.neg = .ok c

/-- The symmetries of the functions of the floating point type `Ieee F`. -/
structure SymFns (F : Fmt) [RExp (Ieee F)] [RSin (Ieee F)] [RCos (Ieee F)] [RSinh (Ieee F)] [RCosh (Ieee F)] : Prop where
  exp : ∀ a : Ieee F, ∃ c, RExp.exp a = .ok c
  sin : IsOdd (F := F) RSin.sin
  cos : IsEven (F := F) RCos.cos
  sinh : IsOdd (F := F) RSinh.sinh
  cosh : IsEven (F := F) RCosh.cosh

/-- Values at `+0` and `-0`. -/
structure AtZero (F : Fmt) [RExp (Ieee F)] [RSin (Ieee F)] [RCos (Ieee F)] [RSinh (Ieee F)] [RCosh (Ieee F)] : Prop where
  exp : ∀ s, RExp.exp (.zero s : Ieee F) = .ok one
  sin : ∀ s, RSin.sin (.zero s : Ieee F) = .ok (.zero s)
  cos : ∀ s, RCos.cos (.zero s : Ieee F) = .ok one
  sinh : ∀ s, RSinh.sinh (.zero s : Ieee F) = .ok (.zero s)
  cosh : ∀ s, RCosh.cosh (.zero s : Ieee F) = .ok one

/-- `z` turned by a right angle: `i z`. -/
def Complex.rot (z : Complex (Ieee F)) : Complex (Ieee F) := ⟨z.im.neg, z.re⟩

end Magnesia
