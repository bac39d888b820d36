import Verif.Model.Dyn
import Mathlib.Data.List.OfFn

/-!
# What dynamic vectors and matrices stand for
-/

namespace Magnesia

variable {T : Type}

/-- The vector with entries `f 0, …, f (n-1)`. -/
def DVector.ofFn {n : ℕ} (f : Fin n → T) : DVector T := ⟨List.ofFn f⟩

/-- The `r × c` matrix with entries `f i j`, stored row after row. -/
def DMatrix.ofFn {r c : ℕ} (f : Fin r → Fin c → T) : DMatrix T :=
  ⟨(List.ofFn fun i => List.ofFn (f i)).flatten, r, c⟩

/-- All elements of an `r × c` matrix can be addressed with `usize` arithmetic: true of every matrix that fits into the
address space. -/
def Profile.Fits (p : Profile) (r c : ℕ) : Prop := r * c ≤ 2 ^ p.bits

/-- `x` returns a value (does not panic). -/
abbrev Returns {α : Type} (x : Res α) : Prop := ∃ a, x = .ok a

/-- The construction `x` returns if `P`, and panics with a failed assertion if not `P`. -/
def AssertsExactly {α : Type} (x : Res α) (P : Prop) : Prop := (P → Returns x) ∧ (¬ P → x = .error .assertFailed)

end Magnesia
