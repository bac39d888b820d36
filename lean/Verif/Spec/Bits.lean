import Verif.Model.Ieee
import Verif.Model.Complex
import Verif.Model.SVector

/-!
# Vocabulary of C95 and C96
-/

namespace Magnesia

/-- The negative zero replaced by the positive one, everything else unchanged. -/
def Ieee.plusZero {F : Fmt} (a : Ieee F) : Ieee F := if a = .zero true then .zero false else a

/-- The same for both parts of a complex number. -/
def Complex.plusZero {F : Fmt} (z : Complex (Ieee F)) : Complex (Ieee F) := ⟨z.re.plusZero, z.im.plusZero⟩

/-- The first `k` entries of a vector. -/
def SVector.first {T : Type} {n : ℕ} (v : SVector T n) (k : ℕ) (h : k ≤ n) : SVector T k := ⟨fun i => v.val (Fin.castLE h i)⟩

end Magnesia
