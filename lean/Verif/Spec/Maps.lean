import Verif.Spec.Basic
import Verif.Model.Complex
import Verif.Model.Polynomial
import Verif.Model.SMatrix
import Verif.Model.Dyn

/-!
# Changing the element type of a container
-/

namespace Magnesia

variable {α β : Type}

/-- Apply `f` to both parts. -/
def Complex.map (f : α → β) (z : Complex α) : Complex β := ⟨f z.re, f z.im⟩
/-- Apply `f` to every coefficient. -/
def Poly.map (f : α → β) (p : Poly α) : Poly β := ⟨p.a.map f⟩
/-- Apply `f` to every entry. -/
def SVector.map {n : Nat} (f : α → β) (v : SVector α n) : SVector β n := ⟨fun i => f (v.val i)⟩
/-- Apply `f` to every entry. -/
def SMatrix.map {r c : Nat} (f : α → β) (m : SMatrix α r c) : SMatrix β r c := ⟨fun i j => f (m.val i j)⟩
/-- Apply `f` to every entry. -/
def DVector.map (f : α → β) (v : DVector α) : DVector β := ⟨v.data.map f⟩
/-- Apply `f` to every entry. -/
def DMatrix.map (f : α → β) (m : DMatrix α) : DMatrix β := ⟨m.data.map f, m.numRows, m.numCols⟩

end Magnesia
