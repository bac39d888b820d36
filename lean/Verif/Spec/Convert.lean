import Verif.Spec.Program

/-!
# Other builds, other machines, other integer types
-/

namespace Magnesia

namespace MInt

variable {w : ℕ} {chk : Bool}

/-- The same number in a build without overflow checks. -/
def unchecked (a : MInt w true) : MInt w false := ⟨a.bv⟩

/-- `a as iM` for another integer type. -/
def cast (w' : ℕ) (a : MInt w chk) : MInt w' chk := ⟨a.bv.signExtend w'⟩

end MInt

/-- Whatever can be indexed on the machine `p`, overflow checks on, can be indexed on `p'`. -/
def Profile.Ports (p p' : Profile) : Prop := p.checked = true ∧ p.bits ≤ p'.bits

end Magnesia
