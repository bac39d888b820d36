import Verif.Spec.Program
import Verif.Spec.Dyn

/-!
# Randomized checks

Code a user could write to check a product without computing it: a matrix product on a random vector of zeros and ones
(Freivalds' test), a polynomial product at a random point.
-/

namespace Magnesia

open RZero ROne

variable {T : Type}

/-- The vector with a one where the bit is set. -/
def bitVector [RZero T] [ROne T] {n : ℕ} (s : Fin n → Bool) : SVector T n := ⟨fun j => if s j then one else zero⟩
/-- The same as a dynamic matrix with one column. -/
def bitColumn [RZero T] [ROne T] {n : ℕ} (s : Fin n → Bool) : DMatrix T := DMatrix.ofFn fun (j : Fin n) (_ : Fin 1) => if s j then one else zero

/-- `&a * &(&b * &v) == &c * &v` -/
def freivalds [RRing T] {l m n : ℕ} (a : SMatrix T l m) (b : SMatrix T m n) (c : SMatrix T l n) (v : SVector T n) : Res Bool := do
  let bv ← b.mulVec v
  let abv ← a.mulVec bv
  let cv ← c.mulVec v
  return RPartialEq.eq abv cv

/-- `(&a * (&b * &v).eval()).eval() == (&c * &v).eval()` -/
def freivaldsDyn [RPartialEq T] [RMul T T T] [RAddAssign T T] (p : Profile) (a b c v : DMatrix T) : Res Bool := do
  let bv ← (← b.mul p v).eval
  let abv ← (← a.mul p bv).eval
  let cv ← (← c.mul p v).eval
  return RPartialEq.eq abv cv

/-- `p.eval(x) * q.eval(x) == r.eval(x)` -/
def pointCheck [RRing T] (p q r : Poly T) (x : T) : Res Bool := do
  let y ← p.eval x
  let z ← q.eval x
  let w ← r.eval x
  let yz ← MulRefs.mulRefs y z
  return RPartialEq.eq yz w

end Magnesia
