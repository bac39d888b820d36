import Verif.Spec.Program
import Verif.Spec.Ieee

/-!
# Word lengths

What a designer of fixed-point arithmetic writes beside each signal: the weight `2 ^ lsb` of its last bit and the largest number
`mag` of such units it can have. Every operation yields the same for its result, and panics if a floating point format cannot hold
all of these numbers.
-/

namespace Magnesia

/-- All the numbers `z · 2 ^ k` with an integer `|z| ≤ m` are floating point numbers of the format: `k` is not below the last
subnormal bit, the integers have at most `p` bits (or are `± 2 ^ p`), and the largest is below the overflow threshold. -/
def Fmt.Fixed (F : Fmt) (k : ℤ) (m : ℕ) : Prop :=
  m = 0 ∨ F.emin - (F.p - 1) ≤ k ∧ m ≤ 2 ^ F.p ∧ (m : ℚ) * 2 ^ k < 2 ^ (F.emax + 1)

instance (F : Fmt) (k : ℤ) (m : ℕ) : Decidable (F.Fixed k m) := by unfold Fmt.Fixed; infer_instance

/-- A weight of the last bit, and a number of units. -/
structure Word (F : Fmt) where
  lsb : ℤ
  mag : ℕ
deriving DecidableEq

namespace Word

variable {F : Fmt}

/-- The word, or a panic if the format does not hold it. -/
def ret (k : ℤ) (m : ℕ) : Res (Word F) := if F.Fixed k m then .ok ⟨k, m⟩ else .error .overflow

/-- Both for `a + b` and for `a - b`. The finer of the two grids; a number that is known to be 0 does not refine the other's. -/
def add (a b : Word F) : Res (Word F) :=
  if a.mag = 0 then ret b.lsb b.mag
  else if b.mag = 0 then ret a.lsb a.mag
  else
    let k := min a.lsb b.lsb
    ret k (a.mag * 2 ^ (a.lsb - k).toNat + b.mag * 2 ^ (b.lsb - k).toNat)
/-- For `a * b`. -/
def mul (a b : Word F) : Res (Word F) := ret (a.lsb + b.lsb) (a.mag * b.mag)
/-- For `-a`. -/
def neg (a : Word F) : Res (Word F) := ret a.lsb a.mag

instance : RZero (Word F) := ⟨⟨0, 0⟩⟩
instance : ROne (Word F) := ⟨⟨0, 1⟩⟩
instance : AddAssignRef (Word F) := ⟨fun a b => Upd.ofRes a (add a b)⟩
instance : SubAssignRef (Word F) := ⟨fun a b => Upd.ofRes a (add a b)⟩
instance : MulRefs (Word F) := ⟨mul⟩
instance : RNeg (Word F) := ⟨neg⟩
instance : RPartialEq (Word F) := ⟨fun a b => decide (a = b)⟩
instance : RRing (Word F) where
instance : RAdd (Word F) (Word F) (Word F) := ⟨add⟩
instance : RSub (Word F) (Word F) (Word F) := ⟨add⟩
instance : RMul (Word F) (Word F) (Word F) := ⟨mul⟩
instance : RAddAssign (Word F) (Word F) := ⟨fun a b => Upd.ofRes a (add a b)⟩
instance : RSubAssign (Word F) (Word F) := ⟨fun a b => Upd.ofRes a (add a b)⟩
instance : RConj (Word F) := ⟨fun a => .ok a⟩

/-- The numbers of the word. -/
def Has (a : Word F) (x : ℚ) : Prop := ∃ z : ℤ, x = z * 2 ^ a.lsb ∧ |z| ≤ a.mag

end Word

/-- A floating point number of a word. -/
structure Signal (F : Fmt) where
  num : Ieee F
  word : Word F
  finite : num.Finite
  has : word.Has num.value

/-- Its value, for exact arithmetic. -/
def Signal.exact {F : Fmt} (a : Signal F) : Exact ℚ := ⟨a.num.value⟩

/-- The floating point number `x` is `z · 2 ^ k`. -/
def Ieee.IsFixed {F : Fmt} (k : ℤ) (x : Ieee F) (z : ℤ) : Prop := x.Finite ∧ x.value = z * 2 ^ k

instance {F : Fmt} (k : ℤ) (x : Ieee F) (z : ℤ) : Decidable (x.IsFixed k z) := by unfold Ieee.IsFixed; infer_instance

end Magnesia
