import Verif.Spec.Program
import Verif.Spec.DERel

/-!
# Specification of properties C78 and C79: exchanging the element type

`Respects R` says of two element types that all their operations respect the relation `R`; then come three element types a
user could supply: terms (to see which operations a program executes), intervals and dual numbers.
-/

namespace Magnesia

open RZero ROne

variable {T T' : Type}

/-- Two in-place operations end the same way: they panic alike, and the states left behind are related. -/
def SameUpd {σ τ : Type} (R : σ → τ → Prop) (u : Upd σ) (u' : Upd τ) : Prop := u.panic = u'.panic ∧ R u.val u'.val

/-- All operations of two element types respect the relation `R`. -/
structure Respects [RRing T] [RAdd T T T] [RSub T T T] [RMul T T T] [RAddAssign T T] [RSubAssign T T] [RConj T]
    [RRing T'] [RAdd T' T' T'] [RSub T' T' T'] [RMul T' T' T'] [RAddAssign T' T'] [RSubAssign T' T'] [RConj T']
    (R : T → T' → Prop) : Prop where
  zero : R zero zero
  one : R one one
  addAssignRef : ∀ a b a' b', R a a' → R b b' → SameUpd R (AddAssignRef.addAssign a b) (AddAssignRef.addAssign a' b')
  subAssignRef : ∀ a b a' b', R a a' → R b b' → SameUpd R (SubAssignRef.subAssign a b) (SubAssignRef.subAssign a' b')
  mulRefs : ∀ a b a' b', R a a' → R b b' → SameEnd R (MulRefs.mulRefs a b) (MulRefs.mulRefs a' b')
  neg : ∀ a a', R a a' → SameEnd R (RNeg.neg a) (RNeg.neg a')
  add : ∀ a b a' b', R a a' → R b b' → SameEnd R (RAdd.add a b : Res T) (RAdd.add a' b')
  sub : ∀ a b a' b', R a a' → R b b' → SameEnd R (RSub.sub a b : Res T) (RSub.sub a' b')
  mul : ∀ a b a' b', R a a' → R b b' → SameEnd R (RMul.mul a b : Res T) (RMul.mul a' b')
  addAssign : ∀ a b a' b', R a a' → R b b' → SameUpd R (RAddAssign.addAssign a b) (RAddAssign.addAssign a' b')
  subAssign : ∀ a b a' b', R a a' → R b b' → SameUpd R (RSubAssign.subAssign a b) (RSubAssign.subAssign a' b')
  conj : ∀ a a', R a a' → SameEnd R (RConj.conj a) (RConj.conj a')

/-! ## Terms -/

/-- What has been computed: operations applied to variables. -/
inductive Term where
  | var (i : ℕ)
  | zero
  | one
  | add (a b : Term)
  | sub (a b : Term)
  | mul (a b : Term)
  | neg (a : Term)
  | conj (a : Term)
deriving DecidableEq

namespace Term

instance : RZero Term := ⟨.zero⟩
instance : ROne Term := ⟨.one⟩
instance : AddAssignRef Term := ⟨fun a b => .done (a.add b)⟩
instance : SubAssignRef Term := ⟨fun a b => .done (a.sub b)⟩
instance : MulRefs Term := ⟨fun a b => .ok (a.mul b)⟩
instance : RNeg Term := ⟨fun a => .ok a.neg⟩
instance : RPartialEq Term := ⟨fun a b => decide (a = b)⟩
instance : RRing Term where
instance : RAdd Term Term Term := ⟨fun a b => .ok (a.add b)⟩
instance : RSub Term Term Term := ⟨fun a b => .ok (a.sub b)⟩
instance : RMul Term Term Term := ⟨fun a b => .ok (a.mul b)⟩
instance : RAddAssign Term Term := ⟨fun a b => .done (a.add b)⟩
instance : RSubAssign Term Term := ⟨fun a b => .done (a.sub b)⟩
instance : RConj Term := ⟨fun a => .ok a.conj⟩

/-- The value of a term: all its operations executed over the element type `T`. -/
def value [RRing T] [RConj T] (v : ℕ → T) : Term → Res T
  | var i => .ok (v i)
  | zero => .ok RZero.zero
  | one => .ok ROne.one
  | add a b => do (AddAssignRef.addAssign (← a.value v) (← b.value v)).toRes
  | sub a b => do (SubAssignRef.subAssign (← a.value v) (← b.value v)).toRes
  | mul a b => do MulRefs.mulRefs (← a.value v) (← b.value v)
  | neg a => do RNeg.neg (← a.value v)
  | conj a => do RConj.conj (← a.value v)

/-- The number of multiplications. -/
def muls : Term → ℕ
  | var _ | zero | one => 0
  | add a b | sub a b => a.muls + b.muls
  | mul a b => a.muls + b.muls + 1
  | neg a | conj a => a.muls

/-- The number of additions and subtractions. -/
def adds : Term → ℕ
  | var _ | zero | one => 0
  | add a b | sub a b => a.adds + b.adds + 1
  | mul a b => a.adds + b.adds
  | neg a | conj a => a.adds

/-- An input: nothing has been computed yet. -/
def Leaf (t : Term) : Prop := t.muls = 0 ∧ t.adds = 0

end Term

/-! ## Intervals -/

/-- A closed interval. -/
structure Itv (K : Type) where
  lo : K
  hi : K
deriving DecidableEq

namespace Itv

variable {K : Type} [Field K] [LinearOrder K]

/-- `x` lies in the interval. -/
def Encloses (I : Itv K) (x : Exact K) : Prop := I.lo ≤ x.val ∧ x.val ≤ I.hi

/-- The usual rules of interval arithmetic. -/
def add (a b : Itv K) : Itv K := ⟨a.lo + b.lo, a.hi + b.hi⟩
def sub (a b : Itv K) : Itv K := ⟨a.lo - b.hi, a.hi - b.lo⟩
def mul (a b : Itv K) : Itv K :=
  ⟨min (min (a.lo * b.lo) (a.lo * b.hi)) (min (a.hi * b.lo) (a.hi * b.hi)),
    max (max (a.lo * b.lo) (a.lo * b.hi)) (max (a.hi * b.lo) (a.hi * b.hi))⟩
def neg (a : Itv K) : Itv K := ⟨-a.hi, -a.lo⟩

instance : RZero (Itv K) := ⟨⟨0, 0⟩⟩
instance : ROne (Itv K) := ⟨⟨1, 1⟩⟩
instance : AddAssignRef (Itv K) := ⟨fun a b => .done (a.add b)⟩
instance : SubAssignRef (Itv K) := ⟨fun a b => .done (a.sub b)⟩
instance : MulRefs (Itv K) := ⟨fun a b => .ok (a.mul b)⟩
instance : RNeg (Itv K) := ⟨fun a => .ok a.neg⟩
instance : RPartialEq (Itv K) := ⟨fun a b => decide (a = b)⟩
instance : RRing (Itv K) where
instance : RAdd (Itv K) (Itv K) (Itv K) := ⟨fun a b => .ok (a.add b)⟩
instance : RSub (Itv K) (Itv K) (Itv K) := ⟨fun a b => .ok (a.sub b)⟩
instance : RMul (Itv K) (Itv K) (Itv K) := ⟨fun a b => .ok (a.mul b)⟩
instance : RAddAssign (Itv K) (Itv K) := ⟨fun a b => .done (a.add b)⟩
instance : RSubAssign (Itv K) (Itv K) := ⟨fun a b => .done (a.sub b)⟩
instance : RConj (Itv K) := ⟨fun a => .ok a⟩

end Itv

/-! ## Dual numbers -/

/-- A dual number `val + der * ε`, `ε * ε = 0`: a value and a derivative. -/
structure Dual (K : Type) where
  val : K
  der : K
deriving DecidableEq

namespace Dual

variable {K : Type} [Ring K]

/-- The sum, difference and product rules. -/
def add (a b : Dual K) : Dual K := ⟨a.val + b.val, a.der + b.der⟩
def sub (a b : Dual K) : Dual K := ⟨a.val - b.val, a.der - b.der⟩
def mul (a b : Dual K) : Dual K := ⟨a.val * b.val, a.der * b.val + a.val * b.der⟩
def neg (a : Dual K) : Dual K := ⟨-a.val, -a.der⟩

instance : RZero (Dual K) := ⟨⟨0, 0⟩⟩
instance : ROne (Dual K) := ⟨⟨1, 0⟩⟩
instance : AddAssignRef (Dual K) := ⟨fun a b => .done (a.add b)⟩
instance : SubAssignRef (Dual K) := ⟨fun a b => .done (a.sub b)⟩
instance : MulRefs (Dual K) := ⟨fun a b => .ok (a.mul b)⟩
instance : RNeg (Dual K) := ⟨fun a => .ok a.neg⟩
instance [DecidableEq K] : RPartialEq (Dual K) := ⟨fun a b => decide (a = b)⟩
instance [DecidableEq K] : RRing (Dual K) where
instance : RAdd (Dual K) (Dual K) (Dual K) := ⟨fun a b => .ok (a.add b)⟩
instance : RSub (Dual K) (Dual K) (Dual K) := ⟨fun a b => .ok (a.sub b)⟩
instance : RMul (Dual K) (Dual K) (Dual K) := ⟨fun a b => .ok (a.mul b)⟩
instance : RAddAssign (Dual K) (Dual K) := ⟨fun a b => .done (a.add b)⟩
instance : RSubAssign (Dual K) (Dual K) := ⟨fun a b => .done (a.sub b)⟩
instance : RConj (Dual K) := ⟨fun a => .ok a⟩

end Dual

end Magnesia
