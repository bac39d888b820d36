import Verif.Model.Traits

/-!
# Model of src/algebra/polynomial.rs
-/

namespace Magnesia

open RZero ROne MulRefs

/-- src/algebra/polynomial.rs:15-18 `struct Polynomial<T>`; the only field is private. -/
structure Poly (T : Type) where
  a : List T
deriving DecidableEq, Repr

namespace Poly

variable {T : Type}

/-- src/algebra/polynomial.rs:15 `derive(PartialEq)` on a `Vec<T>`: equal lengths and element-wise `==`. -/
instance [RPartialEq T] : RPartialEq (Poly T) where
  eq p q := p.a.length == q.a.length && (List.zipWith RPartialEq.eq p.a q.a).all id

/-- src/algebra/polynomial.rs:35-37 `Polynomial::from_coefficients`. -/
def fromCoefficients (coefficients : List T) : Poly T := ⟨coefficients⟩

/-- src/algebra/polynomial.rs:49-56 `Polynomial::eval_ref`: Horner scheme over the reversed coefficients. -/
def evalRef [RZero T] [AddAssignRef T] [MulRefs T] (self : Poly T) (x : T) : Res T :=
  self.a.reverse.foldlM (fun y a => do
    let y ← mulRefs y x
    (AddAssignRef.addAssign y a).toRes) zero

/-- src/algebra/polynomial.rs:67-69 `Polynomial::eval`. -/
def eval [RZero T] [AddAssignRef T] [MulRefs T] (self : Poly T) (x : T) : Res T := self.evalRef x

/-- src/algebra/polynomial.rs:72-76 `Zero for Polynomial<T>`. -/
instance : RZero (Poly T) := ⟨⟨[]⟩⟩

/-- src/algebra/polynomial.rs:84-88 `One for Polynomial<T>`. -/
instance [ROne T] : ROne (Poly T) := ⟨⟨[one]⟩⟩

/-- src/algebra/polynomial.rs:96-109 `Add for Polynomial<T>`, including the recursive call with swapped operands. -/
def add [AddAssignRef T] (self rhs : Poly T) : Res (Poly T) :=
  if self.a.length < rhs.a.length then
    add rhs self
  else
    ((forEach rhs.a.zipIdx (fun (x, i) a => updAt a i (fun y => AddAssignRef.addAssign y x)) self.a).into
      Poly.mk).toRes
termination_by (if self.a.length < rhs.a.length then 1 else 0)
decreasing_by split <;> omega

instance [AddAssignRef T] : RAdd (Poly T) (Poly T) (Poly T) := ⟨add⟩

/-- src/algebra/polynomial.rs:119-133 `AddAssign for Polynomial<T>` (`reserve` has no observable effect). -/
def addAssignV [AddAssignRef T] (self rhs : Poly T) : Upd (Poly T) :=
  let myLen := self.a.length
  (forEach rhs.a.zipIdx (fun (x, i) a =>
    if i < myLen then updAt a i (fun y => AddAssignRef.addAssign y x) else .done (a ++ [x])) self.a).into Poly.mk

instance [AddAssignRef T] : RAddAssign (Poly T) (Poly T) := ⟨addAssignV⟩

/-- `Vec::resize_with(n, || T::zero())` for `n` at least the length, as used in polynomial.rs:146, 195. -/
def resizeZero [RZero T] (l : List T) (n : Nat) : List T := l ++ List.replicate (n - l.length) zero

/-- src/algebra/polynomial.rs:143-152 `AddAssign<&Polynomial<T>> for Polynomial<T>`. -/
def addAssignRef [RZero T] [AddAssignRef T] (self rhs : Poly T) : Upd (Poly T) :=
  let a := if self.a.length < rhs.a.length then resizeZero self.a rhs.a.length else self.a
  (forEach (List.range rhs.a.length) (fun i a =>
    updAt a i (fun y => Upd.withRes (getIdx rhs.a i) y (fun x => AddAssignRef.addAssign y x))) a).into Poly.mk

instance [RZero T] [AddAssignRef T] : AddAssignRef (Poly T) := ⟨addAssignRef⟩

/-- src/algebra/polynomial.rs:273-281 `Neg for Polynomial<T>`. -/
def neg [RNeg T] (self : Poly T) : Res (Poly T) := do
  let a ← self.a.mapM RNeg.neg
  pure ⟨a⟩

instance [RNeg T] : RNeg (Poly T) := ⟨neg⟩

/-- src/algebra/polynomial.rs:162-168 `Sub for Polynomial<T>`. -/
def sub [AddAssignRef T] [RNeg T] (self rhs : Poly T) : Res (Poly T) := do
  let n ← rhs.neg
  self.add n

instance [AddAssignRef T] [RNeg T] : RSub (Poly T) (Poly T) (Poly T) := ⟨sub⟩

/-- src/algebra/polynomial.rs:178-182 `SubAssign for Polynomial<T>`. -/
def subAssignV [AddAssignRef T] [RNeg T] (self rhs : Poly T) : Upd (Poly T) :=
  Upd.withRes rhs.neg self (fun n => self.addAssignV n)

instance [AddAssignRef T] [RNeg T] : RSubAssign (Poly T) (Poly T) := ⟨subAssignV⟩

/-- src/algebra/polynomial.rs:192-201 `SubAssign<&Polynomial<T>> for Polynomial<T>`. -/
def subAssignRef [RZero T] [SubAssignRef T] (self rhs : Poly T) : Upd (Poly T) :=
  let a := if self.a.length < rhs.a.length then resizeZero self.a rhs.a.length else self.a
  (forEach (List.range rhs.a.length) (fun i a =>
    updAt a i (fun y => Upd.withRes (getIdx rhs.a i) y (fun x => SubAssignRef.subAssign y x))) a).into Poly.mk

instance [RZero T] [SubAssignRef T] : SubAssignRef (Poly T) := ⟨subAssignRef⟩

/-- src/algebra/polynomial.rs:245-261 `Mul for &Polynomial<T>`. -/
def mulRef [RZero T] [AddAssignRef T] [MulRefs T] (self rhs : Poly T) : Res (Poly T) :=
  if self.a.isEmpty || rhs.a.isEmpty then
    .ok zero
  else
    ((forEach (List.range self.a.length) (fun i a =>
      forEach (List.range rhs.a.length) (fun j a =>
        Upd.withRes (do mulRefs (← getIdx self.a i) (← getIdx rhs.a j)) a
          (fun prod => updAt a (i + j) (fun y => AddAssignRef.addAssign y prod))) a)
      (List.replicate (self.a.length + rhs.a.length - 1) (zero : T))).into fromCoefficients).toRes

/-- `MulRefs` for `Polynomial<T>` via the blanket impl src/algebra/ops_with_ref.rs:15-22 and polynomial.rs:245-261. -/
instance [RZero T] [AddAssignRef T] [MulRefs T] : MulRefs (Poly T) := ⟨mulRef⟩

/-- src/algebra/polynomial.rs:211-217 `Mul for Polynomial<T>`. -/
def mul [RZero T] [AddAssignRef T] [MulRefs T] (self rhs : Poly T) : Res (Poly T) := mulRefs self rhs

instance [RZero T] [AddAssignRef T] [MulRefs T] : RMul (Poly T) (Poly T) (Poly T) := ⟨mul⟩

/-- src/algebra/polynomial.rs:229-233 `MulAssign for Polynomial<T>`. -/
def mulAssign [RZero T] [AddAssignRef T] [MulRefs T] (self rhs : Poly T) : Upd (Poly T) :=
  Upd.ofRes self (mulRefs self rhs)

/-- src/algebra/polynomial.rs:290 `Ring for Polynomial<T>`. -/
instance [RRing T] : RRing (Poly T) where

end Poly

end Magnesia
