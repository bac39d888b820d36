import Verif.Model.Traits

/-!
# Model of src/algebra/complex.rs
-/

namespace Magnesia

open RZero ROne MulRefs RNeg DivRefs

/-- src/algebra/complex.rs:6-12 `struct Complex<T>`. -/
@[ext] structure Complex (T : Type) where
  re : T
  im : T
deriving DecidableEq, Repr

namespace Complex

variable {T U V : Type}

/-- src/algebra/complex.rs:23-25 `Complex::new`. -/
def new (re im : T) : Complex T := { re, im }

/-- src/algebra/complex.rs:6 `derive(PartialEq)`: field-wise `==`. -/
instance [RPartialEq T] : RPartialEq (Complex T) where
  eq a b := RPartialEq.eq a.re b.re && RPartialEq.eq a.im b.im

/-- src/algebra/complex.rs:28-44 `Conj for Complex<T>`. -/
def conj [RNeg T] (z : Complex T) : Res (Complex T) := do
  let im ← neg z.im
  pure ⟨z.re, im⟩

instance [RNeg T] : RConj (Complex T) := ⟨conj⟩

/-- src/algebra/complex.rs:59-64 `Complex::sqr_norm`. -/
def sqrNorm [AddAssignRef T] [MulRefs T] (z : Complex T) : Res T := do
  let p1 ← mulRefs z.re z.re
  let p2 ← mulRefs z.im z.im
  (AddAssignRef.addAssign p1 p2).toRes

/-- src/algebra/complex.rs:67-76 and 88-97 `Abs for Complex<T>` and `Abs for &Complex<T>` (same body). -/
def abs [AddAssignRef T] [MulRefs T] [RSqrt T] (z : Complex T) : Res T := do
  let n ← z.sqrNorm
  RSqrt.sqrt n

instance [AddAssignRef T] [MulRefs T] [RSqrt T] : RAbs (Complex T) T := ⟨abs⟩

/-- src/algebra/complex.rs:125-127 `Complex::arg`. -/
def arg [RAtan2 T] (z : Complex T) : Res T := RAtan2.atan2 z.im z.re

/-- src/algebra/complex.rs:130-134 `Zero for Complex<T>`. -/
instance [RZero T] : RZero (Complex T) := ⟨⟨zero, zero⟩⟩

/-- src/algebra/complex.rs:143-147 `One for Complex<T>`. -/
instance [RZero T] [ROne T] : ROne (Complex T) := ⟨⟨one, zero⟩⟩

/-- src/algebra/complex.rs:156-162 `Add<Complex<U>> for Complex<T>`. -/
def add [RAdd T U V] (self : Complex T) (other : Complex U) : Res (Complex V) := do
  let re ← RAdd.add self.re other.re
  let im ← RAdd.add self.im other.im
  pure ⟨re, im⟩

instance [RAdd T U V] : RAdd (Complex T) (Complex U) (Complex V) := ⟨add⟩

/-- src/algebra/complex.rs:172-177 `AddAssign<Complex<U>> for Complex<T>`: two field updates in order. -/
def addAssignV [RAddAssign T U] (self : Complex T) (other : Complex U) : Upd (Complex T) :=
  ((RAddAssign.addAssign self.re other.re).into (fun re => { self with re := re })).andThen fun self =>
    (RAddAssign.addAssign self.im other.im).into (fun im => { self with im := im })

instance [RAddAssign T U] : RAddAssign (Complex T) (Complex U) := ⟨addAssignV⟩

/-- src/algebra/complex.rs:187-195 `AddAssign<&Complex<T>> for Complex<T>`. -/
def addAssignRef [AddAssignRef T] (self other : Complex T) : Upd (Complex T) :=
  ((AddAssignRef.addAssign self.re other.re).into (fun re => { self with re := re })).andThen fun self =>
    (AddAssignRef.addAssign self.im other.im).into (fun im => { self with im := im })

instance [AddAssignRef T] : AddAssignRef (Complex T) := ⟨addAssignRef⟩

/-- src/algebra/complex.rs:205-211 `Sub<Complex<U>> for Complex<T>`. -/
def sub [RSub T U V] (self : Complex T) (other : Complex U) : Res (Complex V) := do
  let re ← RSub.sub self.re other.re
  let im ← RSub.sub self.im other.im
  pure ⟨re, im⟩

instance [RSub T U V] : RSub (Complex T) (Complex U) (Complex V) := ⟨sub⟩

/-- src/algebra/complex.rs:221-226 `SubAssign<Complex<U>> for Complex<T>`. -/
def subAssignV [RSubAssign T U] (self : Complex T) (other : Complex U) : Upd (Complex T) :=
  ((RSubAssign.subAssign self.re other.re).into (fun re => { self with re := re })).andThen fun self =>
    (RSubAssign.subAssign self.im other.im).into (fun im => { self with im := im })

instance [RSubAssign T U] : RSubAssign (Complex T) (Complex U) := ⟨subAssignV⟩

/-- src/algebra/complex.rs:236-244 `SubAssign<&Self> for Complex<T>`. -/
def subAssignRef [SubAssignRef T] (self other : Complex T) : Upd (Complex T) :=
  ((SubAssignRef.subAssign self.re other.re).into (fun re => { self with re := re })).andThen fun self =>
    (SubAssignRef.subAssign self.im other.im).into (fun im => { self with im := im })

instance [SubAssignRef T] : SubAssignRef (Complex T) := ⟨subAssignRef⟩

/-- src/algebra/complex.rs:298-313 `Mul<&Complex<T>> for &Complex<T>`. -/
def mulRef [AddAssignRef T] [SubAssignRef T] [MulRefs T] (self other : Complex T) : Res (Complex T) := do
  let p1 ← mulRefs self.re other.re
  let p2 ← mulRefs self.re other.im
  let p3 ← mulRefs self.im other.re
  let p4 ← mulRefs self.im other.im
  let p1 ← (SubAssignRef.subAssign p1 p4).toRes
  let p2 ← (AddAssignRef.addAssign p2 p3).toRes
  pure ⟨p1, p2⟩

/-- `MulRefs` for `Complex<T>` via the blanket impl src/algebra/ops_with_ref.rs:15-22 and complex.rs:298-313. -/
instance [AddAssignRef T] [SubAssignRef T] [MulRefs T] : MulRefs (Complex T) := ⟨mulRef⟩

/-- src/algebra/complex.rs:254-263 `Mul for Complex<T>` (`&self * &other`). -/
def mul [AddAssignRef T] [SubAssignRef T] [MulRefs T] (self other : Complex T) : Res (Complex T) :=
  mulRef self other

instance [AddAssignRef T] [SubAssignRef T] [MulRefs T] : RMul (Complex T) (Complex T) (Complex T) := ⟨mul⟩

/-- src/algebra/complex.rs:272-281 `Mul<T> for Complex<T>`. -/
def mulScalar [MulRefs T] (self : Complex T) (other : T) : Res (Complex T) := do
  let re ← mulRefs self.re other
  let im ← mulRefs self.im other
  pure ⟨re, im⟩

/-- src/algebra/complex.rs:283-289 `MulAssign for Complex<T>`. -/
def mulAssign [AddAssignRef T] [SubAssignRef T] [MulRefs T] (self rhs : Complex T) : Upd (Complex T) :=
  Upd.ofRes self (mulRef self rhs)

/-- src/algebra/complex.rs:323-339 `Div<Self> for &Complex<T>`. -/
def divRef [ROne T] [AddAssignRef T] [SubAssignRef T] [MulRefs T] [DivRefs T] (self other : Complex T) :
    Res (Complex T) := do
  let rcpSqrNorm ← divRefs one (← other.sqrNorm)
  let p1 ← mulRefs self.re other.re
  let p2 ← mulRefs self.im other.re
  let p3 ← mulRefs self.re other.im
  let p4 ← mulRefs self.im other.im
  let p1 ← (AddAssignRef.addAssign p1 p4).toRes
  let p2 ← (SubAssignRef.subAssign p2 p3).toRes
  let re ← mulRefs p1 rcpSqrNorm
  let im ← mulRefs p2 rcpSqrNorm
  pure ⟨re, im⟩

/-- `DivRefs` for `Complex<T>` via the blanket impl src/algebra/ops_with_ref.rs:44-51 and complex.rs:323-339. -/
instance [ROne T] [AddAssignRef T] [SubAssignRef T] [MulRefs T] [DivRefs T] : DivRefs (Complex T) := ⟨divRef⟩

/-- src/algebra/complex.rs:351-360 `Div for Complex<T>` (`&self / &other`). -/
def div [ROne T] [AddAssignRef T] [SubAssignRef T] [MulRefs T] [DivRefs T] (self other : Complex T) :
    Res (Complex T) := divRef self other

instance [ROne T] [AddAssignRef T] [SubAssignRef T] [MulRefs T] [DivRefs T] :
    RDiv (Complex T) (Complex T) (Complex T) := ⟨div⟩

/-- src/algebra/complex.rs:370-379 `Div<&T> for &Complex<T>`. -/
def divScalarRefRef [RDiv T T T] (self : Complex T) (other : T) : Res (Complex T) := do
  let re ← RDiv.div self.re other
  let im ← RDiv.div self.im other
  pure ⟨re, im⟩

/-- src/algebra/complex.rs:390-399 `Div<&T> for Complex<T>`. -/
def divScalarRef [RDiv T T T] (self : Complex T) (other : T) : Res (Complex T) := do
  let re ← RDiv.div self.re other
  let im ← RDiv.div self.im other
  pure ⟨re, im⟩

/-- src/algebra/complex.rs:410-419 `Div<T> for Complex<T>`. -/
def divScalar [RDiv T T T] (self : Complex T) (other : T) : Res (Complex T) := do
  let re ← RDiv.div self.re other
  let im ← RDiv.div self.im other
  pure ⟨re, im⟩

/-- src/algebra/complex.rs:421-427 `Neg for Complex<T>`. -/
def neg [RNeg T] (self : Complex T) : Res (Complex T) := do
  let re ← RNeg.neg self.re
  let im ← RNeg.neg self.im
  pure ⟨re, im⟩

instance [RNeg T] : RNeg (Complex T) := ⟨neg⟩

/-- src/algebra/complex.rs:436 `Ring for Complex<T>`. -/
instance [RRing T] : RRing (Complex T) where

/-- src/algebra/complex.rs:442 `Field for Complex<T>`. -/
instance [RField T] : RField (Complex T) where

/-- src/algebra/complex.rs:444-454 `Exp for Complex<T>`. -/
def exp [RExp T] [RSin T] [RCos T] [MulRefs T] (self : Complex T) : Res (Complex T) := do
  let e ← RExp.exp self.re
  let c ← RCos.cos self.im
  let s ← RSin.sin self.im
  let re ← mulRefs e c
  let im ← mulRefs e s
  pure ⟨re, im⟩

/-- src/algebra/complex.rs:464-473 `Sin for Complex<T>`. -/
def sin [RSin T] [RCos T] [RSinh T] [RCosh T] [MulRefs T] (self : Complex T) : Res (Complex T) := do
  let re ← mulRefs (← RSin.sin self.re) (← RCosh.cosh self.im)
  let im ← mulRefs (← RCos.cos self.re) (← RSinh.sinh self.im)
  pure ⟨re, im⟩

/-- src/algebra/complex.rs:484-493 `Cos for Complex<T>` (unary minus applies to the whole method chain). -/
def cos [RSin T] [RCos T] [RSinh T] [RCosh T] [MulRefs T] [RNeg T] (self : Complex T) : Res (Complex T) := do
  let re ← mulRefs (← RCos.cos self.re) (← RCosh.cosh self.im)
  let im ← RNeg.neg (← mulRefs (← RSin.sin self.re) (← RSinh.sinh self.im))
  pure ⟨re, im⟩

/-- src/algebra/complex.rs:504-513 `Sinh for Complex<T>`. -/
def sinh [RSin T] [RCos T] [RSinh T] [RCosh T] [MulRefs T] (self : Complex T) : Res (Complex T) := do
  let re ← mulRefs (← RSinh.sinh self.re) (← RCos.cos self.im)
  let im ← mulRefs (← RCosh.cosh self.re) (← RSin.sin self.im)
  pure ⟨re, im⟩

/-- src/algebra/complex.rs:523-532 `Cosh for Complex<T>`. -/
def cosh [RSin T] [RCos T] [RSinh T] [RCosh T] [MulRefs T] (self : Complex T) : Res (Complex T) := do
  let re ← mulRefs (← RCosh.cosh self.re) (← RCos.cos self.im)
  let im ← mulRefs (← RSinh.sinh self.re) (← RSin.sin self.im)
  pure ⟨re, im⟩

instance [RExp T] [RSin T] [RCos T] [MulRefs T] : RExp (Complex T) := ⟨exp⟩
instance [RSin T] [RCos T] [RSinh T] [RCosh T] [MulRefs T] : RSin (Complex T) := ⟨sin⟩
instance [RSin T] [RCos T] [RSinh T] [RCosh T] [MulRefs T] [RNeg T] : RCos (Complex T) := ⟨cos⟩
instance [RSin T] [RCos T] [RSinh T] [RCosh T] [MulRefs T] : RSinh (Complex T) := ⟨sinh⟩
instance [RSin T] [RCos T] [RSinh T] [RCosh T] [MulRefs T] : RCosh (Complex T) := ⟨cosh⟩

/-- src/algebra/complex.rs:542-549 `Tan for Complex<T>`. -/
def tan [RSin (Complex T)] [RCos (Complex T)] [RDiv (Complex T) (Complex T) (Complex T)] (self : Complex T) :
    Res (Complex T) := do
  RDiv.div (← RSin.sin self) (← RCos.cos self)

instance [RSin (Complex T)] [RCos (Complex T)] [RDiv (Complex T) (Complex T) (Complex T)] : RTan (Complex T) := ⟨tan⟩

/-- src/algebra/complex.rs:571-583 `Ln for Complex<T>`. -/
def ln [ROne T] [AddAssignRef T] [MulRefs T] [RLn T] [RAtan2 T] [RDiv T T T] (self : Complex T) :
    Res (Complex T) := do
  let two ← (AddAssignRef.addAssign (one : T) one).toRes
  let re ← RDiv.div (← RLn.ln (← self.sqrNorm)) two
  let im ← RAtan2.atan2 self.im self.re
  pure ⟨re, im⟩

instance [ROne T] [AddAssignRef T] [MulRefs T] [RLn T] [RAtan2 T] [RDiv T T T] : RLn (Complex T) := ⟨ln⟩

/-- src/algebra/complex.rs:634-635: first branch of `sqrt`; the result is `(re, abs_im)`. -/
def sqrtDirect [MulRefs T] [RSqrt T] [RAdd T T T] [RSub T T T] (self : Complex T) (abs oneHalf : T) : Res (T × T) := do
  let re ← RSqrt.sqrt (← mulRefs (← RAdd.add abs self.re) oneHalf)
  let absIm ← RSqrt.sqrt (← mulRefs (← RSub.sub abs self.re) oneHalf)
  pure (re, absIm)

/-- src/algebra/complex.rs:641-650: second branch of `sqrt`, "for numerical stability"; the result is `(re, abs_im)`. -/
def sqrtStable [RZero T] [MulRefs T] [RPartialOrd T] [RSqrt T] [RAbs T T] [RAdd T T T] [RDiv T T T]
    (self : Complex T) (abs two oneHalf : T) : Res (T × T) := do
  let denominator ← RSqrt.sqrt (← mulRefs (← RAdd.add abs (← RAbs.abs self.re)) two)
  let alpha ← RDiv.div (← RAbs.abs self.im) denominator
  let beta ← RSqrt.sqrt (← mulRefs (← RAdd.add abs (← RAbs.abs self.re)) oneHalf)
  if RPartialOrd.le zero self.re then pure (beta, alpha) else pure (alpha, beta)

/-- src/algebra/complex.rs:613-654 `Sqrt for Complex<T>`. -/
def sqrt [RZero T] [ROne T] [AddAssignRef T] [MulRefs T] [RNeg T] [RPartialOrd T] [RSqrt T] [RAbs T T]
    [RAdd T T T] [RSub T T T] [RDiv T T T] (self : Complex T) : Res (Complex T) := do
  let two ← RAdd.add (one : T) (one : T)
  let oneHalf ← RDiv.div (one : T) two
  let abs ← self.abs
  let absRe ← RAbs.abs self.re
  let twiceAbsIm ← mulRefs (← RAbs.abs self.im) two
  let parts ← (if RPartialOrd.le absRe twiceAbsIm then self.sqrtDirect abs oneHalf else self.sqrtStable abs two oneHalf)
  let im ← (if RPartialOrd.lt self.im zero then RNeg.neg parts.2 else pure parts.2)
  pure ⟨parts.1, im⟩

instance [RZero T] [ROne T] [AddAssignRef T] [MulRefs T] [RNeg T] [RPartialOrd T] [RSqrt T] [RAbs T T]
    [RAdd T T T] [RSub T T T] [RDiv T T T] : RSqrt (Complex T) := ⟨sqrt⟩

end Complex

end Magnesia
