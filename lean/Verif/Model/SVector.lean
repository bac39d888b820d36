import Verif.Model.Traits

/-!
# Model of src/linalg/svector.rs

`[T; DIM]` is `Fin DIM → T`; `iter`, `iter_mut` and `zip` visit the indices `0, …, DIM-1` in order.
-/

namespace Magnesia

open RZero MulRefs

/-- src/linalg/svector.rs:6 `struct SVector<T, DIM>`. -/
@[ext] structure SVector (T : Type) (n : Nat) where
  val : Fin n → T

namespace SVector

variable {T : Type} {n : Nat}

/-- src/linalg/svector.rs:5 `derive(PartialEq)`. -/
instance [RPartialEq T] : RPartialEq (SVector T n) where
  eq u v := (List.finRange n).all (fun i => RPartialEq.eq (u.val i) (v.val i))

/-- src/linalg/svector.rs:18-20 `Zero for SVector`: `[(); DIM].map(|_| T::zero())`. -/
instance [RZero T] : RZero (SVector T n) := ⟨⟨arrMap (m := Id) n (zero : T)⟩⟩

/-- src/linalg/svector.rs:31-33 `From<[T; DIM]>`. -/
def fromArray (s : Fin n → T) : SVector T n := ⟨s⟩

/-- src/linalg/svector.rs:113-117 `AddAssign<&Self> for SVector`. -/
def addAssignRef [AddAssignRef T] (self other : SVector T n) : Upd (SVector T n) :=
  (forEach (List.finRange n) (fun i v => arrUpd v i (fun s => AddAssignRef.addAssign s (other.val i)))
    self.val).into SVector.mk

instance [AddAssignRef T] : AddAssignRef (SVector T n) := ⟨addAssignRef⟩

/-- src/linalg/svector.rs:94-96 `AddAssign<Self> for SVector`. -/
def addAssignV [AddAssignRef T] (self other : SVector T n) : Upd (SVector T n) := addAssignRef self other

instance [AddAssignRef T] : RAddAssign (SVector T n) (SVector T n) := ⟨addAssignV⟩

/-- src/linalg/svector.rs:52-55 `Add for SVector`. -/
def add [AddAssignRef T] (self other : SVector T n) : Res (SVector T n) := (addAssignRef self other).toRes

/-- src/linalg/svector.rs:74-77 `Add<&Self> for SVector`. -/
def addRef [AddAssignRef T] (self other : SVector T n) : Res (SVector T n) := (addAssignRef self other).toRes

instance [AddAssignRef T] : RAdd (SVector T n) (SVector T n) (SVector T n) := ⟨add⟩

/-- src/linalg/svector.rs:197-201 `SubAssign<&Self> for SVector`. -/
def subAssignRef [SubAssignRef T] (self other : SVector T n) : Upd (SVector T n) :=
  (forEach (List.finRange n) (fun i v => arrUpd v i (fun s => SubAssignRef.subAssign s (other.val i)))
    self.val).into SVector.mk

instance [SubAssignRef T] : SubAssignRef (SVector T n) := ⟨subAssignRef⟩

/-- src/linalg/svector.rs:178-180 `SubAssign<Self> for SVector`. -/
def subAssignV [SubAssignRef T] (self other : SVector T n) : Upd (SVector T n) := subAssignRef self other

instance [SubAssignRef T] : RSubAssign (SVector T n) (SVector T n) := ⟨subAssignV⟩

/-- src/linalg/svector.rs:136-139 `Sub for SVector`. -/
def sub [SubAssignRef T] (self other : SVector T n) : Res (SVector T n) := (subAssignRef self other).toRes

/-- src/linalg/svector.rs:158-161 `Sub<&Self> for SVector`. -/
def subRef [SubAssignRef T] (self other : SVector T n) : Res (SVector T n) := (subAssignRef self other).toRes

instance [SubAssignRef T] : RSub (SVector T n) (SVector T n) (SVector T n) := ⟨sub⟩

/-- src/linalg/svector.rs:242-249 `Mul<&Self> for SVector`: dot product. -/
def dotRef [RZero T] [AddAssignRef T] [MulRefs T] (self other : SVector T n) : Res T :=
  (List.finRange n).foldlM (fun sum i => do
    let prod ← mulRefs (self.val i) (other.val i)
    (AddAssignRef.addAssign sum prod).toRes) zero

/-- src/linalg/svector.rs:220-222 `Mul<Self> for SVector`: dot product. -/
def dot [RZero T] [AddAssignRef T] [MulRefs T] (self other : SVector T n) : Res T := dotRef self other

/-- src/linalg/svector.rs:324-329 `MulAssign<&T> for SVector`. -/
def mulAssignRef [MulRefs T] (self : SVector T n) (other : T) : Upd (SVector T n) :=
  (forEach (List.finRange n) (fun i v => arrUpd v i (fun x => Upd.ofRes x (mulRefs x other))) self.val).into SVector.mk

/-- src/linalg/svector.rs:306-308 `MulAssign<T> for SVector`. -/
def mulAssign [MulRefs T] (self : SVector T n) (other : T) : Upd (SVector T n) := mulAssignRef self other

/-- src/linalg/svector.rs:287-290 `Mul<&T> for SVector`. -/
def mulScalarRef [MulRefs T] (self : SVector T n) (other : T) : Res (SVector T n) := (mulAssignRef self other).toRes

/-- src/linalg/svector.rs:267-269 `Mul<T> for SVector`. -/
def mulScalar [MulRefs T] (self : SVector T n) (other : T) : Res (SVector T n) := mulScalarRef self other

/-- src/linalg/svector.rs:332-339 and 341-348 `IntoIterator for SVector` / `for &SVector`: the items produced by the
iterator of the array, in index order. -/
def toIter (self : SVector T n) : List T := (List.finRange n).map self.val

/-- src/linalg/svector.rs:350-357 `IntoIterator for &mut SVector`, used as `for x in &mut v { body(x, &mut s) }`: `s` is
the state the loop body carries along (all variables it can access besides `x`). -/
def forMut {S : Type} (self : SVector T n) (body : T → S → Upd (T × S)) (s : S) : Upd (SVector T n × S) :=
  (forEach (List.finRange n) (fun i (vs : (Fin n → T) × S) =>
    (body (vs.1 i) vs.2).into (fun ys => (Function.update vs.1 i ys.1, ys.2))) (self.val, s)).into
    (fun vs => (⟨vs.1⟩, vs.2))

/-- src/linalg/svector.rs:359-365 `Index<usize> for SVector`. -/
def index (self : SVector T n) (i : Nat) : Res T := arrGet self.val i

/-- src/linalg/svector.rs:374-378 `IndexMut<usize> for SVector`, used as `v[i] = x`. -/
def indexSet (self : SVector T n) (i : Nat) (x : T) : Upd (SVector T n) :=
  if h : i < n then .done ⟨Function.update self.val ⟨i, h⟩ x⟩ else ⟨self, some .indexOutOfBounds⟩

end SVector

end Magnesia
