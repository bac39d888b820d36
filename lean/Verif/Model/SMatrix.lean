import Verif.Model.SVector

/-!
# Model of src/linalg/smatrix.rs

The closures passed to `[(); N].map(..)` own counters (`m`, `n`, `l`, `i`) which they increment; these counters are
modelled as state (`StateT Nat`), exactly as in the source.
-/

namespace Magnesia

open RZero ROne MulRefs

/-- src/linalg/smatrix.rs:15-16 `struct SMatrix<T, NUM_ROWS, NUM_COLS>`. -/
@[ext] structure SMatrix (T : Type) (r c : Nat) where
  val : Fin r → Fin c → T

namespace SMatrix

variable {T : Type} {r c L M N : Nat}

/-- src/linalg/smatrix.rs:15 `derive(PartialEq)`. -/
instance [RPartialEq T] : RPartialEq (SMatrix T r c) where
  eq a b := (List.finRange r).all (fun i => (List.finRange c).all (fun j => RPartialEq.eq (a.val i j) (b.val i j)))

/-- src/linalg/smatrix.rs:31-33 `Zero for SMatrix`. -/
instance [RZero T] : RZero (SMatrix T r c) :=
  ⟨⟨arrMap (m := Id) r (arrMap (m := Id) c (zero : T))⟩⟩

/-- src/linalg/smatrix.rs:49-61 `One for SMatrix`: the outer counter `m` and the inner counter `n` are compared. -/
instance [RZero T] [ROne T] : ROne (SMatrix T r c) :=
  ⟨⟨(StateT.run (m := Id) (arrMap (m := StateM Nat) r (do
      let m ← get
      let row := (StateT.run (m := Id) (arrMap (m := StateM Nat) c (do
        let n ← get
        let x : T := if m = n then one else zero
        set (n + 1)
        pure x)) 0).1
      set (m + 1)
      pure row)) 0).1⟩⟩

/-- src/linalg/smatrix.rs:74-76 `From<[[T; NUM_COLS]; NUM_ROWS]>`. -/
def fromArray (a : Fin r → Fin c → T) : SMatrix T r c := ⟨a⟩

/-- src/linalg/smatrix.rs:158-164 `AddAssign<&Self> for SMatrix`. -/
def addAssignRef [AddAssignRef T] (self other : SMatrix T r c) : Upd (SMatrix T r c) :=
  (forEach (List.finRange r) (fun i a => arrUpd a i (fun lo =>
    forEach (List.finRange c) (fun j lo => arrUpd lo j (fun li => AddAssignRef.addAssign li (other.val i j))) lo))
    self.val).into SMatrix.mk

instance [AddAssignRef T] : AddAssignRef (SMatrix T r c) := ⟨addAssignRef⟩

/-- src/linalg/smatrix.rs:138-140 `AddAssign<Self> for SMatrix`. -/
def addAssignV [AddAssignRef T] (self other : SMatrix T r c) : Upd (SMatrix T r c) := addAssignRef self other

instance [AddAssignRef T] : RAddAssign (SMatrix T r c) (SMatrix T r c) := ⟨addAssignV⟩

/-- src/linalg/smatrix.rs:95-98 `Add for SMatrix`. -/
def add [AddAssignRef T] (self other : SMatrix T r c) : Res (SMatrix T r c) := (addAssignRef self other).toRes

/-- src/linalg/smatrix.rs:117-120 `Add<&Self> for SMatrix`. -/
def addRef [AddAssignRef T] (self other : SMatrix T r c) : Res (SMatrix T r c) := (addAssignRef self other).toRes

instance [AddAssignRef T] : RAdd (SMatrix T r c) (SMatrix T r c) (SMatrix T r c) := ⟨add⟩

/-- src/linalg/smatrix.rs:246-252 `SubAssign<&Self> for SMatrix`. -/
def subAssignRef [SubAssignRef T] (self other : SMatrix T r c) : Upd (SMatrix T r c) :=
  (forEach (List.finRange r) (fun i a => arrUpd a i (fun lo =>
    forEach (List.finRange c) (fun j lo => arrUpd lo j (fun li => SubAssignRef.subAssign li (other.val i j))) lo))
    self.val).into SMatrix.mk

instance [SubAssignRef T] : SubAssignRef (SMatrix T r c) := ⟨subAssignRef⟩

/-- src/linalg/smatrix.rs:226-228 `SubAssign<Self> for SMatrix`. -/
def subAssignV [SubAssignRef T] (self other : SMatrix T r c) : Upd (SMatrix T r c) := subAssignRef self other

instance [SubAssignRef T] : RSubAssign (SMatrix T r c) (SMatrix T r c) := ⟨subAssignV⟩

/-- src/linalg/smatrix.rs:183-186 `Sub for SMatrix`. -/
def sub [SubAssignRef T] (self other : SMatrix T r c) : Res (SMatrix T r c) := (subAssignRef self other).toRes

/-- src/linalg/smatrix.rs:205-208 `Sub<&Self> for SMatrix`. -/
def subRef [SubAssignRef T] (self other : SMatrix T r c) : Res (SMatrix T r c) := (subAssignRef self other).toRes

instance [SubAssignRef T] : RSub (SMatrix T r c) (SMatrix T r c) (SMatrix T r c) := ⟨sub⟩

/-- `self.0[l][m]` -/
def at2 (a : Fin r → Fin c → T) (i j : Nat) : Res T := do
  let row ← arrGet a i
  arrGet row j

/-- src/linalg/smatrix.rs:272-288 `Mul<&SMatrix<T, M, N>> for &SMatrix<T, L, M>`. -/
def mulRef [RZero T] [AddAssignRef T] [MulRefs T] (self : SMatrix T L M) (other : SMatrix T M N) :
    Res (SMatrix T L N) := do
  let (a, _) ← (arrMap (m := StateT Nat Res) L (do
    let l ← get
    let (row, _) ← (arrMap (m := StateT Nat Res) N (do
      let n ← get
      let sum ← (List.range M).foldlM (m := Res) (fun sum m => do
        let prod ← mulRefs (← at2 self.val l m) (← at2 other.val m n)
        (AddAssignRef.addAssign sum prod).toRes) (zero : T)
      set (n + 1)
      pure sum)).run 0
    set (l + 1)
    pure row)).run 0
  pure ⟨a⟩

/-- `MulRefs` for square matrices via the blanket impl src/algebra/ops_with_ref.rs:15-22 and smatrix.rs:272-288. -/
instance [RZero T] [AddAssignRef T] [MulRefs T] : MulRefs (SMatrix T N N) := ⟨mulRef⟩

/-- src/linalg/smatrix.rs:307-309 `Mul<SMatrix<T, M, N>> for SMatrix<T, L, M>`. -/
def mul [RZero T] [AddAssignRef T] [MulRefs T] (self : SMatrix T L M) (other : SMatrix T M N) :
    Res (SMatrix T L N) := mulRef self other

instance [RZero T] [AddAssignRef T] [MulRefs T] : RMul (SMatrix T L M) (SMatrix T M N) (SMatrix T L N) := ⟨mul⟩

/-- src/linalg/smatrix.rs:326-330 `MulAssign<&SMatrix<T, N, N>> for SMatrix<T, M, N>`. -/
def mulAssignRef [RZero T] [AddAssignRef T] [MulRefs T] (self : SMatrix T M N) (other : SMatrix T N N) :
    Upd (SMatrix T M N) := Upd.ofRes self (mulRef self other)

/-- src/linalg/smatrix.rs:347-351 `MulAssign<SMatrix<T, N, N>> for SMatrix<T, M, N>`. -/
def mulAssign [RZero T] [AddAssignRef T] [MulRefs T] (self : SMatrix T M N) (other : SMatrix T N N) :
    Upd (SMatrix T M N) := Upd.ofRes self (mulRef self other)

/-- src/linalg/smatrix.rs:371-382 `Mul<&SVector<T, N>> for &SMatrix<T, M, N>`. -/
def mulVec [RZero T] [AddAssignRef T] [MulRefs T] (self : SMatrix T M N) (vec : SVector T N) :
    Res (SVector T M) := do
  let (a, _) ← (arrMap (m := StateT Nat Res) M (do
    let i ← get
    let row ← arrGet self.val i
    let sum ← (List.finRange N).foldlM (m := Res) (fun sum j => do
      let prod ← mulRefs (row j) (vec.val j)
      (AddAssignRef.addAssign sum prod).toRes) (zero : T)
    set (i + 1)
    pure sum)).run 0
  pure (SVector.fromArray a)

/-- src/linalg/smatrix.rs:385-397 `Neg for SMatrix`. -/
def neg [RNeg T] (self : SMatrix T r c) : Res (SMatrix T r c) := do
  let a ← fromFnM r (fun i => fromFnM c (fun j => RNeg.neg (self.val i j)))
  pure ⟨a⟩

instance [RNeg T] : RNeg (SMatrix T r c) := ⟨neg⟩

/-- src/linalg/smatrix.rs:401-405 `Conj for SMatrix`. -/
def conj [RConj T] (self : SMatrix T r c) : Res (SMatrix T r c) := do
  let a ← fromFnM r (fun i => fromFnM c (fun j => RConj.conj (self.val i j)))
  pure ⟨a⟩

instance [RConj T] : RConj (SMatrix T r c) := ⟨conj⟩

/-- src/linalg/smatrix.rs:399 `Ring for SMatrix<T, N, N>`. -/
instance [RRing T] : RRing (SMatrix T N N) where

end SMatrix

end Magnesia
