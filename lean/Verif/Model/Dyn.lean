import Verif.Model.Traits

/-!
# Model of src/linalg/dvector.rs and src/linalg/dmatrix.rs

A type implementing `VectorExpr` / `MatrixExpr` is represented by the record of its trait methods (`len`, `entry`,
`eval`): this is all that generic code can observe of it. `eval` is part of the record because several implementations
override the default. `wrap` (dvector.rs:29-31, dmatrix.rs:35-37) and the wrapper types, which forward every method
(dvector.rs:46-60, dmatrix.rs:67-85), are therefore the identity on records.
User closures (`make_vector_expr`, `map`) may panic, so entries are `Res`.
`usize` values are natural numbers, except in the index computation `row * num_cols + col` of `DMatrix`, where
wrap-around (or the overflow panic) is modelled, governed by `Profile`.
-/

namespace Magnesia

open RZero ROne

/-- Build profile: pointer width and whether `overflow-checks` are on. -/
structure Profile where
  bits : Nat
  checked : Bool

namespace Profile

/-- A `usize` result: in range, or overflow (panic if checked, wrap otherwise). -/
def usize (p : Profile) (x : Nat) : Res Nat :=
  if x < 2 ^ p.bits then .ok x else if p.checked then .error .overflow else .ok (x % 2 ^ p.bits)

end Profile

/-- src/linalg/dvector.rs:433-434 `struct DVector<T>(Box<[T]>)`. -/
structure DVector (T : Type) where
  data : List T
deriving DecidableEq, Repr

/-- `==` of slices and boxed slices: equal lengths and element-wise `==`. -/
def sliceEq {T : Type} [RPartialEq T] (a b : List T) : Bool :=
  a.length == b.length && (List.zipWith RPartialEq.eq a b).all id

/-- src/linalg/dvector.rs:433 `derive(PartialEq)`. -/
instance {T : Type} [RPartialEq T] : RPartialEq (DVector T) := ⟨fun u v => sliceEq u.data v.data⟩

/-- src/linalg/dmatrix.rs:516-521 `struct DMatrix<T>`. -/
structure DMatrix (T : Type) where
  data : List T
  numRows : Nat
  numCols : Nat
deriving DecidableEq, Repr

/-- src/linalg/dmatrix.rs:516 `derive(PartialEq)`: all three fields. -/
instance {T : Type} [RPartialEq T] : RPartialEq (DMatrix T) :=
  ⟨fun a b => sliceEq a.data b.data && a.numRows == b.numRows && a.numCols == b.numCols⟩

/-- src/linalg/dvector.rs:8-32 `trait VectorExpr`. -/
structure VExpr (T : Type) where
  len : Nat
  entry : Nat → Res T
  eval : Res (DVector T)

/-- src/linalg/dmatrix.rs:8-38 `trait MatrixExpr`. -/
structure MExpr (T : Type) where
  numRows : Nat
  numCols : Nat
  entry : Nat → Nat → Res T
  eval : Res (DMatrix T)

variable {T U V O : Type}

/-- src/linalg/dvector.rs:24-26 default `VectorExpr::eval`. -/
def VExpr.defaultEval (len : Nat) (entry : Nat → Res T) : Res (DVector T) := do
  let data ← (List.range len).mapM entry
  pure ⟨data⟩

/-- src/linalg/dvector.rs:19-21 `VectorExpr::is_empty`. -/
def VExpr.isEmpty (e : VExpr T) : Bool := e.len == 0

/-- src/linalg/dmatrix.rs:22-32 default `MatrixExpr::eval`: row-major enumeration of all index pairs. -/
def MExpr.defaultEval (numRows numCols : Nat) (entry : Nat → Nat → Res T) : Res (DMatrix T) := do
  let data ← ((List.range numRows).flatMap (fun r => (List.range numCols).map (fun c => (r, c)))).mapM
    (fun rc => entry rc.1 rc.2)
  pure ⟨data, numRows, numCols⟩

/-- src/linalg/dvector.rs:73-97 `make_vector_expr` (`FnVectorExpr` uses the default `eval`; its `entry` does not check
the index). -/
def makeVectorExpr (len : Nat) (f : Nat → Res T) : VExpr T := ⟨len, f, VExpr.defaultEval len f⟩

/-- src/linalg/dmatrix.rs:102-134 `make_matrix_expr`. -/
def makeMatrixExpr (numRows numCols : Nat) (f : Nat → Nat → Res T) : MExpr T :=
  ⟨numRows, numCols, f, MExpr.defaultEval numRows numCols f⟩

/-- src/linalg/dvector.rs:28-31, 46-60 `VectorExpr::wrap` and `VectorExpr for VectorExprWrapper<T>`: every method is forwarded, so
a wrapped expression is the record of the same methods; `wrap` is not written in the combinators below. -/
def VExpr.wrap (e : VExpr T) : VExpr T := ⟨e.len, fun index => e.entry index, e.eval⟩

/-- src/linalg/dmatrix.rs:34-37, 67-85 `MatrixExpr::wrap` and `MatrixExpr for MatrixExprWrapper<T>`: every method is forwarded. -/
def MExpr.wrap (e : MExpr T) : MExpr T := ⟨e.numRows, e.numCols, fun row col => e.entry row col, e.eval⟩

/-- Forwarding changes nothing. -/
example (e : VExpr T) : e.wrap = e := rfl
example (e : MExpr T) : e.wrap = e := rfl

/-- `assert_eq!(a, b)` on `usize` values. -/
def assertEq (a b : Nat) : Res Unit := if a = b then .ok () else .error .assertFailed

namespace VExpr

/-- src/linalg/dvector.rs:126-131 `VectorExprWrapper::map`. -/
def map (self : VExpr T) (f : T → Res U) : VExpr U :=
  makeVectorExpr self.len (fun index => do f (← self.entry index))

/-- src/linalg/dvector.rs:167-178 `VectorExprWrapper::zip`. -/
def zip (self : VExpr T) (rhs : VExpr U) : Res (VExpr (T × U)) := do
  assertEq self.len rhs.len
  pure (makeVectorExpr self.len (fun index => do
    let x ← self.entry index
    let y ← rhs.entry index
    pure (x, y)))

/-- src/linalg/dvector.rs:215-232 `struct AddExpr` and its `VectorExpr` impl (default `eval`). -/
def addExpr [RAdd T U V] (lhs : VExpr T) (rhs : VExpr U) : VExpr V :=
  let entry := fun index => do RAdd.add (← lhs.entry index) (← rhs.entry index)
  ⟨lhs.len, entry, defaultEval lhs.len entry⟩

/-- src/linalg/dvector.rs:200-203 `Add<Rhs> for VectorExprWrapper<Lhs>`. -/
def add [RAdd T U V] (self : VExpr T) (rhs : VExpr U) : Res (VExpr V) := do
  assertEq self.len rhs.len
  pure (addExpr self rhs)

/-- src/linalg/dvector.rs:257-274 `struct SubExpr` and its `VectorExpr` impl (default `eval`). -/
def subExpr [RSub T U V] (lhs : VExpr T) (rhs : VExpr U) : VExpr V :=
  let entry := fun index => do RSub.sub (← lhs.entry index) (← rhs.entry index)
  ⟨lhs.len, entry, defaultEval lhs.len entry⟩

/-- src/linalg/dvector.rs:242-245 `Sub<Rhs> for VectorExprWrapper<Lhs>`. -/
def sub [RSub T U V] (self : VExpr T) (rhs : VExpr U) : Res (VExpr V) := do
  assertEq self.len rhs.len
  pure (subExpr self rhs)

/-- src/linalg/dvector.rs:301-309 `VectorExprWrapper::mul_elemwise`. -/
def mulElemwise [RMul T U V] (self : VExpr T) (rhs : VExpr U) : Res (VExpr V) := do
  let z ← self.zip rhs
  pure (z.map (fun xy => RMul.mul xy.1 xy.2))

/-- src/linalg/dvector.rs:345-353 `VectorExprWrapper::div_elemwise`. -/
def divElemwise [RDiv T U V] (self : VExpr T) (rhs : VExpr U) : Res (VExpr V) := do
  let z ← self.zip rhs
  pure (z.map (fun xy => RDiv.div xy.1 xy.2))

/-- src/linalg/dvector.rs:366-371 `VectorExprWrapper::conj`. -/
def conj [RConj T] (self : VExpr T) : VExpr T := self.map RConj.conj

/-- src/linalg/dvector.rs:414-422 `VectorExprWrapper::diag`. -/
def diag [RZero T] (self : VExpr T) : MExpr T :=
  makeMatrixExpr self.len self.len (fun r c => if r = c then self.entry r else .ok zero)

end VExpr

namespace DVector

/-- src/linalg/dvector.rs:436-450 and 452-466 `VectorExpr for DVector<T>` / `for &DVector<T>` (`eval` overridden by
`self` / `self.clone()`). -/
def asExpr (self : DVector T) : VExpr T := ⟨self.data.length, getIdx self.data, .ok self⟩

/-- src/linalg/dvector.rs:495-497 `DVector::zeros`. -/
def zeros [RZero T] (len : Nat) : VExpr T := makeVectorExpr len (fun _ => .ok zero)

/-- src/linalg/dvector.rs:510-512 `DVector::ones`. -/
def ones [ROne T] (len : Nat) : VExpr T := makeVectorExpr len (fun _ => .ok one)

/-- src/linalg/dvector.rs:525-527 `DVector::same`. -/
def same (len : Nat) (val : T) : VExpr T := makeVectorExpr len (fun _ => .ok val)

/-- src/linalg/dvector.rs:538-544 `Index<usize> for DVector<T>`. -/
def index (self : DVector T) (i : Nat) : Res T := getIdx self.data i

/-- src/linalg/dvector.rs:556-560 `IndexMut<usize> for DVector<T>`, used as `v[i] = x`. -/
def indexSet (self : DVector T) (i : Nat) (x : T) : Upd (DVector T) :=
  (updAt self.data i (fun _ => .done x)).into DVector.mk

/-- src/linalg/dvector.rs:575-585 `Add<Rhs> for &DVector<T>`. -/
def add [RAdd T U V] (self : DVector T) (rhs : VExpr U) : Res (VExpr V) := self.asExpr.add rhs

/-- src/linalg/dvector.rs:613-623 `Sub<Rhs> for &DVector<T>`. -/
def sub [RSub T U V] (self : DVector T) (rhs : VExpr U) : Res (VExpr V) := self.asExpr.sub rhs

/-- src/linalg/dvector.rs:599-603 `AddAssign<Rhs> for DVector<T>` (no length check). The operator is
overloaded, so Rust evaluates the place `self.0[index]` first (bounds check), then `rhs.entry(index)`. -/
def addAssign [RAddAssign T U] (self : DVector T) (rhs : VExpr U) : Upd (DVector T) :=
  (forEach (List.range self.data.length) (fun index d =>
    updAt d index (fun x => Upd.withRes (rhs.entry index) x (fun y => RAddAssign.addAssign x y))) self.data).into DVector.mk

/-- src/linalg/dvector.rs:637-641 `SubAssign<Rhs> for DVector<T>`. -/
def subAssign [RSubAssign T U] (self : DVector T) (rhs : VExpr U) : Upd (DVector T) :=
  (forEach (List.range self.data.length) (fun index d =>
    updAt d index (fun x => Upd.withRes (rhs.entry index) x (fun y => RSubAssign.subAssign x y))) self.data).into DVector.mk

/-- src/linalg/dvector.rs:676-682 `Mul for &DVector<T>`: `zip` stops at the shorter operand; the lazy iterator chain
interleaves the products with the additions. -/
def dotRef [RZero T] [RConj T] [RMul T T T] [RAdd T T T] (self rhs : DVector T) : Res T :=
  (List.zip self.data rhs.data).foldlM (fun acc lr => do
    let prod ← RMul.mul (← RConj.conj lr.1) lr.2
    RAdd.add acc prod) zero

/-- src/linalg/dvector.rs:657-659 `Mul for DVector<T>`. -/
def dot [RZero T] [RConj T] [RMul T T T] [RAdd T T T] (self rhs : DVector T) : Res T := dotRef self rhs

/-- src/linalg/dvector.rs:705-714 `DVector::mul_elemwise`. -/
def mulElemwise [RMul T U V] (self : DVector T) (rhs : VExpr U) : Res (VExpr V) := self.asExpr.mulElemwise rhs

/-- src/linalg/dvector.rs:729-738 `DVector::div_elemwise`. -/
def divElemwise [RDiv T U V] (self : DVector T) (rhs : VExpr U) : Res (VExpr V) := self.asExpr.divElemwise rhs

/-- src/linalg/dvector.rs:747-749 `DVector::conj`. -/
def conj [RConj T] (self : DVector T) : VExpr T := self.asExpr.conj

/-- src/linalg/dvector.rs:787-789 `DVector::diag`. -/
def diag [RZero T] (self : DVector T) : MExpr T := self.asExpr.diag

end DVector

/-- src/linalg/dvector.rs:792-806 `VectorExpr for &[T]` (also reached from `[T; N]` by unsizing). -/
def sliceExpr (s : List T) : VExpr T := ⟨s.length, getIdx s, .ok ⟨s⟩⟩

namespace MExpr

/-- src/linalg/dmatrix.rs:163-170 `MatrixExprWrapper::map`. -/
def map (self : MExpr T) (f : T → Res U) : MExpr U :=
  makeMatrixExpr self.numRows self.numCols (fun row col => do f (← self.entry row col))

/-- src/linalg/dmatrix.rs:206-218 `MatrixExprWrapper::zip`. -/
def zip (self : MExpr T) (rhs : MExpr U) : Res (MExpr (T × U)) := do
  assertEq self.numRows rhs.numRows
  assertEq self.numCols rhs.numCols
  pure (makeMatrixExpr self.numRows self.numCols (fun row col => do
    let x ← self.entry row col
    let y ← rhs.entry row col
    pure (x, y)))

/-- src/linalg/dmatrix.rs:256-277 `struct AddExpr` and its `MatrixExpr` impl (default `eval`). -/
def addExpr [RAdd T U V] (lhs : MExpr T) (rhs : MExpr U) : MExpr V :=
  let entry := fun row col => do RAdd.add (← lhs.entry row col) (← rhs.entry row col)
  ⟨lhs.numRows, lhs.numCols, entry, defaultEval lhs.numRows lhs.numCols entry⟩

/-- src/linalg/dmatrix.rs:240-244 `Add<Rhs> for MatrixExprWrapper<Lhs>`. -/
def add [RAdd T U V] (self : MExpr T) (rhs : MExpr U) : Res (MExpr V) := do
  assertEq self.numRows rhs.numRows
  assertEq self.numCols rhs.numCols
  pure (addExpr self rhs)

/-- src/linalg/dmatrix.rs:303-324 `struct SubExpr` and its `MatrixExpr` impl (default `eval`). -/
def subExpr [RSub T U V] (lhs : MExpr T) (rhs : MExpr U) : MExpr V :=
  let entry := fun row col => do RSub.sub (← lhs.entry row col) (← rhs.entry row col)
  ⟨lhs.numRows, lhs.numCols, entry, defaultEval lhs.numRows lhs.numCols entry⟩

/-- src/linalg/dmatrix.rs:287-291 `Sub<Rhs> for MatrixExprWrapper<Lhs>`. -/
def sub [RSub T U V] (self : MExpr T) (rhs : MExpr U) : Res (MExpr V) := do
  assertEq self.numRows rhs.numRows
  assertEq self.numCols rhs.numCols
  pure (subExpr self rhs)

/-- src/linalg/dmatrix.rs:351-359 `MatrixExprWrapper::mul_elemwise`. -/
def mulElemwise [RMul T U V] (self : MExpr T) (rhs : MExpr U) : Res (MExpr V) := do
  let z ← self.zip rhs
  pure (z.map (fun xy => RMul.mul xy.1 xy.2))

/-- src/linalg/dmatrix.rs:396-404 `MatrixExprWrapper::div_elemwise`. -/
def divElemwise [RDiv T U V] (self : MExpr T) (rhs : MExpr U) : Res (MExpr V) := do
  let z ← self.zip rhs
  pure (z.map (fun xy => RDiv.div xy.1 xy.2))

/-- src/linalg/dmatrix.rs:425-429 `MatrixExprWrapper::t`. -/
def t (self : MExpr T) : MExpr T :=
  makeMatrixExpr self.numCols self.numRows (fun r c => self.entry c r)

/-- src/linalg/dmatrix.rs:451-455 `MatrixExprWrapper::h`. -/
def h [RConj T] (self : MExpr T) : MExpr T :=
  makeMatrixExpr self.numCols self.numRows (fun r c => do RConj.conj (← self.entry c r))

/-- src/linalg/dmatrix.rs:502-506 `MatrixExprWrapper::diag`. -/
def diag (self : MExpr T) : VExpr T :=
  makeVectorExpr (min self.numRows self.numCols) (fun index => self.entry index index)

end MExpr

/-- src/linalg/dmatrix.rs:950-974 `MatrixExpr for [[T; NUM_COLS]; NUM_ROWS]` (`eval` overridden: flatten). -/
def arrayExpr {r c : Nat} (a : Fin r → Fin c → T) : MExpr T where
  numRows := r
  numCols := c
  entry := fun row col => do
    let x ← arrGet a row
    arrGet x col
  eval := .ok ⟨(List.finRange r).flatMap (fun i => (List.finRange c).map (a i)), r, c⟩

namespace DMatrix

/-- The flat position computed by `row * self.num_cols + col` (src/linalg/dmatrix.rs:530, 553, 656, 671). -/
def flatIndex (p : Profile) (numCols row col : Nat) : Res Nat := do
  let x ← p.usize (row * numCols)
  p.usize (x + col)

/-- src/linalg/dmatrix.rs:529-531 and 552-554 `entry` of `DMatrix<T>` / `&DMatrix<T>`. -/
def entry (p : Profile) (self : DMatrix T) (row col : Nat) : Res T := do
  let i ← flatIndex p self.numCols row col
  getIdx self.data i

/-- src/linalg/dmatrix.rs:523-544 and 546-567 `MatrixExpr for DMatrix<T>` / `for &DMatrix<T>` (`eval` overridden by
`self` / `self.clone()`). -/
def asExpr (p : Profile) (self : DMatrix T) : MExpr T := ⟨self.numRows, self.numCols, self.entry p, .ok self⟩

/-- src/linalg/dmatrix.rs:576-578 `DMatrix::eye`. -/
def eye [RZero T] [ROne T] (n : Nat) : MExpr T := makeMatrixExpr n n (fun r c => .ok (if r = c then one else zero))

/-- src/linalg/dmatrix.rs:596-601 `DMatrix::zeros`. -/
def zeros [RZero T] (numRows numCols : Nat) : MExpr T := makeMatrixExpr numRows numCols (fun _ _ => .ok zero)

/-- src/linalg/dmatrix.rs:617-619 `DMatrix::ones`. -/
def ones [ROne T] (numRows numCols : Nat) : MExpr T := makeMatrixExpr numRows numCols (fun _ _ => .ok one)

/-- src/linalg/dmatrix.rs:635-641 `DMatrix::same`. -/
def same (numRows numCols : Nat) (val : T) : MExpr T := makeMatrixExpr numRows numCols (fun _ _ => .ok val)

/-- src/linalg/dmatrix.rs:652-658 `Index<[usize; 2]> for DMatrix<T>`. -/
def index (p : Profile) (self : DMatrix T) (row col : Nat) : Res T := do
  let i ← flatIndex p self.numCols row col
  getIdx self.data i

/-- src/linalg/dmatrix.rs:669-673 `IndexMut<[usize; 2]> for DMatrix<T>`, used as `m[[row, col]] = x`. -/
def indexSet (p : Profile) (self : DMatrix T) (row col : Nat) (x : T) : Upd (DMatrix T) :=
  Upd.withRes (flatIndex p self.numCols row col) self
    (fun i => (updAt self.data i (fun _ => .done x)).into (fun d => { self with data := d }))

/-- src/linalg/dmatrix.rs:688-699 `Add<Rhs> for &DMatrix<T>`. -/
def add [RAdd T U V] (p : Profile) (self : DMatrix T) (rhs : MExpr U) : Res (MExpr V) := (self.asExpr p).add rhs

/-- src/linalg/dmatrix.rs:732-742 `Sub<Rhs> for &DMatrix<T>`. -/
def sub [RSub T U V] (p : Profile) (self : DMatrix T) (rhs : MExpr U) : Res (MExpr V) := (self.asExpr p).sub rhs

/-- The loop nest shared by src/linalg/dmatrix.rs:715-722 and 758-765: for each `row`, for each `col`, compute the
place `self.data[row * num_cols + col]` (bounds check), then evaluate `rhs.entry(row, col)`, then update with `op`. -/
def assignLoop (p : Profile) (self : DMatrix T) (rhs : MExpr U) (op : T → U → Upd T) : Upd (DMatrix T) :=
  (forEach (List.range self.numRows) (fun row d =>
    forEach (List.range self.numCols) (fun col d =>
      Upd.withRes (flatIndex p self.numCols row col) d (fun i =>
        updAt d i (fun x => Upd.withRes (rhs.entry row col) x (fun y => op x y)))) d) self.data).into (fun d => { self with data := d })

/-- src/linalg/dmatrix.rs:715-722 `AddAssign<Rhs> for DMatrix<T>` (no shape check). -/
def addAssign [RAddAssign T U] (p : Profile) (self : DMatrix T) (rhs : MExpr U) : Upd (DMatrix T) :=
  self.assignLoop p rhs RAddAssign.addAssign

/-- src/linalg/dmatrix.rs:758-765 `SubAssign<Rhs> for DMatrix<T>` (no shape check). -/
def subAssign [RSubAssign T U] (p : Profile) (self : DMatrix T) (rhs : MExpr U) : Upd (DMatrix T) :=
  self.assignLoop p rhs RSubAssign.subAssign

/-- src/linalg/dmatrix.rs:793-799 `MulDMatrix::entry`: the first product is computed unconditionally. -/
def mulEntry [RMul T T O] [RAddAssign O O] (p : Profile) (lhs rhs : DMatrix T) (row col : Nat) : Res O := do
  let sum ← RMul.mul (← lhs.entry p row 0) (← rhs.entry p 0 col)
  (List.range' 1 (lhs.numCols - 1)).foldlM (fun sum i => do
    let prod ← RMul.mul (← lhs.entry p row i) (← rhs.entry p i col)
    (RAddAssign.addAssign sum prod).toRes) sum

/-- src/linalg/dmatrix.rs:775-808 `MulDMatrix` and its `MatrixExpr` impl (default `eval`). -/
def mulExpr [RMul T T O] [RAddAssign O O] (p : Profile) (lhs rhs : DMatrix T) : MExpr O :=
  let entry := mulEntry p lhs rhs
  ⟨lhs.numRows, rhs.numCols, entry, MExpr.defaultEval lhs.numRows rhs.numCols entry⟩

/-- src/linalg/dmatrix.rs:817-821 `Mul<Self> for &DMatrix<T>`. -/
def mul [RMul T T O] [RAddAssign O O] (p : Profile) (self rhs : DMatrix T) : Res (MExpr O) := do
  assertEq self.numCols rhs.numRows
  pure (mulExpr p self rhs)

/-- src/linalg/dmatrix.rs:845-854 `DMatrix::mul_elemwise`. -/
def mulElemwise [RMul T U V] (p : Profile) (self : DMatrix T) (rhs : MExpr U) : Res (MExpr V) :=
  (self.asExpr p).mulElemwise rhs

/-- src/linalg/dmatrix.rs:869-878 `DMatrix::div_elemwise`. -/
def divElemwise [RDiv T U V] (p : Profile) (self : DMatrix T) (rhs : MExpr U) : Res (MExpr V) :=
  (self.asExpr p).divElemwise rhs

/-- src/linalg/dmatrix.rs:887-889 `DMatrix::t`. -/
def t (p : Profile) (self : DMatrix T) : MExpr T := (self.asExpr p).t

/-- src/linalg/dmatrix.rs:905-907 `DMatrix::h`. -/
def h [RConj T] (p : Profile) (self : DMatrix T) : MExpr T := (self.asExpr p).h

/-- src/linalg/dmatrix.rs:945-947 `DMatrix::diag`. -/
def diag (p : Profile) (self : DMatrix T) : VExpr T := (self.asExpr p).diag

end DMatrix

end Magnesia
