import Verif.Model.Dyn
import Verif.Model.DE

/-!
# Model of src/linalg/dvector.rs and src/linalg/dmatrix.rs with closures that have effects

The closures passed to `make_vector_expr`, `make_matrix_expr` and `map` are of type `Fn`. Such a closure may still change
things: a counter in a `Cell`, a random number generator in a `RefCell`, a file. `Verif/Model/Dyn.lean` does not say when
they are called. This file models the same functions with closures that are computations in a mutable world `W`, and with
the order of the calls that Rust prescribes: operands from left to right, iterators lazily one element after the other.
The element type's own operators (`Add`, `Mul`, `Conj`, …) are the same as in `Verif/Model/Dyn.lean`: they may panic but do
not touch the world. So do `len`, `num_rows`, `num_cols`.
-/

namespace Magnesia

open RZero ROne

variable {W T U V O : Type}

/-- src/linalg/dvector.rs:8-32 `trait VectorExpr`. -/
structure EVExpr (W T : Type) where
  len : ℕ
  entry : ℕ → Proc W T
  eval : Proc W (DVector T)

/-- src/linalg/dmatrix.rs:8-38 `trait MatrixExpr`. -/
structure EMExpr (W T : Type) where
  numRows : ℕ
  numCols : ℕ
  entry : ℕ → ℕ → Proc W T
  eval : Proc W (DMatrix T)

/-- `iter.map(|x| body(x)).collect()`: the iterator is driven from front to back. -/
def collect {ι : Type} : List ι → (ι → Proc W T) → Proc W (List T)
  | [], _ => pure []
  | i :: l, f => do
    let x ← f i
    let xs ← collect l f
    pure (x :: xs)

/-- src/linalg/dvector.rs:24-26 default `VectorExpr::eval`. -/
def EVExpr.defaultEval (len : ℕ) (entry : ℕ → Proc W T) : Proc W (DVector T) := do
  let data ← collect (List.range len) entry
  pure ⟨data⟩

/-- src/linalg/dmatrix.rs:22-32 default `MatrixExpr::eval`. -/
def EMExpr.defaultEval (numRows numCols : ℕ) (entry : ℕ → ℕ → Proc W T) : Proc W (DMatrix T) := do
  let data ← collect ((List.range numRows).flatMap (fun r => (List.range numCols).map (fun c => (r, c))))
    (fun rc => entry rc.1 rc.2)
  pure ⟨data, numRows, numCols⟩

/-- src/linalg/dvector.rs:73-97 `make_vector_expr`. -/
def eMakeVectorExpr (len : ℕ) (f : ℕ → Proc W T) : EVExpr W T := ⟨len, f, EVExpr.defaultEval len f⟩

/-- src/linalg/dmatrix.rs:102-134 `make_matrix_expr`. -/
def eMakeMatrixExpr (numRows numCols : ℕ) (f : ℕ → ℕ → Proc W T) : EMExpr W T :=
  ⟨numRows, numCols, f, EMExpr.defaultEval numRows numCols f⟩

namespace EVExpr

/-- An implementation of `VectorExpr` in the crate that holds data only (`DVector`, `&DVector`, `&[T]`,
src/linalg/dvector.rs:436-466, 792-806, as modelled in `Verif/Model/Dyn.lean`): no closure is involved. -/
def ofData (e : VExpr T) : EVExpr W T := ⟨e.len, fun index => Proc.ofRes (e.entry index), Proc.ofRes e.eval⟩

/-- src/linalg/dvector.rs:126-131 `VectorExprWrapper::map`. -/
def map (self : EVExpr W T) (f : T → Proc W U) : EVExpr W U :=
  eMakeVectorExpr self.len (fun index => do f (← self.entry index))

/-- src/linalg/dvector.rs:167-178 `VectorExprWrapper::zip`. -/
def zip (self : EVExpr W T) (rhs : EVExpr W U) : Proc W (EVExpr W (T × U)) := do
  Proc.ofRes (assertEq self.len rhs.len)
  pure (eMakeVectorExpr self.len (fun index => do
    let x ← self.entry index
    let y ← rhs.entry index
    pure (x, y)))

/-- src/linalg/dvector.rs:215-232 `struct AddExpr` and its `VectorExpr` impl (default `eval`). -/
def addExpr [RAdd T U V] (lhs : EVExpr W T) (rhs : EVExpr W U) : EVExpr W V :=
  let entry := fun index => do
    let x ← lhs.entry index
    let y ← rhs.entry index
    Proc.ofRes (RAdd.add x y)
  ⟨lhs.len, entry, defaultEval lhs.len entry⟩

/-- src/linalg/dvector.rs:200-203 `Add<Rhs> for VectorExprWrapper<Lhs>`. -/
def add [RAdd T U V] (self : EVExpr W T) (rhs : EVExpr W U) : Proc W (EVExpr W V) := do
  Proc.ofRes (assertEq self.len rhs.len)
  pure (addExpr self rhs)

/-- src/linalg/dvector.rs:257-274 `struct SubExpr` and its `VectorExpr` impl (default `eval`). -/
def subExpr [RSub T U V] (lhs : EVExpr W T) (rhs : EVExpr W U) : EVExpr W V :=
  let entry := fun index => do
    let x ← lhs.entry index
    let y ← rhs.entry index
    Proc.ofRes (RSub.sub x y)
  ⟨lhs.len, entry, defaultEval lhs.len entry⟩

/-- src/linalg/dvector.rs:242-245 `Sub<Rhs> for VectorExprWrapper<Lhs>`. -/
def sub [RSub T U V] (self : EVExpr W T) (rhs : EVExpr W U) : Proc W (EVExpr W V) := do
  Proc.ofRes (assertEq self.len rhs.len)
  pure (subExpr self rhs)

/-- src/linalg/dvector.rs:301-309 `VectorExprWrapper::mul_elemwise`. -/
def mulElemwise [RMul T U V] (self : EVExpr W T) (rhs : EVExpr W U) : Proc W (EVExpr W V) := do
  let z ← self.zip rhs
  pure (z.map (fun xy => Proc.ofRes (RMul.mul xy.1 xy.2)))

/-- src/linalg/dvector.rs:345-353 `VectorExprWrapper::div_elemwise`. -/
def divElemwise [RDiv T U V] (self : EVExpr W T) (rhs : EVExpr W U) : Proc W (EVExpr W V) := do
  let z ← self.zip rhs
  pure (z.map (fun xy => Proc.ofRes (RDiv.div xy.1 xy.2)))

/-- src/linalg/dvector.rs:366-371 `VectorExprWrapper::conj`. -/
def conj [RConj T] (self : EVExpr W T) : EVExpr W T := self.map (fun x => Proc.ofRes (RConj.conj x))

/-- src/linalg/dvector.rs:414-422 `VectorExprWrapper::diag`. -/
def diag [RZero T] (self : EVExpr W T) : EMExpr W T :=
  eMakeMatrixExpr self.len self.len (fun r c => if r = c then self.entry r else pure zero)

end EVExpr

namespace EMExpr

/-- An implementation of `MatrixExpr` in the crate that holds data only (`DMatrix`, `&DMatrix`, `[[T; C]; R]`, `MulDMatrix`,
src/linalg/dmatrix.rs:523-567, 775-808, 950-974, as modelled in `Verif/Model/Dyn.lean`): no closure is involved. -/
def ofData (e : MExpr T) : EMExpr W T :=
  ⟨e.numRows, e.numCols, fun row col => Proc.ofRes (e.entry row col), Proc.ofRes e.eval⟩

/-- src/linalg/dmatrix.rs:163-170 `MatrixExprWrapper::map`. -/
def map (self : EMExpr W T) (f : T → Proc W U) : EMExpr W U :=
  eMakeMatrixExpr self.numRows self.numCols (fun row col => do f (← self.entry row col))

/-- src/linalg/dmatrix.rs:206-218 `MatrixExprWrapper::zip`. -/
def zip (self : EMExpr W T) (rhs : EMExpr W U) : Proc W (EMExpr W (T × U)) := do
  Proc.ofRes (assertEq self.numRows rhs.numRows)
  Proc.ofRes (assertEq self.numCols rhs.numCols)
  pure (eMakeMatrixExpr self.numRows self.numCols (fun row col => do
    let x ← self.entry row col
    let y ← rhs.entry row col
    pure (x, y)))

/-- src/linalg/dmatrix.rs:256-277 `struct AddExpr` and its `MatrixExpr` impl (default `eval`). -/
def addExpr [RAdd T U V] (lhs : EMExpr W T) (rhs : EMExpr W U) : EMExpr W V :=
  let entry := fun row col => do
    let x ← lhs.entry row col
    let y ← rhs.entry row col
    Proc.ofRes (RAdd.add x y)
  ⟨lhs.numRows, lhs.numCols, entry, defaultEval lhs.numRows lhs.numCols entry⟩

/-- src/linalg/dmatrix.rs:240-244 `Add<Rhs> for MatrixExprWrapper<Lhs>`. -/
def add [RAdd T U V] (self : EMExpr W T) (rhs : EMExpr W U) : Proc W (EMExpr W V) := do
  Proc.ofRes (assertEq self.numRows rhs.numRows)
  Proc.ofRes (assertEq self.numCols rhs.numCols)
  pure (addExpr self rhs)

/-- src/linalg/dmatrix.rs:303-324 `struct SubExpr` and its `MatrixExpr` impl (default `eval`). -/
def subExpr [RSub T U V] (lhs : EMExpr W T) (rhs : EMExpr W U) : EMExpr W V :=
  let entry := fun row col => do
    let x ← lhs.entry row col
    let y ← rhs.entry row col
    Proc.ofRes (RSub.sub x y)
  ⟨lhs.numRows, lhs.numCols, entry, defaultEval lhs.numRows lhs.numCols entry⟩

/-- src/linalg/dmatrix.rs:287-291 `Sub<Rhs> for MatrixExprWrapper<Lhs>`. -/
def sub [RSub T U V] (self : EMExpr W T) (rhs : EMExpr W U) : Proc W (EMExpr W V) := do
  Proc.ofRes (assertEq self.numRows rhs.numRows)
  Proc.ofRes (assertEq self.numCols rhs.numCols)
  pure (subExpr self rhs)

/-- src/linalg/dmatrix.rs:351-359 `MatrixExprWrapper::mul_elemwise`. -/
def mulElemwise [RMul T U V] (self : EMExpr W T) (rhs : EMExpr W U) : Proc W (EMExpr W V) := do
  let z ← self.zip rhs
  pure (z.map (fun xy => Proc.ofRes (RMul.mul xy.1 xy.2)))

/-- src/linalg/dmatrix.rs:396-404 `MatrixExprWrapper::div_elemwise`. -/
def divElemwise [RDiv T U V] (self : EMExpr W T) (rhs : EMExpr W U) : Proc W (EMExpr W V) := do
  let z ← self.zip rhs
  pure (z.map (fun xy => Proc.ofRes (RDiv.div xy.1 xy.2)))

/-- src/linalg/dmatrix.rs:425-429 `MatrixExprWrapper::t`. -/
def t (self : EMExpr W T) : EMExpr W T :=
  eMakeMatrixExpr self.numCols self.numRows (fun r c => self.entry c r)

/-- src/linalg/dmatrix.rs:451-455 `MatrixExprWrapper::h`. -/
def h [RConj T] (self : EMExpr W T) : EMExpr W T :=
  eMakeMatrixExpr self.numCols self.numRows (fun r c => do
    let x ← self.entry c r
    Proc.ofRes (RConj.conj x))

/-- src/linalg/dmatrix.rs:502-506 `MatrixExprWrapper::diag`. -/
def diag (self : EMExpr W T) : EVExpr W T :=
  eMakeVectorExpr (min self.numRows self.numCols) (fun index => self.entry index index)

end EMExpr

/-! ## Compound assignment -/

/-- A mutation of `σ` (which may panic and leave `σ` in some state) that also changes the world. -/
abbrev EUpd (W σ : Type) := W → Upd σ × W

/-- `for i in l { body(i, &mut s) }` -/
def eForEach {ι σ : Type} : List ι → (ι → σ → EUpd W σ) → σ → EUpd W σ
  | [], _, s => fun w => (.done s, w)
  | i :: l, f, s => fun w =>
    match f i s w with
    | (⟨s', none⟩, w') => eForEach l f s' w'
    | (⟨s', some e⟩, w') => (⟨s', some e⟩, w')

/-- `v[i] op= operand`, the place first (bounds check), then the operand, then the operator. -/
def eUpdAt (l : List T) (i : ℕ) (operand : Proc W U) (op : T → U → Upd T) : EUpd W (List T) := fun w =>
  match l[i]? with
  | none => (⟨l, some .indexOutOfBounds⟩, w)
  | some x =>
    match operand w with
    | (.ok y, w') => ((op x y).into (fun z => l.set i z), w')
    | (.error e, w') => (⟨l, some e⟩, w')

/-- src/linalg/dvector.rs:599-603 and 637-641 `AddAssign<Rhs>` / `SubAssign<Rhs>` for `DVector<T>`: the loop. -/
def DVector.eAssignLoop (self : DVector T) (rhs : EVExpr W U) (op : T → U → Upd T) : EUpd W (DVector T) := fun w =>
  let r := eForEach (List.range self.data.length) (fun index d => eUpdAt d index (rhs.entry index) op) self.data w
  (r.1.into DVector.mk, r.2)

/-- src/linalg/dvector.rs:599-603 `AddAssign<Rhs> for DVector<T>`. -/
def DVector.eAddAssign [RAddAssign T U] (self : DVector T) (rhs : EVExpr W U) : EUpd W (DVector T) :=
  self.eAssignLoop rhs RAddAssign.addAssign

/-- src/linalg/dvector.rs:637-641 `SubAssign<Rhs> for DVector<T>`. -/
def DVector.eSubAssign [RSubAssign T U] (self : DVector T) (rhs : EVExpr W U) : EUpd W (DVector T) :=
  self.eAssignLoop rhs RSubAssign.subAssign

/-- src/linalg/dmatrix.rs:715-722 and 758-765 `AddAssign<Rhs>` / `SubAssign<Rhs>` for `DMatrix<T>`: the loop nest. -/
def DMatrix.eAssignLoop (p : Profile) (self : DMatrix T) (rhs : EMExpr W U) (op : T → U → Upd T) :
    EUpd W (DMatrix T) := fun w =>
  let r := eForEach (List.range self.numRows) (fun row d =>
    eForEach (List.range self.numCols) (fun col d => fun w =>
      match DMatrix.flatIndex p self.numCols row col with
      | .ok i => eUpdAt d i (rhs.entry row col) op w
      | .error e => (⟨d, some e⟩, w)) d) self.data w
  (r.1.into (fun d => { self with data := d }), r.2)

/-- src/linalg/dmatrix.rs:715-722 `AddAssign<Rhs> for DMatrix<T>`. -/
def DMatrix.eAddAssign [RAddAssign T U] (p : Profile) (self : DMatrix T) (rhs : EMExpr W U) : EUpd W (DMatrix T) :=
  self.eAssignLoop p rhs RAddAssign.addAssign

/-- src/linalg/dmatrix.rs:758-765 `SubAssign<Rhs> for DMatrix<T>`. -/
def DMatrix.eSubAssign [RSubAssign T U] (p : Profile) (self : DMatrix T) (rhs : EMExpr W U) : EUpd W (DMatrix T) :=
  self.eAssignLoop p rhs RSubAssign.subAssign

end Magnesia
