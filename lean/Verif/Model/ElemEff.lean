import Verif.Model.DynEff
import Verif.Model.Polynomial
import Verif.Model.Complex
import Verif.Model.SMatrix

/-!
# Model of the arithmetic of the crate over element types whose operators have effects

The other models take the operators of the element type to be functions that may panic. An element type of Rust may do more: count
operations, write a log, record an expression on a tape (as in automatic differentiation), draw random numbers, allocate from a pool. Here
every operator of the element type - including `zero()`, `one()` and `clone()` - is a computation in a mutable world `W`, and the functions
of the crate are modelled once more with the order of the calls that Rust prescribes. `Props/ElemEff.lean` relates the two models.
-/

namespace Magnesia

variable {W T σ τ ι α : Type}

/-- The operators of an element type with effects. By-reference operators: `AddAssign<&T>`, `SubAssign<&T>`, `MulRefs` (super traits of
`Ring`, src/algebra/ring.rs:109-120); by value: `Add`, `Sub`, `Mul`, `AddAssign`, `SubAssign` (used by `Complex` and the dynamic types). -/
structure EOps (W T : Type) where
  zero : Proc W T
  one : Proc W T
  clone : T → Proc W T
  addAssign : T → T → EUpd W T
  subAssign : T → T → EUpd W T
  mulRefs : T → T → Proc W T
  neg : T → Proc W T
  conj : T → Proc W T
  add : T → T → Proc W T
  sub : T → T → Proc W T
  mul : T → T → Proc W T
  addAssignV : T → T → EUpd W T
  subAssignV : T → T → EUpd W T

namespace EUpd

/-- Nothing happens. -/
def done (s : σ) : EUpd W σ := fun w => (.done s, w)

/-- The mutated object is an owned local variable (dropped by a panic). -/
def toProc (u : EUpd W σ) : Proc W σ := fun w => ((u w).1.toRes, (u w).2)

/-- `*self = <expression>`: if the expression panics, `self` is unchanged. -/
def ofProc (old : σ) (x : Proc W σ) : EUpd W σ := fun w => (Upd.ofRes old (x w).1, (x w).2)

/-- Embed the mutation of a component into the mutation of the whole. -/
def into (u : EUpd W σ) (f : σ → τ) : EUpd W τ := fun w => ((u w).1.into f, (u w).2)

/-- Sequencing `a; b` of two mutations. -/
def andThen (u : EUpd W σ) (f : σ → EUpd W σ) : EUpd W σ := fun w =>
  match u w with
  | (⟨s, none⟩, w') => f s w'
  | (⟨s, some e⟩, w') => (⟨s, some e⟩, w')

/-- Evaluate an operand and pass it to a mutation; if the operand panics, the state `old` is unchanged. -/
def withProc (x : Proc W α) (old : σ) (k : α → EUpd W σ) : EUpd W σ := fun w =>
  match x w with
  | (.ok y, w') => k y w'
  | (.error e, w') => (⟨old, some e⟩, w')

/-- `f(&mut v[i])` for a slice or `Vec`. -/
def updAt (l : List T) (i : ℕ) (f : T → EUpd W T) : EUpd W (List T) :=
  match l[i]? with
  | some x => (f x).into (fun y => l.set i y)
  | none => fun w => (⟨l, some .indexOutOfBounds⟩, w)

/-- `f(&mut a[i])` for an array. -/
def arrUpd {n : ℕ} (v : Fin n → T) (i : Fin n) (f : T → EUpd W T) : EUpd W (Fin n → T) :=
  (f (v i)).into (fun y => Function.update v i y)

end EUpd

namespace EOps

/-- `for x in l { y = body(y, x) }` for an owned local `y`. -/
def eFold (f : σ → ι → Proc W σ) : List ι → σ → Proc W σ
  | [], s => pure s
  | i :: l, s => do
    let s' ← f s i
    eFold f l s'

variable (o : EOps W T)

/-! ## src/algebra/polynomial.rs -/

/-- src/algebra/polynomial.rs:49-56 and 67-69 `Polynomial::eval_ref` and `eval`. -/
def polyEval (p : Poly T) (x : T) : Proc W T := do
  let y ← o.zero
  eFold (fun y a => do
    let y' ← o.mulRefs y x
    (o.addAssign y' a).toProc) p.a.reverse y

/-- src/algebra/polynomial.rs:103-106: the loop of `Add`. -/
def polyAddLoop (p q : Poly T) : Proc W (Poly T) :=
  ((eForEach q.a.zipIdx (fun xi a => EUpd.updAt a xi.2 (fun y => o.addAssign y xi.1)) p.a).into Poly.mk).toProc

/-- src/algebra/polynomial.rs:96-109 `Add for Polynomial<T>` (the recursive call, which happens at most once, is unfolded). -/
def polyAdd (p q : Poly T) : Proc W (Poly T) :=
  if p.a.length < q.a.length then o.polyAddLoop q p else o.polyAddLoop p q

/-- src/algebra/polynomial.rs:119-133 `AddAssign for Polynomial<T>`. -/
def polyAddAssignV (p q : Poly T) : EUpd W (Poly T) :=
  (eForEach q.a.zipIdx (fun xi a =>
    if xi.2 < p.a.length then EUpd.updAt a xi.2 (fun y => o.addAssign y xi.1) else EUpd.done (a ++ [xi.1])) p.a).into Poly.mk

/-- `Vec::resize_with(n, || T::zero())` for `n` at least the length (polynomial.rs:146, 195): elements are pushed one by one. -/
def resizeZero (l : List T) (n : ℕ) : EUpd W (List T) :=
  eForEach (List.range (n - l.length)) (fun _ l => EUpd.withProc o.zero l (fun x => EUpd.done (l ++ [x]))) l

/-- src/algebra/polynomial.rs:143-152 and 192-201: `AddAssign<&Self>` and `SubAssign<&Self>` for `Polynomial<T>`. -/
def polyAssignRef (op : T → T → EUpd W T) (p q : Poly T) : EUpd W (Poly T) :=
  ((if p.a.length < q.a.length then o.resizeZero p.a q.a.length else EUpd.done p.a).andThen (fun a =>
    eForEach (List.range q.a.length) (fun i a =>
      EUpd.updAt a i (fun y => EUpd.withProc (Proc.ofRes (getIdx q.a i)) y (fun x => op y x))) a)).into Poly.mk

/-- src/algebra/polynomial.rs:143-152 `AddAssign<&Self> for Polynomial<T>`. -/
def polyAddAssignRef (p q : Poly T) : EUpd W (Poly T) := o.polyAssignRef o.addAssign p q

/-- src/algebra/polynomial.rs:192-201 `SubAssign<&Self> for Polynomial<T>`. -/
def polySubAssignRef (p q : Poly T) : EUpd W (Poly T) := o.polyAssignRef o.subAssign p q

/-- src/algebra/polynomial.rs:273-281 `Neg for Polynomial<T>`. -/
def polyNeg (p : Poly T) : Proc W (Poly T) := do
  let a ← collect p.a o.neg
  pure ⟨a⟩

/-- src/algebra/polynomial.rs:162-168 `Sub for Polynomial<T>`. -/
def polySub (p q : Poly T) : Proc W (Poly T) := do
  let n ← o.polyNeg q
  o.polyAdd p n

/-- src/algebra/polynomial.rs:178-182 `SubAssign for Polynomial<T>`. -/
def polySubAssignV (p q : Poly T) : EUpd W (Poly T) :=
  EUpd.withProc (o.polyNeg q) p (fun n => o.polyAddAssignV p n)

/-- `vec![T::zero(); n + 1]`: one call of `zero`, `n` calls of `clone`; the original comes last. -/
def vecZero (n : ℕ) : Proc W (List T) := do
  let z ← o.zero
  let l ← collect (List.range n) (fun _ => o.clone z)
  pure (l ++ [z])

/-- src/algebra/polynomial.rs:245-261 `Mul for &Polynomial<T>`; also `Mul` (211-217) and, via `MulRefs`, products of coefficients. -/
def polyMul (p q : Poly T) : Proc W (Poly T) :=
  if p.a.isEmpty || q.a.isEmpty then pure ⟨[]⟩
  else do
    let a ← o.vecZero (p.a.length + q.a.length - 1 - 1)
    ((eForEach (List.range p.a.length) (fun i a =>
      eForEach (List.range q.a.length) (fun j a =>
        EUpd.withProc (do
            let x ← Proc.ofRes (getIdx p.a i)
            let y ← Proc.ofRes (getIdx q.a j)
            o.mulRefs x y) a
          (fun prod => EUpd.updAt a (i + j) (fun y => o.addAssign y prod))) a) a).into Poly.fromCoefficients).toProc

/-! ## src/algebra/complex.rs -/

/-- src/algebra/complex.rs:59-64 `Complex::sqr_norm`. -/
def sqrNorm (z : Complex T) : Proc W T := do
  let p1 ← o.mulRefs z.re z.re
  let p2 ← o.mulRefs z.im z.im
  (o.addAssign p1 p2).toProc

/-- Two field updates in order (complex.rs:172-177, 187-195, 221-226, 236-244). -/
def complexAssign (op : T → T → EUpd W T) (z w : Complex T) : EUpd W (Complex T) :=
  ((op z.re w.re).into (fun re => { z with re := re })).andThen fun z =>
    (op z.im w.im).into (fun im => { z with im := im })

/-- src/algebra/complex.rs:298-313 `Mul<&Complex<T>> for &Complex<T>` (also 254-263, 283-289). -/
def complexMul (z w : Complex T) : Proc W (Complex T) := do
  let p1 ← o.mulRefs z.re w.re
  let p2 ← o.mulRefs z.re w.im
  let p3 ← o.mulRefs z.im w.re
  let p4 ← o.mulRefs z.im w.im
  let p1 ← (o.subAssign p1 p4).toProc
  let p2 ← (o.addAssign p2 p3).toProc
  pure ⟨p1, p2⟩

/-- src/algebra/complex.rs:272-281 `Mul<T> for Complex<T>`. -/
def complexMulScalar (z : Complex T) (x : T) : Proc W (Complex T) := do
  let re ← o.mulRefs z.re x
  let im ← o.mulRefs z.im x
  pure ⟨re, im⟩

/-- src/algebra/complex.rs:323-339 `Div<Self> for &Complex<T>` (also 351-360); `div` is the element type's `DivRefs`. -/
def complexDiv (div : T → T → Proc W T) (z w : Complex T) : Proc W (Complex T) := do
  let i ← o.one
  let n ← o.sqrNorm w
  let rcp ← div i n
  let p1 ← o.mulRefs z.re w.re
  let p2 ← o.mulRefs z.im w.re
  let p3 ← o.mulRefs z.re w.im
  let p4 ← o.mulRefs z.im w.im
  let p1 ← (o.addAssign p1 p4).toProc
  let p2 ← (o.subAssign p2 p3).toProc
  let re ← o.mulRefs p1 rcp
  let im ← o.mulRefs p2 rcp
  pure ⟨re, im⟩

/-- Apply one operation to the real parts, then one to the imaginary parts. -/
def complexBoth (f g : Proc W T) : Proc W (Complex T) := do
  let re ← f
  let im ← g
  pure ⟨re, im⟩

/-- The operators of `Complex<T>`: src/algebra/complex.rs:6 (`derive(Clone)`), 41-43, 130-134, 143-147, 156-162, 172-177, 187-195, 205-211,
221-226, 236-244, 254-263, 298-313, 421-427. -/
def complex : EOps W (Complex T) where
  zero := complexBoth o.zero o.zero
  one := complexBoth o.one o.zero
  clone z := complexBoth (o.clone z.re) (o.clone z.im)
  addAssign := complexAssign o.addAssign
  subAssign := complexAssign o.subAssign
  mulRefs := o.complexMul
  neg z := complexBoth (o.neg z.re) (o.neg z.im)
  conj z := complexBoth (pure z.re) (o.neg z.im)
  add z w := complexBoth (o.add z.re w.re) (o.add z.im w.im)
  sub z w := complexBoth (o.sub z.re w.re) (o.sub z.im w.im)
  mul := o.complexMul
  addAssignV := complexAssign o.addAssignV
  subAssignV := complexAssign o.subAssignV

/-! ## src/linalg/svector.rs and src/linalg/smatrix.rs -/

/-- The inner loop of src/linalg/svector.rs:242-249, src/linalg/smatrix.rs:276-281 and 374-378. -/
def dotLoop (l : List ι) (u v : ι → T) : Proc W T := do
  let sum ← o.zero
  eFold (fun sum i => do
    let prod ← o.mulRefs (u i) (v i)
    (o.addAssign sum prod).toProc) l sum

/-- src/linalg/svector.rs:220-222, 242-249 `Mul<Self>` and `Mul<&Self>` for `SVector`. -/
def svectorDot {n : ℕ} (u v : SVector T n) : Proc W T := o.dotLoop (List.finRange n) u.val v.val

/-- src/linalg/svector.rs:113-117 and 197-201 `AddAssign<&Self>` and `SubAssign<&Self>` (and the operators that call them). -/
def svectorAssign {n : ℕ} (op : T → T → EUpd W T) (u v : SVector T n) : EUpd W (SVector T n) :=
  (eForEach (List.finRange n) (fun i a => EUpd.arrUpd a i (fun s => op s (v.val i))) u.val).into SVector.mk

/-- src/linalg/svector.rs:324-329 `MulAssign<&T> for SVector` (and the operators that call it). -/
def svectorMulAssign {n : ℕ} (u : SVector T n) (x : T) : EUpd W (SVector T n) :=
  (eForEach (List.finRange n) (fun i a => EUpd.arrUpd a i (fun s => EUpd.ofProc s (o.mulRefs s x))) u.val).into SVector.mk

/-- src/linalg/smatrix.rs:158-164 and 246-252 `AddAssign<&Self>` and `SubAssign<&Self>`. -/
def smatrixAssign {r c : ℕ} (op : T → T → EUpd W T) (a b : SMatrix T r c) : EUpd W (SMatrix T r c) :=
  (eForEach (List.finRange r) (fun i a => EUpd.arrUpd a i (fun lo =>
    eForEach (List.finRange c) (fun j lo => EUpd.arrUpd lo j (fun li => op li (b.val i j))) lo)) a.val).into SMatrix.mk

/-- `self.0.map(|row| row.map(f))` and `[(); R].map(|_| [(); C].map(f))`: row by row. -/
def smatrixMap {r c : ℕ} (f : Fin r → Fin c → Proc W T) : Proc W (SMatrix T r c) := do
  let a ← fromFnM r (fun i => fromFnM c (fun j => f i j))
  pure ⟨a⟩

/-- src/linalg/smatrix.rs:272-288 `Mul<&SMatrix<T, M, N>> for &SMatrix<T, L, M>` (the counters `l` and `n` number the calls of the
closures; the indices are in range). -/
def smatrixMul {l m n : ℕ} (a : SMatrix T l m) (b : SMatrix T m n) : Proc W (SMatrix T l n) :=
  smatrixMap (fun i k => o.dotLoop (List.finRange m) (fun j => a.val i j) (fun j => b.val j k))

/-- src/linalg/smatrix.rs:371-382 `Mul<&SVector<T, N>> for &SMatrix<T, M, N>`. -/
def smatrixMulVec {m n : ℕ} (a : SMatrix T m n) (v : SVector T n) : Proc W (SVector T m) := do
  let w ← fromFnM m (fun i => o.dotLoop (List.finRange n) (fun j => a.val i j) v.val)
  pure (SVector.fromArray w)

/-- The operators of square matrices: src/linalg/smatrix.rs:15 (`derive(Clone)`), 31-33, 49-61, 95-98, 138-140, 158-164, 183-186, 226-228,
246-252, 272-288, 307-309, 394-396, 401-405. -/
def smatrix (n : ℕ) : EOps W (SMatrix T n n) where
  zero := smatrixMap (fun _ _ => o.zero)
  one := smatrixMap (fun i j => if i = j then o.one else o.zero)
  clone a := smatrixMap (fun i j => o.clone (a.val i j))
  addAssign := smatrixAssign o.addAssign
  subAssign := smatrixAssign o.subAssign
  mulRefs := o.smatrixMul
  neg a := smatrixMap (fun i j => o.neg (a.val i j))
  conj a := smatrixMap (fun i j => o.conj (a.val i j))
  add a b := (smatrixAssign o.addAssign a b).toProc
  sub a b := (smatrixAssign o.subAssign a b).toProc
  mul := o.smatrixMul
  addAssignV := smatrixAssign o.addAssign
  subAssignV := smatrixAssign o.subAssign

/-! ## src/linalg/dvector.rs and src/linalg/dmatrix.rs -/

/-- src/linalg/dvector.rs:657-659, 676-682 `Mul for DVector<T>` and `&DVector<T>`: `zero()` is evaluated before the lazy iterator chain
runs; for each pair of entries the left one is cloned and conjugated before the right one is cloned. -/
def dvectorDot (u v : DVector T) : Proc W T := do
  let acc ← o.zero
  eFold (fun acc (lr : T × T) => do
    let l ← o.clone lr.1
    let l ← o.conj l
    let r ← o.clone lr.2
    let prod ← o.mul l r
    o.add acc prod) (List.zip u.data v.data) acc

/-- src/linalg/dmatrix.rs:529-531, 552-554 `MatrixExpr::entry` for `DMatrix<T>` and `&DMatrix<T>`. -/
def dmatrixEntry (p : Profile) (a : DMatrix T) (row col : ℕ) : Proc W T := do
  let x ← Proc.ofRes (a.entry p row col)
  o.clone x

/-- src/linalg/dmatrix.rs:793-799 `MulDMatrix::entry`. -/
def dmatrixMulEntry (p : Profile) (a b : DMatrix T) (row col : ℕ) : Proc W T := do
  let x ← o.dmatrixEntry p a row 0
  let y ← o.dmatrixEntry p b 0 col
  let sum ← o.mul x y
  eFold (fun sum i => do
    let x ← o.dmatrixEntry p a row i
    let y ← o.dmatrixEntry p b i col
    let prod ← o.mul x y
    (o.addAssignV sum prod).toProc) (List.range' 1 (a.numCols - 1)) sum

/-- src/linalg/dmatrix.rs:817-821 and 22-32: `(&a * &b).eval()`. -/
def dmatrixMulEval (p : Profile) (a b : DMatrix T) : Proc W (DMatrix T) := do
  Proc.ofRes (assertEq a.numCols b.numRows)
  EMExpr.defaultEval a.numRows b.numCols (o.dmatrixMulEntry p a b)

end EOps

end Magnesia
