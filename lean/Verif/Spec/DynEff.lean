import Verif.Model.DynEff
import Verif.Spec.Tree

/-!
# Expressions whose closures have effects: which closure is called when

`ETree S Λ k T` is any nesting of the public combinators of dynamic vectors and matrices, in which every closure supplied by
the caller bears a label of type `Λ` and may read and change a state of type `S`. The calls are observed by the closures
themselves: `ETree.build` wraps each of them such that it first writes its label and its index arguments to a log.
`ETree.callsAt`, `ETree.evalCalls`, `ETree.buildCalls` say by recursion on the tree, without reference to the
implementation, which calls are to be expected.
-/

namespace Magnesia

open RZero ROne

/-- One call: the label of the closure, and its index arguments (none for a closure given to `map`). -/
abbrev FnCall (Λ : Type) := Λ × List ℕ

/-- The state of the closures, and the log of their calls, the latest last. -/
abbrev Obs (S Λ : Type) := S × List (FnCall Λ)

/-- The closure with body `m` writes the call `c` to the log before it does anything else. -/
def observed {S Λ T : Type} (c : FnCall Λ) (m : Proc S T) : Proc (Obs S Λ) T := fun w =>
  let r := m w.1
  (r.1, (r.2, w.2 ++ [c]))

/-- The kind of Rust value an expression with effects constructs. -/
def Kind.EObj (W : Type) : Kind → Type → Type
  | .vec, T => EVExpr W T
  | .mat, T => EMExpr W T

inductive ETree (S Λ : Type) : Kind → Type → Type 1
  /-- an evaluated vector, by value or by reference -/
  | dvector {T} (v : DVector T) : ETree S Λ .vec T
  /-- `&[T]` or `[T; N]` -/
  | slice {T} (s : List T) : ETree S Λ .vec T
  /-- `make_vector_expr(len, f)` -/
  | makeV {T} (ℓ : Λ) (len : ℕ) (f : ℕ → Proc S T) : ETree S Λ .vec T
  | zerosV {T} [RZero T] (len : ℕ) : ETree S Λ .vec T
  | onesV {T} [ROne T] (len : ℕ) : ETree S Λ .vec T
  | sameV {T} (len : ℕ) (x : T) : ETree S Λ .vec T
  /-- `e.eval()` used as an operand again -/
  | evalV {T} (e : ETree S Λ .vec T) : ETree S Λ .vec T
  /-- `e.map(f)` -/
  | mapV {T U} (ℓ : Λ) (e : ETree S Λ .vec T) (f : T → Proc S U) : ETree S Λ .vec U
  | zipV {T U} (a : ETree S Λ .vec T) (b : ETree S Λ .vec U) : ETree S Λ .vec (T × U)
  | addV {T U V} [RAdd T U V] (a : ETree S Λ .vec T) (b : ETree S Λ .vec U) : ETree S Λ .vec V
  | subV {T U V} [RSub T U V] (a : ETree S Λ .vec T) (b : ETree S Λ .vec U) : ETree S Λ .vec V
  | mulV {T U V} [RMul T U V] (a : ETree S Λ .vec T) (b : ETree S Λ .vec U) : ETree S Λ .vec V
  | divV {T U V} [RDiv T U V] (a : ETree S Λ .vec T) (b : ETree S Λ .vec U) : ETree S Λ .vec V
  | conjV {T} [RConj T] (e : ETree S Λ .vec T) : ETree S Λ .vec T
  /-- `m.diag()` -/
  | diagOf {T} (m : ETree S Λ .mat T) : ETree S Λ .vec T
  /-- an evaluated matrix with the given entries, by value or by reference -/
  | dmatrix {T} {r c : ℕ} (a : Fin r → Fin c → T) : ETree S Λ .mat T
  /-- `[[T; C]; R]` -/
  | array {T} {r c : ℕ} (a : Fin r → Fin c → T) : ETree S Λ .mat T
  /-- `make_matrix_expr(r, c, f)` -/
  | makeM {T} (ℓ : Λ) (r c : ℕ) (f : ℕ → ℕ → Proc S T) : ETree S Λ .mat T
  | zerosM {T} [RZero T] (r c : ℕ) : ETree S Λ .mat T
  | onesM {T} [ROne T] (r c : ℕ) : ETree S Λ .mat T
  | sameM {T} (r c : ℕ) (x : T) : ETree S Λ .mat T
  | eye {T} [RZero T] [ROne T] (n : ℕ) : ETree S Λ .mat T
  /-- `e.eval()` used as an operand again -/
  | evalM {T} (e : ETree S Λ .mat T) : ETree S Λ .mat T
  /-- `e.map(f)` -/
  | mapM {T U} (ℓ : Λ) (e : ETree S Λ .mat T) (f : T → Proc S U) : ETree S Λ .mat U
  | zipM {T U} (a : ETree S Λ .mat T) (b : ETree S Λ .mat U) : ETree S Λ .mat (T × U)
  | addM {T U V} [RAdd T U V] (a : ETree S Λ .mat T) (b : ETree S Λ .mat U) : ETree S Λ .mat V
  | subM {T U V} [RSub T U V] (a : ETree S Λ .mat T) (b : ETree S Λ .mat U) : ETree S Λ .mat V
  | mulM {T U V} [RMul T U V] (a : ETree S Λ .mat T) (b : ETree S Λ .mat U) : ETree S Λ .mat V
  | divM {T U V} [RDiv T U V] (a : ETree S Λ .mat T) (b : ETree S Λ .mat U) : ETree S Λ .mat V
  | t {T} (e : ETree S Λ .mat T) : ETree S Λ .mat T
  | h {T} [RConj T] (e : ETree S Λ .mat T) : ETree S Λ .mat T
  /-- `v.diag()` -/
  | diagM {T} [RZero T] (v : ETree S Λ .vec T) : ETree S Λ .mat T
  /-- `&a.eval() * &b.eval()` -/
  | prod {T O} [RMul T T O] [RAddAssign O O] (a b : ETree S Λ .mat T) : ETree S Λ .mat O

namespace ETree

variable {S Λ : Type}

/-! ## The API calls -/

/-- Construct the expression by calling the API. -/
def build (p : Profile) : {k : Kind} → {T : Type} → ETree S Λ k T → Proc (Obs S Λ) (k.EObj (Obs S Λ) T)
  | _, _, dvector v => pure (EVExpr.ofData v.asExpr)
  | _, _, slice s => pure (EVExpr.ofData (sliceExpr s))
  | _, _, makeV ℓ len f => pure (eMakeVectorExpr len (fun i => observed (ℓ, [i]) (f i)))
  | _, _, zerosV len => pure (EVExpr.ofData (DVector.zeros len))
  | _, _, onesV len => pure (EVExpr.ofData (DVector.ones len))
  | _, _, sameV len x => pure (EVExpr.ofData (DVector.same len x))
  | _, _, evalV e => do
    let e : EVExpr _ _ ← e.build p
    let v ← e.eval
    pure (EVExpr.ofData v.asExpr)
  | _, _, mapV ℓ e f => do
    let e : EVExpr _ _ ← e.build p
    pure (e.map (fun x => observed (ℓ, []) (f x)))
  | _, _, zipV a b => do
    let a : EVExpr _ _ ← a.build p
    let b : EVExpr _ _ ← b.build p
    a.zip b
  | _, _, addV a b => do
    let a : EVExpr _ _ ← a.build p
    let b : EVExpr _ _ ← b.build p
    a.add b
  | _, _, subV a b => do
    let a : EVExpr _ _ ← a.build p
    let b : EVExpr _ _ ← b.build p
    a.sub b
  | _, _, mulV a b => do
    let a : EVExpr _ _ ← a.build p
    let b : EVExpr _ _ ← b.build p
    a.mulElemwise b
  | _, _, divV a b => do
    let a : EVExpr _ _ ← a.build p
    let b : EVExpr _ _ ← b.build p
    a.divElemwise b
  | _, _, conjV e => do
    let e : EVExpr _ _ ← e.build p
    pure e.conj
  | _, _, diagOf m => do
    let m : EMExpr _ _ ← m.build p
    pure m.diag
  | _, _, dmatrix a => pure (EMExpr.ofData ((DMatrix.ofFn a).asExpr p))
  | _, _, array a => pure (EMExpr.ofData (arrayExpr a))
  | _, _, makeM ℓ r c f => pure (eMakeMatrixExpr r c (fun i j => observed (ℓ, [i, j]) (f i j)))
  | _, _, zerosM r c => pure (EMExpr.ofData (DMatrix.zeros r c))
  | _, _, onesM r c => pure (EMExpr.ofData (DMatrix.ones r c))
  | _, _, sameM r c x => pure (EMExpr.ofData (DMatrix.same r c x))
  | _, _, eye n => pure (EMExpr.ofData (DMatrix.eye n))
  | _, _, evalM e => do
    let e : EMExpr _ _ ← e.build p
    let m ← e.eval
    pure (EMExpr.ofData (m.asExpr p))
  | _, _, mapM ℓ e f => do
    let e : EMExpr _ _ ← e.build p
    pure (e.map (fun x => observed (ℓ, []) (f x)))
  | _, _, zipM a b => do
    let a : EMExpr _ _ ← a.build p
    let b : EMExpr _ _ ← b.build p
    a.zip b
  | _, _, addM a b => do
    let a : EMExpr _ _ ← a.build p
    let b : EMExpr _ _ ← b.build p
    a.add b
  | _, _, subM a b => do
    let a : EMExpr _ _ ← a.build p
    let b : EMExpr _ _ ← b.build p
    a.sub b
  | _, _, mulM a b => do
    let a : EMExpr _ _ ← a.build p
    let b : EMExpr _ _ ← b.build p
    a.mulElemwise b
  | _, _, divM a b => do
    let a : EMExpr _ _ ← a.build p
    let b : EMExpr _ _ ← b.build p
    a.divElemwise b
  | _, _, t e => do
    let e : EMExpr _ _ ← e.build p
    pure e.t
  | _, _, h e => do
    let e : EMExpr _ _ ← e.build p
    pure e.h
  | _, _, diagM v => do
    let v : EVExpr _ _ ← v.build p
    pure v.diag
  | _, _, prod a b => do
    let a : EMExpr _ _ ← a.build p
    let a ← a.eval
    let b : EMExpr _ _ ← b.build p
    let b ← b.eval
    let c ← Proc.ofRes (a.mul p b)
    pure (EMExpr.ofData c)

/-- Construct the vector expression and evaluate it: `e.eval()`. -/
def runV (p : Profile) {T : Type} (e : ETree S Λ .vec T) : Proc (Obs S Λ) (DVector T) := do
  let e : EVExpr _ _ ← e.build p
  e.eval

/-- Construct the matrix expression and evaluate it: `e.eval()`. -/
def runM (p : Profile) {T : Type} (e : ETree S Λ .mat T) : Proc (Obs S Λ) (DMatrix T) := do
  let e : EMExpr _ _ ← e.build p
  e.eval

/-! ## What is to be expected -/

/-- Number of rows and of columns; a vector counts as one column. -/
def shape : {k : Kind} → {T : Type} → ETree S Λ k T → ℕ × ℕ
  | _, _, dvector v => (v.data.length, 1)
  | _, _, slice s => (s.length, 1)
  | _, _, makeV _ len _ => (len, 1)
  | _, _, zerosV len => (len, 1)
  | _, _, onesV len => (len, 1)
  | _, _, sameV len _ => (len, 1)
  | _, _, evalV e => e.shape
  | _, _, mapV _ e _ => e.shape
  | _, _, zipV a _ => a.shape
  | _, _, addV a _ => a.shape
  | _, _, subV a _ => a.shape
  | _, _, mulV a _ => a.shape
  | _, _, divV a _ => a.shape
  | _, _, conjV e => e.shape
  | _, _, diagOf m => (min m.shape.1 m.shape.2, 1)
  | _, _, @dmatrix _ _ _ r c _ => (r, c)
  | _, _, @array _ _ _ r c _ => (r, c)
  | _, _, makeM _ r c _ => (r, c)
  | _, _, zerosM r c => (r, c)
  | _, _, onesM r c => (r, c)
  | _, _, sameM r c _ => (r, c)
  | _, _, eye n => (n, n)
  | _, _, evalM e => e.shape
  | _, _, mapM _ e _ => e.shape
  | _, _, zipM a _ => a.shape
  | _, _, addM a _ => a.shape
  | _, _, subM a _ => a.shape
  | _, _, mulM a _ => a.shape
  | _, _, divM a _ => a.shape
  | _, _, t e => (e.shape.2, e.shape.1)
  | _, _, h e => (e.shape.2, e.shape.1)
  | _, _, diagM v => (v.shape.1, v.shape.1)
  | _, _, prod a b => (a.shape.1, b.shape.2)

/-- Number of rows; for a vector its length. -/
abbrev rows {k : Kind} {T : Type} (e : ETree S Λ k T) : ℕ := e.shape.1
/-- Number of columns. -/
abbrev cols {k : Kind} {T : Type} (e : ETree S Λ k T) : ℕ := e.shape.2

/-- The calls that compute the entry in row `i` and column `j` (for a vector: the entry at `i`), in order: those of the left
operand before those of the right one, those of the operand of `map` before the call of the mapped closure. What has been
evaluated already causes no calls, neither does a zero beside the diagonal. -/
def callsAt : {k : Kind} → {T : Type} → ETree S Λ k T → ℕ → ℕ → List (FnCall Λ)
  | _, _, makeV ℓ _ _, i, _ => [(ℓ, [i])]
  | _, _, mapV ℓ e _, i, j => e.callsAt i j ++ [(ℓ, [])]
  | _, _, zipV a b, i, j => a.callsAt i j ++ b.callsAt i j
  | _, _, addV a b, i, j => a.callsAt i j ++ b.callsAt i j
  | _, _, subV a b, i, j => a.callsAt i j ++ b.callsAt i j
  | _, _, mulV a b, i, j => a.callsAt i j ++ b.callsAt i j
  | _, _, divV a b, i, j => a.callsAt i j ++ b.callsAt i j
  | _, _, conjV e, i, j => e.callsAt i j
  | _, _, diagOf m, i, _ => m.callsAt i i
  | _, _, makeM ℓ _ _ _, i, j => [(ℓ, [i, j])]
  | _, _, mapM ℓ e _, i, j => e.callsAt i j ++ [(ℓ, [])]
  | _, _, zipM a b, i, j => a.callsAt i j ++ b.callsAt i j
  | _, _, addM a b, i, j => a.callsAt i j ++ b.callsAt i j
  | _, _, subM a b, i, j => a.callsAt i j ++ b.callsAt i j
  | _, _, mulM a b, i, j => a.callsAt i j ++ b.callsAt i j
  | _, _, divM a b, i, j => a.callsAt i j ++ b.callsAt i j
  | _, _, t e, i, j => e.callsAt j i
  | _, _, h e, i, j => e.callsAt j i
  | _, _, diagM v, i, j => if i = j then v.callsAt i 0 else []
  | _, _, _, _, _ => []

/-- The calls of `r * c` entries, row after row. -/
def gridCalls {k : Kind} {T : Type} (e : ETree S Λ k T) (r c : ℕ) : List (FnCall Λ) :=
  (List.range r).flatMap (fun i => (List.range c).flatMap (fun j => e.callsAt i j))

/-- The calls of `e.eval()`: those of all entries, row after row, each entry once. -/
def evalCalls {k : Kind} {T : Type} (e : ETree S Λ k T) : List (FnCall Λ) := e.gridCalls e.rows e.cols

/-- The calls made while the expression is constructed: only an intermediate `eval()` makes any. -/
def buildCalls : {k : Kind} → {T : Type} → ETree S Λ k T → List (FnCall Λ)
  | _, _, evalV e => e.buildCalls ++ e.evalCalls
  | _, _, mapV _ e _ => e.buildCalls
  | _, _, zipV a b => a.buildCalls ++ b.buildCalls
  | _, _, addV a b => a.buildCalls ++ b.buildCalls
  | _, _, subV a b => a.buildCalls ++ b.buildCalls
  | _, _, mulV a b => a.buildCalls ++ b.buildCalls
  | _, _, divV a b => a.buildCalls ++ b.buildCalls
  | _, _, conjV e => e.buildCalls
  | _, _, diagOf m => m.buildCalls
  | _, _, evalM e => e.buildCalls ++ e.evalCalls
  | _, _, mapM _ e _ => e.buildCalls
  | _, _, zipM a b => a.buildCalls ++ b.buildCalls
  | _, _, addM a b => a.buildCalls ++ b.buildCalls
  | _, _, subM a b => a.buildCalls ++ b.buildCalls
  | _, _, mulM a b => a.buildCalls ++ b.buildCalls
  | _, _, divM a b => a.buildCalls ++ b.buildCalls
  | _, _, t e => e.buildCalls
  | _, _, h e => e.buildCalls
  | _, _, diagM v => v.buildCalls
  | _, _, prod a b => (a.buildCalls ++ a.evalCalls) ++ (b.buildCalls ++ b.evalCalls)
  | _, _, _ => []

/-- The labels of the closures given to `make_vector_expr` and `make_matrix_expr`. -/
def makeLabels : {k : Kind} → {T : Type} → ETree S Λ k T → List Λ
  | _, _, makeV ℓ _ _ => [ℓ]
  | _, _, evalV e => e.makeLabels
  | _, _, mapV _ e _ => e.makeLabels
  | _, _, zipV a b => a.makeLabels ++ b.makeLabels
  | _, _, addV a b => a.makeLabels ++ b.makeLabels
  | _, _, subV a b => a.makeLabels ++ b.makeLabels
  | _, _, mulV a b => a.makeLabels ++ b.makeLabels
  | _, _, divV a b => a.makeLabels ++ b.makeLabels
  | _, _, conjV e => e.makeLabels
  | _, _, diagOf m => m.makeLabels
  | _, _, makeM ℓ _ _ _ => [ℓ]
  | _, _, evalM e => e.makeLabels
  | _, _, mapM _ e _ => e.makeLabels
  | _, _, zipM a b => a.makeLabels ++ b.makeLabels
  | _, _, addM a b => a.makeLabels ++ b.makeLabels
  | _, _, subM a b => a.makeLabels ++ b.makeLabels
  | _, _, mulM a b => a.makeLabels ++ b.makeLabels
  | _, _, divM a b => a.makeLabels ++ b.makeLabels
  | _, _, t e => e.makeLabels
  | _, _, h e => e.makeLabels
  | _, _, diagM v => v.makeLabels
  | _, _, prod a b => a.makeLabels ++ b.makeLabels
  | _, _, _ => []

/-- No intermediate `eval()` occurs in the tree. -/
def Lazy : {k : Kind} → {T : Type} → ETree S Λ k T → Prop
  | _, _, evalV _ => False
  | _, _, mapV _ e _ => e.Lazy
  | _, _, zipV a b => a.Lazy ∧ b.Lazy
  | _, _, addV a b => a.Lazy ∧ b.Lazy
  | _, _, subV a b => a.Lazy ∧ b.Lazy
  | _, _, mulV a b => a.Lazy ∧ b.Lazy
  | _, _, divV a b => a.Lazy ∧ b.Lazy
  | _, _, conjV e => e.Lazy
  | _, _, diagOf m => m.Lazy
  | _, _, evalM _ => False
  | _, _, mapM _ e _ => e.Lazy
  | _, _, zipM a b => a.Lazy ∧ b.Lazy
  | _, _, addM a b => a.Lazy ∧ b.Lazy
  | _, _, subM a b => a.Lazy ∧ b.Lazy
  | _, _, mulM a b => a.Lazy ∧ b.Lazy
  | _, _, divM a b => a.Lazy ∧ b.Lazy
  | _, _, t e => e.Lazy
  | _, _, h e => e.Lazy
  | _, _, diagM v => v.Lazy
  | _, _, prod _ _ => False
  | _, _, _ => True

/-! ## Closures whose results do not depend on the state -/

/-- A closure that returns `x` whatever the state is, and has the effect `f` on the state. -/
def steady {S T : Type} (x : Res T) (f : S → S) : Proc S T := fun s => (x, f s)

/-- The pure expression with closures that do something on the side: a call with the index arguments `l` changes the
state by `eff l`. -/
def ofTree (eff : List ℕ → S → S) (ℓ : Λ) : {k : Kind} → {T : Type} → Tree k T → ETree S Λ k T
  | _, _, Tree.dvector v => dvector v
  | _, _, Tree.slice s => slice s
  | _, _, Tree.makeV len f => makeV ℓ len (fun i => steady (f i) (eff [i]))
  | _, _, Tree.zerosV len => zerosV len
  | _, _, Tree.onesV len => onesV len
  | _, _, Tree.sameV len x => sameV len x
  | _, _, Tree.evalV e => evalV (ofTree eff ℓ e)
  | _, _, Tree.mapV e f => mapV ℓ (ofTree eff ℓ e) (fun x => steady (f x) (eff []))
  | _, _, Tree.zipV a b => zipV (ofTree eff ℓ a) (ofTree eff ℓ b)
  | _, _, Tree.addV a b => addV (ofTree eff ℓ a) (ofTree eff ℓ b)
  | _, _, Tree.subV a b => subV (ofTree eff ℓ a) (ofTree eff ℓ b)
  | _, _, Tree.mulV a b => mulV (ofTree eff ℓ a) (ofTree eff ℓ b)
  | _, _, Tree.divV a b => divV (ofTree eff ℓ a) (ofTree eff ℓ b)
  | _, _, Tree.conjV e => conjV (ofTree eff ℓ e)
  | _, _, Tree.diagOf m => diagOf (ofTree eff ℓ m)
  | _, _, Tree.dmatrix a => dmatrix a
  | _, _, Tree.array a => array a
  | _, _, Tree.makeM r c f => makeM ℓ r c (fun i j => steady (f i j) (eff [i, j]))
  | _, _, Tree.zerosM r c => zerosM r c
  | _, _, Tree.onesM r c => onesM r c
  | _, _, Tree.sameM r c x => sameM r c x
  | _, _, Tree.eye n => eye n
  | _, _, Tree.evalM e => evalM (ofTree eff ℓ e)
  | _, _, Tree.mapM e f => mapM ℓ (ofTree eff ℓ e) (fun x => steady (f x) (eff []))
  | _, _, Tree.zipM a b => zipM (ofTree eff ℓ a) (ofTree eff ℓ b)
  | _, _, Tree.addM a b => addM (ofTree eff ℓ a) (ofTree eff ℓ b)
  | _, _, Tree.subM a b => subM (ofTree eff ℓ a) (ofTree eff ℓ b)
  | _, _, Tree.mulM a b => mulM (ofTree eff ℓ a) (ofTree eff ℓ b)
  | _, _, Tree.divM a b => divM (ofTree eff ℓ a) (ofTree eff ℓ b)
  | _, _, Tree.t e => t (ofTree eff ℓ e)
  | _, _, Tree.h e => h (ofTree eff ℓ e)
  | _, _, Tree.diagM v => diagM (ofTree eff ℓ v)
  | _, _, Tree.prod a b => prod (ofTree eff ℓ a) (ofTree eff ℓ b)

end ETree
end Magnesia
