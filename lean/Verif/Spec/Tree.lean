import Verif.Spec.Dyn

/-!
# Expression trees over the public API of dynamic vectors and matrices

`Tree k T` is any nesting of the public combinators. `Tree.build` runs the corresponding API calls of the model.
`Tree.rows`, `Tree.cols`, `Tree.entry` say, by recursion on the tree and without reference to the implementation, what
ordinary linear algebra gives: the shape and the value of each entry. In this specification an intermediate
`eval()` changes nothing.
-/

namespace Magnesia

open RZero ROne

/-- Vector or matrix. -/
inductive Kind | vec | mat

/-- The kind of Rust value a tree constructs. -/
def Kind.Obj : Kind → Type → Type
  | .vec, T => VExpr T
  | .mat, T => MExpr T

inductive Tree : Kind → Type → Type 1
  /-- an evaluated vector, by value or by reference -/
  | dvector {T} (v : DVector T) : Tree .vec T
  /-- `&[T]` or `[T; N]` -/
  | slice {T} (s : List T) : Tree .vec T
  | makeV {T} (len : ℕ) (f : ℕ → Res T) : Tree .vec T
  | zerosV {T} [RZero T] (len : ℕ) : Tree .vec T
  | onesV {T} [ROne T] (len : ℕ) : Tree .vec T
  | sameV {T} (len : ℕ) (x : T) : Tree .vec T
  /-- `e.eval()` used as an operand again -/
  | evalV {T} (e : Tree .vec T) : Tree .vec T
  | mapV {T U} (e : Tree .vec T) (f : T → Res U) : Tree .vec U
  | zipV {T U} (a : Tree .vec T) (b : Tree .vec U) : Tree .vec (T × U)
  | addV {T U V} [RAdd T U V] (a : Tree .vec T) (b : Tree .vec U) : Tree .vec V
  | subV {T U V} [RSub T U V] (a : Tree .vec T) (b : Tree .vec U) : Tree .vec V
  | mulV {T U V} [RMul T U V] (a : Tree .vec T) (b : Tree .vec U) : Tree .vec V
  | divV {T U V} [RDiv T U V] (a : Tree .vec T) (b : Tree .vec U) : Tree .vec V
  | conjV {T} [RConj T] (e : Tree .vec T) : Tree .vec T
  /-- `m.diag()` -/
  | diagOf {T} (m : Tree .mat T) : Tree .vec T
  /-- an evaluated matrix with the given entries, by value or by reference -/
  | dmatrix {T} {r c : ℕ} (a : Fin r → Fin c → T) : Tree .mat T
  /-- `[[T; C]; R]` -/
  | array {T} {r c : ℕ} (a : Fin r → Fin c → T) : Tree .mat T
  | makeM {T} (r c : ℕ) (f : ℕ → ℕ → Res T) : Tree .mat T
  | zerosM {T} [RZero T] (r c : ℕ) : Tree .mat T
  | onesM {T} [ROne T] (r c : ℕ) : Tree .mat T
  | sameM {T} (r c : ℕ) (x : T) : Tree .mat T
  | eye {T} [RZero T] [ROne T] (n : ℕ) : Tree .mat T
  /-- `e.eval()` used as an operand again -/
  | evalM {T} (e : Tree .mat T) : Tree .mat T
  | mapM {T U} (e : Tree .mat T) (f : T → Res U) : Tree .mat U
  | zipM {T U} (a : Tree .mat T) (b : Tree .mat U) : Tree .mat (T × U)
  | addM {T U V} [RAdd T U V] (a : Tree .mat T) (b : Tree .mat U) : Tree .mat V
  | subM {T U V} [RSub T U V] (a : Tree .mat T) (b : Tree .mat U) : Tree .mat V
  | mulM {T U V} [RMul T U V] (a : Tree .mat T) (b : Tree .mat U) : Tree .mat V
  | divM {T U V} [RDiv T U V] (a : Tree .mat T) (b : Tree .mat U) : Tree .mat V
  | t {T} (e : Tree .mat T) : Tree .mat T
  | h {T} [RConj T] (e : Tree .mat T) : Tree .mat T
  /-- `v.diag()` -/
  | diagM {T} [RZero T] (v : Tree .vec T) : Tree .mat T
  /-- `&a.eval() * &b.eval()` -/
  | prod {T O} [RMul T T O] [RAddAssign O O] (a b : Tree .mat T) : Tree .mat O

namespace Tree

/-! ## The API calls -/

/-- Construct the expression by calling the API. -/
def build (p : Profile) : {k : Kind} → {T : Type} → Tree k T → Res (k.Obj T)
  | _, _, dvector v => .ok v.asExpr
  | _, _, slice s => .ok (sliceExpr s)
  | _, _, makeV len f => .ok (makeVectorExpr len f)
  | _, _, zerosV len => .ok (DVector.zeros len)
  | _, _, onesV len => .ok (DVector.ones len)
  | _, _, sameV len x => .ok (DVector.same len x)
  | _, _, evalV e => do
    let e : VExpr _ ← e.build p
    let v ← e.eval
    pure v.asExpr
  | _, _, mapV e f => do
    let e : VExpr _ ← e.build p
    pure (e.map f)
  | _, _, zipV a b => do
    let a : VExpr _ ← a.build p
    let b : VExpr _ ← b.build p
    a.zip b
  | _, _, addV a b => do
    let a : VExpr _ ← a.build p
    let b : VExpr _ ← b.build p
    a.add b
  | _, _, subV a b => do
    let a : VExpr _ ← a.build p
    let b : VExpr _ ← b.build p
    a.sub b
  | _, _, mulV a b => do
    let a : VExpr _ ← a.build p
    let b : VExpr _ ← b.build p
    a.mulElemwise b
  | _, _, divV a b => do
    let a : VExpr _ ← a.build p
    let b : VExpr _ ← b.build p
    a.divElemwise b
  | _, _, conjV e => do
    let e : VExpr _ ← e.build p
    pure e.conj
  | _, _, diagOf m => do
    let m : MExpr _ ← m.build p
    pure m.diag
  | _, _, dmatrix a => .ok ((DMatrix.ofFn a).asExpr p)
  | _, _, array a => .ok (arrayExpr a)
  | _, _, makeM r c f => .ok (makeMatrixExpr r c f)
  | _, _, zerosM r c => .ok (DMatrix.zeros r c)
  | _, _, onesM r c => .ok (DMatrix.ones r c)
  | _, _, sameM r c x => .ok (DMatrix.same r c x)
  | _, _, eye n => .ok (DMatrix.eye n)
  | _, _, evalM e => do
    let e : MExpr _ ← e.build p
    let m ← e.eval
    pure (m.asExpr p)
  | _, _, mapM e f => do
    let e : MExpr _ ← e.build p
    pure (e.map f)
  | _, _, zipM a b => do
    let a : MExpr _ ← a.build p
    let b : MExpr _ ← b.build p
    a.zip b
  | _, _, addM a b => do
    let a : MExpr _ ← a.build p
    let b : MExpr _ ← b.build p
    a.add b
  | _, _, subM a b => do
    let a : MExpr _ ← a.build p
    let b : MExpr _ ← b.build p
    a.sub b
  | _, _, mulM a b => do
    let a : MExpr _ ← a.build p
    let b : MExpr _ ← b.build p
    a.mulElemwise b
  | _, _, divM a b => do
    let a : MExpr _ ← a.build p
    let b : MExpr _ ← b.build p
    a.divElemwise b
  | _, _, t e => do
    let e : MExpr _ ← e.build p
    pure e.t
  | _, _, h e => do
    let e : MExpr _ ← e.build p
    pure e.h
  | _, _, diagM v => do
    let v : VExpr _ ← v.build p
    pure v.diag
  | _, _, prod a b => do
    let a : MExpr _ ← a.build p
    let a ← a.eval
    let b : MExpr _ ← b.build p
    let b ← b.eval
    a.mul p b

/-! ## What ordinary linear algebra gives -/

/-- Number of rows and of columns; a vector counts as one column. -/
def shape : {k : Kind} → {T : Type} → Tree k T → ℕ × ℕ
  | _, _, dvector v => (v.data.length, 1)
  | _, _, slice s => (s.length, 1)
  | _, _, makeV len _ => (len, 1)
  | _, _, zerosV len => (len, 1)
  | _, _, onesV len => (len, 1)
  | _, _, sameV len _ => (len, 1)
  | _, _, evalV e => e.shape
  | _, _, mapV e _ => e.shape
  | _, _, zipV a _ => a.shape
  | _, _, addV a _ => a.shape
  | _, _, subV a _ => a.shape
  | _, _, mulV a _ => a.shape
  | _, _, divV a _ => a.shape
  | _, _, conjV e => e.shape
  | _, _, diagOf m => (min m.shape.1 m.shape.2, 1)
  | _, _, @dmatrix _ r c _ => (r, c)
  | _, _, @array _ r c _ => (r, c)
  | _, _, makeM r c _ => (r, c)
  | _, _, zerosM r c => (r, c)
  | _, _, onesM r c => (r, c)
  | _, _, sameM r c _ => (r, c)
  | _, _, eye n => (n, n)
  | _, _, evalM e => e.shape
  | _, _, mapM e _ => e.shape
  | _, _, zipM a _ => a.shape
  | _, _, addM a _ => a.shape
  | _, _, subM a _ => a.shape
  | _, _, mulM a _ => a.shape
  | _, _, divM a _ => a.shape
  | _, _, t e => (e.shape.2, e.shape.1)
  | _, _, h e => (e.shape.2, e.shape.1)
  | _, _, diagM v => (v.shape.1, v.shape.1)
  | _, _, prod a b => (a.shape.1, b.shape.2)

/-- Number of rows; for a vector its length. -/
abbrev rows {k : Kind} {T : Type} (e : Tree k T) : ℕ := e.shape.1
/-- Number of columns. -/
abbrev cols {k : Kind} {T : Type} (e : Tree k T) : ℕ := e.shape.2

/-- The sum `term 0 + term 1 + … + term (n-1)`, from left to right. The element type of a product need not have a zero,
so the empty sum has no value. -/
def sumTerms {O : Type} [RAddAssign O O] (term : ℕ → Res O) : ℕ → Res O
  | 0 => .error .indexOutOfBounds
  | 1 => term 0
  | n + 2 => do
    let s ← sumTerms term (n + 1)
    let x ← term (n + 1)
    (RAddAssign.addAssign s x).toRes

/-- The value of the entry in row `i` and column `j`; for a vector, the entry at `i`. A scalar operation may panic. -/
def entry : {k : Kind} → {T : Type} → Tree k T → ℕ → ℕ → Res T
  | _, _, dvector v, i, _ => getIdx v.data i
  | _, _, slice s, i, _ => getIdx s i
  | _, _, makeV _ f, i, _ => f i
  | _, _, zerosV _, _, _ => .ok zero
  | _, _, onesV _, _, _ => .ok one
  | _, _, sameV _ x, _, _ => .ok x
  | _, _, evalV e, i, j => e.entry i j
  | _, _, mapV e f, i, j => do f (← e.entry i j)
  | _, _, zipV a b, i, j => do pure (← a.entry i j, ← b.entry i j)
  | _, _, addV a b, i, j => do RAdd.add (← a.entry i j) (← b.entry i j)
  | _, _, subV a b, i, j => do RSub.sub (← a.entry i j) (← b.entry i j)
  | _, _, mulV a b, i, j => do RMul.mul (← a.entry i j) (← b.entry i j)
  | _, _, divV a b, i, j => do RDiv.div (← a.entry i j) (← b.entry i j)
  | _, _, conjV e, i, j => do RConj.conj (← e.entry i j)
  | _, _, diagOf m, i, _ => m.entry i i
  | _, _, dmatrix a, i, j => SMatrixEntry a i j
  | _, _, array a, i, j => SMatrixEntry a i j
  | _, _, makeM _ _ f, i, j => f i j
  | _, _, zerosM _ _, _, _ => .ok zero
  | _, _, onesM _ _, _, _ => .ok one
  | _, _, sameM _ _ x, _, _ => .ok x
  | _, _, eye _, i, j => .ok (if i = j then one else zero)
  | _, _, evalM e, i, j => e.entry i j
  | _, _, mapM e f, i, j => do f (← e.entry i j)
  | _, _, zipM a b, i, j => do pure (← a.entry i j, ← b.entry i j)
  | _, _, addM a b, i, j => do RAdd.add (← a.entry i j) (← b.entry i j)
  | _, _, subM a b, i, j => do RSub.sub (← a.entry i j) (← b.entry i j)
  | _, _, mulM a b, i, j => do RMul.mul (← a.entry i j) (← b.entry i j)
  | _, _, divM a b, i, j => do RDiv.div (← a.entry i j) (← b.entry i j)
  | _, _, t e, i, j => e.entry j i
  | _, _, h e, i, j => do RConj.conj (← e.entry j i)
  | _, _, diagM v, i, j => if i = j then v.entry i 0 else .ok zero
  | _, _, prod a b, i, j => sumTerms (fun k => do RMul.mul (← a.entry i k) (← b.entry k j)) a.cols
where
  /-- entry `i, j` of an array of arrays -/
  SMatrixEntry {T : Type} {r c : ℕ} (a : Fin r → Fin c → T) (i j : ℕ) : Res T :=
    if h : i < r ∧ j < c then .ok (a ⟨i, h.1⟩ ⟨j, h.2⟩) else .error .indexOutOfBounds

/-- All shapes of operands match. -/
def WellShaped : {k : Kind} → {T : Type} → Tree k T → Prop
  | _, _, evalV e => e.WellShaped
  | _, _, mapV e _ => e.WellShaped
  | _, _, zipV a b => a.WellShaped ∧ b.WellShaped ∧ a.shape = b.shape
  | _, _, addV a b => a.WellShaped ∧ b.WellShaped ∧ a.shape = b.shape
  | _, _, subV a b => a.WellShaped ∧ b.WellShaped ∧ a.shape = b.shape
  | _, _, mulV a b => a.WellShaped ∧ b.WellShaped ∧ a.shape = b.shape
  | _, _, divV a b => a.WellShaped ∧ b.WellShaped ∧ a.shape = b.shape
  | _, _, conjV e => e.WellShaped
  | _, _, diagOf m => m.WellShaped
  | _, _, evalM e => e.WellShaped
  | _, _, mapM e _ => e.WellShaped
  | _, _, zipM a b => a.WellShaped ∧ b.WellShaped ∧ a.shape = b.shape
  | _, _, addM a b => a.WellShaped ∧ b.WellShaped ∧ a.shape = b.shape
  | _, _, subM a b => a.WellShaped ∧ b.WellShaped ∧ a.shape = b.shape
  | _, _, mulM a b => a.WellShaped ∧ b.WellShaped ∧ a.shape = b.shape
  | _, _, divM a b => a.WellShaped ∧ b.WellShaped ∧ a.shape = b.shape
  | _, _, t e => e.WellShaped
  | _, _, h e => e.WellShaped
  | _, _, diagM v => v.WellShaped
  | _, _, prod a b => a.WellShaped ∧ b.WellShaped ∧ a.cols = b.rows
  | _, _, _ => True

/-- Every entry of the tree returns. -/
def EntriesReturn {k : Kind} {T : Type} (e : Tree k T) : Prop :=
  ∀ i < e.rows, ∀ j < e.cols, ∃ x, e.entry i j = .ok x

/-- Every intermediate `eval()` in the tree returns: the entries evaluated there do not panic. -/
def EvalsReturn : {k : Kind} → {T : Type} → Tree k T → Prop
  | _, _, evalV e => e.EvalsReturn ∧ e.EntriesReturn
  | _, _, mapV e _ => e.EvalsReturn
  | _, _, zipV a b => a.EvalsReturn ∧ b.EvalsReturn
  | _, _, addV a b => a.EvalsReturn ∧ b.EvalsReturn
  | _, _, subV a b => a.EvalsReturn ∧ b.EvalsReturn
  | _, _, mulV a b => a.EvalsReturn ∧ b.EvalsReturn
  | _, _, divV a b => a.EvalsReturn ∧ b.EvalsReturn
  | _, _, conjV e => e.EvalsReturn
  | _, _, diagOf m => m.EvalsReturn
  | _, _, evalM e => e.EvalsReturn ∧ e.EntriesReturn
  | _, _, mapM e _ => e.EvalsReturn
  | _, _, zipM a b => a.EvalsReturn ∧ b.EvalsReturn
  | _, _, addM a b => a.EvalsReturn ∧ b.EvalsReturn
  | _, _, subM a b => a.EvalsReturn ∧ b.EvalsReturn
  | _, _, mulM a b => a.EvalsReturn ∧ b.EvalsReturn
  | _, _, divM a b => a.EvalsReturn ∧ b.EvalsReturn
  | _, _, t e => e.EvalsReturn
  | _, _, h e => e.EvalsReturn
  | _, _, diagM v => v.EvalsReturn
  | _, _, prod a b => (a.EvalsReturn ∧ a.EntriesReturn) ∧ b.EvalsReturn ∧ b.EntriesReturn
  | _, _, _ => True

/-- Every evaluated matrix in the tree fits into the address space. -/
def Fits (p : Profile) : {k : Kind} → {T : Type} → Tree k T → Prop
  | _, _, evalV e => e.Fits p
  | _, _, mapV e _ => e.Fits p
  | _, _, zipV a b => a.Fits p ∧ b.Fits p
  | _, _, addV a b => a.Fits p ∧ b.Fits p
  | _, _, subV a b => a.Fits p ∧ b.Fits p
  | _, _, mulV a b => a.Fits p ∧ b.Fits p
  | _, _, divV a b => a.Fits p ∧ b.Fits p
  | _, _, conjV e => e.Fits p
  | _, _, diagOf m => m.Fits p
  | _, _, @dmatrix _ r c _ => p.Fits r c
  | _, _, evalM e => e.Fits p ∧ p.Fits e.rows e.cols
  | _, _, mapM e _ => e.Fits p
  | _, _, zipM a b => a.Fits p ∧ b.Fits p
  | _, _, addM a b => a.Fits p ∧ b.Fits p
  | _, _, subM a b => a.Fits p ∧ b.Fits p
  | _, _, mulM a b => a.Fits p ∧ b.Fits p
  | _, _, divM a b => a.Fits p ∧ b.Fits p
  | _, _, t e => e.Fits p
  | _, _, h e => e.Fits p
  | _, _, diagM v => v.Fits p
  | _, _, prod a b => (a.Fits p ∧ p.Fits a.rows a.cols) ∧ b.Fits p ∧ p.Fits b.rows b.cols
  | _, _, _ => True

end Tree
end Magnesia
