import Verif.Spec.Tree
import Verif.Spec.Basic
import Mathlib.LinearAlgebra.Matrix.Hadamard
import Mathlib.Data.Matrix.Diagonal
import Mathlib.Data.Matrix.Mul

/-!
# Linear algebra formulas over dynamic vectors and matrices

`Form T k r c` is a formula of linear algebra with the shape in its type: sums, differences, entry-wise products, matrix
products, (Hermitian) transposes, diagonals, the identity matrix and so on of given vectors and matrices with entries of
type `T`. It has two readings:

* `Form.tree` is the corresponding nesting of calls of the API of the crate (`Spec/Tree.lean`), `Form.runV` and
  `Form.runM` build it and call `eval()`;
* `Form.den φ σ` is the textbook meaning: the matrix over a ring `R` obtained with Mathlib's matrix operations, if an
  element `x` stands for `φ x` and conjugation is `σ`. A vector is a matrix with one column.
-/

namespace Magnesia

open RZero ROne

variable {T R : Type}

inductive Form (T : Type) : Kind → ℕ → ℕ → Type
  /-- a `DVector` with the given entries -/
  | vec {n : ℕ} (f : Fin n → T) : Form T .vec n 1
  /-- a `DMatrix` with the given entries -/
  | mat {r c : ℕ} (f : Fin r → Fin c → T) : Form T .mat r c
  /-- `DVector::zeros` -/
  | zerosV (n : ℕ) : Form T .vec n 1
  /-- `DVector::ones` -/
  | onesV (n : ℕ) : Form T .vec n 1
  /-- `DMatrix::zeros` -/
  | zerosM (r c : ℕ) : Form T .mat r c
  /-- `DMatrix::ones` -/
  | onesM (r c : ℕ) : Form T .mat r c
  /-- `DMatrix::eye` -/
  | eye (n : ℕ) : Form T .mat n n
  /-- `a + b` -/
  | add {k : Kind} {r c : ℕ} (a b : Form T k r c) : Form T k r c
  /-- `a - b` -/
  | sub {k : Kind} {r c : ℕ} (a b : Form T k r c) : Form T k r c
  /-- `a.mul_elemwise(b)` -/
  | elem {k : Kind} {r c : ℕ} (a b : Form T k r c) : Form T k r c
  /-- `a.eval()` as an operand -/
  | eval {k : Kind} {r c : ℕ} (a : Form T k r c) : Form T k r c
  /-- `v.conj()` -/
  | conj {n : ℕ} (v : Form T .vec n 1) : Form T .vec n 1
  /-- `m.diag()` -/
  | diagOf {r c : ℕ} (m : Form T .mat r c) : Form T .vec (min r c) 1
  /-- `v.diag()` -/
  | diag {n : ℕ} (v : Form T .vec n 1) : Form T .mat n n
  /-- `m.t()` -/
  | t {r c : ℕ} (m : Form T .mat r c) : Form T .mat c r
  /-- `m.h()` -/
  | h {r c : ℕ} (m : Form T .mat r c) : Form T .mat c r
  /-- `&a.eval() * &b.eval()` -/
  | prod {l m n : ℕ} (a : Form T .mat l m) (b : Form T .mat m n) : Form T .mat l n

namespace Form

instance {k : Kind} {r c : ℕ} : Add (Form T k r c) := ⟨add⟩
instance {k : Kind} {r c : ℕ} : Sub (Form T k r c) := ⟨sub⟩
instance {l m n : ℕ} : HMul (Form T .mat l m) (Form T .mat m n) (Form T .mat l n) := ⟨prod⟩

/-- The nesting of API calls. -/
def tree [RZero T] [ROne T] [RAdd T T T] [RSub T T T] [RMul T T T] [RAddAssign T T] [RConj T] :
    {k : Kind} → {r c : ℕ} → Form T k r c → Tree k T
  | _, _, _, vec f => .dvector (DVector.ofFn f)
  | _, _, _, mat f => .dmatrix f
  | _, _, _, zerosV n => .zerosV n
  | _, _, _, onesV n => .onesV n
  | _, _, _, zerosM r c => .zerosM r c
  | _, _, _, onesM r c => .onesM r c
  | _, _, _, eye n => .eye n
  | .vec, _, _, add a b => .addV a.tree b.tree
  | .mat, _, _, add a b => .addM a.tree b.tree
  | .vec, _, _, sub a b => .subV a.tree b.tree
  | .mat, _, _, sub a b => .subM a.tree b.tree
  | .vec, _, _, elem a b => .mulV a.tree b.tree
  | .mat, _, _, elem a b => .mulM a.tree b.tree
  | .vec, _, _, eval a => .evalV a.tree
  | .mat, _, _, eval a => .evalM a.tree
  | _, _, _, conj v => .conjV v.tree
  | _, _, _, diagOf m => .diagOf m.tree
  | _, _, _, diag v => .diagM v.tree
  | _, _, _, t m => .t m.tree
  | _, _, _, h m => .h m.tree
  | _, _, _, prod a b => .prod a.tree b.tree

/-- Build a vector formula through the API and evaluate it. -/
def runV [RZero T] [ROne T] [RAdd T T T] [RSub T T T] [RMul T T T] [RAddAssign T T] [RConj T] {n : ℕ}
    (p : Profile) (e : Form T .vec n 1) : Res (DVector T) := do
  let o : VExpr T ← e.tree.build p
  o.eval

/-- Build a matrix formula through the API and evaluate it. -/
def runM [RZero T] [ROne T] [RAdd T T T] [RSub T T T] [RMul T T T] [RAddAssign T T] [RConj T] {r c : ℕ}
    (p : Profile) (e : Form T .mat r c) : Res (DMatrix T) := do
  let o : MExpr T ← e.tree.build p
  o.eval

/-- Every evaluated matrix of the formula fits into the address space. -/
def Fits (p : Profile) : {k : Kind} → {r c : ℕ} → Form T k r c → Prop
  | _, r, c, mat _ => p.Fits r c
  | _, _, _, add a b => a.Fits p ∧ b.Fits p
  | _, _, _, sub a b => a.Fits p ∧ b.Fits p
  | _, _, _, elem a b => a.Fits p ∧ b.Fits p
  | _, r, c, eval a => a.Fits p ∧ p.Fits r c
  | _, _, _, conj v => v.Fits p
  | _, _, _, diagOf m => m.Fits p
  | _, _, _, diag v => v.Fits p
  | _, _, _, t m => m.Fits p
  | _, _, _, h m => m.Fits p
  | _, _, _, @prod _ l m n a b => (a.Fits p ∧ p.Fits l m) ∧ b.Fits p ∧ p.Fits m n
  | _, _, _, _ => True

/-- Two matrix formulas give the same matrix if both evaluate. -/
def Agree [RZero T] [ROne T] [RAdd T T T] [RSub T T T] [RMul T T T] [RAddAssign T T] [RConj T] {r c : ℕ}
    (p : Profile) (a b : Form T .mat r c) : Prop :=
  a.Fits p → b.Fits p → ∀ x y, a.runM p = .ok x → b.runM p = .ok y → x = y

/-- Two vector formulas give the same vector if both evaluate. -/
def AgreeV [RZero T] [ROne T] [RAdd T T T] [RSub T T T] [RMul T T T] [RAddAssign T T] [RConj T] {n : ℕ}
    (p : Profile) (a b : Form T .vec n 1) : Prop :=
  a.Fits p → b.Fits p → ∀ x y, a.runV p = .ok x → b.runV p = .ok y → x = y

/-- The textbook meaning. -/
def den [Ring R] (φ : T → R) (σ : R → R) : {k : Kind} → {r c : ℕ} → Form T k r c → Matrix (Fin r) (Fin c) R
  | _, _, _, vec f => .of fun i _ => φ (f i)
  | _, _, _, mat f => .of fun i j => φ (f i j)
  | _, _, _, zerosV _ => 0
  | _, _, _, onesV _ => .of fun _ _ => 1
  | _, _, _, zerosM _ _ => 0
  | _, _, _, onesM _ _ => .of fun _ _ => 1
  | _, _, _, eye _ => 1
  | _, _, _, add a b => a.den φ σ + b.den φ σ
  | _, _, _, sub a b => a.den φ σ - b.den φ σ
  | _, _, _, elem a b => (a.den φ σ).hadamard (b.den φ σ)
  | _, _, _, eval a => a.den φ σ
  | _, _, _, conj v => (v.den φ σ).map σ
  | _, _, _, diagOf m => .of fun i _ => m.den φ σ (i.castLE (min_le_left _ _)) (i.castLE (min_le_right _ _))
  | _, _, _, diag v => .diagonal fun i => v.den φ σ i 0
  | _, _, _, t m => (m.den φ σ).transpose
  | _, _, _, h m => (m.den φ σ).transpose.map σ
  | _, _, _, prod a b => a.den φ σ * b.den φ σ

/-- No product in the formula is a non-empty matrix made of empty sums: its inner dimension is at least 1, or one of its
outer dimensions is 0. (The crate's product panics otherwise: C33.) -/
def Inner : {k : Kind} → {r c : ℕ} → Form T k r c → Prop
  | _, _, _, add a b => a.Inner ∧ b.Inner
  | _, _, _, sub a b => a.Inner ∧ b.Inner
  | _, _, _, elem a b => a.Inner ∧ b.Inner
  | _, _, _, eval a => a.Inner
  | _, _, _, conj v => v.Inner
  | _, _, _, diagOf m => m.Inner
  | _, _, _, diag v => v.Inner
  | _, _, _, t m => m.Inner
  | _, _, _, h m => m.Inner
  | _, _, _, @prod _ l m n a b => a.Inner ∧ b.Inner ∧ (1 ≤ m ∨ l = 0 ∨ n = 0)
  | _, _, _, _ => True

end Form

/-- The scalar `T` computes in the ring `R`: an element `x` stands for `φ x`, and an operation that does not panic gives
an element that stands for the right value; conjugation is `σ`. -/
structure Computes [RZero T] [ROne T] [RAdd T T T] [RSub T T T] [RMul T T T] [RAddAssign T T] [RSubAssign T T]
    [RConj T] [Ring R] (φ : T → R) (σ : R → R) : Prop extends ImplementsV φ where
  one : φ ROne.one = 1
  conj : ∀ x y : T, RConj.conj x = .ok y → φ y = σ (φ x)

end Magnesia
