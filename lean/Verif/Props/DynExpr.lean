import Verif.Proof.TreeEval
import Verif.Spec.Denote

/-!
# Properties C26, C27: vector and matrix expressions of dynamic size
-/

namespace Magnesia

open RZero ROne

variable {T U V : Type}

/-! ## C26 -/
section C26

/-- C26: constructing an expression by any nesting of the public combinators succeeds exactly if all shapes match and
the evaluations of intermediate results in it return. -/
theorem C26_construction (p : Profile) {k : Kind} (e : Tree k T) (hf : e.Fits p) :
    Returns (e.build p) ↔ e.WellShaped ∧ e.EvalsReturn := by
  constructor
  · rintro ⟨o, ho⟩
    have := e.build_good p hf o ho
    exact ⟨this.1, this.2.1⟩
  · rintro ⟨h1, h2⟩
    exact e.build_returns p hf h1 h2

/-- C26: `eval()` of a vector expression returns exactly the vector of the entries that ordinary linear algebra gives
(and returns at all exactly if all these entries do). -/
theorem C26_vector_eval (p : Profile) (e : Tree .vec T) (hf : e.Fits p) (o : VExpr T) (ho : e.build p = .ok o)
    (v : DVector T) : o.eval = .ok v ↔
      ∃ f : Fin e.rows → T, (∀ i : Fin e.rows, e.entry i 0 = .ok (f i)) ∧ v = DVector.ofFn f :=
  Tree.eval_good_vec (e.build_good p hf o ho).2.2

/-- C26: `eval()` of a matrix expression returns exactly the matrix of the entries that ordinary linear algebra gives. -/
theorem C26_matrix_eval (p : Profile) (e : Tree .mat T) (hf : e.Fits p) (o : MExpr T) (ho : e.build p = .ok o)
    (m : DMatrix T) : o.eval = .ok m ↔
      ∃ f : Fin e.rows → Fin e.cols → T, (∀ (i : Fin e.rows) (j : Fin e.cols), e.entry i j = .ok (f i j)) ∧
        m = DMatrix.ofFn f :=
  Tree.eval_good_mat (e.build_good p hf o ho).2.2

/-- C26: `len()` and, at every index in range, `entry()` are what linear algebra says, panics included. -/
theorem C26_vector_entries (p : Profile) (e : Tree .vec T) (hf : e.Fits p) (o : VExpr T) (ho : e.build p = .ok o) :
    o.len = e.rows ∧ ∀ i < e.rows, o.entry i = e.entry i 0 := by
  have := Tree.goodV.1 (e.build_good p hf o ho).2.2
  exact ⟨this.2.1, this.2.2.1⟩

theorem C26_matrix_entries (p : Profile) (e : Tree .mat T) (hf : e.Fits p) (o : MExpr T) (ho : e.build p = .ok o) :
    o.numRows = e.rows ∧ o.numCols = e.cols ∧ ∀ i < e.rows, ∀ j < e.cols, o.entry i j = e.entry i j := by
  have := Tree.goodM.1 (e.build_good p hf o ho).2.2
  exact ⟨this.1.1, this.1.2, this.2.1⟩

/-- C26: the specialised `eval` overrides (evaluated vectors and matrices, slices, arrays) are indistinguishable from
the default implementation, panics included. -/
theorem C26_eval_is_default_vector (p : Profile) (e : Tree .vec T) (hf : e.Fits p) (o : VExpr T)
    (ho : e.build p = .ok o) : o.eval = VExpr.defaultEval o.len o.entry :=
  (Tree.goodV.1 (e.build_good p hf o ho).2.2).2.2.2

theorem C26_eval_is_default_matrix (p : Profile) (e : Tree .mat T) (hf : e.Fits p) (o : MExpr T)
    (ho : e.build p = .ok o) : o.eval = MExpr.defaultEval o.numRows o.numCols o.entry :=
  (Tree.goodM.1 (e.build_good p hf o ho).2.2).2.2

/-- C26: inserting an intermediate `eval()` anywhere changes nothing but (possibly) when a panic occurs: if both
versions evaluate they give the same matrix. -/
theorem C26_intermediate_eval (p : Profile) (e : Tree .mat T) (o o' : MExpr T) (ho : e.build p = .ok o) (ho' : e.evalM.build p = .ok o') : o'.eval = o.eval := by
  obtain ⟨a, h1, h⟩ := bind_ok ho'
  rw [ho] at h1
  cases h1
  obtain ⟨m, h2, h⟩ := bind_ok h
  cases pure_ok h
  exact h2.symm

/-- C26: the methods of `DVector` and `DMatrix` agree with those of the expression wrappers. -/
theorem C26_methods_agree (p : Profile) (v : DVector T) (b : VExpr U) (m : DMatrix T) (c : MExpr U) [RAdd T U V]
    [RSub T U V] [RMul T U V] [RDiv T U V] [RConj T] [RZero T] :
    v.add b = v.asExpr.add b ∧ v.sub b = v.asExpr.sub b ∧ v.mulElemwise b = v.asExpr.mulElemwise b ∧
    v.divElemwise b = v.asExpr.divElemwise b ∧ v.conj = v.asExpr.conj ∧ v.diag = v.asExpr.diag ∧
    m.add p c = (m.asExpr p).add c ∧ m.sub p c = (m.asExpr p).sub c ∧
    m.mulElemwise p c = (m.asExpr p).mulElemwise c ∧ m.divElemwise p c = (m.asExpr p).divElemwise c ∧
    m.t p = (m.asExpr p).t ∧ m.h p = (m.asExpr p).h ∧ m.diag p = (m.asExpr p).diag :=
  ⟨rfl, rfl, rfl, rfl, rfl, rfl, rfl, rfl, rfl, rfl, rfl, rfl, rfl⟩

end C26

/-- A 64 bit release build. -/
abbrev x64 : Profile := ⟨64, false⟩
/-- A 64 bit debug build. -/
abbrev x64d : Profile := ⟨64, true⟩

/-- `[[1, 2], [3, 4]]` and the evaluated matrix `[[0, 1], [0, 1]]`. -/
def exampleA : Tree .mat I32 := .array ![![.lit 1, .lit 2], ![.lit 3, .lit 4]]
def exampleB : Tree .mat I32 := .dmatrix ![![.lit 0, .lit 1], ![.lit 0, .lit 1]]
/-- `&((a + b.t()).map(|x| x * x) - eye(2)).eval() * &a.eval()` as a tree: it meets all hypotheses. -/
def exampleTree : Tree .mat I32 :=
  .prod (.evalM (.subM (.mapM (.addM exampleA (.t exampleB)) (fun x : I32 => RMul.mul x x)) (.eye (T := I32) 2)))
    exampleA
example : exampleTree.Fits x64 := by
  simp [exampleTree, exampleA, exampleB, Tree.Fits, Profile.Fits, Tree.rows, Tree.cols, Tree.shape]
example : (do (← (exampleTree.build x64 : Res (MExpr I32))).eval) =
    .ok (DMatrix.ofFn ![![.lit 12, .lit 16], ![.lit 88, .lit 128]]) := by decide +kernel

/-! ## C27 -/
section C27

/-- C27: element-wise operations of vector expressions. -/
theorem C27_vector (a : VExpr T) (b : VExpr U) [RAdd T U V] [RSub T U V] [RMul T U V] [RDiv T U V] :
    AssertsExactly (a.add b) (a.len = b.len) ∧ AssertsExactly (a.sub b) (a.len = b.len) ∧
    AssertsExactly (a.zip b) (a.len = b.len) ∧ AssertsExactly (a.mulElemwise b) (a.len = b.len) ∧
    AssertsExactly (a.divElemwise b) (a.len = b.len) := by
  refine ⟨?_, ?_, ?_, ?_, ?_⟩ <;> constructor <;> intro h <;>
    simp [VExpr.add, VExpr.sub, VExpr.zip, VExpr.mulElemwise, VExpr.divElemwise, assertEq, h, bind, Except.bind, pure,
      Except.pure]

/-- C27: the same operations as methods of `&DVector`. -/
theorem C27_dvector (a : DVector T) (b : VExpr U) [RAdd T U V] [RSub T U V] [RMul T U V] [RDiv T U V] :
    AssertsExactly (a.add b) (a.data.length = b.len) ∧ AssertsExactly (a.sub b) (a.data.length = b.len) ∧
    AssertsExactly (a.mulElemwise b) (a.data.length = b.len) ∧
    AssertsExactly (a.divElemwise b) (a.data.length = b.len) := by
  have := C27_vector a.asExpr b
  exact ⟨this.1, this.2.1, this.2.2.2.1, this.2.2.2.2⟩

/-- C27: element-wise operations of matrix expressions. -/
theorem C27_matrix (a : MExpr T) (b : MExpr U) [RAdd T U V] [RSub T U V] [RMul T U V] [RDiv T U V] :
    AssertsExactly (a.add b) (a.numRows = b.numRows ∧ a.numCols = b.numCols) ∧
    AssertsExactly (a.sub b) (a.numRows = b.numRows ∧ a.numCols = b.numCols) ∧
    AssertsExactly (a.zip b) (a.numRows = b.numRows ∧ a.numCols = b.numCols) ∧
    AssertsExactly (a.mulElemwise b) (a.numRows = b.numRows ∧ a.numCols = b.numCols) ∧
    AssertsExactly (a.divElemwise b) (a.numRows = b.numRows ∧ a.numCols = b.numCols) := by
  refine ⟨?_, ?_, ?_, ?_, ?_⟩ <;> constructor <;> intro h <;>
    by_cases h1 : a.numRows = b.numRows <;> by_cases h2 : a.numCols = b.numCols <;>
    simp_all [MExpr.add, MExpr.sub, MExpr.zip, MExpr.mulElemwise, MExpr.divElemwise, assertEq, bind, Except.bind, pure,
      Except.pure]

/-- C27: the same operations as methods of `&DMatrix`. -/
theorem C27_dmatrix (p : Profile) (a : DMatrix T) (b : MExpr U) [RAdd T U V] [RSub T U V] [RMul T U V] [RDiv T U V] :
    AssertsExactly (a.add p b) (a.numRows = b.numRows ∧ a.numCols = b.numCols) ∧
    AssertsExactly (a.sub p b) (a.numRows = b.numRows ∧ a.numCols = b.numCols) ∧
    AssertsExactly (a.mulElemwise p b) (a.numRows = b.numRows ∧ a.numCols = b.numCols) ∧
    AssertsExactly (a.divElemwise p b) (a.numRows = b.numRows ∧ a.numCols = b.numCols) := by
  have := C27_matrix (a.asExpr p) b
  exact ⟨this.1, this.2.1, this.2.2.2.1, this.2.2.2.2⟩

/-- C27: the product of matrices. -/
theorem C27_product (p : Profile) {O : Type} [RMul T T O] [RAddAssign O O] (a b : DMatrix T) :
    AssertsExactly (a.mul p b) (a.numCols = b.numRows) := by
  constructor <;> intro h <;> simp [DMatrix.mul, assertEq, h, bind, Except.bind, pure, Except.pure]

end C27

/-- Both outcomes occur. -/
example : (sliceExpr [(.lit 1 : I32), .lit 2]).add (sliceExpr [(.lit 1 : I32)]) = .error .assertFailed := rfl
example : (do ((← (sliceExpr [(.lit 1 : I32), .lit 2]).add (sliceExpr [(.lit 5 : I32), .lit 6])).eval)) =
    .ok ⟨[.lit 6, .lit 8]⟩ := by decide +kernel

end Magnesia
