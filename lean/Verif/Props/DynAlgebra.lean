import Verif.Proof.Form
import Verif.Props.DynLinalg
import Verif.Props.DynDot

/-!
# Property C62: dynamic vectors and matrices obey the laws of linear algebra

`Form` (in `Spec/Form.lean`) is the language of formulas, `Form.runM`/`Form.runV` build one through the API and evaluate
it, `Form.den` is its meaning in Mathlib's matrices.
-/

namespace Magnesia

open RZero ROne

variable {T R : Type} [RZero T] [ROne T] [RAdd T T T] [RSub T T T] [RMul T T T] [RAddAssign T T] [RSubAssign T T]
  [RConj T] {p : Profile} {r c l m n q : ℕ}

namespace Form

omit [RSubAssign T T] in
theorem runM_iff (e : Form T .mat r c) (hf : e.Fits p) (x : DMatrix T) (hx : e.runM p = .ok x) :
    ∃ f : Fin r → Fin c → T, (∀ (i : Fin r) (j : Fin c), e.tree.entry i j = .ok (f i j)) ∧ x = DMatrix.ofFn f := by
  obtain ⟨o, ho, hx⟩ := bind_ok hx
  have h := (C26_matrix_eval p e.tree (tree_fits e hf) o ho x).1 hx
  have key : ∀ (s : ℕ × ℕ) (E : ℕ → ℕ → Res T), s = (r, c) → (∃ f : Fin s.1 → Fin s.2 → T,
      (∀ (i : Fin s.1) (j : Fin s.2), E i j = .ok (f i j)) ∧ x = DMatrix.ofFn f) →
      ∃ f : Fin r → Fin c → T, (∀ (i : Fin r) (j : Fin c), E i j = .ok (f i j)) ∧ x = DMatrix.ofFn f := by
    rintro _ E rfl h; exact h
  exact key _ _ (tree_shape e) h

omit [RSubAssign T T] in
theorem runV_iff (e : Form T .vec n 1) (hf : e.Fits p) (x : DVector T) (hx : e.runV p = .ok x) :
    ∃ f : Fin n → T, (∀ i : Fin n, e.tree.entry i 0 = .ok (f i)) ∧ x = DVector.ofFn f := by
  obtain ⟨o, ho, hx⟩ := bind_ok hx
  have h := (C26_vector_eval p e.tree (tree_fits e hf) o ho x).1 hx
  have key : ∀ (s : ℕ × ℕ) (E : ℕ → ℕ → Res T), s = (n, 1) → (∃ f : Fin s.1 → T,
      (∀ i : Fin s.1, E i 0 = .ok (f i)) ∧ x = DVector.ofFn f) →
      ∃ f : Fin n → T, (∀ i : Fin n, E i 0 = .ok (f i)) ∧ x = DVector.ofFn f := by
    rintro _ E rfl h; exact h
  exact key _ _ (tree_shape e) h

end Form

/-- C62: a matrix formula, if building and evaluating it returns, gives the matrix of the given shape that linear
algebra gives: its entries stand for the entries of `e.den`. -/
theorem C62_matrix [Ring R] {φ : T → R} {σ : R → R} (hc : Computes φ σ) (e : Form T .mat r c) (hf : e.Fits p)
    (x : DMatrix T) (hx : e.runM p = .ok x) :
    ∃ y : Fin r → Fin c → T, x = DMatrix.ofFn y ∧ Matrix.of (fun i j => φ (y i j)) = e.den φ σ := by
  obtain ⟨y, hy, rfl⟩ := e.runM_iff hf x hx
  refine ⟨y, rfl, ?_⟩
  ext i j
  exact e.entry_value hc i j _ (hy i j)

/-- C62: the same for a vector formula. -/
theorem C62_vector [Ring R] {φ : T → R} {σ : R → R} (hc : Computes φ σ) (e : Form T .vec n 1) (hf : e.Fits p)
    (x : DVector T) (hx : e.runV p = .ok x) :
    ∃ y : Fin n → T, x = DVector.ofFn y ∧ (fun i => φ (y i)) = fun i => e.den φ σ i 0 := by
  obtain ⟨y, hy, rfl⟩ := e.runV_iff hf x hx
  refine ⟨y, rfl, ?_⟩
  funext i
  exact e.entry_value hc i 0 _ (hy i)

/-- C62: every identity of linear algebra holds: two formulas with the same meaning that both evaluate give the same
matrix (the same vector), if different elements stand for different values. Checked integers included. -/
theorem C62_identity [Ring R] {φ : T → R} {σ : R → R} (hc : Computes φ σ) (hi : Function.Injective φ) :
    (∀ (a b : Form T .mat r c) (x y : DMatrix T), a.Fits p → b.Fits p → a.den φ σ = b.den φ σ →
      a.runM p = .ok x → b.runM p = .ok y → x = y) ∧
    ∀ (a b : Form T .vec n 1) (x y : DVector T), a.Fits p → b.Fits p → a.den φ σ = b.den φ σ →
      a.runV p = .ok x → b.runV p = .ok y → x = y := by
  constructor
  · intro a b x y ha hb e hx hy
    obtain ⟨f, rfl, hf⟩ := C62_matrix hc a ha x hx
    obtain ⟨g, rfl, hg⟩ := C62_matrix hc b hb y hy
    congr 1
    funext i j
    exact hi (congrFun (congrFun (hf.trans (e.trans hg.symm)) i) j)
  · intro a b x y ha hb e hx hy
    obtain ⟨f, rfl, hf⟩ := C62_vector hc a ha x hx
    obtain ⟨g, rfl, hg⟩ := C62_vector hc b hb y hy
    congr 1
    funext i
    apply hi
    have h1 := congrFun hf i
    have h2 := congrFun hg i
    rw [h1, h2, e]

/-- C62: building and evaluating a formula never panics if the element operations do not (wrapping integers, floating
point numbers, complex numbers over them) and no product sums over an empty range. -/
theorem C62_returns (hn : NeverPanicsV T) (hj : ∀ x : T, Returns (RConj.conj x)) :
    (∀ e : Form T .mat r c, e.Fits p → e.Inner → Returns (e.runM p)) ∧
    ∀ e : Form T .vec n 1, e.Fits p → e.Inner → Returns (e.runV p) := by
  constructor
  · intro e hf he
    have ht := e.tree_fits hf
    obtain ⟨o, ho⟩ := (C26_construction p e.tree ht).2 ⟨e.tree_wellShaped, e.evalsReturn hn hj he⟩
    have : ∀ (i : Fin e.tree.rows) (j : Fin e.tree.cols), ∃ x, e.tree.entry i j = .ok x := fun i j =>
      e.entriesReturn hn hj he i i.2 j j.2
    choose f hf using this
    exact ⟨DMatrix.ofFn f, by
      show (e.tree.build p >>= fun o => o.eval) = _
      rw [ho]
      exact (C26_matrix_eval p e.tree ht o ho _).2 ⟨f, hf, rfl⟩⟩
  · intro e hf he
    have ht := e.tree_fits hf
    obtain ⟨o, ho⟩ := (C26_construction p e.tree ht).2 ⟨e.tree_wellShaped, e.evalsReturn hn hj he⟩
    have : ∀ (i : Fin e.tree.rows), ∃ x, e.tree.entry i 0 = .ok x := fun i =>
      e.entriesReturn hn hj he i i.2 0 (by simp [Tree.cols, Form.tree_shape])
    choose f hf using this
    exact ⟨DVector.ofFn f, by
      show (e.tree.build p >>= fun o => o.eval) = _
      rw [ho]
      exact (C26_vector_eval p e.tree ht o ho _).2 ⟨f, hf, rfl⟩⟩

/-- C62: so for elements whose operations do not panic an identity of linear algebra is an equality of results. -/
theorem C62_equal [Ring R] {φ : T → R} {σ : R → R} (hc : Computes φ σ) (hi : Function.Injective φ)
    (hn : NeverPanicsV T) (hj : ∀ x : T, Returns (RConj.conj x)) (a b : Form T .mat r c) (ha : a.Fits p)
    (hb : b.Fits p) (ha' : a.Inner) (hb' : b.Inner) (e : a.den φ σ = b.den φ σ) : a.runM p = b.runM p := by
  obtain ⟨x, hx⟩ := (C62_returns (p := p) (n := 0) hn hj).1 a ha ha'
  obtain ⟨y, hy⟩ := (C62_returns (p := p) (n := 0) hn hj).1 b hb hb'
  rw [hx, hy, (C62_identity (p := p) (n := 0) hc hi).1 a b x y ha hb e hx hy]

/-- C62: laws of the addition of matrix formulas. -/
theorem C62_add_laws [Ring R] {φ : T → R} {σ : R → R} (hc : Computes φ σ) (hi : Function.Injective φ)
    (a b d : Form T .mat r c) :
    Form.Agree p (a + b) (b + a) ∧ Form.Agree p (a + b + d) (a + (b + d)) ∧ Form.Agree p (a + .zerosM r c) a ∧
    Form.Agree p (a - a) (.zerosM r c) ∧ Form.Agree p (a - b + b) a ∧ Form.Agree p (a - (b + d)) (a - b - d) := by
  refine ⟨?_, ?_, ?_, ?_, ?_, ?_⟩ <;> refine fun hf hg x y => (C62_identity (n := 0) hc hi).1 _ _ x y hf hg ?_
  · exact add_comm _ _
  · exact add_assoc _ _ _
  · exact add_zero _
  · exact sub_self _
  · exact sub_add_cancel _ _
  · exact (sub_sub _ _ _).symm

/-- C62: the product of matrix formulas is associative, distributes over sums and differences on both sides, and the
identity and zero matrices behave as such. No commutativity of the entries is needed. -/
theorem C62_mul_laws [Ring R] {φ : T → R} {σ : R → R} (hc : Computes φ σ) (hi : Function.Injective φ)
    (a a' : Form T .mat l m) (b b' : Form T .mat m n) (d : Form T .mat n q) :
    Form.Agree p (a * b * d) (a * (b * d)) ∧
    Form.Agree p (a * (b + b')) (a * b + a * b') ∧ Form.Agree p ((a + a') * b) (a * b + a' * b) ∧
    Form.Agree p (a * (b - b')) (a * b - a * b') ∧ Form.Agree p ((a - a') * b) (a * b - a' * b) ∧
    Form.Agree p ((.eye l : Form T .mat l l) * a) a ∧ Form.Agree p (a * (.eye m : Form T .mat m m)) a ∧
    Form.Agree p ((.zerosM q l : Form T .mat q l) * a) (.zerosM q m) ∧
    Form.Agree p (a * (.zerosM m q : Form T .mat m q)) (.zerosM l q) := by
  refine ⟨?_, ?_, ?_, ?_, ?_, ?_, ?_, ?_, ?_⟩ <;>
    refine fun hf hg x y => (C62_identity (n := 0) hc hi).1 _ _ x y hf hg ?_
  · exact Matrix.mul_assoc _ _ _
  · exact Matrix.mul_add _ _ _
  · exact Matrix.add_mul _ _ _
  · exact Matrix.mul_sub _ _ _
  · exact Matrix.sub_mul _ _ _
  · exact Matrix.one_mul _
  · exact Matrix.mul_one _
  · exact Matrix.zero_mul _
  · exact Matrix.mul_zero _

/-- C62: laws of the transpose; for products the entries must commute. -/
theorem C62_transpose_laws [CommRing R] {φ : T → R} {σ : R → R} (hc : Computes φ σ) (hi : Function.Injective φ)
    (a a' : Form T .mat l m) (b : Form T .mat m n) (v : Form T .vec n 1) :
    Form.Agree p (a + a').t (a.t + a'.t) ∧ Form.Agree p (a - a').t (a.t - a'.t) ∧ Form.Agree p a.t.t a ∧
    Form.Agree p (a * b).t (b.t * a.t) ∧ Form.Agree p v.diag.t v.diag := by
  refine ⟨?_, ?_, ?_, ?_, ?_⟩ <;> refine fun hf hg x y => (C62_identity (n := 0) hc hi).1 _ _ x y hf hg ?_
  · exact Matrix.transpose_add _ _
  · exact Matrix.transpose_sub _ _
  · exact Matrix.transpose_transpose _
  · exact Matrix.transpose_mul _ _
  · exact Matrix.diagonal_transpose _

/-- C62: laws of the Hermitian transpose, if conjugation is an involution that respects sums and reverses products. -/
theorem C62_hermitian_laws [Ring R] {φ : T → R} {σ : R →+ R} (hσ : ∀ x y, σ (x * y) = σ y * σ x)
    (hσ' : ∀ x, σ (σ x) = x) (hc : Computes φ σ) (hi : Function.Injective φ)
    (a a' : Form T .mat l m) (b : Form T .mat m n) :
    Form.Agree p (a + a').h (a.h + a'.h) ∧ Form.Agree p (a - a').h (a.h - a'.h) ∧ Form.Agree p a.h.h a ∧
    Form.Agree p (a * b).h (b.h * a.h) ∧ Form.Agree p (a * a.h).h (a * a.h) := by
  have hm : ∀ {l m n : ℕ} (a : Form T .mat l m) (b : Form T .mat m n), (a * b).h.den φ σ = (b.h * a.h).den φ σ := by
    intro l m n a b
    ext i j
    show σ ((a.den φ σ * b.den φ σ) j i) = ((b.den φ σ).transpose.map σ * (a.den φ σ).transpose.map σ) i j
    simp [Matrix.mul_apply, map_sum, hσ]
  have hh : ∀ {l m : ℕ} (a : Form T .mat l m), a.h.h.den φ σ = a.den φ σ := by
    intro l m a
    ext i j
    exact hσ' _
  refine ⟨?_, ?_, ?_, ?_, ?_⟩ <;> refine fun hf hg x y => (C62_identity (n := 0) hc hi).1 _ _ x y hf hg ?_
  · ext i j; exact map_add σ _ _
  · ext i j; exact map_sub σ _ _
  · exact hh a
  · exact hm a b
  · exact (hm a a.h).trans (congrArg (· * a.h.den φ σ) (hh a))

/-- C62: diagonal matrices: multiplying two of them multiplies the diagonals, `diag` is linear, and the
diagonal matrix of ones is `eye`. -/
theorem C62_diag_laws [Ring R] {φ : T → R} {σ : R → R} (hc : Computes φ σ) (hi : Function.Injective φ)
    (u v : Form T .vec n 1) :
    Form.Agree p (u.diag * v.diag) (Form.elem u v).diag ∧ Form.Agree p (u + v).diag (u.diag + v.diag) ∧
    Form.Agree p (u - v).diag (u.diag - v.diag) ∧ Form.Agree p (Form.onesV n : Form T .vec n 1).diag (.eye n) := by
  refine ⟨?_, ?_, ?_, ?_⟩ <;> refine fun hf hg x y => (C62_identity (n := 0) hc hi).1 _ _ x y hf hg ?_
  · exact Matrix.diagonal_mul_diagonal _ _
  · exact (Matrix.diagonal_add _ _).symm
  · exact (Matrix.diagonal_sub _ _).symm
  · exact Matrix.diagonal_one

/-- C62: laws of vector formulas, and of the diagonal of a matrix. -/
theorem C62_vector_laws [Ring R] {φ : T → R} {σ : R → R} (hc : Computes φ σ) (hi : Function.Injective φ)
    (u v w : Form T .vec n 1) (a b : Form T .mat l m) :
    Form.AgreeV p (u + v) (v + u) ∧ Form.AgreeV p (u + v + w) (u + (v + w)) ∧ Form.AgreeV p (u + .zerosV n) u ∧
    Form.AgreeV p (u - u) (.zerosV n) ∧ Form.AgreeV p (u - v + v) u ∧
    Form.AgreeV p (u.elem (v + w)) (u.elem v + u.elem w) ∧ Form.AgreeV p (u.elem (.onesV n)) u ∧
    Form.AgreeV p (a + b).diagOf (a.diagOf + b.diagOf) ∧ Form.AgreeV p (a - b).diagOf (a.diagOf - b.diagOf) := by
  refine ⟨?_, ?_, ?_, ?_, ?_, ?_, ?_, ?_, ?_⟩ <;>
    refine fun hf hg x y => (C62_identity (r := 0) (c := 0) hc hi).2 _ _ x y hf hg ?_
  · exact add_comm _ _
  · exact add_assoc _ _ _
  · exact add_zero _
  · exact sub_self _
  · exact sub_add_cancel _ _
  · exact Matrix.hadamard_add _ _ _
  · ext i j; exact mul_one _
  · rfl
  · rfl

end Magnesia
