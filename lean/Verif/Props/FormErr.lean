import Verif.Proof.FormFloat
import Verif.Props.DynAlgebra

/-!
# Property C63: formulas of linear algebra in floating point arithmetic

`Form` (in `Spec/Form.lean`) is the language of formulas, `Form.runM`/`Form.runV` build one through the API and evaluate
it, `Form.den` is its exact meaning, `Form.err` (in `Spec/FormErr.lean`) the error bound.
-/

namespace Magnesia

open RZero ROne

variable {F : Fmt} {p : Profile} {r c l m n q : ℕ}

theorem form_errorM {T K : Type} [NormedField K] [RZero T] [ROne T] [RAdd T T T] [RSub T T T] [RMul T T T]
    [RAddAssign T T] [RSubAssign T T] [RConj T] {fin : T → Prop} {φ : T → K} {σ : K → K} {B u v η : ℝ}
    (hA : FloatOps fin φ σ B u v η) (hn : NeverPanicsV T) (e : Form T .mat r c) (hf : e.Fits p) (hi : e.Inner) :
    ∃ y : Fin r → Fin c → T, e.runM p = .ok (DMatrix.ofFn y) ∧
      (∀ i j, fin (y i j) → e.Uses fin i j ∧ ‖φ (y i j) - e.den φ σ i j‖ ≤ e.err u v η φ i j) ∧
      (e.Within fin B u v η φ → ∀ i j, fin (y i j)) := by
  obtain ⟨x, hx⟩ := (C62_returns (p := p) (n := 0) hn hA.conj_ret).1 e hf hi
  obtain ⟨y, hy, rfl⟩ := e.runM_iff hf x hx
  refine ⟨y, hx, fun i j hfin => ?_, fun hw i j => ?_⟩
  · obtain ⟨h1, h2⟩ := e.entry_approx hA i j _ (hy i j) hfin
    refine ⟨h1, h2.err.trans (le_of_eq ?_)⟩
    unfold Form.err; ring
  · obtain ⟨z, hz, fz⟩ := e.entry_fin hA hi hw i j
    cases (hy i j).symm.trans hz
    exact fz

theorem form_errorV {T K : Type} [NormedField K] [RZero T] [ROne T] [RAdd T T T] [RSub T T T] [RMul T T T]
    [RAddAssign T T] [RSubAssign T T] [RConj T] {fin : T → Prop} {φ : T → K} {σ : K → K} {B u v η : ℝ}
    (hA : FloatOps fin φ σ B u v η) (hn : NeverPanicsV T) (e : Form T .vec n 1) (hf : e.Fits p) (hi : e.Inner) :
    ∃ y : Fin n → T, e.runV p = .ok (DVector.ofFn y) ∧
      (∀ i, fin (y i) → e.Uses fin i 0 ∧ ‖φ (y i) - e.den φ σ i 0‖ ≤ e.err u v η φ i 0) ∧
      (e.Within fin B u v η φ → ∀ i, fin (y i)) := by
  obtain ⟨x, hx⟩ := (C62_returns (p := p) (r := 0) (c := 0) hn hA.conj_ret).2 e hf hi
  obtain ⟨y, hy, rfl⟩ := e.runV_iff hf x hx
  refine ⟨y, hx, fun i hfin => ?_, fun hw i => ?_⟩
  · obtain ⟨h1, h2⟩ := e.entry_approx hA i 0 _ (hy i) hfin
    refine ⟨h1, h2.err.trans (le_of_eq ?_)⟩
    unfold Form.err; ring
  · obtain ⟨z, hz, fz⟩ := e.entry_fin hA hi hw i 0
    cases (hy i).symm.trans hz
    exact fz

/-- C63: building and evaluating a matrix formula over floating point numbers always returns; every finite entry of the
result is within the error bound of the exact value, and the given entries it depends on are finite. If the estimated
magnitudes do not exceed `2 ^ emax`, all entries are finite. -/
theorem C63_real_matrix (e : Form (Ieee F) .mat r c) (hf : e.Fits p) (hi : e.Inner) :
    ∃ y : Fin r → Fin c → Ieee F, e.runM p = .ok (DMatrix.ofFn y) ∧
      (∀ i j, (y i j).Finite → e.Uses Ieee.Finite i j ∧
        |(y i j).real - e.den Ieee.real id i j| ≤ e.err F.u F.u F.η Ieee.real i j) ∧
      (e.Within Ieee.Finite (2 ^ F.emax) F.u F.u F.η Ieee.real → ∀ i j, (y i j).Finite) :=
  form_errorM ieee_floatOps neverPanicsV_ieee e hf hi

/-- C63: the same for vector formulas. -/
theorem C63_real_vector (e : Form (Ieee F) .vec n 1) (hf : e.Fits p) (hi : e.Inner) :
    ∃ y : Fin n → Ieee F, e.runV p = .ok (DVector.ofFn y) ∧
      (∀ i, (y i).Finite → e.Uses Ieee.Finite i 0 ∧
        |(y i).real - e.den Ieee.real id i 0| ≤ e.err F.u F.u F.η Ieee.real i 0) ∧
      (e.Within Ieee.Finite (2 ^ F.emax) F.u F.u F.η Ieee.real → ∀ i, (y i).Finite) :=
  form_errorV ieee_floatOps neverPanicsV_ieee e hf hi

/-- C63: complex floating point numbers, with errors measured in the complex plane; sums have relative error `u`, products
`cu ≤ 2.5 u`. -/
theorem C63_complex_matrix (e : Form (Complex (Ieee F)) .mat r c) (hf : e.Fits p) (hi : e.Inner) :
    ∃ y : Fin r → Fin c → Complex (Ieee F), e.runM p = .ok (DMatrix.ofFn y) ∧
      (∀ i j, CFinite (y i j) → e.Uses CFinite i j ∧
        ‖cval (y i j) - e.den cval (starRingEnd ℂ) i j‖ ≤ e.err F.u F.cu F.cη cval i j) ∧
      (e.Within CFinite (2 ^ (F.emax - 1)) F.u F.cu F.cη cval → ∀ i j, CFinite (y i j)) :=
  form_errorM cx_floatOps neverPanicsV_cx e hf hi

/-- C63: the same for vector formulas. -/
theorem C63_complex_vector (e : Form (Complex (Ieee F)) .vec n 1) (hf : e.Fits p) (hi : e.Inner) :
    ∃ y : Fin n → Complex (Ieee F), e.runV p = .ok (DVector.ofFn y) ∧
      (∀ i, CFinite (y i) → e.Uses CFinite i 0 ∧
        ‖cval (y i) - e.den cval (starRingEnd ℂ) i 0‖ ≤ e.err F.u F.cu F.cη cval i 0) ∧
      (e.Within CFinite (2 ^ (F.emax - 1)) F.u F.cu F.cη cval → ∀ i, CFinite (y i)) :=
  form_errorV cx_floatOps neverPanicsV_cx e hf hi

/-- C63: identities hold up to rounding: two formulas with the same meaning (for instance `(a * b) * c` and
`a * (b * c)`) have results that differ by at most the sum of the two bounds where both are finite. -/
theorem C63_identity (a b : Form (Ieee F) .mat r c) (ha : a.Fits p) (hb : b.Fits p) (ha' : a.Inner) (hb' : b.Inner)
    (h : a.den Ieee.real id = b.den Ieee.real id) :
    ∃ x y : Fin r → Fin c → Ieee F, a.runM p = .ok (DMatrix.ofFn x) ∧ b.runM p = .ok (DMatrix.ofFn y) ∧
      ∀ i j, (x i j).Finite → (y i j).Finite → |(x i j).real - (y i j).real| ≤
        a.err F.u F.u F.η Ieee.real i j + b.err F.u F.u F.η Ieee.real i j := by
  obtain ⟨x, hx, h1, _⟩ := C63_real_matrix a ha ha'
  obtain ⟨y, hy, h2, _⟩ := C63_real_matrix b hb hb'
  refine ⟨x, y, hx, hy, fun i j fx fy => ?_⟩
  have e1 := (h1 i j fx).2
  have e2 := (h2 i j fy).2
  rw [← h, abs_sub_comm] at e2
  exact (abs_sub_le _ _ _).trans (add_le_add e1 e2)

/-- C63, spelled out for the product of three matrices: each finite entry of `(a * b) * d` is within
`((1 + u)^(m + n) - 1) * (|A| |B| |D|)` plus underflow of the exact entry. -/
theorem C63_triple_product (hm : 1 ≤ m) (hn : 1 ≤ n) (f : Fin l → Fin m → Ieee F) (g : Fin m → Fin n → Ieee F)
    (k : Fin n → Fin q → Ieee F) (h1 : p.Fits l m) (h2 : p.Fits m n) (h3 : p.Fits l n) (h4 : p.Fits n q) :
    ∃ y : Fin l → Fin q → Ieee F,
      (do
        let ab ← (← (DMatrix.ofFn f).mul p (DMatrix.ofFn g)).eval
        (← ab.mul p (DMatrix.ofFn k)).eval) = .ok (DMatrix.ofFn y) ∧
      ∀ i j, (y i j).Finite →
        |(y i j).real - ∑ t, (∑ s, (f i s).real * (g s t).real) * (k t j).real| ≤
          ((1 + F.u) ^ (m + n) - 1) * ∑ t, (∑ s, |(f i s).real| * |(g s t).real|) * |(k t j).real| +
          (1 + F.u) ^ (m + n) * (m * F.η * ∑ t, |(k t j).real| + n * F.η) := by
  obtain ⟨y, hy, h, _⟩ := C63_real_matrix (p := p) (Form.mat f * Form.mat g * Form.mat k)
    ⟨⟨⟨⟨h1, h1⟩, h2, h2⟩, h3⟩, h4, h4⟩ ⟨⟨trivial, trivial, .inl hm⟩, trivial, .inl hn⟩
  refine ⟨y, ?_, fun i j hfin => ?_⟩
  · rw [← hy]
    show _ = Form.runM p (.prod (.prod (.mat f) (.mat g)) (.mat k))
    have ev : ∀ {r c : ℕ} (f : Fin r → Fin c → Ieee F), ((DMatrix.ofFn f).asExpr p).eval = .ok (DMatrix.ofFn f) :=
      fun _ => rfl
    simp only [Form.runM, Form.tree, Tree.build]
    cases h : (DMatrix.ofFn f).mul p (DMatrix.ofFn g) with
    | error e => simp [bind, Except.bind, ev, h]
    | ok e =>
      cases h2 : e.eval with
      | error e => simp [bind, Except.bind, ev, h, h2]
      | ok x => simp [bind, Except.bind, ev, h, h2]
  · have := (h i j hfin).2
    have hfac : (Form.mat f * Form.mat g * Form.mat k).factor (F.u : ℝ) F.u = (1 + (F.u : ℝ)) ^ (m + n) := by
      obtain ⟨m, rfl⟩ := Nat.exists_eq_add_of_le' hm
      obtain ⟨n, rfl⟩ := Nat.exists_eq_add_of_le' hn
      show 1 * 1 * (1 + (F.u : ℝ)) * (1 + (F.u : ℝ)) ^ (m + 1 - 1) * 1 * (1 + (F.u : ℝ)) *
        (1 + (F.u : ℝ)) ^ (n + 1 - 1) = _
      simp only [Nat.add_sub_cancel]
      ring
    unfold Form.err at this
    rw [hfac] at this
    refine (le_of_eq ?_).trans (this.trans (le_of_eq ?_))
    · congr 2
    · have h5 : (Form.mat f * Form.mat g * Form.mat k).mag Ieee.real i j =
        ∑ t, (∑ s, |(f i s).real| * |(g s t).real|) * |(k t j).real| := rfl
      have h6 : (Form.mat f * Form.mat g * Form.mat k).under (F.η : ℝ) Ieee.real i j =
          m * F.η * ∑ t, |(k t j).real| + n * F.η := by
        show (((0 * 0 + (Form.mat f).mag Ieee.real * 0 + 0 * (Form.mat g).mag Ieee.real +
          Matrix.of fun _ _ => (m : ℝ) * F.η) * 0 + ((Form.mat f).mag Ieee.real * (Form.mat g).mag Ieee.real) * 0 +
          (0 * 0 + (Form.mat f).mag Ieee.real * 0 + 0 * (Form.mat g).mag Ieee.real +
          Matrix.of fun _ _ => (m : ℝ) * F.η) * (Form.mat k).mag Ieee.real +
          Matrix.of fun _ _ => (n : ℝ) * F.η) : Matrix (Fin l) (Fin q) ℝ) i j = _
        simp only [Matrix.mul_zero, Matrix.zero_mul, zero_add, Matrix.add_apply, Matrix.of_apply, Matrix.mul_apply,
          ← Finset.mul_sum]
        rfl
      rw [h5, h6]

end Magnesia
