import Verif.Props.Polynomial
import Verif.Props.Rings
import Verif.Props.SLinalg
import Verif.Props.Bits
import Verif.Spec.Nesting
import Mathlib.LinearAlgebra.Matrix.Charpoly.Coeff
import Mathlib.LinearAlgebra.Lagrange
import Mathlib.Logic.Equiv.Fin.Basic

/-!
# Property C97: what nested containers compute
-/

namespace Magnesia

open RZero ROne MulRefs

section comm
variable {T R : Type} [RRing T] [CommRing R] {φ : T → R}

omit [RRing T] in
theorem toPolynomial_const (φ : T → R) (c : T) : (constPoly c).toPolynomial φ = Polynomial.C (φ c) := by
  ext k
  rw [coeff_toPolynomial, Polynomial.coeff_C]
  cases k <;> rfl

/-- C97: a polynomial with constant coefficients, evaluated at a polynomial, is the composition. -/
theorem C97_composition (h : Implements φ) (a : List T) (q r : Poly T) (x y z w : T)
    (hr : (Poly.fromCoefficients (a.map constPoly)).eval q = .ok r) (hw : r.eval x = .ok w)
    (hy : q.eval x = .ok y) (hz : (Poly.fromCoefficients a).eval y = .ok z) : φ w = φ z := by
  rw [h.peval hw, h.poly.peval hr, h.peval hz, h.peval hy]
  have e : (Poly.fromCoefficients (a.map constPoly)).toPolynomial (Poly.toPolynomial φ) =
      ((Poly.fromCoefficients a).toPolynomial φ).map Polynomial.C := by
    ext1 k
    rw [coeff_toPolynomial, Polynomial.coeff_map, coeff_toPolynomial]
    show ((a.map constPoly)[k]?).elim 0 _ = Polynomial.C ((a[k]?).elim 0 φ)
    rw [List.getElem?_map]
    cases a[k]? with
    | none => simp
    | some c => exact toPolynomial_const φ c
  rw [e, Polynomial.eval_map]
  exact Polynomial.eval_comp

theorem two_variables (h : Implements φ) (P : Poly (Poly T)) (q : Poly T) (x y w : T) (hq : P.eval (constPoly x) = .ok q)
    (hw : q.eval y = .ok w) : φ w = ∑ i : Fin P.a.length, (P.a[i].toPolynomial φ).eval (φ y) * φ x ^ (i : ℕ) := by
  rw [h.peval hw, h.poly.peval hq, toPolynomial_const, eval_toPolynomial, Polynomial.eval_finsetSum]
  simp

/-- C97: polynomials in two variables are polynomials whose coefficients are polynomials: putting in `x` for the outer and then
`y` for the inner variable gives the same as first `y` for the inner one in each coefficient and then `x` for the outer one. -/
theorem C97_two_variables (h : Implements φ) (P : Poly (Poly T)) (q : Poly T) (b : List T) (x y w z : T)
    (hq : P.eval (constPoly x) = .ok q) (hw : q.eval y = .ok w) (hb : List.Forall₂ (fun c s => c.eval y = .ok s) P.a b)
    (hz : (Poly.fromCoefficients b).eval x = .ok z) : φ w = φ z := by
  rw [two_variables h P q x y w hq hw, C01_eval_power_sum h b x z hz]
  have hl := hb.length_eq
  refine Fintype.sum_equiv (finCongr hl) _ _ fun i => ?_
  have := h.peval (List.forall₂_iff_get.1 hb |>.2 i i.2 (hl ▸ i.2))
  simp only [List.get_eq_getElem] at this
  show _ = φ b[(i : ℕ)] * φ x ^ (i : ℕ)
  rw [this]
  rfl

theorem sum_ofFn {A B : Type} [AddCommMonoid B] {n : ℕ} (f : Fin n → A) (g : A → ℕ → B) :
    ∑ i : Fin (List.ofFn f).length, g ((List.ofFn f)[i]) i = ∑ i, g (f i) i := by
  refine Fintype.sum_equiv (finCongr List.length_ofFn) _ _ fun i => ?_
  simp
  rfl

/-- C97: the roles of the two variables can be exchanged, transposing the array of coefficients. -/
theorem C97_exchange (h : Implements φ) {m n : ℕ} (c : Fin m → Fin n → T) (q q' : Poly T) (x y w w' : T)
    (hq : (Poly.fromCoefficients (List.ofFn fun i => Poly.fromCoefficients (List.ofFn (c i)))).eval (constPoly x) = .ok q)
    (hw : q.eval y = .ok w)
    (hq' : (Poly.fromCoefficients (List.ofFn fun j => Poly.fromCoefficients (List.ofFn fun i => c i j))).eval (constPoly y) = .ok q')
    (hw' : q'.eval x = .ok w') : φ w = φ w' := by
  have key : ∀ {m n : ℕ} (c : Fin m → Fin n → T) (q : Poly T) (x y w : T),
      (Poly.fromCoefficients (List.ofFn fun i => Poly.fromCoefficients (List.ofFn (c i)))).eval (constPoly x) = .ok q →
      q.eval y = .ok w → φ w = ∑ i, ∑ j, φ (c i j) * φ y ^ (j : ℕ) * φ x ^ (i : ℕ) := by
    intro m n c q x y w hq hw
    rw [two_variables h _ q x y w hq hw]
    refine (sum_ofFn (fun i => Poly.fromCoefficients (List.ofFn (c i)))
      fun p i => (p.toPolynomial φ).eval (φ y) * φ x ^ i).trans ?_
    refine Finset.sum_congr rfl fun i _ => ?_
    rw [eval_toPolynomial, Finset.sum_mul]
    exact sum_ofFn (c i) fun t j => φ t * φ y ^ j * φ x ^ (i : ℕ)
  rw [key c q x y w hq hw, key _ q' y x w' hq' hw', Finset.sum_comm]
  exact Finset.sum_congr rfl fun j _ => Finset.sum_congr rfl fun i _ => by ring

/-- C97: the product of matrices of polynomials, evaluated, is the product of the evaluated matrices. -/
theorem C97_matrices_of_polynomials (h : Implements φ) {l m n : ℕ} (a : SMatrix (Poly T) l m) (b : SMatrix (Poly T) m n)
    (c : SMatrix (Poly T) l n) (hc : a.mul b = .ok c) (x : T) (a' : SMatrix T l m) (b' : SMatrix T m n) (c' d : SMatrix T l n)
    (ha' : ∀ i j, (a.val i j).eval x = .ok (a'.val i j)) (hb' : ∀ i j, (b.val i j).eval x = .ok (b'.val i j))
    (hc' : ∀ i j, (c.val i j).eval x = .ok (c'.val i j)) (hd : a'.mul b' = .ok d) (i : Fin l) (j : Fin n) :
    φ (c'.val i j) = φ (d.val i j) := by
  rw [h.peval (hc' i j), C23_mul_value h.poly a b c hc, C23_mul_value h a' b' d hd, Polynomial.eval_finsetSum]
  refine Finset.sum_congr rfl fun k _ => ?_
  rw [Polynomial.eval_mul, h.peval (ha' i k), h.peval (hb' k j)]

theorem scalarMatrix_denotes (h : Implements φ) (n : ℕ) (x : T) : (scalarMatrix n x).toMatrix φ = Matrix.scalar (Fin n) (φ x) := by
  ext i j
  rw [Matrix.scalar_apply, Matrix.diagonal_apply]
  show φ (if i = j then x else zero) = _
  split_ifs
  · rfl
  · exact h.zero

/-- C97: a polynomial with matrices as coefficients, evaluated at a multiple of the unit matrix: each entry is the value of the
polynomial of these entries. -/
theorem C97_polynomials_of_matrices (h : Implements φ) {n : ℕ} (P : Poly (SMatrix T n n)) (x z : T) (m : SMatrix T n n)
    (hm : P.eval (scalarMatrix n x) = .ok m) (i j : Fin n)
    (hz : (Poly.fromCoefficients (P.a.map fun a => a.val i j)).eval x = .ok z) : φ (m.val i j) = φ z := by
  have e := h.matrix.peval hm
  rw [eval_toPolynomial, scalarMatrix_denotes h] at e
  rw [C01_eval_power_sum h _ x z hz]
  show m.toMatrix φ i j = _
  rw [e, Matrix.sum_apply]
  refine Fintype.sum_equiv (finCongr (List.length_map _).symm) _ _ fun k => ?_
  rw [← map_pow, Matrix.scalar_apply, Matrix.mul_diagonal]
  simp
  rfl

/-- C97: a polynomial with complex coefficients at a real number: the parts are the values of the polynomials of the real and
imaginary parts. -/
theorem C97_complex_coefficients (h : Implements φ) (P : Poly (Complex T)) (x y z : T) (w : Complex T)
    (hw : P.eval ⟨x, zero⟩ = .ok w) (hy : (Poly.fromCoefficients (P.a.map fun a => a.re)).eval x = .ok y)
    (hz : (Poly.fromCoefficients (P.a.map fun a => a.im)).eval x = .ok z) : φ w.re = φ y ∧ φ w.im = φ z := by
  have e := h.complex.peval hw
  have hx : Complex.toCx φ (⟨x, zero⟩ : Complex T) = ⟨φ x, 0⟩ := Cx.ext rfl h.zero
  have hpow : ∀ k : ℕ, (⟨φ x, 0⟩ : Cx R) ^ k = ⟨φ x ^ k, 0⟩ := fun k => by
    induction k with
    | zero => rw [pow_zero, pow_zero]; rfl
    | succ k ih => rw [pow_succ, ih]; apply Cx.ext <;> simp [pow_succ]
  rw [eval_toPolynomial, hx] at e
  simp only [hpow] at e
  let re : Cx R →+ R := ⟨⟨Cx.re, rfl⟩, fun _ _ => rfl⟩
  let im : Cx R →+ R := ⟨⟨Cx.im, rfl⟩, fun _ _ => rfl⟩
  constructor
  · rw [C01_eval_power_sum h _ x y hy]
    refine (congrArg re e).trans ?_
    rw [map_sum]
    refine Fintype.sum_equiv (finCongr (List.length_map _).symm) _ _ fun k => ?_
    show (Complex.toCx φ P.a[k] * (⟨φ x ^ (k : ℕ), 0⟩ : Cx R)).re = _
    simp [Complex.toCx]
  · rw [C01_eval_power_sum h _ x z hz]
    refine (congrArg im e).trans ?_
    rw [map_sum]
    refine Fintype.sum_equiv (finCongr (List.length_map _).symm) _ _ fun k => ?_
    show (Complex.toCx φ P.a[k] * (⟨φ x ^ (k : ℕ), 0⟩ : Cx R)).im = _
    simp [Complex.toCx]

/-- C97: matrices of square blocks are multiplied like the matrices that consist of all the entries. -/
theorem C97_blocks (h : Implements φ) {k l m n : ℕ} (a : SMatrix (SMatrix T n n) k l) (b : SMatrix (SMatrix T n n) l m)
    (c : SMatrix (SMatrix T n n) k m) (hc : a.mul b = .ok c) (d : SMatrix T (k * n) (m * n))
    (hd : (flatten a).mul (flatten b) = .ok d) (i : Fin (k * n)) (j : Fin (m * n)) :
    φ (d.val i j) = φ ((flatten c).val i j) := by
  have e := congrFun (congrFun (C23_mul_value h.matrix a b c hc i.divNat j.divNat) i.modNat) j.modNat
  rw [Matrix.sum_apply] at e
  refine (C23_mul_value h _ _ d hd i j).trans (Eq.trans ?_ e.symm)
  rw [← finProdFinEquiv.sum_comp, Fintype.sum_prod_type]
  refine Finset.sum_congr rfl fun s _ => ?_
  rw [Matrix.mul_apply]
  refine Finset.sum_congr rfl fun t _ => ?_
  have h1 : (finProdFinEquiv (s, t)).divNat = s := congrArg Prod.fst (finProdFinEquiv.symm_apply_apply (s, t))
  have h2 : (finProdFinEquiv (s, t)).modNat = t := congrArg Prod.snd (finProdFinEquiv.symm_apply_apply (s, t))
  show φ ((a.val _ _).val _ _) * φ ((b.val _ _).val _ _) = _
  rw [h1, h2]
  rfl

/-- C97: Cayley and Hamilton: the characteristic polynomial of a matrix, evaluated at the matrix, is zero. -/
theorem C97_cayley_hamilton (h : Implements φ) {n : ℕ} (a m : SMatrix T n n) (c : List T)
    (hc : ∀ k, (Poly.fromCoefficients c).coef φ k = (a.toMatrix φ).charpoly.coeff k)
    (hm : (Poly.fromCoefficients (c.map (scalarMatrix n))).eval a = .ok m) (i j : Fin n) : φ (m.val i j) = 0 := by
  have e := h.matrix.peval hm
  have e' : (Poly.fromCoefficients (c.map (scalarMatrix n))).toPolynomial (SMatrix.toMatrix φ) =
      ((a.toMatrix φ).charpoly).map (algebraMap R (Matrix (Fin n) (Fin n) R)) := by
    ext1 k
    rw [coeff_toPolynomial, Polynomial.coeff_map, ← hc]
    show ((c.map (scalarMatrix n))[k]?).elim 0 _ = algebraMap _ _ ((c[k]?).elim 0 φ)
    rw [List.getElem?_map]
    cases c[k]? with
    | none => simp
    | some c => exact scalarMatrix_denotes h n c
  rw [e', Polynomial.eval_map_algebraMap, Matrix.aeval_self_charpoly] at e
  exact congrFun (congrFun e i) j

/-- C97: if no product of non-zero elements is zero, polynomials with at most `n` coefficients that agree at `n` different
points are equal. -/
theorem C97_agree [IsDomain R] (h : Implements φ) {n : ℕ} (p q : Poly T) (hp : p.a.length ≤ n) (hq : q.a.length ≤ n)
    (x y z : Fin n → T) (hx : Function.Injective fun i => φ (x i)) (hy : ∀ i, p.eval (x i) = .ok (y i))
    (hz : ∀ i, q.eval (x i) = .ok (z i)) (he : ∀ i, φ (y i) = φ (z i)) (k : ℕ) : p.coef φ k = q.coef φ k := by
  have deg : ∀ p : Poly T, p.a.length ≤ n → (p.toPolynomial φ).degree < (Finset.univ.map ⟨_, hx⟩).card := by
    intro p hp
    rw [Finset.card_map, Finset.card_univ, Fintype.card_fin]
    refine (Polynomial.degree_lt_iff_coeff_zero _ _).2 fun k hk => ?_
    rw [coeff_toPolynomial, Poly.coef, List.getElem?_eq_none (by omega)]
    rfl
  have := Polynomial.eq_of_degrees_lt_of_eval_finset_eq (Finset.univ.map ⟨_, hx⟩) (deg p hp) (deg q hq) (by
    intro t ht
    obtain ⟨i, _, rfl⟩ := Finset.mem_map.1 ht
    show Polynomial.eval (φ (x i)) _ = Polynomial.eval (φ (x i)) _
    rw [← h.peval (hy i), ← h.peval (hz i), he i])
  exact (toPolynomial_eq_iff φ p q).1 this k

end comm

/-! ## Complex numbers as matrices -/

/-- C97: over floating point numbers the product of complex numbers and the product of the 2 × 2 matrices they stand for are
the same bits, except for the signs of zeros: those of the matrix are positive. -/
theorem C97_complex_as_matrix {F : Fmt} (z w p : Complex (Ieee F)) (hp : z.mul w = .ok p) :
    (cxMatrix z).mul (cxMatrix w) = .ok ⟨fun i j => ((cxMatrix p).val i j).plusZero⟩ := by
  cases (ieee_cmul z w).symm.trans hp
  have run : ∀ v w : SVector (Ieee F) 2, v.dot w =
      .ok (((v.val 0).mul (w.val 0)).plusZero.add ((v.val 1).mul (w.val 1))) := fun v w => by
    rw [← Ieee.zero_add_plusZero]; rfl
  have ps : ∀ {a b : Ieee F}, a.Same b → a.plusZero = b.plusZero := by
    rintro a b (rfl | ⟨s, t, rfl, rfl⟩)
    · rfl
    · cases s <;> cases t <;> rfl
  refine (smatrix_mul_entries _ _ _).2 fun i j => ?_
  rw [run, Ieee.plusZero_add]
  refine congrArg Except.ok ?_
  match i, j with
  | 0, 0 =>
    show Ieee.plusZero ((z.re.mul w.re).add (z.im.neg.mul w.im)) = _
    rw [Ieee.neg_mul]; rfl
  | 0, 1 =>
    show Ieee.plusZero ((z.re.mul w.im.neg).add (z.im.neg.mul w.re)) = _
    rw [Ieee.neg_mul, Ieee.mul_neg]; exact ps (Ieee.neg_add _ _)
  | 1, 0 =>
    show Ieee.plusZero ((z.im.mul w.re).add (z.re.mul w.im)) = _
    rw [Ieee.add_comm]; rfl
  | 1, 1 =>
    show Ieee.plusZero ((z.im.mul w.im.neg).add (z.re.mul w.re)) = _
    rw [Ieee.mul_neg, Ieee.add_comm]; rfl

end Magnesia
