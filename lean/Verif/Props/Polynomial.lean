import Verif.Spec.Basic
import Verif.Spec.Poly
import Verif.Spec.Denote
import Verif.Proof.Containers
import Mathlib.Data.List.DropRight

/-!
# Properties C01 - C07: polynomials

`φ : T → R` interprets the element type in a mathematical ring (`Implements φ`); `Poly.coef φ p k` is the `k`-th
coefficient, zero beyond the end.
-/

namespace Magnesia

open RZero ROne MulRefs

variable {T R : Type} [RRing T] [Ring R] {φ : T → R}

/-! ## C01 -/

/-- C01: `eval` returns the power sum, coefficients on the left. -/
theorem C01_eval_power_sum (h : Implements φ) (a : List T) (x y : T)
    (hy : (Poly.fromCoefficients a).eval x = .ok y) :
    φ y = ∑ i : Fin a.length, φ a[i] * φ x ^ (i : ℕ) := by
  rw [h.peval hy, eval_toPolynomial]
  rfl

/-- C01: `eval` and `eval_ref` are the same function. -/
theorem C01_eval_ref_agrees (p : Poly T) (x : T) : p.evalRef x = p.eval x := rfl

/-- C01: the empty polynomial evaluates to `T::zero()`. -/
theorem C01_eval_empty (x : T) : (Poly.fromCoefficients []).eval x = .ok zero := rfl

/-- C01: `eval` panics only if an element operation does. -/
theorem C01_eval_panics_only_from_elements (a : List T) (x : T) (e : Panic)
    (h : (Poly.fromCoefficients a).eval x = .error e) : ElementPanic T e := pan_eval _ _ e h

/-- C01: `eval` returns if element operations never panic. -/
theorem C01_eval_returns (h : NeverPanics T) (a : List T) (x : T) : ∃ y, (Poly.fromCoefficients a).eval x = .ok y :=
  (pan_eval _ _).exists_ok h.noElementPanic

example : Implements (MInt.toInt : I32 → ℤ) := implements_checked (by decide)
example : (Poly.fromCoefficients [.lit 1, .lit (-2), .lit 3] : Poly I32).eval (.lit 5) = .ok (.lit 66) := rfl
example : NeverPanics W8 := neverPanics_wrapping
example : (Poly.fromCoefficients [.lit 100, .lit 100] : Poly I8).eval (.lit 5) = .error .overflow := rfl

/-! ## C02 -/

/-- C02: `p + q` adds coefficients. -/
theorem C02_add (h : Implements φ) (p q r : Poly T) (hr : p.add q = .ok r) :
    r.a.length = max p.a.length q.a.length ∧ ∀ k, r.coef φ k = p.coef φ k + q.coef φ k := h.padd hr

/-- C02: `p += q` adds coefficients. -/
theorem C02_add_assign (h : Implements φ) (p q : Poly T) (hr : (p.addAssignV q).panic = none) :
    (p.addAssignV q).val.a.length = max p.a.length q.a.length ∧
      ∀ k, (p.addAssignV q).val.coef φ k = p.coef φ k + q.coef φ k := h.paddAssignV hr

/-- C02: `p += &q` adds coefficients. -/
theorem C02_add_assign_ref (h : Implements φ) (p q : Poly T) (hr : (p.addAssignRef q).panic = none) :
    (p.addAssignRef q).val.a.length = max p.a.length q.a.length ∧
      ∀ k, (p.addAssignRef q).val.coef φ k = p.coef φ k + q.coef φ k := h.paddAssignRef hr

/-- C02: the three operators, in either operand order, produce the same polynomial whenever they return. -/
theorem C02_operators_agree (h : Implements φ) (hi : Function.Injective φ) (p q r r' : Poly T) (hr : p.add q = .ok r)
    (hr' : q.add p = .ok r') (h1 : (p.addAssignV q).panic = none) (h2 : (p.addAssignRef q).panic = none) :
    r' = r ∧ (p.addAssignV q).val = r ∧ (p.addAssignRef q).val = r := by
  obtain ⟨a1, a2⟩ := h.padd hr
  obtain ⟨b1, b2⟩ := h.paddAssignV h1
  obtain ⟨c1, c2⟩ := h.paddAssignRef h2
  obtain ⟨d1, d2⟩ := h.padd hr'
  exact ⟨Poly.ext_coef hi (by rw [a1, d1, max_comm]) fun k => by rw [a2, d2, add_comm],
    Poly.ext_coef hi (by rw [a1, b1]) fun k => by rw [a2, b2],
    Poly.ext_coef hi (by rw [a1, c1]) fun k => by rw [a2, c2]⟩

/-- C02: with elements that never panic, all of them return. -/
theorem C02_add_returns (h : NeverPanics T) (p q : Poly T) : (∃ r, p.add q = .ok r) ∧
    (p.addAssignV q).panic = none ∧ (p.addAssignRef q).panic = none :=
  ⟨(pan_padd p q).exists_ok h.noElementPanic, (pan_paddAssignV p q).exists_done h.noElementPanic,
    (pan_paddAssignRef p q).exists_done h.noElementPanic⟩

/-- C02: no addition operator has a panic of its own. -/
theorem C02_add_panics_only_from_elements (p q : Poly T) (e : Panic)
    (h : p.add q = .error e ∨ (p.addAssignV q).panic = some e ∨ (p.addAssignRef q).panic = some e) :
    ElementPanic T e := by
  rcases h with h | h | h
  · exact pan_padd p q e h
  · exact pan_paddAssignV p q e h
  · exact pan_paddAssignRef p q e h

/-- C02: `(p + q)(x) = p(x) + q(x)`. -/
theorem C02_eval_add (h : Implements φ) (p q r : Poly T) (x y u v : T) (hr : p.add q = .ok r)
    (hy : r.eval x = .ok y) (hu : p.eval x = .ok u) (hv : q.eval x = .ok v) : φ y = φ u + φ v := by
  rw [h.peval hy, h.peval hu, h.peval hv, ← Polynomial.eval_add]
  congr 1
  ext k
  rw [Polynomial.coeff_add]
  simp only [coeff_toPolynomial]
  exact (h.padd hr).2 k

example : (⟨[.lit 1, .lit 2]⟩ : Poly I32).add ⟨[.lit 10, .lit 20, .lit 30]⟩ =
    .ok ⟨[.lit 11, .lit 22, .lit 30]⟩ := by rw [Poly.add_eq]; rfl
example : (⟨[.lit 1, .lit 2]⟩ : Poly I32).addAssignV ⟨[.lit 10, .lit 20, .lit 30]⟩ =
    .done ⟨[.lit 11, .lit 22, .lit 30]⟩ := rfl
example : (⟨[.lit 1, .lit 2]⟩ : Poly I32).addAssignRef ⟨[.lit 10, .lit 20, .lit 30]⟩ =
    .done ⟨[.lit 11, .lit 22, .lit 30]⟩ := rfl

/-! ## C03 -/

/-- C03: `p - q` subtracts coefficients. -/
theorem C03_sub (h : Implements φ) (p q r : Poly T) (hr : p.sub q = .ok r) :
    r.a.length = max p.a.length q.a.length ∧ ∀ k, r.coef φ k = p.coef φ k - q.coef φ k := h.psub hr

/-- C03: `p -= q` subtracts coefficients. -/
theorem C03_sub_assign (h : Implements φ) (p q : Poly T) (hr : (p.subAssignV q).panic = none) :
    (p.subAssignV q).val.a.length = max p.a.length q.a.length ∧
      ∀ k, (p.subAssignV q).val.coef φ k = p.coef φ k - q.coef φ k := h.psubAssignV hr

/-- C03: `p -= &q` subtracts coefficients. -/
theorem C03_sub_assign_ref (h : Implements φ) (p q : Poly T) (hr : (p.subAssignRef q).panic = none) :
    (p.subAssignRef q).val.a.length = max p.a.length q.a.length ∧
      ∀ k, (p.subAssignRef q).val.coef φ k = p.coef φ k - q.coef φ k := h.psubAssignRef hr

/-- C03: `-p` negates coefficients and keeps the length. -/
theorem C03_neg (h : Implements φ) (p r : Poly T) (hr : p.neg = .ok r) :
    r.a.length = p.a.length ∧ ∀ k, r.coef φ k = -p.coef φ k := h.pneg hr

/-- C03: the three operators produce the same polynomial whenever they return. -/
theorem C03_operators_agree (h : Implements φ) (hi : Function.Injective φ) (p q r : Poly T) (hr : p.sub q = .ok r)
    (h1 : (p.subAssignV q).panic = none) (h2 : (p.subAssignRef q).panic = none) :
    (p.subAssignV q).val = r ∧ (p.subAssignRef q).val = r := by
  obtain ⟨a1, a2⟩ := h.psub hr
  obtain ⟨b1, b2⟩ := h.psubAssignV h1
  obtain ⟨c1, c2⟩ := h.psubAssignRef h2
  exact ⟨Poly.ext_coef hi (by rw [a1, b1]) fun k => by rw [a2, b2],
    Poly.ext_coef hi (by rw [a1, c1]) fun k => by rw [a2, c2]⟩

/-- C03: with elements that never panic, all of them return. -/
theorem C03_sub_returns (h : NeverPanics T) (p q : Poly T) : (∃ r, p.sub q = .ok r) ∧ (∃ r, p.neg = .ok r) ∧
    (p.subAssignV q).panic = none ∧ (p.subAssignRef q).panic = none :=
  ⟨(pan_psub p q).exists_ok h.noElementPanic, (pan_pneg p).exists_ok h.noElementPanic,
    (pan_psubAssignV p q).exists_done h.noElementPanic, (pan_psubAssignRef p q).exists_done h.noElementPanic⟩

/-- C03: `(p - q)(x) = p(x) - q(x)`. -/
theorem C03_eval_sub (h : Implements φ) (p q r : Poly T) (x y u v : T) (hr : p.sub q = .ok r)
    (hy : r.eval x = .ok y) (hu : p.eval x = .ok u) (hv : q.eval x = .ok v) : φ y = φ u - φ v := by
  rw [h.peval hy, h.peval hu, h.peval hv, ← Polynomial.eval_sub]
  congr 1
  ext k
  rw [Polynomial.coeff_sub]
  simp only [coeff_toPolynomial]
  exact (h.psub hr).2 k

/-- C03: `(-p)(x) = -(p(x))`. -/
theorem C03_eval_neg (h : Implements φ) (p r : Poly T) (x y u : T) (hr : p.neg = .ok r)
    (hy : r.eval x = .ok y) (hu : p.eval x = .ok u) : φ y = -φ u := by
  rw [h.peval hy, h.peval hu, ← Polynomial.eval_neg]
  congr 1
  ext k
  rw [Polynomial.coeff_neg]
  simp only [coeff_toPolynomial]
  exact (h.pneg hr).2 k

/-- C03 (difference in panics): with checked `i8`, `p - q` may panic although `p -= &q` returns the exact difference,
since `p - q` first computes `-q`. -/
theorem C03_sub_may_panic_where_sub_assign_ref_does_not :
    ∃ p q : Poly I8, p.sub q = .error .overflow ∧ p.subAssignRef q = .done ⟨[.lit 127]⟩ :=
  ⟨⟨[.lit (-1)]⟩, ⟨[.lit (-128)]⟩, rfl, rfl⟩

example : (⟨[.lit 1, .lit 2]⟩ : Poly I32).subAssignV ⟨[.lit 10, .lit 20, .lit 30]⟩ =
    .done ⟨[.lit (-9), .lit (-18), .lit (-30)]⟩ := rfl
example : (⟨[.lit 1, .lit 2]⟩ : Poly I32).subAssignRef ⟨[.lit 10, .lit 20, .lit 30]⟩ =
    .done ⟨[.lit (-9), .lit (-18), .lit (-30)]⟩ := rfl
example : (⟨[.lit 1, .lit 2]⟩ : Poly I32).sub ⟨[.lit 10, .lit 20, .lit 30]⟩ =
    .ok ⟨[.lit (-9), .lit (-18), .lit (-30)]⟩ := by
  show (Poly.mk [.lit 1, .lit 2] : Poly I32).add ⟨[.lit (-10), .lit (-20), .lit (-30)]⟩ = _
  rw [Poly.add_eq]; rfl

/-! ## C04 -/

/-- C04: the product has `len(p)+len(q)-1` coefficients (none if an operand is empty), the `k`-th being the Cauchy
sum `∑_{i+j=k} p_i q_j`, factors in this order. -/
theorem C04_mul (h : Implements φ) (p q r : Poly T) (hr : p.mulRef q = .ok r) :
    r.a.length = (if p.a = [] ∨ q.a = [] then 0 else p.a.length + q.a.length - 1) ∧
      ∀ k, r.coef φ k = ∑ ij ∈ Finset.antidiagonal k, p.coef φ ij.1 * q.coef φ ij.2 := by
  obtain ⟨h1, h2⟩ := h.pmul hr
  refine ⟨by simpa only [List.length_eq_zero_iff] using h1, fun k => ?_⟩
  have := congrArg (fun P => Polynomial.coeff P k) h2
  simp only [Polynomial.coeff_mul, coeff_toPolynomial] at this
  exact this

/-- C04: `p * q`, `p *= q`, `&p * &q` and `p.mul_refs(&q)` agree (also in their panics; on a panic `p *= q` leaves `p`
unchanged). -/
theorem C04_operators_agree (p q : Poly T) : p.mul q = p.mulRef q ∧ mulRefs p q = p.mulRef q ∧
    (p.mulAssign q).toRes = p.mulRef q ∧ ((p.mulAssign q).panic ≠ none → (p.mulAssign q).val = p) := by
  refine ⟨rfl, rfl, toRes_ofRes _ _, ?_⟩
  unfold Poly.mulAssign
  cases (mulRefs p q : Res (Poly T)) <;> simp [Upd.ofRes]

/-- C04: every panic of a product is a panic of an element operation; in particular no index is out of bounds. -/
theorem C04_mul_panics_only_from_elements (p q : Poly T) (e : Panic) (h : p.mulRef q = .error e) :
    ElementPanic T e := pan_pmul p q e h

/-- C04: with elements that never panic the product returns. -/
theorem C04_mul_returns (h : NeverPanics T) (p q : Poly T) : ∃ r, p.mulRef q = .ok r :=
  (pan_pmul p q).exists_ok h.noElementPanic

example : (⟨[.lit 1, .lit 2]⟩ : Poly I32).mulRef ⟨[.lit 10, .lit 20, .lit 30]⟩ =
    .ok ⟨[.lit 10, .lit 40, .lit 70, .lit 60]⟩ := rfl

/-! ## C05 -/

/-- C05: `(p*q)(x) = p(x)*q(x)` whenever `x` commutes with all coefficients of `q`. -/
theorem C05_eval_mul (h : Implements φ) (p q r : Poly T) (x y u v : T)
    (hx : ∀ c ∈ q.a, φ c * φ x = φ x * φ c) (hr : p.mulRef q = .ok r)
    (hy : r.eval x = .ok y) (hu : p.eval x = .ok u) (hv : q.eval x = .ok v) : φ y = φ u * φ v := by
  rw [h.peval hy, h.peval hu, h.peval hv, (h.pmul hr).2]
  unfold Polynomial.eval
  apply Polynomial.eval₂_mul_noncomm
  intro k
  rw [coeff_toPolynomial]
  simp only [RingHom.id_apply]
  by_cases hk : k < q.a.length
  · rw [coef_of_lt hk]; exact hx _ (List.getElem_mem _)
  · rw [coef_eq_zero (by omega)]; exact Commute.zero_left _

/-- C05: in particular for commutative element types. -/
theorem C05_eval_mul_comm {R : Type} [CommRing R] {φ : T → R} (h : Implements φ) (p q r : Poly T) (x y u v : T)
    (hr : p.mulRef q = .ok r) (hy : r.eval x = .ok y) (hu : p.eval x = .ok u) (hv : q.eval x = .ok v) :
    φ y = φ u * φ v :=
  C05_eval_mul h p q r x y u v (fun _ _ => mul_comm _ _) hr hy hu hv

/-- The 2×2 integer matrix with the given rows (for the counterexample). -/
def mat2 (a b c d : ℤ) : SMatrix I32 2 2 :=
  ⟨fun i j => if i = 0 then (if j = 0 then .lit a else .lit b) else (if j = 0 then .lit c else .lit d)⟩

/-- The value of a computation known to return (for examples). -/
def Res.getD {α : Type} (x : Res α) (d : α) : α :=
  match x with
  | .ok a => a
  | .error _ => d

theorem Res.eq_ok {α : Type} {x : Res α} {d : α} (h : x.isOk = true) : x = .ok (x.getD d) := by
  cases x with
  | ok a => rfl
  | error e => cases h

/-- C05: there are matrices over `i32` for which evaluation is not multiplicative: with `p = X`, `q` the constant `B`
and `x = A` the left side is `B*A`, the right side `A*B`. -/
theorem C05_eval_mul_fails_for_matrices : ∃ (p q r : Poly (SMatrix I32 2 2)) (x y u v w : SMatrix I32 2 2),
    p.mulRef q = .ok r ∧ r.eval x = .ok y ∧ p.eval x = .ok u ∧ q.eval x = .ok v ∧ u.mulRef v = .ok w ∧ y ≠ w := by
  let p : Poly (SMatrix I32 2 2) := ⟨[mat2 0 0 0 0, mat2 1 0 0 1]⟩
  let q : Poly (SMatrix I32 2 2) := ⟨[mat2 0 0 1 0]⟩
  let x := mat2 0 1 0 0
  refine ⟨p, q, (p.mulRef q).getD ⟨[]⟩, x, (((p.mulRef q).getD ⟨[]⟩).eval x).getD x, (p.eval x).getD x,
    (q.eval x).getD x, (((p.eval x).getD x).mulRef ((q.eval x).getD x)).getD x, Res.eq_ok (by decide +kernel),
    Res.eq_ok (by decide +kernel), Res.eq_ok (by decide +kernel), Res.eq_ok (by decide +kernel),
    Res.eq_ok (by decide +kernel), ?_⟩
  intro h
  have h00 := congrFun (congrFun (congrArg SMatrix.val h) 0) 0
  revert h00
  decide +kernel

/-! ## C06 -/

section C06
variable {p q r s t s' t' u : Poly T}

/-- C06: `==` on polynomials decides equality of coefficient vectors if `==` on elements decides equality. -/
theorem C06_eq_iff (heq : ∀ a b : T, RPartialEq.eq a b = true ↔ a = b) (p q : Poly T) :
    RPartialEq.eq p q = true ↔ p = q := by
  obtain ⟨a⟩ := p
  obtain ⟨b⟩ := q
  simp only [RPartialEq.eq, Bool.and_eq_true, beq_iff_eq, Poly.mk.injEq]
  induction a generalizing b with
  | nil => cases b <;> simp
  | cons x a ih =>
    cases b with
    | nil => simp
    | cons y b =>
      simp only [List.length_cons, Nat.add_right_cancel_iff, List.zipWith_cons_cons, List.all_cons, id_eq,
        Bool.and_eq_true, List.cons.injEq, heq]
      rw [← ih b]
      tauto

/-- C06: `(p + q) + r = p + (q + r)`. -/
theorem C06_add_assoc (h : Implements φ) (hi : Function.Injective φ) (h1 : p.add q = .ok s) (h2 : s.add r = .ok t)
    (h3 : q.add r = .ok s') (h4 : p.add s' = .ok t') : t = t' := by
  apply Poly.ext_coef hi
  · rw [(h.padd h2).1, (h.padd h1).1, (h.padd h4).1, (h.padd h3).1, max_assoc]
  · intro k
    rw [(h.padd h2).2, (h.padd h1).2, (h.padd h4).2, (h.padd h3).2, add_assoc]

/-- C06: `p + q = q + p`. -/
theorem C06_add_comm (h : Implements φ) (hi : Function.Injective φ) (h1 : p.add q = .ok s) (h2 : q.add p = .ok t) :
    s = t := by
  apply Poly.ext_coef hi
  · rw [(h.padd h1).1, (h.padd h2).1, max_comm]
  · intro k
    rw [(h.padd h1).2, (h.padd h2).2, add_comm]

/-- C06: `p + zero() = p` and `zero() + p = p`, for every element type. -/
theorem C06_add_zero (p : Poly T) : p.add zero = .ok p ∧ (zero : Poly T).add p = .ok p := by
  constructor
  · rw [Poly.add_eq]
    simp [zero, zipUpd, forEach, Upd.into, Upd.toRes]
  · rw [Poly.add_eq]
    cases p with
    | mk a => cases a <;> simp [zero, zipUpd, forEach, Upd.into, Upd.toRes]

private theorem mul_len (h : Implements φ) (h1 : p.mulRef q = .ok s) :
    s.a.length = if p.a.length = 0 ∨ q.a.length = 0 then 0 else p.a.length + q.a.length - 1 := (h.pmul h1).1

/-- C06: `(p * q) * r = p * (q * r)`. -/
theorem C06_mul_assoc (h : Implements φ) (hi : Function.Injective φ) (h1 : p.mulRef q = .ok s)
    (h2 : s.mulRef r = .ok t) (h3 : q.mulRef r = .ok s') (h4 : p.mulRef s' = .ok t') : t = t' := by
  apply Poly.ext_coef hi
  · rw [mul_len h h2, mul_len h h1, mul_len h h4, mul_len h h3]
    split_ifs <;> omega
  · rw [← toPolynomial_eq_iff, (h.pmul h2).2, (h.pmul h1).2, (h.pmul h4).2, (h.pmul h3).2, mul_assoc]

/-- C06: `p * (q + r) = p * q + p * r`. -/
theorem C06_left_distrib (h : Implements φ) (hi : Function.Injective φ) (h1 : q.add r = .ok s)
    (h2 : p.mulRef s = .ok t) (h3 : p.mulRef q = .ok s') (h4 : p.mulRef r = .ok t') (h5 : s'.add t' = .ok u) :
    t = u := by
  apply Poly.ext_coef hi
  · rw [mul_len h h2, (h.padd h1).1, (h.padd h5).1, mul_len h h3, mul_len h h4]
    split_ifs <;> omega
  · have e1 : s.toPolynomial φ = q.toPolynomial φ + r.toPolynomial φ := by
      ext k; rw [Polynomial.coeff_add]; simp only [coeff_toPolynomial]; exact (h.padd h1).2 k
    have e2 : u.toPolynomial φ = s'.toPolynomial φ + t'.toPolynomial φ := by
      ext k; rw [Polynomial.coeff_add]; simp only [coeff_toPolynomial]; exact (h.padd h5).2 k
    rw [← toPolynomial_eq_iff, (h.pmul h2).2, e1, e2, (h.pmul h3).2, (h.pmul h4).2, mul_add]

/-- C06: `(q + r) * p = q * p + r * p`. -/
theorem C06_right_distrib (h : Implements φ) (hi : Function.Injective φ) (h1 : q.add r = .ok s)
    (h2 : s.mulRef p = .ok t) (h3 : q.mulRef p = .ok s') (h4 : r.mulRef p = .ok t') (h5 : s'.add t' = .ok u) :
    t = u := by
  apply Poly.ext_coef hi
  · rw [mul_len h h2, (h.padd h1).1, (h.padd h5).1, mul_len h h3, mul_len h h4]
    split_ifs <;> omega
  · have e1 : s.toPolynomial φ = q.toPolynomial φ + r.toPolynomial φ := by
      ext k; rw [Polynomial.coeff_add]; simp only [coeff_toPolynomial]; exact (h.padd h1).2 k
    have e2 : u.toPolynomial φ = s'.toPolynomial φ + t'.toPolynomial φ := by
      ext k; rw [Polynomial.coeff_add]; simp only [coeff_toPolynomial]; exact (h.padd h5).2 k
    rw [← toPolynomial_eq_iff, (h.pmul h2).2, e1, e2, (h.pmul h3).2, (h.pmul h4).2, add_mul]

/-- C06: `one()` is neutral on both sides. -/
theorem C06_mul_one (h : Implements φ) (hi : Function.Injective φ) :
    (p.mulRef one = .ok s → s = p) ∧ ((one : Poly T).mulRef p = .ok t → t = p) := by
  have e1 : (one : Poly T).toPolynomial φ = 1 := h.poly.one
  have l1 : (one : Poly T).a.length = 1 := rfl
  constructor
  · intro h1
    apply Poly.ext_coef hi
    · rw [mul_len h h1, l1]; by_cases hc : p.a.length = 0 <;> simp [hc]
    · rw [← toPolynomial_eq_iff, (h.pmul h1).2, e1, mul_one]
  · intro h1
    apply Poly.ext_coef hi
    · rw [mul_len h h1, l1]; by_cases hc : p.a.length = 0 <;> simp [hc]
    · rw [← toPolynomial_eq_iff, (h.pmul h1).2, e1, one_mul]

/-- C06: multiplication is commutative if that of the elements is. -/
theorem C06_mul_comm {R : Type} [CommRing R] {φ : T → R} (h : Implements φ) (hi : Function.Injective φ)
    (h1 : p.mulRef q = .ok s) (h2 : q.mulRef p = .ok t) : s = t := by
  apply Poly.ext_coef hi
  · rw [mul_len h h1, mul_len h h2]; split_ifs <;> omega
  · rw [← toPolynomial_eq_iff, (h.pmul h1).2, (h.pmul h2).2, mul_comm]

/-- C06: multiplying by `zero()` gives `zero()` (for every element type, without touching any element). -/
theorem C06_mul_zero (p : Poly T) : p.mulRef zero = .ok zero ∧ (zero : Poly T).mulRef p = .ok zero := by
  constructor <;> simp [Poly.mulRef, zero]

/-- C06 (all laws at once, on results): for element types that never panic and are determined by their denotation the
laws are equations between the computations themselves. -/
theorem C06_semiring {R : Type} [CommRing R] {φ : T → R} (h : Implements φ) (hi : Function.Injective φ)
    (hn : NeverPanics T) (p q r : Poly T) :
    (do (← p.add q).add r) = (do p.add (← q.add r)) ∧ p.add q = q.add p ∧
    (do (← p.mulRef q).mulRef r) = (do p.mulRef (← q.mulRef r)) ∧ p.mulRef q = q.mulRef p ∧
    (do p.mulRef (← q.add r)) = (do (← p.mulRef q).add (← p.mulRef r)) ∧
    (do (← q.add r).mulRef p) = (do (← q.mulRef p).add (← r.mulRef p)) ∧
    p.mulRef one = .ok p ∧ (one : Poly T).mulRef p = .ok p := by
  have A := fun p q : Poly T => (C02_add_returns hn p q).1
  have M := fun p q : Poly T => C04_mul_returns hn p q
  obtain ⟨s1, e1⟩ := A p q; obtain ⟨t1, e2⟩ := A s1 r; obtain ⟨s2, e3⟩ := A q r; obtain ⟨t2, e4⟩ := A p s2
  obtain ⟨s3, e5⟩ := A q p
  obtain ⟨m1, f1⟩ := M p q; obtain ⟨m2, f2⟩ := M m1 r; obtain ⟨m3, f3⟩ := M q r; obtain ⟨m4, f4⟩ := M p m3
  obtain ⟨m5, f5⟩ := M q p; obtain ⟨m6, f6⟩ := M p s2; obtain ⟨m7, f7⟩ := M p r; obtain ⟨m8, f8⟩ := A m1 m7
  obtain ⟨m9, f9⟩ := M s2 p; obtain ⟨n1, g1⟩ := M r p; obtain ⟨n2, g2⟩ := A m5 n1
  obtain ⟨n3, g3⟩ := M p one; obtain ⟨n4, g4⟩ := M one p
  simp only [e1, e2, e3, e4, e5, f1, f2, f3, f4, f5, f6, f7, f8, f9, g1, g2, g3, g4, bind, Except.bind]
  have a1 := C06_add_assoc h hi e1 e2 e3 e4
  have a2 := C06_add_comm h hi e1 e5
  have a3 := C06_mul_assoc h hi f1 f2 f3 f4
  have a4 := C06_mul_comm h hi f1 f5
  have a5 := C06_left_distrib h hi e3 f6 f1 f7 f8
  have a6 := C06_right_distrib h hi e3 f9 f5 g1 g2
  have a7 := (C06_mul_one (s := n3) (t := n4) h hi).1 g3
  have a8 := (C06_mul_one (s := n3) (t := n4) h hi).2 g4
  exact ⟨by rw [a1], by rw [a2], by rw [a3], by rw [a4], by rw [a5], by rw [a6], by rw [a7], by rw [a8]⟩

end C06

example : Implements (MInt.bv : W8 → BitVec 8) ∧ Function.Injective (MInt.bv : W8 → BitVec 8) ∧ NeverPanics W8 :=
  ⟨implements_wrapping, bv_injective, neverPanics_wrapping⟩
example : Implements (MInt.toInt : I32 → ℤ) ∧ Function.Injective (MInt.toInt : I32 → ℤ) :=
  ⟨implements_checked (by decide), toInt_injective⟩

/-! ## C07 -/

/-- C07: `p + (-p)` is the all-zero coefficient vector of `p`'s length. -/
theorem C07_add_neg (h : Implements φ) (p n r : Poly T) (hn : p.neg = .ok n) (hr : p.add n = .ok r) :
    r.a.length = p.a.length ∧ ∀ k, r.coef φ k = 0 := by
  obtain ⟨h1, h2⟩ := h.pneg hn
  obtain ⟨h3, h4⟩ := h.padd hr
  exact ⟨by rw [h3, h1, max_self], fun k => by rw [h4, h2, add_neg_cancel]⟩

/-- C07: hence it equals `zero()` under `==` if and only if `p` has no coefficients - whatever `==` does on elements. -/
theorem C07_add_neg_eq_zero_iff (h : Implements φ) (p n r : Poly T) (hn : p.neg = .ok n) (hr : p.add n = .ok r) :
    RPartialEq.eq r (zero : Poly T) = true ↔ p.a = [] := by
  obtain ⟨h1, _⟩ := C07_add_neg h p n r hn hr
  have : (zero : Poly T).a = [] := rfl
  simp only [RPartialEq.eq, this, List.length_nil, Bool.and_eq_true, beq_iff_eq, List.zipWith_nil_right, List.all_nil,
    and_true]
  rw [h1, List.length_eq_zero_iff]

/-- C07: the same for `p - p`. -/
theorem C07_sub_self_eq_zero_iff (h : Implements φ) (p r : Poly T) (hr : p.sub p = .ok r) :
    (RPartialEq.eq r (zero : Poly T) = true ↔ p.a = []) ∧ ∀ k, r.coef φ k = 0 := by
  obtain ⟨h1, h2⟩ := h.psub hr
  have : (zero : Poly T).a = [] := rfl
  refine ⟨?_, fun k => by rw [h2, sub_self]⟩
  simp only [RPartialEq.eq, this, List.length_nil, Bool.and_eq_true, beq_iff_eq, List.zipWith_nil_right, List.all_nil,
    and_true]
  rw [h1, max_self, List.length_eq_zero_iff]

/-- C07: so the additive-inverse law promised for `Ring` fails under `==`. -/
theorem C07_ring_law_fails : ∃ p r : Poly I32, p.sub p = .ok r ∧ RPartialEq.eq r (zero : Poly I32) = false := by
  refine ⟨⟨[.lit 7]⟩, ⟨[.lit 0]⟩, ?_, rfl⟩
  show (Poly.mk [.lit 7] : Poly I32).add ⟨[.lit (-7)]⟩ = _
  rw [Poly.add_eq]; rfl

omit [RRing T] in
/-- C07: two coefficient vectors denote the same formal polynomial exactly when they agree after dropping trailing
zeros. -/
theorem C07_same_polynomial_iff [DecidableEq R] (φ : T → R) (p q : Poly T) :
    p.toPolynomial φ = q.toPolynomial φ ↔
      (p.a.map φ).rdropWhile (· = 0) = (q.a.map φ).rdropWhile (· = 0) := by
  have key : ∀ l : List R, ∀ k : ℕ, (l.rdropWhile (· = 0))[k]?.getD 0 = l[k]?.getD 0 := by
    intro l
    induction l using List.reverseRecOn with
    | nil => intro k; simp
    | append_singleton l x ih =>
      intro k
      rw [List.rdropWhile_concat]
      split
      · rename_i hx
        have hx0 : x = 0 := by simpa using hx
        rw [ih k, List.getElem?_append]
        split
        · rfl
        · rename_i hk
          rw [List.getElem?_eq_none (by omega)]
          cases hkl : (k - l.length) with
          | zero => simp [hx0]
          | succ m => simp
      · rfl
  have coef_eq : ∀ (p : Poly T) k, p.coef φ k = ((p.a.map φ).rdropWhile (· = 0))[k]?.getD 0 := by
    intro p k
    rw [key]
    simp only [Poly.coef, List.getElem?_map]
    cases p.a[k]? <;> rfl
  rw [toPolynomial_eq_iff]
  constructor
  · intro h
    set a := (p.a.map φ).rdropWhile (· = 0) with ha
    set b := (q.a.map φ).rdropWhile (· = 0) with hb
    have hab : ∀ k : ℕ, a[k]?.getD 0 = b[k]?.getD 0 := fun k => by
      have := h k; rwa [coef_eq, coef_eq] at this
    have aux : ∀ a b : List R, (∀ k : ℕ, a[k]?.getD 0 = b[k]?.getD 0) → (∀ hne : a ≠ [], ¬ a.getLast hne = 0) →
        a.length ≤ b.length := by
      intro a b hab hl
      by_contra hlt
      push Not at hlt
      have hne : a ≠ [] := by rintro rfl; simp at hlt
      have h1 := hab (a.length - 1)
      rw [List.getElem?_eq_none (l := b) (by omega)] at h1
      apply hl hne
      rw [List.getLast_eq_getElem]
      rw [List.getElem?_eq_getElem (by omega)] at h1
      simpa using h1
    have la : ∀ hne : a ≠ [], ¬ a.getLast hne = 0 := fun hne => by
      simpa using List.rdropWhile_last_not (p := fun x : R => decide (x = 0)) (l := p.a.map φ) hne
    have lb : ∀ hne : b ≠ [], ¬ b.getLast hne = 0 := fun hne => by
      simpa using List.rdropWhile_last_not (p := fun x : R => decide (x = 0)) (l := q.a.map φ) hne
    have hlen : a.length = b.length := le_antisymm (aux a b hab la) (aux b a (fun k => (hab k).symm) lb)
    apply List.ext_getElem hlen
    intro i h1 h2
    have := hab i
    rwa [List.getElem?_eq_getElem h1, List.getElem?_eq_getElem h2] at this
  · intro h k
    rw [coef_eq, coef_eq, h]

example : ((⟨[.lit 7]⟩ : Poly I32).neg) = .ok ⟨[.lit (-7)]⟩ := rfl

end Magnesia
