import Verif.Proof.PFormNum
import Verif.Proof.FormFloat

/-!
# Property C71: formulas of polynomials in floating point arithmetic

`PForm` and `NForm` (in `Spec/PForm.lean`) are the languages of formulas, `run` computes one through the API, `den` is the
exact meaning, `err` the error bound.
-/

namespace Magnesia

open RZero ROne MulRefs Polynomial

variable {F : Fmt}

/-- C71: what exactly is computed, for any element type: coefficient `k` of a product is the sum, from left to right and
starting from `T::zero()`, of `p[i] * q[k - i]` for increasing `i`. -/
theorem C71_product_coefficient {T : Type} [RRing T] (p q r : Poly T) (h : p.mul q = .ok r) :
    r.a.length = (if p.a = [] ∨ q.a = [] then 0 else p.a.length + q.a.length - 1) ∧
    ∀ (k : ℕ) x, r.a[k]? = some x →
      ((List.range p.a.length).filter fun i => i ≤ k ∧ k - i < q.a.length).foldlM (fun y i => do
        let prod ← mulRefs (← getIdx p.a i) (← getIdx q.a (k - i))
        (AddAssignRef.addAssign y prod).toRes) zero = .ok x := by
  obtain ⟨h1, h2⟩ := mulRef_coef p q r h
  exact ⟨by simpa only [List.length_eq_zero_iff] using h1, h2⟩

theorem ieee_ringFloat : RingFloat (Ieee.Finite (F := F)) Ieee.real (2 ^ F.emax) F.u F.u F.η where
  u_nonneg := ieee_floatOps.u_nonneg
  v_nonneg := ieee_floatOps.v_nonneg
  η_nonneg := ieee_floatOps.η_nonneg
  zero := ieee_floatOps.zero
  one := ieee_floatOps.one
  never := ⟨fun _ _ => rfl, fun _ _ => rfl, fun _ _ => ⟨_, rfl⟩, fun _ => ⟨_, rfl⟩⟩
  add a b c h := by
    cases h
    refine ⟨fun hc => ieee_floatOps.add a b _ rfl hc, fun ha hb hB => ?_⟩
    obtain ⟨c, h, hc⟩ := ieee_floatOps.add_fin a b ha hb hB
    cases h; exact hc
  sub a b := by
    refine ⟨_, rfl, fun hc => ieee_floatOps.sub a b _ rfl hc, fun ha hb hB => ?_⟩
    obtain ⟨c, h, hc⟩ := ieee_floatOps.sub_fin a b ha hb hB
    cases h; exact hc
  mul a b c h := by
    cases h
    refine ⟨fun hc => ieee_floatOps.mul a b _ rfl hc, fun ha hb hB => ?_⟩
    obtain ⟨c, h, hc⟩ := ieee_floatOps.mul_fin a b ha hb hB
    cases h; exact hc
  neg a c h := by
    cases h
    refine ⟨?_, Ieee.neg_finite⟩
    show (((a.neg).value : ℚ) : ℝ) = -((a.value : ℚ) : ℝ)
    rw [Ieee.neg_value]; push_cast; rfl
  addV a b := rfl
  mulV a b := rfl

theorem cx_ringFloat : RingFloat (CFinite (F := F)) cval (2 ^ (F.emax - 1)) F.u F.cu F.cη where
  u_nonneg := cx_floatOps.u_nonneg
  v_nonneg := cx_floatOps.v_nonneg
  η_nonneg := cx_floatOps.η_nonneg
  zero := cx_floatOps.zero
  one := cx_floatOps.one
  never := ⟨fun _ _ => rfl, fun _ _ => rfl, fun _ _ => ⟨_, rfl⟩, fun _ => ⟨_, rfl⟩⟩
  add a b c h := by
    cases h
    refine ⟨fun hc => cx_floatOps.add a b _ rfl hc, fun ha hb hB => ?_⟩
    obtain ⟨c, h, hc⟩ := cx_floatOps.add_fin a b ha hb hB
    cases h; exact hc
  sub a b := by
    refine ⟨_, rfl, fun hc => cx_floatOps.sub a b _ rfl hc, fun ha hb hB => ?_⟩
    obtain ⟨c, h, hc⟩ := cx_floatOps.sub_fin a b ha hb hB
    cases h; exact hc
  mul a b c h := by
    cases h
    refine ⟨fun hc => cx_floatOps.mul a b _ rfl hc, fun ha hb hB => ?_⟩
    obtain ⟨c, h, hc⟩ := cx_floatOps.mul_fin a b ha hb hB
    cases h; exact hc
  neg a c h := by
    cases h
    refine ⟨_root_.Complex.ext ?_ ?_, and_congr Ieee.neg_finite Ieee.neg_finite⟩
    · show (((a.re.neg).value : ℚ) : ℝ) = -((a.re.value : ℚ) : ℝ)
      rw [Ieee.neg_value]; push_cast; rfl
    · show (((a.im.neg).value : ℚ) : ℝ) = -((a.im.value : ℚ) : ℝ)
      rw [Ieee.neg_value]; push_cast; rfl
  addV a b := rfl
  mulV a b := rfl

section
variable {T K : Type} [NormedField K] [RRing T] [RAdd T T T] [RSub T T T] [RMul T T T] {fin : T → Prop} {φ : T → K}
  {B u v η : ℝ} (hA : RingFloat fin φ B u v η)
include hA

theorem pform_error (f : PForm T) : ∃ r, f.run = .ok r ∧ r.a.length = f.len ∧
    (∀ (k : ℕ) x, r.a[k]? = some x → fin x → f.Uses fin k ∧ ‖φ x - (f.den φ).coeff k‖ ≤ f.err u v η φ k) ∧
    (f.Within fin B u v η φ → ∀ x ∈ r.a, fin x) := by
  obtain ⟨r, e, h1, h2⟩ := f.run_good hA
  refine ⟨r, e, h1, fun k x hx hf => ?_, fun w x hx => ?_⟩
  · obtain ⟨h3, h4⟩ := (h2 k x hx).1 hf
    refine ⟨h3, h4.err.trans (le_of_eq ?_)⟩
    unfold PForm.err; ring
  · obtain ⟨k, hk⟩ := List.mem_iff_getElem?.1 hx
    exact (h2 k x hk).2 w

theorem nform_error (f : NForm T) : ∃ y, f.run = .ok y ∧
    (fin y → f.Uses fin ∧ ‖φ y - f.den φ‖ ≤ f.err u v η φ) ∧ (f.Within fin B u v η φ → fin y) := by
  obtain ⟨y, e, h1, h2⟩ := f.run_good hA
  refine ⟨y, e, fun hf => ?_, h2⟩
  obtain ⟨h3, h4⟩ := h1 hf
  refine ⟨h3, h4.err.trans (le_of_eq ?_)⟩
  unfold NForm.err; ring

end

/-- C71: computing a formula of polynomials over floating point numbers always returns a polynomial with `f.len`
coefficients; every finite coefficient is within the error bound of the exact one, and the given coefficients it depends on
are finite. If the estimated magnitudes do not exceed `2 ^ emax`, all coefficients are finite. -/
theorem C71_polynomial (f : PForm (Ieee F)) : ∃ r, f.run = .ok r ∧ r.a.length = f.len ∧
    (∀ (k : ℕ) x, r.a[k]? = some x → x.Finite → f.Uses Ieee.Finite k ∧
      |x.real - (f.den Ieee.real).coeff k| ≤ f.err F.u F.u F.η Ieee.real k) ∧
    (f.Within Ieee.Finite (2 ^ F.emax) F.u F.u F.η Ieee.real → ∀ x ∈ r.a, x.Finite) := pform_error ieee_ringFloat f

/-- C71: the same over complex floating point numbers. -/
theorem C71_polynomial_complex (f : PForm (Complex (Ieee F))) : ∃ r, f.run = .ok r ∧ r.a.length = f.len ∧
    (∀ (k : ℕ) x, r.a[k]? = some x → CFinite x → f.Uses CFinite k ∧
      ‖cval x - (f.den cval).coeff k‖ ≤ f.err F.u F.cu F.cη cval k) ∧
    (f.Within CFinite (2 ^ (F.emax - 1)) F.u F.cu F.cη cval → ∀ x ∈ r.a, CFinite x) := pform_error cx_ringFloat f

/-- C71: formulas of numbers and values of polynomials. -/
theorem C71_number (f : NForm (Ieee F)) : ∃ y, f.run = .ok y ∧
    (y.Finite → f.Uses Ieee.Finite ∧ |y.real - f.den Ieee.real| ≤ f.err F.u F.u F.η Ieee.real) ∧
    (f.Within Ieee.Finite (2 ^ F.emax) F.u F.u F.η Ieee.real → y.Finite) := nform_error ieee_ringFloat f

/-- C71: the same over complex floating point numbers. -/
theorem C71_number_complex (f : NForm (Complex (Ieee F))) : ∃ y, f.run = .ok y ∧
    (CFinite y → f.Uses CFinite ∧ ‖cval y - f.den cval‖ ≤ f.err F.u F.cu F.cη cval) ∧
    (f.Within CFinite (2 ^ (F.emax - 1)) F.u F.cu F.cη cval → CFinite y) := nform_error cx_ringFloat f

/-- C71: two formulas with the same meaning: coefficients differ by at most the sum of the bounds. -/
theorem C71_two_ways (f g : PForm (Ieee F)) (h : f.den Ieee.real = g.den Ieee.real) :
    ∃ r s, f.run = .ok r ∧ g.run = .ok s ∧ ∀ (k : ℕ) x y, r.a[k]? = some x → s.a[k]? = some y → x.Finite → y.Finite →
      |x.real - y.real| ≤ f.err F.u F.u F.η Ieee.real k + g.err F.u F.u F.η Ieee.real k := by
  obtain ⟨r, e1, _, h1, _⟩ := C71_polynomial f
  obtain ⟨s, e2, _, h2, _⟩ := C71_polynomial g
  refine ⟨r, s, e1, e2, fun k x y hx hy fx fy => ?_⟩
  have a1 := (h1 k x hx fx).2
  have a2 := (h2 k y hy fy).2
  rw [← h, abs_sub_comm] at a2
  exact (abs_sub_le _ _ _).trans (add_le_add a1 a2)

/-- C71: two formulas for a number with the same meaning. -/
theorem C71_two_ways_number (f g : NForm (Ieee F)) (h : f.den Ieee.real = g.den Ieee.real) :
    ∃ x y, f.run = .ok x ∧ g.run = .ok y ∧ (x.Finite → y.Finite →
      |x.real - y.real| ≤ f.err F.u F.u F.η Ieee.real + g.err F.u F.u F.η Ieee.real) := by
  obtain ⟨x, e1, h1, _⟩ := C71_number f
  obtain ⟨y, e2, h2, _⟩ := C71_number g
  refine ⟨x, y, e1, e2, fun fx fy => ?_⟩
  have a1 := (h1 fx).2
  have a2 := (h2 fy).2
  rw [← h, abs_sub_comm] at a2
  exact (abs_sub_le _ _ _).trans (add_le_add a1 a2)

theorem coeff_geo_mul_le (m n k : ℕ) : (geo m * geo n).coeff k ≤ min m n := by
  rw [coeff_mul_pairs (m := m) (n := n) (fun i hi => by rw [coeff_geo, if_neg (by omega)])
    (fun i hi => by rw [coeff_geo, if_neg (by omega)])]
  have : (pairs m n k).map (fun i => (geo m).coeff i * (geo n).coeff (k - i)) = (pairs m n k).map fun _ => 1 := by
    refine List.map_congr_left fun i hi => ?_
    obtain ⟨h1, _, h2⟩ := mem_pairs.1 hi
    rw [coeff_geo, coeff_geo, if_pos h1, if_pos h2]; ring
  rw [this, List.map_const', List.sum_replicate]
  simp only [nsmul_eq_mul, mul_one]
  exact_mod_cast length_pairs m n k

/-- C71, spelled out for `p * q` with `m` and `n` coefficients: each finite coefficient of the product is within
`((1 + u)^(1 + min m n) - 1) * (sum of |p_i| |q_j|)` plus underflow of the exact coefficient. -/
theorem C71_product_error (p q : Poly (Ieee F)) : ∃ r, p.mul q = .ok r ∧ ∀ (k : ℕ) x, r.a[k]? = some x → x.Finite →
    |x.real - ∑ ij ∈ Finset.antidiagonal k, p.coef Ieee.real ij.1 * q.coef Ieee.real ij.2| ≤
      ((1 + F.u) ^ (1 + min p.a.length q.a.length) - 1) *
        ∑ ij ∈ Finset.antidiagonal k, |p.coef Ieee.real ij.1| * |q.coef Ieee.real ij.2| +
      (1 + F.u) ^ (1 + min p.a.length q.a.length) * (F.η * min p.a.length q.a.length) := by
  obtain ⟨r, e, _, h, _⟩ := C71_polynomial (.mul (.poly p) (.poly q))
  refine ⟨r, e, fun k x hx hf => ?_⟩
  have h1 := (h k x hx hf).2
  have hu : (0 : ℝ) ≤ F.u := by exact_mod_cast F.u_pos.le
  have hη : (0 : ℝ) ≤ F.η := by exact_mod_cast F.η_pos.le
  have ab : ∀ (p : Poly (Ieee F)) i, p.coef (fun x => ‖x.real‖) i = |p.coef Ieee.real i| := by
    intro p i
    unfold Poly.coef
    cases p.a[i]? with
    | none => simp
    | some x => rfl
  have e1 : ((PForm.mul (.poly p) (.poly q)).den Ieee.real).coeff k =
      ∑ ij ∈ Finset.antidiagonal k, p.coef Ieee.real ij.1 * q.coef Ieee.real ij.2 := by
    simp only [PForm.den, coeff_mul, coeff_toPolynomial]
  have e2 : ((PForm.mul (.poly p) (.poly q)).mag Ieee.real).coeff k =
      ∑ ij ∈ Finset.antidiagonal k, |p.coef Ieee.real ij.1| * |q.coef Ieee.real ij.2| := by
    simp only [PForm.mag, coeff_mul, coeff_toPolynomial, ab]
  have e3 : (PForm.mul (.poly p) (.poly q)).factor (F.u : ℝ) F.u = (1 + F.u) ^ (1 + min p.a.length q.a.length) := by
    simp only [PForm.factor, PForm.len, pow_add]; ring
  have e4 : ((PForm.mul (.poly p) (.poly q)).under (F.η : ℝ) Ieee.real).coeff k ≤ F.η * min p.a.length q.a.length := by
    simp only [PForm.under, mul_zero, zero_mul, add_zero, zero_add, coeff_C_mul, PForm.len]
    exact mul_le_mul_of_nonneg_left (coeff_geo_mul_le _ _ _) hη
  rw [e1] at h1
  refine h1.trans ?_
  unfold PForm.err
  rw [e2, e3]
  exact add_le_add le_rfl (mul_le_mul_of_nonneg_left e4 (by positivity))

/-- C71: the ring laws hold up to rounding; for instance `p * q` and `q * p`, `(p * q) * s` and `p * (q * s)`, and
`p * (q + s)` and `p * q + p * s` differ by at most the sum of the two bounds. -/
theorem C71_ring_laws (p q s : PForm (Ieee F)) (f g : PForm (Ieee F))
    (h : (f = p.mul q ∧ g = q.mul p) ∨ (f = (p.mul q).mul s ∧ g = p.mul (q.mul s)) ∨
      (f = p.mul (q.add s) ∧ g = (p.mul q).add (p.mul s)) ∨ (f = (p.add q).add s ∧ g = p.add (q.add s)) ∨
      (f = (p.sub q).add q ∧ g = p)) :
    ∃ r r', f.run = .ok r ∧ g.run = .ok r' ∧ ∀ (k : ℕ) x y, r.a[k]? = some x → r'.a[k]? = some y → x.Finite → y.Finite →
      |x.real - y.real| ≤ f.err F.u F.u F.η Ieee.real k + g.err F.u F.u F.η Ieee.real k := by
  refine C71_two_ways f g ?_
  rcases h with ⟨rfl, rfl⟩ | ⟨rfl, rfl⟩ | ⟨rfl, rfl⟩ | ⟨rfl, rfl⟩ | ⟨rfl, rfl⟩ <;> simp only [PForm.den] <;> ring

/-- C71: the value of a product, sum or difference is the product, sum or difference of the values, up to the bounds. -/
theorem C71_eval_homomorphism (p q : PForm (Ieee F)) (x : NForm (Ieee F)) (f g : NForm (Ieee F))
    (h : (f = .eval (p.mul q) x ∧ g = (NForm.eval p x).mul (.eval q x)) ∨
      (f = .eval (p.add q) x ∧ g = (NForm.eval p x).add (.eval q x)) ∨
      (f = .eval (p.sub q) x ∧ g = (NForm.eval p x).sub (.eval q x))) :
    ∃ y z, f.run = .ok y ∧ g.run = .ok z ∧ (y.Finite → z.Finite →
      |y.real - z.real| ≤ f.err F.u F.u F.η Ieee.real + g.err F.u F.u F.η Ieee.real) := by
  refine C71_two_ways_number f g ?_
  rcases h with ⟨rfl, rfl⟩ | ⟨rfl, rfl⟩ | ⟨rfl, rfl⟩ <;> simp only [PForm.den, NForm.den]
  · exact eval_mul
  · exact eval_add
  · rw [Polynomial.eval_sub]

end Magnesia
