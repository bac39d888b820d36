import Verif.Props.PForm
import Verif.Witness.Ieee
import Verif.Props.Polynomial

/-!
# Concrete cases of property C71
-/

namespace Magnesia.Witness

open Polynomial

/-- `0.1 - 7 x` and `0.3 + 5 x + 0.7 x^2` in single precision. -/
def pfA : PForm (Ieee .f32) := .poly ⟨[f32 (1 / 10), f32 (-7)]⟩
def pfB : PForm (Ieee .f32) := .poly ⟨[f32 (3 / 10), f32 5, f32 (7 / 10)]⟩

example := C71_product_coefficient (T := I32) ⟨[.lit 1, .lit 2]⟩ ⟨[.lit 3, .lit 4, .lit 5]⟩
  ⟨[.lit 3, .lit 10, .lit 13, .lit 10]⟩ rfl
example := C71_two_ways (pfA.mul pfB) (pfB.mul pfA) (mul_comm _ _)
example := C71_two_ways_number (.eval (pfA.mul pfB) (.num (f32 (1 / 3)))) (.eval (pfB.mul pfA) (.num (f32 (1 / 3))))
  (by simp only [NForm.den, PForm.den, mul_comm])
example := C71_ring_laws pfA pfB pfA _ _ (.inr (.inl ⟨rfl, rfl⟩))
example := C71_eval_homomorphism pfA pfB (.num (f32 (1 / 3))) _ _ (.inl ⟨rfl, rfl⟩)

/-- The coefficients are finite numbers, and rounding happened: the two ways to multiply give different results. -/
example : (match ((pfA.mul pfB).mul pfB).run, (pfA.mul (pfB.mul pfB)).run with
    | .ok x, .ok y => decide ((∀ z ∈ x.a, z.Finite) ∧ (∀ z ∈ y.a, z.Finite) ∧ x.a.length = 6 ∧ x ≠ y)
    | _, _ => false) = true := by decide +kernel

theorem pf_small : (∀ x ∈ [f32 (1 / 10), f32 (-7)], |x.value| ≤ 10 ∧ x.Finite) := by decide +kernel

theorem pfA_coeff (k : ℕ) : (pfA.mag Ieee.real).coeff k ≤ 10 := by
  show (Poly.toPolynomial (fun x : Ieee .f32 => ‖x.real‖) ⟨[f32 (1 / 10), f32 (-7)]⟩).coeff k ≤ 10
  rw [PForm.coeff_toPoly_norm]
  cases h : ([f32 (1 / 10), f32 (-7)] : List (Ieee .f32))[k]? with
  | none => simp
  | some x =>
    have := (pf_small x (List.mem_of_getElem? h)).1
    show |(x.value : ℝ)| ≤ 10
    exact_mod_cast this

theorem f32_const : (0 : ℝ) ≤ Fmt.f32.u ∧ (Fmt.f32.u : ℝ) ≤ 1 ∧ (0 : ℝ) ≤ Fmt.f32.η ∧ (Fmt.f32.η : ℝ) ≤ 1 ∧
    (100000 : ℝ) ≤ 2 ^ Fmt.f32.emax := by
  refine ⟨by exact_mod_cast Fmt.f32.u_pos.le, by exact_mod_cast (by decide +kernel : Fmt.f32.u ≤ 1),
    by exact_mod_cast Fmt.f32.η_pos.le, by exact_mod_cast (by decide +kernel : Fmt.f32.η ≤ 1), ?_⟩
  show (100000 : ℝ) ≤ 2 ^ (127 : ℤ)
  norm_num

/-- The estimate that excludes overflow holds for `a * a`. -/
theorem pfAA_within : (pfA.mul pfA).Within Ieee.Finite (2 ^ Fmt.f32.emax) Fmt.f32.u Fmt.f32.u Fmt.f32.η Ieee.real := by
  have hw : pfA.Within Ieee.Finite (2 ^ Fmt.f32.emax) Fmt.f32.u Fmt.f32.u Fmt.f32.η Ieee.real := fun x hx => (pf_small x hx).2
  refine ⟨hw, hw, fun k => ?_⟩
  obtain ⟨h1, h2, h3, h4, h5⟩ := f32_const
  have e1 : (pfA.mul pfA).factor (Fmt.f32.u : ℝ) Fmt.f32.u = (1 + (Fmt.f32.u : ℝ)) ^ 3 := by
    show 1 * 1 * (1 + (Fmt.f32.u : ℝ)) * (1 + (Fmt.f32.u : ℝ)) ^ 2 = _
    ring
  have e2 : ((pfA.mul pfA).under (Fmt.f32.η : ℝ) Ieee.real).coeff k ≤ 2 := by
    simp only [pfA, PForm.under, mul_zero, zero_mul, add_zero, zero_add, coeff_C_mul, PForm.len]
    have := coeff_geo_mul_le 2 2 k
    have := mul_le_mul h4 this (PForm.mul_coeff_nonneg (fun i => by rw [coeff_geo]; split_ifs <;> norm_num)
      (fun i => by rw [coeff_geo]; split_ifs <;> norm_num) k) (by norm_num)
    simpa using this
  have e3 : ((pfA.mul pfA).mag Ieee.real).coeff k ≤ 200 := by
    have va := fun i hi => (pfA.vanish (φ := Ieee.real) (η := 0) i hi).2.1
    show (pfA.mag Ieee.real * pfA.mag Ieee.real).coeff k ≤ 200
    rw [coeff_mul_pairs va va]
    have h := List.sum_le_card_nsmul ((pairs pfA.len pfA.len k).map fun i =>
      (pfA.mag Ieee.real).coeff i * (pfA.mag Ieee.real).coeff (k - i)) 100 (by
        intro x hx
        obtain ⟨i, _, rfl⟩ := List.mem_map.1 hx
        have := mul_le_mul (pfA_coeff i) (pfA_coeff (k - i)) (PForm.mag_nonneg _ _) (by norm_num)
        linarith)
    have hl : ((pairs pfA.len pfA.len k).length : ℝ) ≤ 2 := by exact_mod_cast (length_pairs 2 2 k)
    rw [List.length_map, nsmul_eq_mul] at h
    linarith
  have e4 := PForm.mag_nonneg (φ := Ieee.real) (pfA.mul pfA) k
  have e5 := PForm.under_nonneg (φ := Ieee.real) h3 (pfA.mul pfA) k
  rw [e1]
  have h6 : (1 + (Fmt.f32.u : ℝ)) ^ 3 ≤ 2 ^ 3 := pow_le_pow_left₀ (by linarith) (by linarith) 3
  refine le_trans (mul_le_mul h6 (add_le_add e3 e2) (by linarith) (by norm_num)) (le_trans (by norm_num) h5)

/-- All coefficients of `a * a` are finite, without computing them. -/
example : ∃ r, (pfA.mul pfA).run = .ok r ∧ ∀ x ∈ r.a, x.Finite := by
  obtain ⟨r, e, _, _, h⟩ := C71_polynomial (pfA.mul pfA)
  exact ⟨r, e, h pfAA_within⟩

/-- The estimate holds for the value of `a` at 3. -/
theorem pfA3_within : (NForm.eval pfA (.num (f32 3))).Within Ieee.Finite (2 ^ Fmt.f32.emax) Fmt.f32.u Fmt.f32.u Fmt.f32.η
    Ieee.real := by
  have hw : pfA.Within Ieee.Finite (2 ^ Fmt.f32.emax) Fmt.f32.u Fmt.f32.u Fmt.f32.η Ieee.real := fun x hx => (pf_small x hx).2
  refine ⟨hw, (by decide +kernel : (f32 3).Finite), ?_⟩
  obtain ⟨h1, h2, h3, h4, h5⟩ := f32_const
  have e1 : (NForm.eval pfA (.num (f32 3))).factor (Fmt.f32.u : ℝ) Fmt.f32.u = (1 + (Fmt.f32.u : ℝ)) ^ 4 := by
    show 1 * (1 * (1 + (Fmt.f32.u : ℝ)) * (1 + (Fmt.f32.u : ℝ))) ^ 2 = _
    ring
  have e2 : max 1 ((NForm.num (f32 3)).mag Ieee.real + (NForm.num (f32 3)).under (Fmt.f32.η : ℝ) Ieee.real) = (3 : ℝ) := by
    have : (f32 3).value = 3 := by decide +kernel
    simp only [NForm.mag, NForm.under, Ieee.real, this]
    norm_num
  have va := fun i hi => (pfA.vanish (φ := Ieee.real) (η := 0) i hi).2.1
  rw [e1, e2, eval_eq_sum (n := 2) (fun i hi => by
    have h0 : (pfA.mag Ieee.real).coeff i = 0 := va i hi
    have h1 : (geo pfA.len).coeff i = 0 := by rw [coeff_geo, if_neg (by show ¬ i < 2; omega)]
    have h2 : pfA.under (Fmt.f32.η : ℝ) Ieee.real = 0 := rfl
    rw [coeff_add, coeff_add, coeff_C_mul, h0, h1, h2, coeff_zero]; simp)]
  have hc : ∀ i, (pfA.mag Ieee.real + pfA.under (Fmt.f32.η : ℝ) Ieee.real + C (Fmt.f32.η : ℝ) * geo pfA.len).coeff i ≤ 11 ∧
      0 ≤ (pfA.mag Ieee.real + pfA.under (Fmt.f32.η : ℝ) Ieee.real + C (Fmt.f32.η : ℝ) * geo pfA.len).coeff i := by
    intro i
    have h1 := pfA_coeff i
    have h2 := PForm.mag_nonneg (φ := Ieee.real) pfA i
    have h6 : pfA.under (Fmt.f32.η : ℝ) Ieee.real = 0 := rfl
    rw [coeff_add, coeff_add, coeff_C_mul, coeff_geo, h6, coeff_zero]
    split_ifs <;> constructor <;> linarith
  simp only [Finset.sum_range_succ, Finset.sum_range_zero]
  have h6 : (1 + (Fmt.f32.u : ℝ)) ^ 4 ≤ 2 ^ 4 := pow_le_pow_left₀ (by linarith) (by linarith) 4
  refine le_trans (mul_le_mul (c := _) (d := 100) h6 ?_ ?_ (by norm_num)) (le_trans (by norm_num) h5)
  · linarith [(hc 0).1, (hc 1).1]
  · linarith [(hc 0).2, (hc 1).2]

example : ∃ y, (NForm.eval pfA (.num (f32 3))).run = .ok y ∧ y.Finite := by
  obtain ⟨y, e, _, h⟩ := C71_number (.eval pfA (.num (f32 3)))
  exact ⟨y, e, h pfA3_within⟩

end Magnesia.Witness
