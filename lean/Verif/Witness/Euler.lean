import Verif.Props.Euler
import Verif.Witness.LnCheck

/-!
# Concrete cases of property C72
-/

namespace Magnesia.Witness

open RZero ROne

section

variable {F : Fmt}

noncomputable local instance expC72 : RExp (Ieee F) := ⟨fun a => .ok (roundReal F (Real.exp a.value))⟩
noncomputable local instance sinC72 : RSin (Ieee F) := ⟨fun a => .ok (roundReal F (Real.sin a.value))⟩
noncomputable local instance cosC72 : RCos (Ieee F) := ⟨fun a => .ok (roundReal F (Real.cos a.value))⟩
noncomputable local instance sinhC72 : RSinh (Ieee F) := ⟨fun a => .ok (roundReal F (Real.sinh a.value))⟩
noncomputable local instance coshC72 : RCosh (Ieee F) := ⟨fun a => .ok (roundReal F (Real.cosh a.value))⟩

/-- The library that rounds correctly (up to a rational approximation), up to the largest argument that does not overflow. -/
theorem fnLib_example {R : ℝ} (hR : Real.exp R + 1 ≤ 2 ^ F.emax) : FnLib F R F.u (3 * F.η) := by
  have key : ∀ {g : ℝ → ℝ}, (∀ t, |t| ≤ R → |g t| ≤ Real.exp R) →
      AccurateUpTo (F := F) R (fun a => .ok (roundReal F (g a.value))) g F.u (3 * F.η) := by
    intro g hg a _ ha
    have h1 := hg _ ha
    obtain ⟨f, _⟩ := roundReal_le (F := F) (y := g a.value) (k := F.emax) (by
      have := F.p_le_emax; have := F.two_le_p; unfold Fmt.emin; omega) le_rfl (by linarith)
    exact ⟨_, rfl, f, roundReal_err f⟩
  have one_le : ∀ {t : ℝ}, |t| ≤ R → 1 ≤ Real.exp R := fun h => Real.one_le_exp ((abs_nonneg _).trans h)
  exact {
    ε_nonneg := by exact_mod_cast F.u_pos.le
    θ_nonneg := by have : (0 : ℝ) < F.η := by exact_mod_cast F.η_pos
                   linarith
    exp := key fun t h => abs_exp_le h
    sin := key fun t h => (Real.abs_sin_le_one t).trans (one_le h)
    cos := key fun t h => (Real.abs_cos_le_one t).trans (one_le h)
    sinh := key fun t h => abs_sinh_le h
    cosh := key fun t h => abs_cosh_le h }

/-- For `f32`: all `z` with `|z| ≤ 39`. -/
theorem exp80 : Real.exp (2 * 40) ≤ (2 : ℝ) ^ Fmt.f32.emax := by
  have h : Real.exp 1 ≤ 3 := by linarith [Real.exp_one_lt_d9]
  have h2 := pow_le_pow_left₀ (Real.exp_pos 1).le h 80
  rw [← Real.exp_nat_mul] at h2
  norm_num at h2 ⊢
  refine h2.trans ?_
  show (_ : ℝ) ≤ 2 ^ (127 : ℤ)
  norm_num

theorem exp40 : 64 * Real.exp 40 ≤ (2 : ℝ) ^ Fmt.f32.emax :=
  (exp_sq_size (F := .f32) (by decide) (by decide) exp80).1

theorem lib40 : FnLib .f32 40 Fmt.f32.u (3 * Fmt.f32.η) := fnLib_example (by
  have h := exp40
  have : (1 : ℝ) ≤ Real.exp 40 := Real.one_le_exp (by norm_num)
  linarith)

theorem small32 : (Fmt.f32.u : ℝ) ≤ 1 / 4 ∧ 3 * (Fmt.f32.η : ℝ) ≤ 1 / 4 ∧ 3 * (Fmt.f32.η : ℝ) ≤ Fmt.f32.u / 256 ∧
    512 * (Fmt.f32.u : ℝ) * 40 ≤ 1 := by
  have h := f32_η
  rw [f32_u]
  norm_num at h ⊢
  refine ⟨?_, ?_⟩ <;> linarith

/-- `1 + i` -/
noncomputable def zC72 : Complex (Ieee .f32) := ⟨one, one⟩

theorem zC72_val : cval zC72 = ⟨1, 1⟩ := by
  apply _root_.Complex.ext <;> show (((1 : ℚ)) : ℝ) = 1 <;> norm_num

theorem zC72_norm : 1.2 ≤ ‖cval zC72‖ ∧ ‖cval zC72‖ ≤ 2 := by
  have h : ‖cval zC72‖ ^ 2 = 2 := by
    rw [zC72_val, _root_.Complex.sq_norm, _root_.Complex.normSq_mk]; norm_num
  have h0 := norm_nonneg (cval zC72)
  constructor <;> nlinarith

theorem zC72_parts : |(zC72.re.value : ℝ)| ≤ 40 ∧ |(zC72.im.value : ℝ)| ≤ 40 :=
  ⟨(abs_re_le zC72).trans (by linarith [zC72_norm.2]), (abs_im_le zC72).trans (by linarith [zC72_norm.2])⟩

example := C72_sin (F := .f32) (by decide) lib40 small32.1 small32.2.1 exp40 zC72 ⟨trivial, trivial⟩ zC72_parts.1 zC72_parts.2
example := C72_cos (F := .f32) (by decide) lib40 small32.1 small32.2.1 exp40 zC72 ⟨trivial, trivial⟩ zC72_parts.1 zC72_parts.2
example := C72_sinh (F := .f32) (by decide) lib40 small32.1 small32.2.1 exp40 zC72 ⟨trivial, trivial⟩ zC72_parts.1 zC72_parts.2
example := C72_cosh (F := .f32) (by decide) lib40 small32.1 small32.2.1 exp40 zC72 ⟨trivial, trivial⟩ zC72_parts.1 zC72_parts.2

theorem le11 : (Fmt.f32.u : ℝ) ≤ 1.1 * Fmt.f32.u := by rw [f32_u]; norm_num

example := C72_sin_test (F := .f32) (by decide) (by decide) lib40 le11 small32.2.2.1 exp80 small32.2.2.2 zC72 ⟨trivial, trivial⟩
  (by linarith [zC72_norm.2])
example := C72_sinh_test (F := .f32) (by decide) (by decide) lib40 le11 small32.2.2.1 exp80 small32.2.2.2 zC72 ⟨trivial, trivial⟩
  (by linarith [zC72_norm.2])
example := C72_cos_test (F := .f32) (by decide) (by decide) lib40 le_rfl small32.2.2.1 exp80 small32.2.2.2 zC72 ⟨trivial, trivial⟩
  zC72_norm.1 (by linarith [zC72_norm.2])
example := C72_cosh_test (F := .f32) (by decide) (by decide) lib40 le_rfl small32.2.2.1 exp80 small32.2.2.2 zC72 ⟨trivial, trivial⟩
  zC72_norm.1 (by linarith [zC72_norm.2])

/-- `f32`, correctly rounded functions: the test of `sin` passes for every finite `z` with `|z| ≤ 39`. -/
example (z : Complex (Ieee .f32)) (hz : CFinite z) (hn : ‖cval z‖ ≤ 39) : eulerCheck Complex.sin sinEuler z = .ok true :=
  C72_sin_test (by decide) (by decide) lib40 le11 small32.2.2.1 exp80 small32.2.2.2 z hz (by linarith)

end

end Magnesia.Witness
