import Verif.Props.ComplexFns
import Mathlib.Analysis.Real.Pi.Bounds

/-!
# Concrete cases of the theorems about the complex functions

The numbers are `3 - 4i`, `5 + 12i`, `-1` (on the branch cut) and `π/2` (a pole of the tangent).
-/

namespace Magnesia.Witness

open RZero ROne

theorem three_lt_pi : (3 : ℝ) < Real.pi := Real.pi_gt_three

/-- `3 - 4i` -/
noncomputable def zr : Complex SReal := ⟨⟨3⟩, ⟨-4⟩⟩
/-- `5 + 12i` -/
noncomputable def wr : Complex SReal := ⟨⟨5⟩, ⟨12⟩⟩
/-- `-1` -/
noncomputable def cut : Complex SReal := ⟨⟨-1⟩, ⟨0⟩⟩
/-- `π/2` -/
noncomputable def pole : Complex SReal := ⟨⟨Real.pi / 2⟩, ⟨0⟩⟩

theorem zr_ne : zr ≠ zero := fun h => by
  have := congrArg (fun z : Complex SReal => z.re.val) h
  norm_num [zr, RZero.zero] at this
theorem cut_ne : cut ≠ zero := fun h => by
  have := congrArg (fun z : Complex SReal => z.re.val) h
  norm_num [cut, RZero.zero] at this
theorem abs_zr : zr.abs = .ok ⟨5⟩ := by
  obtain ⟨r, h, e⟩ := C21_abs zr
  rw [h]
  congr 1
  ext
  rw [e, _root_.Complex.norm_def, _root_.Complex.normSq_apply]
  show Real.sqrt (3 * 3 + -4 * -4) = 5
  rw [show (3 : ℝ) * 3 + -4 * -4 = 5 ^ 2 by norm_num, Real.sqrt_sq (by norm_num)]
theorem abs_wr : wr.abs = .ok ⟨13⟩ := by
  obtain ⟨r, h, e⟩ := C21_abs wr
  rw [h]
  congr 1
  ext
  rw [e, _root_.Complex.norm_def, _root_.Complex.normSq_apply]
  show Real.sqrt (5 * 5 + 12 * 12) = 13
  rw [show (5 : ℝ) * 5 + 12 * 12 = 13 ^ 2 by norm_num, Real.sqrt_sq (by norm_num)]
theorem toC_pole : pole.toC = (Real.pi / 2 : ℂ) := by
  have : pole.toC = ((Real.pi / 2 : ℝ) : ℂ) := rfl
  rw [this]
  push_cast
  rfl

-- C18
example := C18_tan ⟨⟨0⟩, ⟨1⟩⟩ (by
  rw [show (⟨⟨0⟩, ⟨1⟩⟩ : Complex SReal).toC = (1 : ℝ) * _root_.Complex.I by
    apply _root_.Complex.ext <;> simp [Complex.toC]]
  rw [_root_.Complex.cos_mul_I]
  exact_mod_cast (Real.cosh_pos 1).ne')
example := C18_tan_pole pole (by rw [toC_pole]; exact _root_.Complex.cos_pi_div_two)

-- C19
example := C19_ln zr zr_ne
example := C19_exp_ln zr zr_ne
example := C19_parts zr zr_ne (C19_ln zr zr_ne).choose_spec.1
example := C19_parts cut cut_ne (C19_ln cut cut_ne).choose_spec.1
example := C19_ln_exp ⟨⟨7⟩, ⟨3⟩⟩ (by show -Real.pi < 3; linarith [three_lt_pi]) three_lt_pi.le
example := C19_ln_exp ⟨⟨0⟩, ⟨Real.pi⟩⟩ (by show -Real.pi < Real.pi; linarith [Real.pi_pos]) le_rfl

-- C20: the root of `3 - 4i` is `2 - i`, that of `-1` is `i`
theorem root_zr : IsPrincipalRoot ⟨2, -1⟩ zr.toC := by
  refine ⟨?_, ?_⟩
  · apply _root_.Complex.ext
    · rw [_root_.Complex.mul_re]; show (2 : ℝ) * 2 - -1 * -1 = 3; norm_num
    · rw [_root_.Complex.mul_im]; show (2 : ℝ) * -1 + -1 * 2 = -4; norm_num
  · exact ⟨by norm_num, fun h => absurd h (by norm_num)⟩
example : zr.sqrt = .ok ⟨⟨2⟩, ⟨-1⟩⟩ := by
  obtain ⟨s, h1, h2⟩ := C20_sqrt zr
  rw [h1]
  exact congrArg _ (toC_injective (C20_unique h2 root_zr))
example := C20_unique (C20_sqrt zr).choose_spec.2 root_zr
example := C20_branches_agree zr zr_ne abs_zr

-- C21
example := C21_abs_zero zr abs_zr
example : ∃ r, zr.add wr = .ok ⟨⟨3 + 5⟩, ⟨-4 + 12⟩⟩ ∧ (⟨⟨3 + 5⟩, ⟨-4 + 12⟩⟩ : Complex SReal).abs = .ok r ∧ r.val ≤ 5 + 13 := by
  obtain ⟨r, h, _⟩ := C21_abs ⟨⟨3 + 5⟩, ⟨-4 + 12⟩⟩
  exact ⟨r, rfl, h, C21_triangle zr wr rfl abs_zr abs_wr h⟩
example := C21_polar zr abs_zr (C21_arg zr).choose_spec.1
example := C21_polar cut (C21_abs cut).choose_spec.1 (C21_arg cut).choose_spec.1

end Magnesia.Witness
