import Verif.Spec.CForm
import Mathlib.Analysis.SpecialFunctions.Trigonometric.Series
import Mathlib.Analysis.Calculus.MeanValue
import Mathlib.Analysis.SpecialFunctions.Trigonometric.DerivHyp
import Mathlib.Analysis.SpecialFunctions.Complex.LogDeriv
import Mathlib.Analysis.SpecialFunctions.Pow.Deriv

/-!
# How strongly the complex functions vary
-/

namespace Magnesia

open _root_.Complex

theorem norm_exp_sub_one_le (w : ℂ) : ‖exp w - 1‖ ≤ Real.exp ‖w‖ - 1 := by
  simpa using norm_exp_sub_sum_le_exp_norm_sub_sum w 1

theorem exp_perturb {z Z : ℂ} {d : ℝ} (h : ‖z - Z‖ ≤ d) : ‖exp z - exp Z‖ ≤ ‖exp z‖ * (Real.exp d - 1) := by
  have e : exp Z = exp z * exp (Z - z) := by rw [← exp_add]; ring_nf
  rw [norm_sub_rev, e, show exp z * exp (Z - z) - exp z = exp z * (exp (Z - z) - 1) by ring, norm_mul]
  refine mul_le_mul_of_nonneg_left ?_ (norm_nonneg _)
  refine (norm_exp_sub_one_le _).trans ?_
  have := Real.exp_le_exp.2 ((norm_sub_rev Z z).le.trans h)
  linarith

theorem norm_sinh_le (w : ℂ) : ‖sinh w‖ ≤ Real.sinh ‖w‖ := by
  rw [← (hasSum_sinh w).tsum_eq, ← (Real.hasSum_sinh ‖w‖).tsum_eq]
  have e : ∀ n : ℕ, ‖w ^ (2 * n + 1) / ((2 * n + 1).factorial : ℂ)‖ = ‖w‖ ^ (2 * n + 1) / ((2 * n + 1).factorial : ℝ) := by
    intro n
    rw [norm_div, norm_pow, norm_natCast]
  have hs : Summable fun n : ℕ => ‖w ^ (2 * n + 1) / ((2 * n + 1).factorial : ℂ)‖ := by
    simp only [e]
    exact (Real.hasSum_sinh ‖w‖).summable
  refine (norm_tsum_le_tsum_norm hs).trans ?_
  simp only [e]
  rfl

theorem norm_sin_le (w : ℂ) : ‖sin w‖ ≤ Real.sinh ‖w‖ := by
  have h := norm_sinh_le (w * I)
  rw [sinh_mul_I, norm_mul, norm_mul, norm_I, mul_one, mul_one] at h
  exact h

theorem norm_cosh_le_re (w : ℂ) : ‖cosh w‖ ≤ Real.cosh w.re := by
  unfold cosh
  rw [norm_div, Real.cosh_eq]
  have := norm_add_le (exp w) (exp (-w))
  rw [norm_exp, norm_exp, neg_re] at this
  simp only [norm_ofNat]
  linarith

theorem norm_sinh_le_re (w : ℂ) : ‖sinh w‖ ≤ Real.cosh w.re := by
  unfold sinh
  rw [norm_div, Real.cosh_eq]
  have := norm_sub_le (exp w) (exp (-w))
  rw [norm_exp, norm_exp, neg_re] at this
  simp only [norm_ofNat]
  linarith

theorem norm_cos_le_im (w : ℂ) : ‖cos w‖ ≤ Real.cosh w.im := by
  have h := norm_cosh_le_re (w * I)
  rw [cosh_mul_I] at h
  refine h.trans (le_of_eq ?_)
  simp

theorem norm_sin_le_im (w : ℂ) : ‖sin w‖ ≤ Real.cosh w.im := by
  have h := norm_sinh_le_re (w * I)
  rw [sinh_mul_I, norm_mul, norm_I, mul_one] at h
  refine h.trans (le_of_eq ?_)
  simp

section trig

variable {z Z : ℂ} {d : ℝ}

theorem mid_im (h : ‖z - Z‖ ≤ d) : Real.cosh ((z + Z) / 2).im ≤ Real.cosh (|z.im| + d / 2) := by
  have h1 : |(z - Z).im| ≤ d := (abs_im_le_norm _).trans h
  have h0 : 0 ≤ d := (norm_nonneg _).trans h
  rw [Real.cosh_le_cosh, abs_of_nonneg (show 0 ≤ |z.im| + d / 2 by positivity)]
  have e : ((z + Z) / 2).im = z.im - (z - Z).im / 2 := by
    have : (z + Z) / 2 = z - (z - Z) / 2 := by ring
    rw [this]
    simp
  rw [e]
  refine (abs_sub _ _).trans ?_
  rw [abs_div, abs_two]
  linarith

theorem mid_re (h : ‖z - Z‖ ≤ d) : Real.cosh ((z + Z) / 2).re ≤ Real.cosh (|z.re| + d / 2) := by
  have h1 : |(z - Z).re| ≤ d := (abs_re_le_norm _).trans h
  have h0 : 0 ≤ d := (norm_nonneg _).trans h
  rw [Real.cosh_le_cosh, abs_of_nonneg (show 0 ≤ |z.re| + d / 2 by positivity)]
  have e : ((z + Z) / 2).re = z.re - (z - Z).re / 2 := by
    have : (z + Z) / 2 = z - (z - Z) / 2 := by ring
    rw [this]
    simp
  rw [e]
  refine (abs_sub _ _).trans ?_
  rw [abs_div, abs_two]
  linarith

theorem half_sinh (h : ‖z - Z‖ ≤ d) : Real.sinh ‖(z - Z) / 2‖ ≤ Real.sinh (d / 2) := by
  rw [Real.sinh_le_sinh, norm_div, norm_ofNat]
  linarith

theorem sinh_half_nonneg (h : ‖z - Z‖ ≤ d) : 0 ≤ Real.sinh (d / 2) :=
  Real.sinh_nonneg_iff.2 (by have := (norm_nonneg _).trans h; linarith)

theorem two_prod {p q : ℂ} {P Q : ℝ} (hp : ‖p‖ ≤ P) (hq : ‖q‖ ≤ Q) : ‖2 * p * q‖ ≤ 2 * P * Q := by
  rw [norm_mul, norm_mul, norm_ofNat, mul_assoc, mul_assoc]
  exact mul_le_mul_of_nonneg_left (mul_le_mul hp hq (norm_nonneg _) ((norm_nonneg _).trans hp)) (by norm_num)

theorem sin_perturb (h : ‖z - Z‖ ≤ d) : ‖sin z - sin Z‖ ≤ 2 * Real.cosh (|z.im| + d / 2) * Real.sinh (d / 2) := by
  rw [sin_sub_sin, show (2 : ℂ) * sin ((z - Z) / 2) * cos ((z + Z) / 2) = 2 * cos ((z + Z) / 2) * sin ((z - Z) / 2) by ring]
  exact two_prod ((norm_cos_le_im _).trans (mid_im h)) ((norm_sin_le _).trans (half_sinh h))

theorem cos_perturb (h : ‖z - Z‖ ≤ d) : ‖cos z - cos Z‖ ≤ 2 * Real.cosh (|z.im| + d / 2) * Real.sinh (d / 2) := by
  rw [cos_sub_cos, show (-2 : ℂ) * sin ((z + Z) / 2) * sin ((z - Z) / 2) = -(2 * sin ((z + Z) / 2) * sin ((z - Z) / 2)) by ring,
    norm_neg]
  exact two_prod ((norm_sin_le_im _).trans (mid_im h)) ((norm_sin_le _).trans (half_sinh h))

theorem mul_I_perturb (h : ‖z - Z‖ ≤ d) : ‖z * I - Z * I‖ ≤ d := by
  rw [← sub_mul, norm_mul, norm_I, mul_one]; exact h

theorem sinh_perturb (h : ‖z - Z‖ ≤ d) : ‖sinh z - sinh Z‖ ≤ 2 * Real.cosh (|z.re| + d / 2) * Real.sinh (d / 2) := by
  have := sin_perturb (mul_I_perturb h)
  rw [sin_mul_I, sin_mul_I, ← sub_mul, norm_mul, norm_I, mul_one] at this
  simpa using this

theorem cosh_perturb (h : ‖z - Z‖ ≤ d) : ‖cosh z - cosh Z‖ ≤ 2 * Real.cosh (|z.re| + d / 2) * Real.sinh (d / 2) := by
  have := cos_perturb (mul_I_perturb h)
  rw [cos_mul_I, cos_mul_I] at this
  simpa using this

end trig

/-! ### Near the branch cut -/

theorem cutDist_le (z : ℂ) : cutDist z ≤ ‖z‖ := by
  unfold cutDist
  split_ifs
  · exact le_rfl
  · exact abs_im_le_norm z

theorem mem_slitPlane_of_cutDist {z w : ℂ} (h : ‖w - z‖ < cutDist z) : w ∈ slitPlane := by
  rw [mem_slitPlane_iff]
  by_contra hc
  rw [not_or, not_lt, not_not] at hc
  obtain ⟨h1, h2⟩ := hc
  unfold cutDist at h
  split_ifs at h with h3
  · have h4 : ‖z‖ ^ 2 ≤ ‖w - z‖ ^ 2 := by
      rw [← normSq_eq_norm_sq, ← normSq_eq_norm_sq, normSq_apply, normSq_apply, sub_re, sub_im, h2]
      nlinarith
    exact absurd h (not_lt.2 (abs_le_of_sq_le_sq' h4 (norm_nonneg _)).2)
  · have := abs_im_le_norm (w - z)
    rw [sub_im, h2, zero_sub, abs_neg] at this
    linarith

section cut

variable {z Z : ℂ} {d : ℝ}

theorem near_norm {w : ℂ} (h : w ∈ Metric.closedBall z d) : ‖z‖ - d ≤ ‖w‖ := by
  have := norm_sub_norm_le z w
  rw [norm_sub_rev] at this
  rw [mem_closedBall_iff_norm] at h
  linarith

theorem log_perturb (h : ‖z - Z‖ ≤ d) (hd : d < cutDist z) : ‖log z - log Z‖ ≤ d / (‖z‖ - d) := by
  have hs : ∀ w ∈ Metric.closedBall z d, w ∈ slitPlane := fun w hw =>
    mem_slitPlane_of_cutDist ((mem_closedBall_iff_norm.1 hw).trans_lt hd)
  have h0 : 0 ≤ d := (norm_nonneg _).trans h
  have hp : 0 < ‖z‖ - d := by linarith [cutDist_le z]
  have := (convex_closedBall z d).norm_image_sub_le_of_norm_hasDerivWithin_le (f := log) (f' := fun w => w⁻¹)
    (C := 1 / (‖z‖ - d)) (x := Z) (y := z)
    (fun w hw => (hasDerivAt_log (hs w hw)).hasDerivWithinAt)
    (fun w hw => by
      rw [norm_inv, ← one_div]
      exact one_div_le_one_div_of_le hp (near_norm hw))
    (by rw [mem_closedBall_iff_norm, norm_sub_rev]; exact h) (Metric.mem_closedBall_self h0)
  refine this.trans ?_
  rw [div_mul_eq_mul_div, one_mul]
  exact div_le_div_of_nonneg_right h hp.le

theorem sqrt_norm (w : ℂ) : ‖w ^ (1 / 2 : ℂ)‖ = Real.sqrt ‖w‖ := by
  have e : (1 / 2 : ℂ) = ((1 / 2 : ℝ) : ℂ) := by push_cast; rfl
  rw [e, norm_cpow_real, Real.sqrt_eq_rpow]

theorem sqrt_perturb (h : ‖z - Z‖ ≤ d) (hd : d = 0 ∨ d < cutDist z) :
    ‖z ^ (1 / 2 : ℂ) - Z ^ (1 / 2 : ℂ)‖ ≤ d / (2 * Real.sqrt (‖z‖ - d)) := by
  rcases hd with rfl | hd
  · rw [sub_eq_zero.1 (norm_le_zero_iff.1 h)]; simp
  have hs : ∀ w ∈ Metric.closedBall z d, w ∈ slitPlane := fun w hw =>
    mem_slitPlane_of_cutDist ((mem_closedBall_iff_norm.1 hw).trans_lt hd)
  have h0 : 0 ≤ d := (norm_nonneg _).trans h
  have hp : 0 < ‖z‖ - d := by linarith [cutDist_le z]
  have hq : 0 < 2 * Real.sqrt (‖z‖ - d) := by have := Real.sqrt_pos.2 hp; linarith
  have := (convex_closedBall z d).norm_image_sub_le_of_norm_hasDerivWithin_le (f := fun w : ℂ => w ^ (1 / 2 : ℂ))
    (f' := fun w => (1 / 2 : ℂ) * w ^ (1 / 2 - 1 : ℂ) * 1)
    (C := 1 / (2 * Real.sqrt (‖z‖ - d))) (x := Z) (y := z)
    (fun w hw => ((hasDerivAt_id w).cpow_const (hs w hw)).hasDerivWithinAt)
    (fun w hw => by
      have hw0 : w ≠ 0 := slitPlane_ne_zero (hs w hw)
      rw [mul_one, cpow_sub _ _ hw0, cpow_one, norm_mul, norm_div (w ^ (1 / 2 : ℂ)), sqrt_norm]
      have hn := near_norm hw
      have hwp : 0 < ‖w‖ := norm_pos_iff.2 hw0
      have e : Real.sqrt ‖w‖ / ‖w‖ = 1 / Real.sqrt ‖w‖ := by
        rw [div_eq_div_iff hwp.ne' (Real.sqrt_pos.2 hwp).ne', one_mul, Real.mul_self_sqrt hwp.le]
      rw [e]
      have h1 : Real.sqrt (‖z‖ - d) ≤ Real.sqrt ‖w‖ := Real.sqrt_le_sqrt hn
      have h2 := one_div_le_one_div_of_le hq (mul_le_mul_of_nonneg_left h1 (show (0 : ℝ) ≤ 2 by norm_num))
      refine le_trans (le_of_eq ?_) h2
      have h3 := (Real.sqrt_pos.2 hwp).ne'
      rw [norm_div, norm_one, norm_ofNat]
      field_simp)
    (by rw [mem_closedBall_iff_norm, norm_sub_rev]; exact h) (Metric.mem_closedBall_self h0)
  refine this.trans ?_
  rw [div_mul_eq_mul_div, one_mul]
  exact div_le_div_of_nonneg_right h hq.le

end cut

/-- The principal root, characterised by the signs of its parts. -/
theorem principal_root {w z : ℂ} (h : w ^ 2 = z) (h1 : 0 ≤ w.re) (h2 : w.re = 0 → 0 ≤ w.im) : w = z ^ (1 / 2 : ℂ) := by
  by_cases h0 : w = 0
  · subst h0
    rw [← h, zero_pow two_ne_zero, zero_cpow (by norm_num)]
  have ha : -(Real.pi / 2) < arg w ∧ arg w ≤ Real.pi / 2 := by
    rcases h1.lt_or_eq with hp | hp
    · have := abs_arg_lt_pi_div_two_iff.2 (.inl hp)
      exact ⟨(abs_lt.1 this).1, (abs_lt.1 this).2.le⟩
    · have hi := h2 hp.symm
      have hi' : 0 < w.im := by
        rcases hi.lt_or_eq with h | h
        · exact h
        · exact absurd (_root_.Complex.ext hp.symm h.symm) h0
      have := arg_eq_pi_div_two_iff.2 ⟨hp.symm, hi'⟩
      rw [this]
      exact ⟨by linarith [Real.pi_pos], le_rfl⟩
  rw [← h, show (1 / 2 : ℂ) = ((2 : ℕ) : ℂ)⁻¹ by norm_num]
  exact (pow_cpow_nat_inv two_ne_zero (by push_cast; linarith [ha.1]) (by push_cast; exact ha.2)).symm

end Magnesia
