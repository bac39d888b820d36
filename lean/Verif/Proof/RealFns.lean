import Verif.Model.SReal
import Mathlib.Analysis.SpecialFunctions.Complex.Log
import Mathlib.Analysis.SpecialFunctions.Pow.Complex

/-!
# The functions of `std` on real numbers (helper lemmas)
-/

namespace Magnesia

open RZero ROne

namespace SReal

theorem arctan_polar {x y : ℝ} (hx : x ≠ 0) : |x| * Real.sqrt (1 + (y / x) ^ 2) * Real.cos (Real.arctan (y / x)) = |x| ∧
    |x| * Real.sqrt (1 + (y / x) ^ 2) * Real.sin (Real.arctan (y / x)) = |x| * (y / x) := by
  have h : Real.sqrt (1 + (y / x) ^ 2) ≠ 0 := by positivity
  rw [Real.cos_arctan, Real.sin_arctan]
  constructor <;> field_simp

/-- `std`'s `atan2` is the argument of the complex number `x + i y`. -/
theorem atan2_eq_arg (x y : ℝ) : atan2 y x = _root_.Complex.arg ⟨x, y⟩ := by
  have key : ∀ (r θ : ℝ), 0 < r → θ ∈ Set.Ioc (-Real.pi) Real.pi → r * Real.cos θ = x → r * Real.sin θ = y →
      θ = _root_.Complex.arg ⟨x, y⟩ := by
    intro r θ hr hθ hc hs
    have := _root_.Complex.arg_mul_cos_add_sin_mul_I hr hθ
    rw [← this]
    congr 1
    apply _root_.Complex.ext
    · rw [← hc]
      simp [_root_.Complex.cos_ofReal_re, _root_.Complex.sin_ofReal_im, _root_.Complex.cos_ofReal_im]
    · rw [← hs]
      simp [_root_.Complex.cos_ofReal_re, _root_.Complex.sin_ofReal_re, _root_.Complex.cos_ofReal_im]
  have hpi := Real.pi_pos
  unfold atan2
  by_cases hx : x = 0
  · rw [if_pos hx]
    by_cases hy : y = 0
    · rw [if_pos hy, hx, hy]
      exact (_root_.Complex.arg_zero).symm
    · rw [if_neg hy]
      by_cases hy' : 0 < y
      · rw [if_pos hy']
        exact key y _ hy' ⟨by linarith, by linarith⟩ (by simp [hx]) (by simp)
      · rw [if_neg hy']
        exact key (-y) _ (by rcases lt_trichotomy y 0 with h | h | h <;> [linarith; exact absurd h hy; exact absurd h hy'])
          ⟨by linarith, by linarith⟩ (by simp [hx]) (by simp)
  · rw [if_neg hx]
    have hr : 0 < |x| * Real.sqrt (1 + (y / x) ^ 2) := by
      have : 0 < |x| := abs_pos.2 hx
      positivity
    obtain ⟨h1, h2⟩ := arctan_polar (y := y) hx
    have b1 := Real.neg_pi_div_two_lt_arctan (y / x)
    have b2 := Real.arctan_lt_pi_div_two (y / x)
    by_cases hx' : 0 < x
    · rw [if_pos hx']
      rw [abs_of_pos hx'] at h1 h2 hr
      exact key _ _ hr ⟨by linarith, by linarith⟩ h1 (by rw [h2]; field_simp)
    · rw [if_neg hx']
      have hneg : x < 0 := lt_of_le_of_ne (not_lt.1 hx') hx
      rw [abs_of_neg hneg] at h1 h2 hr
      by_cases hy : 0 ≤ y
      · rw [if_pos hy]
        have h0 : Real.arctan (y / x) ≤ 0 := by
          rw [← Real.arctan_zero]
          exact Real.arctan_mono (div_nonpos_of_nonneg_of_nonpos hy hneg.le)
        refine key _ _ hr ⟨by linarith, by linarith⟩ ?_ ?_
        · rw [Real.cos_add_pi, mul_neg, h1, neg_neg]
        · rw [Real.sin_add_pi, mul_neg, h2]; field_simp
      · rw [if_neg hy]
        have h0 : 0 < Real.arctan (y / x) := by
          rw [← Real.arctan_zero]
          exact Real.arctan_strictMono (div_pos_of_neg_of_neg (not_le.1 hy) hneg)
        refine key _ _ hr ⟨by linarith, by linarith⟩ ?_ ?_
        · rw [Real.cos_sub_pi, mul_neg, h1, neg_neg]
        · rw [Real.sin_sub_pi, mul_neg, h2]; field_simp

end SReal

end Magnesia
