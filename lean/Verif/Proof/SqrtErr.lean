import Mathlib.Analysis.SpecialFunctions.Sqrt
import Mathlib.Tactic.Linarith
import Mathlib.Tactic.Positivity
import Mathlib.Tactic.FieldSimp
import Mathlib.Analysis.Complex.Norm

/-!
# Error propagation through the formulas for the complex square root (helper lemmas about real numbers)
-/

namespace Magnesia

/-- From squares to a relative error. -/
theorem rel_of_sq {r a c : ℝ} (hr : 0 ≤ r) (ha : 0 ≤ a) (hc : 0 ≤ c) (hc1 : c ≤ 1) (h1 : (1 - c) ^ 2 * a ^ 2 ≤ r ^ 2)
    (h2 : r ^ 2 ≤ (1 + c) ^ 2 * a ^ 2) : |r - a| ≤ c * a := by
  rw [← mul_pow] at h1 h2
  have h3 := (pow_le_pow_iff_left₀ (by nlinarith) hr two_ne_zero).1 h1
  have h4 := (pow_le_pow_iff_left₀ hr (by positivity) two_ne_zero).1 h2
  rw [abs_le]
  constructor <;> linarith

theorem direct_lo {u : ℝ} (hu0 : 0 < u) (hu : u ≤ 1 / 64) :
    (1 - 12 * u) ^ 2 ≤ (1 - u) ^ 2 * ((1 - u) * (1 - (18.96 * u + 9.48 * u ^ 2))) := by
  have h3 : u ^ 3 ≤ u ^ 2 / 64 := by nlinarith [sq_nonneg u]
  have h4 : u ^ 4 ≤ u ^ 3 / 64 := by nlinarith [pow_pos hu0 3]
  have h2 : u ^ 2 ≤ u / 64 := by nlinarith
  have h5 : 0 ≤ u ^ 5 := by positivity
  have h6 : 0 ≤ u ^ 3 := by positivity
  have h7 : 0 ≤ u ^ 4 := by positivity
  have h8 : 0 ≤ u ^ 2 := by positivity
  linarith

theorem direct_hi {u : ℝ} (hu0 : 0 < u) (hu : u ≤ 1 / 64) :
    (1 + u) ^ 2 * ((1 + u) * (1 + (18.96 * u + 9.48 * u ^ 2))) ≤ (1 + 12 * u) ^ 2 := by
  have h3 : u ^ 3 ≤ u ^ 2 / 64 := by nlinarith [sq_nonneg u]
  have h4 : u ^ 4 ≤ u ^ 3 / 64 := by nlinarith [pow_pos hu0 3]
  have h5 : u ^ 5 ≤ u ^ 4 / 64 := by nlinarith [pow_pos hu0 4]
  have h6 : 0 ≤ u ^ 3 := by positivity
  have h8 : 0 ≤ u ^ 2 := by positivity
  linarith

/-- The branch `√((|z| ± re)/2)` for `|re| ≤ 2|im|`. -/
theorem direct_err {u H x h s r a : ℝ} (hu0 : 0 < u) (hu : u ≤ 1 / 64) (hH : 0 < H) (hx : |x| ≤ 0.8945 * H)
    (hh : |h - H| ≤ ((1 + u) ^ 2 - 1) * H) (hs : |s - (h + x)| ≤ u * |h + x|) (hr : 0 ≤ r)
    (hr1 : (1 - u) ^ 2 * (s / 2) ≤ r ^ 2) (hr2 : r ^ 2 ≤ (1 + u) ^ 2 * (s / 2)) (ha : 0 ≤ a)
    (ha2 : a ^ 2 = (H + x) / 2) : |r - a| ≤ 12 * u * a := by
  obtain ⟨x1, x2⟩ := abs_le.1 hx
  obtain ⟨h1, h2⟩ := abs_le.1 hh
  have hA : 0.1055 * H ≤ H + x := by linarith
  -- the error of `h`, relative to `H + x`
  have hd : ((1 + u) ^ 2 - 1) * H ≤ ((1 + u) ^ 2 - 1) * 9.48 * (H + x) := by
    have : H ≤ 9.48 * (H + x) := by linarith
    have h3 : 0 ≤ (1 + u) ^ 2 - 1 := by nlinarith
    rw [mul_assoc]
    exact mul_le_mul_of_nonneg_left this h3
  have hu2 : u ^ 2 ≤ u / 64 := by nlinarith
  have hc1 : ((1 + u) ^ 2 - 1) * 9.48 ≤ 19.11 * u := by nlinarith
  have hc1' : ((1 + u) ^ 2 - 1) * 9.48 = 18.96 * u + 9.48 * u ^ 2 := by ring
  set d := ((1 + u) ^ 2 - 1) * 9.48 with hdd
  have hd0 : 0 ≤ d := by nlinarith
  have hd1 : d ≤ 0.3 := by linarith
  have hAp : 0 < H + x := by linarith
  have hlo : (1 - d) * (H + x) ≤ h + x := by linarith
  have hhi : h + x ≤ (1 + d) * (H + x) := by linarith
  have hpos : 0 < h + x := lt_of_lt_of_le (mul_pos (by linarith) hAp) hlo
  rw [abs_of_pos hpos] at hs
  obtain ⟨s1, s2⟩ := abs_le.1 hs
  have slo : (1 - u) * ((1 - d) * (H + x)) ≤ s :=
    (mul_le_mul_of_nonneg_left hlo (by linarith)).trans (by linarith)
  have shi : s ≤ (1 + u) * ((1 + d) * (H + x)) :=
    le_trans (by linarith) (mul_le_mul_of_nonneg_left hhi (by linarith))
  refine rel_of_sq hr ha (by positivity) (by linarith) ?_ ?_
  · refine le_trans ?_ hr1
    have c : (1 - 12 * u) ^ 2 ≤ (1 - u) ^ 2 * ((1 - u) * (1 - d)) := by
      rw [hc1']; exact direct_lo hu0 hu
    have h3 := mul_le_mul_of_nonneg_right c (show (0 : ℝ) ≤ (H + x) / 2 by positivity)
    rw [ha2]
    refine h3.trans ?_
    have h4 := mul_le_mul_of_nonneg_left slo (show (0 : ℝ) ≤ (1 - u) ^ 2 / 2 by positivity)
    linarith
  · refine hr2.trans ?_
    have c : (1 + u) ^ 2 * ((1 + u) * (1 + d)) ≤ (1 + 12 * u) ^ 2 := by
      rw [hc1']; exact direct_hi hu0 hu
    have h3 := mul_le_mul_of_nonneg_right c (show (0 : ℝ) ≤ (H + x) / 2 by positivity)
    rw [ha2]
    refine le_trans ?_ h3
    have h4 := mul_le_mul_of_nonneg_left shi (show (0 : ℝ) ≤ (1 + u) ^ 2 / 2 by positivity)
    linarith

/-- The larger part in the other branch, `√((|z| + |re|)/2)`, and `√(2(|z| + |re|))`: both are accurate. -/
theorem stable_sum {u H R h s : ℝ} (hu0 : 0 < u) (hu : u ≤ 1 / 64) (hH : 0 < H) (hR : 0 ≤ R)
    (hh : |h - H| ≤ ((1 + u) ^ 2 - 1) * H) (hs : |s - (h + R)| ≤ u * |h + R|) :
    (1 - 3.1 * u) * (H + R) ≤ s ∧ s ≤ (1 + 3.1 * u) * (H + R) := by
  obtain ⟨h1, h2⟩ := abs_le.1 hh
  have hu2 : u ^ 2 ≤ u / 64 := by nlinarith
  have hd : (1 + u) ^ 2 - 1 ≤ 2.02 * u := by nlinarith
  have hdH := mul_le_mul_of_nonneg_right hd hH.le
  have hlo : (1 - 2.02 * u) * (H + R) ≤ h + R := by nlinarith
  have hhi : h + R ≤ (1 + 2.02 * u) * (H + R) := by nlinarith
  have hpos : 0 < h + R := by nlinarith
  rw [abs_of_pos hpos] at hs
  obtain ⟨s1, s2⟩ := abs_le.1 hs
  have hHR : 0 < H + R := by linarith
  constructor
  · have : (1 - u) * ((1 - 2.02 * u) * (H + R)) ≤ s := by nlinarith
    refine le_trans ?_ this
    rw [← mul_assoc]
    exact mul_le_mul_of_nonneg_right (by nlinarith) hHR.le
  · have : s ≤ (1 + u) * ((1 + 2.02 * u) * (H + R)) := by nlinarith
    refine this.trans ?_
    rw [← mul_assoc]
    exact mul_le_mul_of_nonneg_right (by nlinarith) hHR.le

theorem stable_big {u X s r a : ℝ} (hu0 : 0 < u) (hu : u ≤ 1 / 64) (hX : 0 < X) (hs1 : (1 - 3.1 * u) * X ≤ s)
    (hs2 : s ≤ (1 + 3.1 * u) * X) (hr : 0 ≤ r) (hr1 : (1 - u) ^ 2 * (s / 2) ≤ r ^ 2)
    (hr2 : r ^ 2 ≤ (1 + u) ^ 2 * (s / 2)) (ha : 0 ≤ a) (ha2 : a ^ 2 = X / 2) : |r - a| ≤ 12 * u * a := by
  have hu2 : u ^ 2 ≤ u / 64 := by nlinarith
  have h3 : 0 ≤ u ^ 3 := by positivity
  have h3' : u ^ 3 ≤ u ^ 2 / 64 := by nlinarith [sq_nonneg u]
  refine rel_of_sq hr ha (by positivity) (by linarith) ?_ ?_
  · refine le_trans ?_ hr1
    rw [ha2]
    have h4 := mul_le_mul_of_nonneg_left hs1 (show (0 : ℝ) ≤ (1 - u) ^ 2 / 2 by positivity)
    have c : (1 - 12 * u) ^ 2 ≤ (1 - u) ^ 2 * (1 - 3.1 * u) := by nlinarith
    have h5 := mul_le_mul_of_nonneg_right c (show (0 : ℝ) ≤ X / 2 by positivity)
    linarith
  · refine hr2.trans ?_
    rw [ha2]
    have h4 := mul_le_mul_of_nonneg_left hs2 (show (0 : ℝ) ≤ (1 + u) ^ 2 / 2 by positivity)
    have c : (1 + u) ^ 2 * (1 + 3.1 * u) ≤ (1 + 12 * u) ^ 2 := by nlinarith
    have h5 := mul_le_mul_of_nonneg_right c (show (0 : ℝ) ≤ X / 2 by positivity)
    linarith

/-- The smaller part, `|im| / √(2(|z| + |re|))`. -/
theorem stable_small {u X I s t r a : ℝ} (hu0 : 0 < u) (hu : u ≤ 1 / 64) (hX : 0 < X) (hI : 0 ≤ I)
    (hs1 : (1 - 3.1 * u) * X ≤ s) (hs2 : s ≤ (1 + 3.1 * u) * X) (ht : 0 < t)
    (ht1 : (1 - u) ^ 2 * (s * 2) ≤ t ^ 2) (ht2 : t ^ 2 ≤ (1 + u) ^ 2 * (s * 2)) (hr : |r - I / t| ≤ u * |I / t|)
    (ha : 0 ≤ a) (ha2 : a ^ 2 * (2 * X) = I ^ 2) : |r - a| ≤ 12 * u * a := by
  have hu2 : u ^ 2 ≤ u / 64 := by nlinarith
  have h3 : 0 ≤ u ^ 3 := by positivity
  have h3' : u ^ 3 ≤ u ^ 2 / 64 := by nlinarith [sq_nonneg u]
  have hq : 0 ≤ I / t := div_nonneg hI ht.le
  rw [abs_of_nonneg hq] at hr
  obtain ⟨r1, r2⟩ := abs_le.1 hr
  have hqt : I / t * t = I := div_mul_cancel₀ _ ht.ne'
  set q := I / t with hqdef
  have hr0 : 0 ≤ r := by nlinarith
  -- bounds for `t²` and `q²`
  have hX0 : 0 < 2 * X := by positivity
  have t1 : (1 - 5.2 * u) * (2 * X) ≤ t ^ 2 := by
    refine le_trans ?_ ht1
    have h4 := mul_le_mul_of_nonneg_left hs1 (show (0 : ℝ) ≤ (1 - u) ^ 2 * 2 by positivity)
    have c : 1 - 5.2 * u ≤ (1 - u) ^ 2 * (1 - 3.1 * u) := by nlinarith
    have h5 := mul_le_mul_of_nonneg_right c hX0.le
    linarith
  have t2 : t ^ 2 ≤ (1 + 5.3 * u) * (2 * X) := by
    refine ht2.trans ?_
    have h4 := mul_le_mul_of_nonneg_left hs2 (show (0 : ℝ) ≤ (1 + u) ^ 2 * 2 by positivity)
    have c : (1 + u) ^ 2 * (1 + 3.1 * u) ≤ 1 + 5.3 * u := by nlinarith
    have h5 := mul_le_mul_of_nonneg_right c hX0.le
    linarith
  have hq2 : q ^ 2 * t ^ 2 = a ^ 2 * (2 * X) := by rw [← mul_pow, hqt, ha2]
  have q1 : q ^ 2 * (1 - 5.2 * u) ≤ a ^ 2 := by
    have h4 := mul_le_mul_of_nonneg_left t1 (sq_nonneg q)
    rw [hq2] at h4
    exact le_of_mul_le_mul_right (le_trans (by linarith) h4) hX0
  have q2 : a ^ 2 ≤ q ^ 2 * (1 + 5.3 * u) := by
    have h4 := mul_le_mul_of_nonneg_left t2 (sq_nonneg q)
    rw [hq2] at h4
    exact le_of_mul_le_mul_right (h4.trans_eq (by ring)) hX0
  have rr1 : (1 - u) ^ 2 * q ^ 2 ≤ r ^ 2 := by
    rw [← mul_pow]; exact pow_le_pow_left₀ (mul_nonneg (by linarith) hq) (by linarith) 2
  have rr2 : r ^ 2 ≤ (1 + u) ^ 2 * q ^ 2 := by
    rw [← mul_pow]; exact pow_le_pow_left₀ hr0 (by linarith) 2
  refine rel_of_sq hr0 ha (by positivity) (by linarith) ?_ ?_
  · refine le_trans ?_ rr1
    have h4 := mul_le_mul_of_nonneg_left q2 (sq_nonneg (1 - 12 * u))
    refine h4.trans ?_
    have c : (1 - 12 * u) ^ 2 * (1 + 5.3 * u) ≤ (1 - u) ^ 2 := by nlinarith
    have h5 := mul_le_mul_of_nonneg_right c (sq_nonneg q)
    linarith
  · refine rr2.trans ?_
    have h4 := mul_le_mul_of_nonneg_left q1 (sq_nonneg (1 + 12 * u))
    refine le_trans ?_ h4
    have c : (1 + u) ^ 2 ≤ (1 + 12 * u) ^ 2 * (1 - 5.2 * u) := by nlinarith
    have h5 := mul_le_mul_of_nonneg_right c (sq_nonneg q)
    linarith

end Magnesia
