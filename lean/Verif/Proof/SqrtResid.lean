import Mathlib.Tactic.Linarith
import Mathlib.Tactic.Positivity
import Mathlib.Tactic.NormNum
import Mathlib.Tactic.Ring
import Mathlib.Data.Real.Basic

/-!
# The residual `z - s²` of a computed complex square root (helper lemmas about real numbers)
-/

namespace Magnesia

/-- The real part of the square: `a² - b²` with two rounded squares and a rounded difference. -/
theorem sq_diff_round {u a2 b2 p1 p4 m x η e N : ℝ} (hu0 : 0 < u) (hu : u ≤ 1 / 2 ^ 20) (ha : 0 ≤ a2) (hb : 0 ≤ b2)
    (hp1 : |p1 - a2| ≤ u * a2 + η) (hp4 : |p4 - b2| ≤ u * b2 + η) (hm : |m - (p1 - p4)| ≤ u * |p1 - p4|)
    (he : |a2 - b2 - x| ≤ u * e) (hN : a2 + b2 ≤ N) (hη : η ≤ u * (N / 2 ^ 10)) (hη0 : 0 ≤ η) (he' : e ≤ 10 * N) :
    |m - x| ≤ u * (e + 1.003 * N + |x|) := by
  have hN0 : 0 ≤ N := by linarith
  have h1 : |p1 - p4 - x| ≤ u * e + u * N + 2 * η := by
    have : p1 - p4 - x = (p1 - a2) - (p4 - b2) + (a2 - b2 - x) := by ring
    rw [this]
    have h2 := abs_add_le ((p1 - a2) - (p4 - b2)) (a2 - b2 - x)
    have h3 := abs_sub (p1 - a2) (p4 - b2)
    have h4 := mul_le_mul_of_nonneg_left hN hu0.le
    linarith
  have h2 : |p1 - p4| ≤ |x| + (u * e + u * N + 2 * η) := by
    have : p1 - p4 = x + (p1 - p4 - x) := by ring
    rw [this]
    exact (abs_add_le _ _).trans (by linarith)
  have h3 : |m - x| ≤ |m - (p1 - p4)| + |p1 - p4 - x| := by
    have : m - x = (m - (p1 - p4)) + (p1 - p4 - x) := by ring
    rw [this]; exact abs_add_le _ _
  have h4 := mul_le_mul_of_nonneg_left h2 hu0.le
  have h5 : u * e + u * N + 2 * η ≤ u * (11.1 * N) := by
    have := mul_le_mul_of_nonneg_left he' hu0.le
    linarith [mul_nonneg hu0.le hN0]
  have h6 : u * (u * e + u * N + 2 * η) ≤ u * (0.0001 * N) := by
    refine mul_le_mul_of_nonneg_left (h5.trans ?_) hu0.le
    have := mul_le_mul_of_nonneg_right hu (show 0 ≤ 11.1 * N by linarith)
    linarith
  have h7 : u * (|x| + (u * e + u * N + 2 * η)) = u * |x| + u * (u * e + u * N + 2 * η) := by ring
  have h8 := mul_nonneg hu0.le hN0
  linarith

/-- A square within relative error `c u`, from a rounded sum and a rounded square root. -/
theorem half_sq {u S s a2 : ℝ} (hu0 : 0 < u) (hu : u ≤ 1 / 2 ^ 20) (hS : 0 < S) (hs : |s - S| ≤ u * |S|)
    (h1 : (1 - u) ^ 2 * (s / 2) ≤ a2) (h2 : a2 ≤ (1 + u) ^ 2 * (s / 2)) :
    |2 * a2 - S| ≤ 3.001 * u * S := by
  rw [abs_of_pos hS] at hs
  obtain ⟨s1, s2⟩ := abs_le.1 hs
  have hu2 : u ^ 2 ≤ u / 2 ^ 20 := by nlinarith
  have hu3 : u ^ 3 ≤ u ^ 2 := by nlinarith [sq_nonneg u]
  have hu3' : 0 ≤ u ^ 3 := by positivity
  have h3 := mul_le_mul_of_nonneg_left (show (1 - u) * S ≤ s by linarith) (sq_nonneg (1 - u))
  have h4 := mul_le_mul_of_nonneg_left (show s ≤ (1 + u) * S by linarith) (sq_nonneg (1 + u))
  have c1 : 1 - 3.001 * u ≤ (1 - u) ^ 2 * (1 - u) := by nlinarith
  have c2 : (1 + u) ^ 2 * (1 + u) ≤ 1 + 3.001 * u := by nlinarith
  have h5 := mul_le_mul_of_nonneg_right c1 hS.le
  have h6 := mul_le_mul_of_nonneg_right c2 hS.le
  rw [abs_le]
  constructor <;> linarith

/-- The imaginary part of the square: `2ab`. -/
theorem prod_round {u H x y h a b q η : ℝ} (hu0 : 0 < u) (hu : u ≤ 1 / 2 ^ 20) (hH : 0 < H) (hyp : 0 < y) (hyH : y ≤ H)
    (hK5 : H ^ 2 ≤ 5 * y ^ 2) (hS : 0 < h + x) (hD : 0 < h - x) (hab : 0 ≤ a * b)
    (hSD : |(h + x) * (h - x) - y ^ 2| ≤ 4.003 * u * H ^ 2) (a1 : |2 * a ^ 2 - (h + x)| ≤ 3.001 * u * (h + x))
    (b1 : |2 * b ^ 2 - (h - x)| ≤ 3.001 * u * (h - x)) (hq : |q - a * b| ≤ u * (a * b) + η)
    (hη : η ≤ u * (H / 2 ^ 11)) : |2 * q - y| * y ≤ u * (4.01 * y ^ 2 + 2.013 * H ^ 2) := by
  obtain ⟨a3, a4⟩ := abs_le.1 a1
  obtain ⟨b3, b4⟩ := abs_le.1 b1
  obtain ⟨d1, d2⟩ := abs_le.1 hSD
  have hSDp : 0 < (h + x) * (h - x) := mul_pos hS hD
  obtain ⟨P, hP⟩ : ∃ P, P = 2 * (a * b) := ⟨_, rfl⟩
  have hP0 : 0 ≤ P := by rw [hP]; linarith
  have hPP : P ^ 2 = (2 * a ^ 2) * (2 * b ^ 2) := by rw [hP]; ring
  have hc0 : 0 ≤ 1 - 3.001 * u := by linarith
  have hu2 : u ^ 2 ≤ u / 2 ^ 20 := by rw [pow_two]; linarith [mul_le_mul_of_nonneg_left hu hu0.le]
  have hPl : (1 - 6.003 * u) * ((h + x) * (h - x)) ≤ P ^ 2 := by
    rw [hPP]
    have h3 := mul_le_mul (show (1 - 3.001 * u) * (h + x) ≤ 2 * a ^ 2 by linarith)
      (show (1 - 3.001 * u) * (h - x) ≤ 2 * b ^ 2 by linarith) (mul_nonneg hc0 hD.le) (by positivity)
    have h4 : 1 - 6.003 * u ≤ (1 - 3.001 * u) * (1 - 3.001 * u) := by
      have := sq_nonneg u
      linarith
    have h5 := mul_le_mul_of_nonneg_right h4 hSDp.le
    refine h5.trans (le_trans (le_of_eq ?_) h3)
    ring
  have hPh : P ^ 2 ≤ (1 + 6.003 * u) * ((h + x) * (h - x)) := by
    rw [hPP]
    have h3 := mul_le_mul (show 2 * a ^ 2 ≤ (1 + 3.001 * u) * (h + x) by linarith)
      (show 2 * b ^ 2 ≤ (1 + 3.001 * u) * (h - x) by linarith) (by positivity)
      (mul_nonneg (by linarith) hS.le)
    have h4 : (1 + 3.001 * u) * (1 + 3.001 * u) ≤ 1 + 6.003 * u := by
      linarith
    have h5 := mul_le_mul_of_nonneg_right h4 hSDp.le
    refine h3.trans (le_trans (le_of_eq ?_) h5)
    ring
  clear a1 b1 a3 a4 b3 b4 hPP
  have hK : 0 ≤ H ^ 2 := sq_nonneg H
  have huK : 0 ≤ u * H ^ 2 := by positivity
  have huuK : u * (u * H ^ 2) ≤ 1 / 2 ^ 20 * (u * H ^ 2) := mul_le_mul_of_nonneg_right hu huK
  have hPy : |P ^ 2 - y ^ 2| ≤ u * (6.003 * y ^ 2 + 4.01 * H ^ 2) := by
    have h3 := mul_le_mul_of_nonneg_left d1 (show 0 ≤ 1 - 6.003 * u by linarith)
    have h4 := mul_le_mul_of_nonneg_left d2 (show 0 ≤ 1 + 6.003 * u by linarith)
    generalize (h + x) * (h - x) = SD at *
    have e3 : (1 - 6.003 * u) * (-(4.003 * u * H ^ 2)) = -(4.003 * (u * H ^ 2)) + 6.003 * 4.003 * (u * (u * H ^ 2)) := by
      ring
    have e4 : (1 + 6.003 * u) * (4.003 * u * H ^ 2) = 4.003 * (u * H ^ 2) + 6.003 * 4.003 * (u * (u * H ^ 2)) := by ring
    have h0 : 0 ≤ u * (u * H ^ 2) := by positivity
    rw [abs_le]
    constructor <;> linarith
  have hyy : 0 ≤ u * y ^ 2 := by positivity
  have huy2 : u * y ^ 2 ≤ 1 / 2 ^ 20 * y ^ 2 := mul_le_mul_of_nonneg_right hu (sq_nonneg y)
  have hKy : u * H ^ 2 ≤ u * (5 * y ^ 2) := mul_le_mul_of_nonneg_left hK5 hu0.le
  obtain ⟨g1, g2⟩ := abs_le.1 hPy
  have hPlo : 0.9999 * y ≤ P := by
    refine abs_le_of_sq_le_sq' ?_ hP0 |>.2
    rw [mul_pow]
    linarith
  have hPhi : P ≤ 1.0001 * y := by
    refine abs_le_of_sq_le_sq' ?_ (by positivity) |>.2
    rw [mul_pow]
    linarith
  have hPd : |P - y| * y ≤ u * (3.002 * y ^ 2 + 2.006 * H ^ 2) := by
    have e : |P ^ 2 - y ^ 2| = |P - y| * (P + y) := by
      rw [show P ^ 2 - y ^ 2 = (P - y) * (P + y) by ring, abs_mul, abs_of_nonneg (show 0 ≤ P + y by linarith)]
    rw [e] at hPy
    have h3 := mul_le_mul_of_nonneg_left (show 1.9999 * y ≤ P + y by linarith) (abs_nonneg (P - y))
    have h4 : 1.9999 * (|P - y| * y) ≤ u * (6.003 * y ^ 2 + 4.01 * H ^ 2) := by linarith
    linarith
  have huH0 : 0 ≤ u * H := by positivity
  have hq2 : |2 * q - P| ≤ u * (1.0001 * y + 0.001 * H) := by
    have : |2 * q - P| = 2 * |q - a * b| := by
      rw [hP, show 2 * q - 2 * (a * b) = 2 * (q - a * b) by ring, abs_mul, abs_of_pos (by norm_num : (0 : ℝ) < 2)]
    rw [this]
    have h3 := mul_le_mul_of_nonneg_left hPhi hu0.le
    rw [hP] at h3
    linarith
  have h3 : |2 * q - y| ≤ |2 * q - P| + |P - y| := by
    rw [show 2 * q - y = (2 * q - P) + (P - y) by ring]; exact abs_add_le _ _
  have h4 := mul_le_mul_of_nonneg_right h3 hyp.le
  have h6 := mul_le_mul_of_nonneg_right hq2 hyp.le
  have h5 : u * (H * y) ≤ u * H ^ 2 := by
    rw [pow_two]
    exact mul_le_mul_of_nonneg_left (mul_le_mul_of_nonneg_left hyH hH.le) hu0.le
  have e6 : u * (1.0001 * y + 0.001 * H) * y = 1.0001 * (u * y ^ 2) + 0.001 * (u * (H * y)) := by ring
  linarith

theorem direct_resid {u H x y h s d a b p1 p4 m q η : ℝ} (hu0 : 0 < u) (hu : u ≤ 1 / 2 ^ 20) (hH : 0 < H)
    (hH2 : H ^ 2 = x ^ 2 + y ^ 2) (hy : 0 ≤ y) (hxy : |x| ≤ y * 2) (hh : |h - H| ≤ ((1 + u) ^ 2 - 1) * H)
    (hs : |s - (h + x)| ≤ u * |h + x|) (hd : |d - (h - x)| ≤ u * |h - x|) (ha : 0 ≤ a) (hb : 0 ≤ b)
    (ha1 : (1 - u) ^ 2 * (s / 2) ≤ a ^ 2) (ha2 : a ^ 2 ≤ (1 + u) ^ 2 * (s / 2))
    (hb1 : (1 - u) ^ 2 * (d / 2) ≤ b ^ 2) (hb2 : b ^ 2 ≤ (1 + u) ^ 2 * (d / 2))
    (hp1 : |p1 - a ^ 2| ≤ u * a ^ 2 + η) (hp4 : |p4 - b ^ 2| ≤ u * b ^ 2 + η)
    (hm : |m - (p1 - p4)| ≤ u * |p1 - p4|) (hq : |q - a * b| ≤ u * (a * b) + η) (hη0 : 0 ≤ η)
    (hη : η ≤ u * (H / 2 ^ 11)) : (m - x) ^ 2 + (2 * q - y) ^ 2 ≤ 63.7 * u ^ 2 * H ^ 2 := by
  have hu2 : u ^ 2 ≤ u / 2 ^ 20 := by rw [pow_two]; linarith [mul_le_mul_of_nonneg_left hu hu0.le]
  have hu20 : 0 ≤ u ^ 2 := sq_nonneg u
  have hh' : |h - H| ≤ 2.001 * u * H := hh.trans (mul_le_mul_of_nonneg_right (by linarith) hH.le)
  obtain ⟨h1, h2⟩ := abs_le.1 hh'
  have huH : u * H ≤ 1 / 2 ^ 20 * H := mul_le_mul_of_nonneg_right hu hH.le
  have huH0 : 0 ≤ u * H := by positivity
  -- sizes
  have hx2 : x ^ 2 ≤ 4 * y ^ 2 := by
    have := pow_le_pow_left₀ (abs_nonneg _) hxy 2
    rw [sq_abs] at this; linarith
  have hx9 : |x| ≤ 0.8945 * H := by
    refine abs_le_of_sq_le_sq' ?_ (by positivity) |>.2
    rw [sq_abs, mul_pow]; linarith [sq_nonneg x]
  obtain ⟨x1, x2⟩ := abs_le.1 hx9
  have hyH2 : y ^ 2 ≤ H ^ 2 := by linarith [sq_nonneg x]
  have hyH : y ≤ H := abs_le_of_sq_le_sq' hyH2 hH.le |>.2
  have hK5 : H ^ 2 ≤ 5 * y ^ 2 := by linarith
  have hyp : 0 < y := by
    rcases hy.lt_or_eq with h | h
    · exact h
    · exfalso; rw [← h] at hK5
      have : 0 < H ^ 2 := by positivity
      linarith
  have hS : 0 < h + x := by linarith
  have hD : 0 < h - x := by linarith
  have a1 := half_sq hu0 hu hS hs ha1 ha2
  have b1 := half_sq hu0 hu hD hd hb1 hb2
  clear hs hd ha1 ha2 hb1 hb2 hh
  have hSD : |(h + x) * (h - x) - y ^ 2| ≤ 4.003 * u * H ^ 2 := by
    have e : (h + x) * (h - x) - y ^ 2 = (h - H) * (h + H) := by linarith
    rw [e, abs_mul]
    have h3 : |h + H| ≤ 2.0001 * H := by
      rw [abs_of_pos (by linarith)]; linarith
    have h4 := mul_le_mul hh' h3 (abs_nonneg _) (by positivity)
    refine h4.trans ?_
    have : 0 ≤ u * H ^ 2 := by positivity
    linarith
  have hei := prod_round hu0 hu hH hyp hyH hK5 hS hD (mul_nonneg ha hb) hSD a1 b1 hq hη
  -- the real part
  obtain ⟨a3, a4⟩ := abs_le.1 a1
  obtain ⟨b3, b4⟩ := abs_le.1 b1
  have hhu : h ≤ 1.00001 * H := by linarith
  have huh : u * h ≤ u * (1.00001 * H) := mul_le_mul_of_nonneg_left hhu hu0.le
  have hh0 : 0 ≤ u * h := mul_nonneg hu0.le (by linarith)
  have hre : |a ^ 2 - b ^ 2 - x| ≤ u * (3.0041 * H) := by
    rw [abs_le]; constructor <;> linarith
  have hsum : a ^ 2 + b ^ 2 ≤ 1.0001 * H := by linarith
  clear a1 b1 a3 a4 b3 b4 hSD hq
  have er := sq_diff_round hu0 hu (sq_nonneg a) (sq_nonneg b) hp1 hp4 hm hre hsum (by linarith) hη0 (by linarith)
  have er' : |m - x| ≤ u * (4.01 * H + |x|) := er.trans (mul_le_mul_of_nonneg_left (by linarith) hu0.le)
  have er2 : (m - x) ^ 2 ≤ u ^ 2 * (24.26 * H ^ 2 - y ^ 2) := by
    have h3 := pow_le_pow_left₀ (abs_nonneg _) er' 2
    rw [sq_abs, mul_pow] at h3
    refine h3.trans (mul_le_mul_of_nonneg_left ?_ hu20)
    have h4 := mul_le_mul_of_nonneg_left hx9 hH.le
    have h5 := sq_abs x
    have e : (4.01 * H + |x|) ^ 2 = 16.0801 * H ^ 2 + 8.02 * (H * |x|) + |x| ^ 2 := by ring
    have e2 : H * (0.8945 * H) = 0.8945 * H ^ 2 := by ring
    rw [e, h5]
    linarith [sq_nonneg H]
  have ei2 : (2 * q - y) ^ 2 ≤ u ^ 2 * (39.44 * H ^ 2 + y ^ 2) := by
    have h3 := pow_le_pow_left₀ (by positivity) hei 2
    rw [mul_pow, mul_pow, sq_abs] at h3
    have h4 : (4.01 * y ^ 2 + 2.013 * H ^ 2) ^ 2 ≤ (39.44 * H ^ 2 + y ^ 2) * y ^ 2 := by
      generalize y ^ 2 = Y at *
      generalize H ^ 2 = K at *
      nlinarith [mul_nonneg (show 0 ≤ 5 * Y - K by linarith) (show 0 ≤ K - Y by linarith)]
    have h5 := mul_le_mul_of_nonneg_left h4 hu20
    have h6 : (2 * q - y) ^ 2 * y ^ 2 ≤ u ^ 2 * (39.44 * H ^ 2 + y ^ 2) * y ^ 2 := by linarith
    exact le_of_mul_le_mul_right h6 (by positivity)
  have e : u ^ 2 * (24.26 * H ^ 2 - y ^ 2) + u ^ 2 * (39.44 * H ^ 2 + y ^ 2) = 63.7 * u ^ 2 * H ^ 2 := by ring
  linarith

/-- The computed `|z| + |re|` in the other branch. -/
theorem stable_sum' {u H R h s : ℝ} (hu0 : 0 < u) (hu : u ≤ 1 / 2 ^ 20) (hH : 0 < H) (hR : 0.894 * H ≤ R)
    (hh : |h - H| ≤ ((1 + u) ^ 2 - 1) * H) (hs : |s - (h + R)| ≤ u * |h + R|) :
    |s - (H + R)| ≤ 2.06 * u * (H + R) := by
  have hu2 : u ^ 2 ≤ u / 2 ^ 20 := by rw [pow_two]; linarith [mul_le_mul_of_nonneg_left hu hu0.le]
  have hh' : |h - H| ≤ 2.001 * u * H := hh.trans (mul_le_mul_of_nonneg_right (by linarith) hH.le)
  have hHR : H ≤ 0.528 * (H + R) := by linarith
  have hX : 0 < H + R := by linarith
  have h3 : |h - H| ≤ 1.0566 * u * (H + R) := by
    have := mul_le_mul_of_nonneg_left hHR hu0.le
    have h0 : 0 ≤ u * (H + R) := by positivity
    linarith
  have huX : u * (H + R) ≤ 1 / 2 ^ 20 * (H + R) := mul_le_mul_of_nonneg_right hu hX.le
  have huX0 : 0 ≤ u * (H + R) := by positivity
  have h4 : |h + R| ≤ 1.001 * (H + R) := by
    rw [show h + R = (h - H) + (H + R) by ring]
    refine (abs_add_le _ _).trans ?_
    rw [abs_of_pos hX]
    linarith
  have h5 := mul_le_mul_of_nonneg_left h4 hu0.le
  rw [show s - (H + R) = (s - (h + R)) + (h - H) by ring]
  refine (abs_add_le _ _).trans ?_
  linarith

theorem two_roots {u s t β : ℝ} (hu0 : 0 < u) (hu : u ≤ 1 / 2 ^ 20) (hβ : 0 ≤ β) (ht : 0 < t)
    (hb1 : (1 - u) ^ 2 * (s / 2) ≤ β ^ 2) (hb2 : β ^ 2 ≤ (1 + u) ^ 2 * (s / 2))
    (ht1 : (1 - u) ^ 2 * (s * 2) ≤ t ^ 2) (ht2 : t ^ 2 ≤ (1 + u) ^ 2 * (s * 2)) : |2 * β - t| ≤ 2.01 * u * t := by
  have hu2 : u ^ 2 ≤ u / 2 ^ 20 := by rw [pow_two]; linarith [mul_le_mul_of_nonneg_left hu hu0.le]
  have hu20 : 0 ≤ u ^ 2 := sq_nonneg u
  have g1 : (2 * β) ^ 2 = 4 * β ^ 2 := by ring
  have c1 : (1 - 2.01 * u) * (1 + u) ≤ 1 - u := by linarith
  have c2 : 1 + u ≤ (1 + 2.01 * u) * (1 - u) := by linarith
  have i1 : (1 - u) * t ≤ (1 + u) * (2 * β) := by
    refine abs_le_of_sq_le_sq' ?_ (by positivity) |>.2
    rw [mul_pow (1 + u), mul_pow (1 - u), g1]
    have j1 := mul_le_mul_of_nonneg_left ht2 (sq_nonneg (1 - u))
    have j2 := mul_le_mul_of_nonneg_left hb1 (sq_nonneg (1 + u))
    linarith
  have i2 : (1 - u) * (2 * β) ≤ (1 + u) * t := by
    refine abs_le_of_sq_le_sq' ?_ (by positivity) |>.2
    rw [mul_pow (1 + u), mul_pow (1 - u), g1]
    have j1 := mul_le_mul_of_nonneg_left ht1 (sq_nonneg (1 + u))
    have j2 := mul_le_mul_of_nonneg_left hb2 (sq_nonneg (1 - u))
    linarith
  have i3 : (1 - 2.01 * u) * t ≤ 2 * β := by
    refine le_of_mul_le_mul_left ?_ (show 0 < 1 + u by linarith)
    have := mul_le_mul_of_nonneg_right c1 ht.le
    linarith
  have i4 : 2 * β ≤ (1 + 2.01 * u) * t := by
    refine le_of_mul_le_mul_left ?_ (show 0 < 1 - u by linarith)
    have := mul_le_mul_of_nonneg_right c2 ht.le
    linarith
  rw [abs_le]
  constructor <;> linarith

theorem small_part {u H R s t w α : ℝ} (hu0 : 0 < u) (hu : u ≤ 1 / 2 ^ 20) (hX : 0 < H + R) (hHR0 : 0 ≤ H - R)
    (hs0 : 0 < s) (s1 : -(2.06 * u * (H + R)) ≤ s - (H + R)) (s2 : s - (H + R) ≤ 2.06 * u * (H + R))
    (ht1 : (1 - u) ^ 2 * (s * 2) ≤ t ^ 2) (ht2 : t ^ 2 ≤ (1 + u) ^ 2 * (s * 2))
    (hwt2 : w ^ 2 * t ^ 2 = (H - R) * (H + R)) (hw0 : 0 ≤ w) (hα : |α - w| ≤ u * w) :
    |2 * α ^ 2 - (H - R)| ≤ 6.08 * u * (H - R) := by
  have hu2 : u ^ 2 ≤ u / 2 ^ 20 := by rw [pow_two]; linarith [mul_le_mul_of_nonneg_left hu hu0.le]
  have hu20 : 0 ≤ u ^ 2 := sq_nonneg u
  have huX0 : 0 ≤ u * (H + R) := by positivity
  have huX : u * (H + R) ≤ 1 / 2 ^ 20 * (H + R) := mul_le_mul_of_nonneg_right hu hX.le
  have hus0 : 0 ≤ u * s := by positivity
  have huus : u ^ 2 * s ≤ u / 2 ^ 20 * s := mul_le_mul_of_nonneg_right hu2 hs0.le
  have huus0 : 0 ≤ u ^ 2 * s := by positivity
  have husX : u * s ≤ u * (1.0001 * (H + R)) := mul_le_mul_of_nonneg_left (by linarith) hu0.le
  obtain ⟨α1, α2⟩ := abs_le.1 hα
  have huw : u * w ≤ 1 / 2 ^ 20 * w := mul_le_mul_of_nonneg_right hu hw0
  have hα0 : 0 ≤ α := by linarith
  have w2 : |2 * w ^ 2 - (H - R)| ≤ 4.07 * u * (H - R) := by
    have k0 : 0 ≤ u * (H - R) := by positivity
    have kk : u * (H - R) ≤ 1 / 2 ^ 20 * (H - R) := mul_le_mul_of_nonneg_right hu hHR0
    have e1 : (1 - u) ^ 2 * (s * 2) = 2 * s - 4 * (u * s) + 2 * (u ^ 2 * s) := by ring
    have e2 : (1 + u) ^ 2 * (s * 2) = 2 * s + 4 * (u * s) + 2 * (u ^ 2 * s) := by ring
    rw [e1] at ht1
    rw [e2] at ht2
    have t1 : (1 - 4.065 * u) * (2 * (H + R)) ≤ t ^ 2 := by linarith
    have t2 : t ^ 2 ≤ (1 + 4.065 * u) * (2 * (H + R)) := by linarith
    have g1 := mul_le_mul_of_nonneg_left t1 (sq_nonneg w)
    have g2 := mul_le_mul_of_nonneg_left t2 (sq_nonneg w)
    rw [hwt2] at g1 g2
    have g1' : (1 - 4.065 * u) * (2 * w ^ 2) ≤ H - R := by
      refine le_of_mul_le_mul_right ?_ hX
      linarith
    have g2' : H - R ≤ (1 + 4.065 * u) * (2 * w ^ 2) := by
      refine le_of_mul_le_mul_right ?_ hX
      linarith
    have q0 : 0 ≤ w ^ 2 := sq_nonneg w
    have q1 : 0 ≤ u * w ^ 2 := by positivity
    have q2 : u * w ^ 2 ≤ 1 / 2 ^ 20 * w ^ 2 := mul_le_mul_of_nonneg_right hu q0
    have q3 : 2 * w ^ 2 ≤ 1.0001 * (H - R) := by linarith
    have q4 : u * (2 * w ^ 2) ≤ u * (1.0001 * (H - R)) := mul_le_mul_of_nonneg_left q3 hu0.le
    rw [abs_le]
    constructor <;> linarith
  obtain ⟨w3, w4⟩ := abs_le.1 w2
  have k0 : 0 ≤ u * (H - R) := by positivity
  have kk : u * (H - R) ≤ 1 / 2 ^ 20 * (H - R) := mul_le_mul_of_nonneg_right hu hHR0
  have g1 := pow_le_pow_left₀ (mul_nonneg (show 0 ≤ 1 - u by linarith) hw0) (show (1 - u) * w ≤ α by linarith) 2
  have g2 := pow_le_pow_left₀ hα0 (show α ≤ (1 + u) * w by linarith) 2
  have e1 : ((1 - u) * w) ^ 2 = w ^ 2 - 2 * (u * w ^ 2) + u ^ 2 * w ^ 2 := by ring
  have e2 : ((1 + u) * w) ^ 2 = w ^ 2 + 2 * (u * w ^ 2) + u ^ 2 * w ^ 2 := by ring
  rw [e1] at g1
  rw [e2] at g2
  have q0 : 0 ≤ w ^ 2 := sq_nonneg w
  have q1 : 0 ≤ u * w ^ 2 := by positivity
  have q2 : u ^ 2 * w ^ 2 ≤ u / 2 ^ 20 * w ^ 2 := mul_le_mul_of_nonneg_right hu2 q0
  have q22 : 0 ≤ u ^ 2 * w ^ 2 := by positivity
  have q3 : 2 * w ^ 2 ≤ 1.0001 * (H - R) := by linarith
  have q4 : u * (2 * w ^ 2) ≤ u * (1.0001 * (H - R)) := mul_le_mul_of_nonneg_left q3 hu0.le
  rw [abs_le]
  constructor <;> linarith

theorem stable_resid {u H R y h s t α β p1 p4 m q η : ℝ} (hu0 : 0 < u) (hu : u ≤ 1 / 2 ^ 20) (hH : 0 < H)
    (hH2 : H ^ 2 = R ^ 2 + y ^ 2) (hy : 0 ≤ y) (hR0 : 0 ≤ R) (hxy : y * 2 ≤ R) (hh : |h - H| ≤ ((1 + u) ^ 2 - 1) * H)
    (hs : |s - (h + R)| ≤ u * |h + R|) (hβ : 0 ≤ β) (ht : 0 < t)
    (hb1 : (1 - u) ^ 2 * (s / 2) ≤ β ^ 2) (hb2 : β ^ 2 ≤ (1 + u) ^ 2 * (s / 2))
    (ht1 : (1 - u) ^ 2 * (s * 2) ≤ t ^ 2) (ht2 : t ^ 2 ≤ (1 + u) ^ 2 * (s * 2))
    (hα : |α - y / t| ≤ u * |y / t|)
    (hp1 : |p1 - β ^ 2| ≤ u * β ^ 2 + η) (hp4 : |p4 - α ^ 2| ≤ u * α ^ 2 + η)
    (hm : |m - (p1 - p4)| ≤ u * |p1 - p4|) (hq : |q - α * β| ≤ u * (α * β) + η) (hη0 : 0 ≤ η)
    (hη : η ≤ u * (H / 2 ^ 11)) : (m - R) ^ 2 + (2 * q - y) ^ 2 ≤ 63.7 * u ^ 2 * H ^ 2 := by
  have hu2 : u ^ 2 ≤ u / 2 ^ 20 := by rw [pow_two]; linarith [mul_le_mul_of_nonneg_left hu hu0.le]
  have hu20 : 0 ≤ u ^ 2 := sq_nonneg u
  have huH0 : 0 ≤ u * H := by positivity
  have huH : u * H ≤ 1 / 2 ^ 20 * H := mul_le_mul_of_nonneg_right hu hH.le
  have hy2 : 4 * y ^ 2 ≤ R ^ 2 := by
    have := pow_le_pow_left₀ (by positivity) hxy 2
    rw [mul_pow] at this; linarith
  have hR9 : 0.894 * H ≤ R := by
    refine abs_le_of_sq_le_sq' ?_ hR0 |>.2
    rw [mul_pow]; linarith [sq_nonneg R]
  have hRH : R ≤ H := abs_le_of_sq_le_sq' (by linarith [sq_nonneg y]) hH.le |>.2
  have hyH : y ≤ 0.4473 * H := by
    refine abs_le_of_sq_le_sq' ?_ (by positivity) |>.2
    rw [mul_pow]; linarith [sq_nonneg y]
  have hX : 0 < H + R := by linarith
  have hs' := stable_sum' hu0 hu hH hR9 hh hs
  clear hh hs
  obtain ⟨s1, s2⟩ := abs_le.1 hs'
  have huX0 : 0 ≤ u * (H + R) := by positivity
  have huX : u * (H + R) ≤ 1 / 2 ^ 20 * (H + R) := mul_le_mul_of_nonneg_right hu hX.le
  have hs0 : 0 < s := by linarith
  have hus : u * s ≤ 1 / 2 ^ 20 * s := mul_le_mul_of_nonneg_right hu hs0.le
  have hus0 : 0 ≤ u * s := by positivity
  have huus : u ^ 2 * s ≤ u / 2 ^ 20 * s := mul_le_mul_of_nonneg_right hu2 hs0.le
  have huus0 : 0 ≤ u ^ 2 * s := by positivity
  -- the larger part
  have husX : u * s ≤ u * (1.0001 * (H + R)) := mul_le_mul_of_nonneg_left (by linarith) hu0.le
  have B1 : |2 * β ^ 2 - (H + R)| ≤ 4.07 * u * (H + R) := by
    have e1 : (1 - u) ^ 2 * (s / 2) = s / 2 - u * s + u ^ 2 * s / 2 := by ring
    have e2 : (1 + u) ^ 2 * (s / 2) = s / 2 + u * s + u ^ 2 * s / 2 := by ring
    rw [e1] at hb1
    rw [e2] at hb2
    rw [abs_le]
    constructor <;> linarith
  -- the smaller part
  have hw0 : 0 ≤ y / t := by positivity
  rw [abs_of_nonneg hw0] at hα
  obtain ⟨w, hw⟩ : ∃ w, w = y / t := ⟨_, rfl⟩
  rw [← hw] at hα hw0
  have hwt : w * t = y := by rw [hw, div_mul_cancel₀ _ ht.ne']
  obtain ⟨α1, α2⟩ := abs_le.1 hα
  have huw : u * w ≤ 1 / 2 ^ 20 * w := mul_le_mul_of_nonneg_right hu hw0
  have hα0 : 0 ≤ α := by linarith
  have hwt2 : w ^ 2 * t ^ 2 = (H - R) * (H + R) := by rw [← mul_pow, hwt]; linarith
  have hHR0 : 0 ≤ H - R := by linarith
  have A1 := small_part hu0 hu hX hHR0 hs0 s1 s2 ht1 ht2 hwt2 hw0 hα
  -- the real part
  obtain ⟨b3, b4⟩ := abs_le.1 B1
  obtain ⟨a3, a4⟩ := abs_le.1 A1
  have huR : u * (0.894 * H) ≤ u * R := mul_le_mul_of_nonneg_left hR9 hu0.le
  have hre : |β ^ 2 - α ^ 2 - R| ≤ u * (4.19 * H) := by
    rw [abs_le]; constructor <;> linarith
  have hsum : β ^ 2 + α ^ 2 ≤ 1.0001 * H := by
    have : u * R ≤ u * H := mul_le_mul_of_nonneg_left hRH hu0.le
    linarith
  have er := sq_diff_round hu0 hu (sq_nonneg β) (sq_nonneg α) hp1 hp4 hm hre hsum (by linarith) hη0 (by linarith)
  rw [abs_of_nonneg hR0] at er
  have er' : |m - R| ≤ u * (6.2 * H) := er.trans (mul_le_mul_of_nonneg_left (by linarith) hu0.le)
  have er2 := pow_le_pow_left₀ (abs_nonneg _) er' 2
  rw [sq_abs] at er2
  -- the imaginary part
  have hβt := two_roots hu0 hu hβ ht hb1 hb2 ht1 ht2
  have huy : 0 ≤ u * y := by positivity
  have huuy : u * (u * y) ≤ 1 / 2 ^ 20 * (u * y) := mul_le_mul_of_nonneg_right hu huy
  have hP : |2 * (α * β) - y| ≤ 3.02 * u * y := by
    have e : 2 * (α * β) - y = (α - w) * (2 * β - t) + (α - w) * t + w * (2 * β - t) := by rw [← hwt]; ring
    rw [e]
    have g1 := mul_le_mul hα hβt (abs_nonneg _) (by positivity)
    have g2 := mul_le_mul_of_nonneg_right hα ht.le
    have g3 := mul_le_mul_of_nonneg_left hβt hw0
    have e1 : u * w * (2.01 * u * t) = 2.01 * (u * (u * y)) := by rw [← hwt]; ring
    have e2 : u * w * t = u * y := by rw [← hwt]; ring
    have e3 : w * (2.01 * u * t) = 2.01 * (u * y) := by rw [← hwt]; ring
    have k1 := abs_add_le ((α - w) * (2 * β - t) + (α - w) * t) (w * (2 * β - t))
    have k2 := abs_add_le ((α - w) * (2 * β - t)) ((α - w) * t)
    rw [abs_mul] at k2
    rw [abs_mul (α - w) t, abs_of_pos ht] at k2
    rw [abs_mul w, abs_of_nonneg hw0] at k1
    linarith
  have hαβ : 0 ≤ α * β := by positivity
  obtain ⟨P1, P2⟩ := abs_le.1 hP
  have hPhi : α * β ≤ 0.501 * y := by
    have := mul_le_mul_of_nonneg_right hu hy
    linarith
  have ei' : |2 * q - y| ≤ u * (1.82 * H) := by
    have g1 := mul_le_mul_of_nonneg_left hPhi hu0.le
    have g2 := mul_le_mul_of_nonneg_left hyH hu0.le
    have e : 2 * q - y = 2 * (q - α * β) + (2 * (α * β) - y) := by ring
    rw [e]
    refine (abs_add_le _ _).trans ?_
    rw [abs_mul, abs_of_pos (by norm_num : (0 : ℝ) < 2)]
    linarith
  have ei2 := pow_le_pow_left₀ (abs_nonneg _) ei' 2
  rw [sq_abs] at ei2
  have e : 63.7 * u ^ 2 * H ^ 2 = (u * (6.2 * H)) ^ 2 + (u * (1.82 * H)) ^ 2 + 21.9476 * (u * H) ^ 2 := by ring
  have := sq_nonneg (u * H)
  linarith

/-- The computed distance from a residual of this size is at most the computed tolerance. -/
theorem resid_tol {u H h d1 d2 e1 e2 f1 f2 g E η : ℝ} (hu0 : 0 < u) (hu : u ≤ 1 / 2 ^ 20) (hH : 0 < H)
    (hh : |h - H| ≤ ((1 + u) ^ 2 - 1) * H) (hd : d1 ^ 2 + d2 ^ 2 ≤ 63.7 * u ^ 2 * H ^ 2) (h1 : |e1 - d1| ≤ u * |d1|)
    (h2 : |e2 - d2| ≤ u * |d2|) (hf1 : |f1 - e1 ^ 2| ≤ u * e1 ^ 2 + η) (hf2 : |f2 - e2 ^ 2| ≤ u * e2 ^ 2 + η)
    (hg : |g - (f1 + f2)| ≤ u * |f1 + f2|) (hη : η ≤ u ^ 2 * H ^ 2 / 2 ^ 10)
    (hE : E ^ 2 ≤ (1 + u) ^ 2 * g) : E ≤ 8 * u * h := by
  have hu2 : u ^ 2 ≤ u / 2 ^ 20 := by rw [pow_two]; linarith [mul_le_mul_of_nonneg_left hu hu0.le]
  have hu20 : 0 ≤ u ^ 2 := sq_nonneg u
  have huH : u * H ≤ 1 / 2 ^ 20 * H := mul_le_mul_of_nonneg_right hu hH.le
  have huH0 : 0 ≤ u * H := by positivity
  have hh' : |h - H| ≤ 2.001 * u * H := hh.trans (mul_le_mul_of_nonneg_right (by linarith) hH.le)
  obtain ⟨g1, g2⟩ := abs_le.1 hh'
  have hlo : 0.9999 * H ≤ h := by linarith
  have key : ∀ {d e : ℝ}, |e - d| ≤ u * |d| → e ^ 2 ≤ 1.00001 * d ^ 2 := by
    intro d e hde
    have h3 : |e| ≤ (1 + u) * |d| := by
      have := abs_add_le (e - d) d
      rw [sub_add_cancel] at this
      linarith
    have h4 := pow_le_pow_left₀ (abs_nonneg _) h3 2
    rw [sq_abs, mul_pow, sq_abs] at h4
    exact h4.trans (mul_le_mul_of_nonneg_right (by linarith) (sq_nonneg d))
  have i1 := key h1
  have i2 := key h2
  have hη' : η ≤ 0.001 * (u ^ 2 * H ^ 2) := by
    have : 0 ≤ u ^ 2 * H ^ 2 := by positivity
    linarith
  have j1 := (abs_le.1 hf1).2
  have j2 := (abs_le.1 hf2).2
  have k1 := mul_le_mul_of_nonneg_right hu (sq_nonneg e1)
  have k2 := mul_le_mul_of_nonneg_right hu (sq_nonneg e2)
  have hQ : 0 ≤ u ^ 2 * H ^ 2 := by positivity
  have s1 : f1 + f2 ≤ 63.72 * (u ^ 2 * H ^ 2) := by linarith
  have l1 := (abs_le.1 hf1).1
  have l2 := (abs_le.1 hf2).1
  have s2 : |f1 + f2| ≤ 63.72 * (u ^ 2 * H ^ 2) := by
    rw [abs_le]
    refine ⟨?_, s1⟩
    linarith [sq_nonneg e1, sq_nonneg e2]
  have s3 : g ≤ 63.73 * (u ^ 2 * H ^ 2) := by
    have m1 := mul_le_mul_of_nonneg_left s2 hu0.le
    have m2 := mul_le_mul_of_nonneg_right hu hQ
    have m3 := (abs_le.1 hg).2
    linarith
  have s4 : E ^ 2 ≤ 63.74 * (u ^ 2 * H ^ 2) := by
    have m1 := mul_le_mul_of_nonneg_left s3 (sq_nonneg (1 + u))
    have m2 : (1 + u) ^ 2 ≤ 1.00001 := by linarith
    have m3 := mul_le_mul_of_nonneg_right m2 (show 0 ≤ 63.73 * (u ^ 2 * H ^ 2) by positivity)
    linarith
  have s5 : E ≤ 7.999 * (u * H) := by
    refine abs_le_of_sq_le_sq' ?_ (by positivity) |>.2
    rw [mul_pow, mul_pow]
    linarith
  have := mul_le_mul_of_nonneg_left hlo hu0.le
  linarith

end Magnesia
