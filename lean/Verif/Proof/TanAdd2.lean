import Verif.Proof.TanAdd

/-!
# The tangent near zero and the addition theorem: exact values and the computed tangent
-/

namespace Magnesia

open RZero ROne

variable {F : Fmt}

/-! ### Sine, cosine and tangent of small complex numbers -/

theorem cosh_le_of_sq {x y : ℝ} (h : x ^ 2 ≤ y) (hy : y < 2) : Real.cosh x ≤ 2 / (2 - y) := by
  have h1 := Real.cosh_le_exp_half_sq x
  have h2 := Real.add_one_le_exp (-(x ^ 2 / 2))
  have h3 : Real.exp (x ^ 2 / 2) * Real.exp (-(x ^ 2 / 2)) = 1 := by rw [← Real.exp_add]; simp
  have h4 : Real.exp (x ^ 2 / 2) * (2 - y) ≤ 2 := by
    have := mul_le_mul_of_nonneg_left (show (2 - y) / 2 ≤ Real.exp (-(x ^ 2 / 2)) by linarith) (Real.exp_pos (x ^ 2 / 2)).le
    linarith
  refine h1.trans ?_
  rw [le_div_iff₀ (by linarith)]
  exact h4

theorem norm_cos_lower (z : ℂ) : 2 - Real.cosh ‖z‖ ≤ ‖_root_.Complex.cos z‖ := by
  have e : _root_.Complex.cos z = 1 - 2 * _root_.Complex.sin (z / 2) ^ 2 := by
    rw [_root_.Complex.sin_sq, _root_.Complex.cos_sq, show 2 * (z / 2) = z by ring]; ring
  have h1 := norm_sin_le (z / 2)
  have e2 : ‖z / 2‖ = ‖z‖ / 2 := by rw [norm_div]; norm_num
  rw [e2] at h1
  have h2 := pow_le_pow_left₀ (norm_nonneg _) h1 2
  have h3 : Real.cosh ‖z‖ = 1 + 2 * Real.sinh (‖z‖ / 2) ^ 2 := by
    have := Real.cosh_two_mul (‖z‖ / 2)
    rw [show 2 * (‖z‖ / 2) = ‖z‖ by ring, Real.cosh_sq] at this
    linarith
  have h4 : 1 - ‖2 * _root_.Complex.sin (z / 2) ^ 2‖ ≤ ‖_root_.Complex.cos z‖ := by
    rw [e]
    have := norm_sub_norm_le (1 : ℂ) (2 * _root_.Complex.sin (z / 2) ^ 2)
    rwa [norm_one] at this
  have h5 : ‖2 * _root_.Complex.sin (z / 2) ^ 2‖ = 2 * ‖_root_.Complex.sin (z / 2)‖ ^ 2 := by
    rw [norm_mul, norm_pow]; norm_num
  rw [h5] at h4
  linarith

theorem norm_cos_upper (z : ℂ) : ‖_root_.Complex.cos z‖ ≤ Real.cosh ‖z‖ := by
  refine (norm_cos_le_im z).trans ?_
  rw [Real.cosh_le_cosh, abs_norm]
  exact _root_.Complex.abs_im_le_norm z

/-- `|z| ≤ 3/16` -/
theorem small_tan {z : ℂ} (h : ‖z‖ ≤ 3 / 16) : 0.98 ≤ ‖_root_.Complex.cos z‖ ∧ ‖_root_.Complex.tan z‖ ≤ 0.1936 := by
  have n0 := norm_nonneg z
  have h1 : Real.cosh ‖z‖ ≤ 1.0179 := (cosh_le_of_sq (y := 9 / 256) (by nlinarith) (by norm_num)).trans (by norm_num)
  have h2 := norm_cos_lower z
  have h3 := norm_sin_le z
  have h4 : Real.sinh ‖z‖ ≤ 0.1901 := by
    have := Real.cosh_sq ‖z‖
    have c0 := Real.cosh_pos ‖z‖
    have : Real.sinh ‖z‖ ^ 2 ≤ 0.1901 ^ 2 := by nlinarith
    exact (abs_le_of_sq_le_sq' this (by norm_num)).2
  refine ⟨by linarith, ?_⟩
  rw [_root_.Complex.tan, norm_div, div_le_iff₀ (by linarith)]
  nlinarith

/-- `|z| ≤ 0.3751` -/
theorem mid_cos {z : ℂ} (h : ‖z‖ ≤ 0.3751) : 0.924 ≤ ‖_root_.Complex.cos z‖ ∧ ‖_root_.Complex.cos z‖ ≤ 1.076 ∧
    ‖_root_.Complex.sin z‖ ≤ 0.4 := by
  have n0 := norm_nonneg z
  have h1 : Real.cosh ‖z‖ ≤ 1.0757 := (cosh_le_of_sq (y := 0.3751 ^ 2) (by nlinarith) (by norm_num)).trans (by norm_num)
  have h2 := norm_cos_lower z
  have h3 := norm_sin_le z
  have h4 : Real.sinh ‖z‖ ≤ 0.4 := by
    have := Real.cosh_sq ‖z‖
    have c0 := Real.cosh_pos ‖z‖
    have : Real.sinh ‖z‖ ^ 2 ≤ 0.4 ^ 2 := by nlinarith
    exact (abs_le_of_sq_le_sq' this (by norm_num)).2
  have h5 := norm_cos_upper z
  exact ⟨by linarith, by linarith, by linarith⟩

theorem tan_sub_tan {x y : ℂ} (hx : _root_.Complex.cos x ≠ 0) (hy : _root_.Complex.cos y ≠ 0) :
    _root_.Complex.tan x - _root_.Complex.tan y = _root_.Complex.sin (x - y) / (_root_.Complex.cos x * _root_.Complex.cos y) := by
  rw [_root_.Complex.tan, _root_.Complex.tan, _root_.Complex.sin_sub, div_sub_div _ _ hx hy]

theorem tan_sum {x y : ℂ} (hx : _root_.Complex.cos x ≠ 0) (hy : _root_.Complex.cos y ≠ 0) :
    _root_.Complex.tan (x + y) = (_root_.Complex.tan x + _root_.Complex.tan y) / (1 - _root_.Complex.tan x * _root_.Complex.tan y) := by
  have e1 : _root_.Complex.tan x + _root_.Complex.tan y =
      _root_.Complex.sin (x + y) / (_root_.Complex.cos x * _root_.Complex.cos y) := by
    rw [_root_.Complex.tan, _root_.Complex.tan, _root_.Complex.sin_add, div_add_div _ _ hx hy]
  have e2 : 1 - _root_.Complex.tan x * _root_.Complex.tan y =
      _root_.Complex.cos (x + y) / (_root_.Complex.cos x * _root_.Complex.cos y) := by
    rw [_root_.Complex.tan, _root_.Complex.tan, _root_.Complex.cos_add]
    field_simp
  rw [e1, e2, div_div_div_cancel_right₀ (mul_ne_zero hx hy), _root_.Complex.tan]

theorem sinh_small {x : ℝ} (h0 : 0 ≤ x) (h1 : x ≤ 1 / 1000) : Real.sinh x ≤ 1.001 * x := by
  have a1 := Real.add_one_le_exp (-x)
  have a2 : Real.exp x ≤ 1 / (1 - x) := by
    rw [le_div_iff₀ (by linarith)]
    have h3 : Real.exp x * Real.exp (-x) = 1 := by rw [← Real.exp_add]; simp
    have := mul_le_mul_of_nonneg_left (show 1 - x ≤ Real.exp (-x) by linarith) (Real.exp_pos x).le
    linarith
  have a3 : 1 / (1 - x) ≤ 1 - x + 2.002 * x := by
    rw [div_le_iff₀ (by linarith)]
    nlinarith
  rw [Real.sinh_eq]
  linarith

/-! ### The computed functions -/

section

variable [RExp (Ieee F)] [RSin (Ieee F)] [RCos (Ieee F)] [RSinh (Ieee F)] [RCosh (Ieee F)] {R ε θ : ℝ}

omit [RExp (Ieee F)] [RSin (Ieee F)] [RCos (Ieee F)] [RSinh (Ieee F)] [RCosh (Ieee F)] in
theorem fnErr_tiny (hp : 20 ≤ F.p) (hpe : F.p + 24 ≤ F.emax) (hε : 0 ≤ ε) (hε' : ε ≤ 1.001 * F.u) (hθ : 0 ≤ θ) (hθ' : θ ≤ F.u / 1024)
    {M : ℝ} (hM0 : 0 ≤ M) (hM : M ≤ 2.1) (w : ℂ) : fnErr F ε θ M w ≤ 3.01 * F.u * ‖w‖ + 0.004 * F.u := by
  obtain ⟨u0, u1⟩ := Fmt.u_small (F := F) hp
  obtain ⟨s1, s0⟩ := sqrt_two_bounds
  have hη := η_u_sq hpe
  have e0 := (η_le_one F).1
  have w0 := norm_nonneg w
  have uu : (F.u : ℝ) ^ 2 ≤ F.u / 2 ^ 20 := by nlinarith
  have hG : (1 + ε) ^ 2 * (1 + F.u) - 1 ≤ 3.01 * F.u := by
    have k1 : ε ^ 2 ≤ 0.0001 * F.u := by nlinarith
    have k2 : ε * F.u ≤ 0.0001 * F.u := mul_le_mul_of_nonneg_right (by linarith) u0.le
    have k3 : ε ^ 2 * F.u ≤ 0.0001 * F.u := mul_le_mul_of_nonneg_right (by nlinarith) u0.le
    have e : (1 + ε) ^ 2 * (1 + (F.u : ℝ)) - 1 = 2 * ε + F.u + ε ^ 2 + 2 * (ε * F.u) + ε ^ 2 * F.u := by ring
    rw [e]; linarith
  have k2 : θ ^ 2 ≤ F.u / 2 ^ 20 := by nlinarith
  have k3 : M * θ ≤ 2.1 * (F.u / 1024) := mul_le_mul hM hθ' hθ (by norm_num)
  have k4 : θ ^ 2 + M * θ + F.η ≤ 0.0021 * F.u := by linarith
  have k0 : 0 ≤ θ ^ 2 + M * θ + F.η := by positivity
  have k5 : (1 + ε) ^ 2 * (1 + F.u) * (θ ^ 2 + M * θ + F.η) ≤ 1.001 * (0.0021 * F.u) :=
    mul_le_mul (by linarith) k4 k0 (by norm_num)
  have k6 : Real.sqrt 2 * ((1 + ε) ^ 2 * (1 + F.u) * (θ ^ 2 + M * θ + F.η)) ≤ 1.415 * (1.001 * (0.0021 * F.u)) :=
    mul_le_mul s1 k5 (by positivity) (by norm_num)
  have k7 := mul_le_mul_of_nonneg_right hG w0
  unfold fnErr
  linarith

omit [RExp (Ieee F)] [RSin (Ieee F)] [RCos (Ieee F)] [RSinh (Ieee F)] [RCosh (Ieee F)] in
/-- Arithmetic of the quotient of two approximations. -/
theorem quotient_near {u : ℝ} (u0 : 0 < u) (u1 : u ≤ 1 / 2 ^ 20) {q s c S C : ℂ} (hs : ‖s - S‖ ≤ 3.01 * u * ‖S‖ + 0.004 * u)
    (hc : ‖c - C‖ ≤ 3.01 * u * ‖C‖ + 0.004 * u) (hC : 0.924 ≤ ‖C‖)
    (hq : ‖q - s / c‖ ≤ 6.5 * u * ‖s / c‖ + u / 2 ^ 16) : ‖q - S / C‖ ≤ 12.6 * u * ‖S / C‖ + 0.01 * u := by
  have uC : u * ‖C‖ ≤ 1 / 2 ^ 20 * ‖C‖ := mul_le_mul_of_nonneg_right u1 (by linarith)
  have uC1 : u * 0.924 ≤ u * ‖C‖ := mul_le_mul_of_nonneg_left hC u0.le
  have hC0 : C ≠ 0 := norm_pos_iff.1 (by linarith)
  have c1 : 0.9999 * ‖C‖ ≤ ‖c‖ := by
    have := norm_sub_norm_le C c
    rw [norm_sub_rev] at this
    linarith
  have cp : 0 < ‖c‖ := by linarith
  have hc0 : c ≠ 0 := norm_pos_iff.1 cp
  set T := ‖S / C‖ with hT
  have T0 : 0 ≤ T := norm_nonneg _
  have hS : ‖S‖ = T * ‖C‖ := by rw [hT, norm_div]; field_simp
  have S0 := norm_nonneg S
  have e1 : s / c - S / C = (s - S) / c + S / C * ((C - c) / c) := by field_simp; ring
  have d1 : ‖(s - S) / c‖ ≤ 3.012 * u * T + 0.0045 * u := by
    rw [norm_div, div_le_iff₀ cp]
    refine hs.trans ?_
    rw [hS]
    have k1 : 3.01 * u * (T * ‖C‖) ≤ 3.012 * u * T * ‖c‖ := by
      have := mul_le_mul_of_nonneg_left c1 (show 0 ≤ u * T by positivity)
      have : 0 ≤ u * T * ‖C‖ := by positivity
      linarith
    have k2 : 0.004 * u ≤ 0.0045 * u * ‖c‖ := by nlinarith
    linarith
  have d2 : ‖(C - c) / c‖ ≤ 3.017 * u := by
    rw [norm_div, div_le_iff₀ cp, norm_sub_rev]
    refine hc.trans ?_
    have := mul_le_mul_of_nonneg_left c1 u0.le
    nlinarith
  have d3 : ‖s / c - S / C‖ ≤ 6.03 * u * T + 0.0045 * u := by
    rw [e1]
    refine (norm_add_le _ _).trans ?_
    rw [norm_mul, ← hT]
    have := mul_le_mul_of_nonneg_left d2 T0
    have : 0 ≤ u * T := by positivity
    linarith
  have uT : u * (u * T) ≤ 1 / 2 ^ 20 * (u * T) := mul_le_mul_of_nonneg_right u1 (by positivity)
  have uu : u * u ≤ 1 / 2 ^ 20 * u := mul_le_mul_of_nonneg_right u1 u0.le
  have d4 : ‖s / c‖ ≤ T + (6.03 * u * T + 0.0045 * u) := by
    have := norm_sub_norm_le (s / c) (S / C)
    linarith
  have d5 := mul_le_mul_of_nonneg_left d4 (show 0 ≤ 6.5 * u by positivity)
  have tri := norm_add_le (q - s / c) (s / c - S / C)
  rw [sub_add_sub_cancel] at tri
  have : 0 ≤ u * T := by positivity
  linarith

/-- The computed tangent of a number of absolute value up to 0.3751. -/
theorem tan_near (hp : 20 ≤ F.p) (hpe : F.p + 24 ≤ F.emax) (h : FnLib F R ε θ) (hε : ε ≤ 1.001 * F.u) (hθ : θ ≤ F.u / 1024)
    (hR : 8 * Real.exp R ≤ 2 ^ F.emax) {z : Complex (Ieee F)} (hz : CFinite z) (hn : ‖cval z‖ ≤ 0.3751) (hnR : ‖cval z‖ ≤ R) :
    ∃ t, z.tan = .ok t ∧ CFinite t ∧
      ‖cval t - _root_.Complex.tan (cval z)‖ ≤ 12.6 * F.u * ‖_root_.Complex.tan (cval z)‖ + 0.01 * F.u := by
  obtain ⟨u0, u1⟩ := Fmt.u_small (F := F) hp
  have r1 : |(z.re.value : ℝ)| ≤ ‖cval z‖ := _root_.Complex.abs_re_le_norm (cval z)
  have r2 : |(z.im.value : ℝ)| ≤ ‖cval z‖ := _root_.Complex.abs_im_le_norm (cval z)
  obtain ⟨s, es, fs, hs⟩ := sin_near h (by linarith) (by linarith) hR hz (r1.trans hnR) (r2.trans hnR)
  obtain ⟨c, ec, fc, hc⟩ := cos_near h (by linarith) (by linarith) hR hz (r1.trans hnR) (r2.trans hnR)
  have hM : Real.cosh (z.im.value : ℝ) ≤ 1.1 := by
    refine (cosh_le_of_sq (y := 0.3751 ^ 2) ?_ (by norm_num)).trans (by norm_num)
    rw [← sq_abs]
    exact pow_le_pow_left₀ (abs_nonneg _) (r2.trans hn) 2
  have hM0 := Real.cosh_pos (z.im.value : ℝ)
  have hs' := hs.trans (fnErr_tiny hp hpe h.ε_nonneg hε h.θ_nonneg hθ (by linarith) (by linarith) _)
  have hc' := hc.trans (fnErr_tiny hp hpe h.ε_nonneg hε h.θ_nonneg hθ (by linarith) (by linarith) _)
  obtain ⟨c1, c2, s1⟩ := mid_cos hn
  have b1 := abs_le.1 (abs_norm_sub_norm_le (cval s) (_root_.Complex.sin (cval z)) |>.trans hs')
  have b2 := abs_le.1 (abs_norm_sub_norm_le (cval c) (_root_.Complex.cos (cval z)) |>.trans hc')
  have n1 : F.u * ‖_root_.Complex.sin (cval z)‖ ≤ 1 / 2 ^ 20 * 0.4 := mul_le_mul u1 s1 (norm_nonneg _) (by norm_num)
  have n2 : F.u * ‖_root_.Complex.cos (cval z)‖ ≤ 1 / 2 ^ 20 * 1.076 := mul_le_mul u1 c2 (norm_nonneg _) (by norm_num)
  obtain ⟨q, eq, fq, hq⟩ := cdiv_near hp hpe fs fc (by linarith) (by linarith) (by linarith)
  refine ⟨q, ?_, fq, ?_⟩
  · show (do RDiv.div (← z.sin) (← z.cos)) = _
    rw [es, ec]; exact eq
  · rw [_root_.Complex.tan]
    exact quotient_near u0 u1 hs' hc' c1 hq

end

end Magnesia
