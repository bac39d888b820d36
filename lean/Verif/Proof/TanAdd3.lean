import Verif.Proof.TanAdd2

/-!
# The tangent near zero and the addition theorem: both sides of the theorem
-/

namespace Magnesia

open RZero ROne

variable {F : Fmt}

/-- Arithmetic: numerator and denominator of the addition theorem. -/
theorem parts_near {u : ℝ} (u0 : 0 < u) (u1 : u ≤ 1 / 2 ^ 20) {A B ta tb N p d : ℂ} (hA : ‖A‖ ≤ 0.1936) (hB : ‖B‖ ≤ 0.1936)
    (h1 : ‖ta - A‖ ≤ 2.45 * u) (h2 : ‖tb - B‖ ≤ 2.45 * u) (hN : ‖N - (ta + tb)‖ ≤ u * ‖ta + tb‖)
    (hp : ‖p - ta * tb‖ ≤ 2.42 * u * ‖ta * tb‖ + u / 1000) (hd : ‖d - (1 - p)‖ ≤ u * ‖1 - p‖) :
    ‖N - (A + B)‖ ≤ 5.29 * u ∧ ‖d - (1 - A * B)‖ ≤ 2.09 * u ∧ ‖N‖ ≤ 0.388 ∧ 0.962 ≤ ‖d‖ ∧ ‖d‖ ≤ 1.04 ∧ 0.962 ≤ ‖1 - A * B‖ := by
  have a1 : ‖ta‖ ≤ 0.1937 := by have := norm_of_near h1 hA; linarith
  have a2 : ‖tb‖ ≤ 0.1937 := by have := norm_of_near h2 hB; linarith
  have s0 : ‖ta + tb‖ ≤ 0.3874 := (norm_add_le _ _).trans (by linarith)
  have t1 : ‖(ta + tb) - (A + B)‖ ≤ 4.9 * u := by
    rw [add_sub_add_comm]
    exact (norm_add_le _ _).trans (by linarith)
  have k1 := mul_le_mul_of_nonneg_left s0 u0.le
  have N1 : ‖N - (A + B)‖ ≤ 5.29 * u := by
    have := norm_add_le (N - (ta + tb)) ((ta + tb) - (A + B))
    rw [sub_add_sub_cancel] at this
    linarith
  have N2 : ‖N‖ ≤ 0.388 := by
    have := norm_sub_norm_le N (ta + tb)
    linarith
  have m0 : ‖ta * tb‖ ≤ 0.0376 := by
    rw [norm_mul]
    exact (mul_le_mul a1 a2 (norm_nonneg _) (by norm_num)).trans (by norm_num)
  have m1 : ‖ta * tb - A * B‖ ≤ 0.95 * u := by
    have e : ta * tb - A * B = (ta - A) * tb + A * (tb - B) := by ring
    rw [e]
    refine (norm_add_le _ _).trans ?_
    rw [norm_mul, norm_mul]
    have := mul_le_mul h1 a2 (norm_nonneg _) (by positivity)
    have := mul_le_mul hA h2 (norm_nonneg _) (by norm_num)
    linarith
  have k2 := mul_le_mul_of_nonneg_left m0 (show 0 ≤ 2.42 * u by positivity)
  have p1 : ‖p - A * B‖ ≤ 1.05 * u := by
    have := norm_add_le (p - ta * tb) (ta * tb - A * B)
    rw [sub_add_sub_cancel] at this
    linarith
  have AB : ‖A * B‖ ≤ 0.0375 := by
    rw [norm_mul]
    exact (mul_le_mul hA hB (norm_nonneg _) (by norm_num)).trans (by norm_num)
  have p2 : ‖p‖ ≤ 0.03752 := by have := norm_of_near p1 AB; linarith
  have q1 : ‖1 - p‖ ≤ 1.03752 := (norm_sub_le _ _).trans (by rw [norm_one]; linarith)
  have q2 : 0.9624 ≤ ‖1 - p‖ := by have := norm_sub_norm_le (1 : ℂ) p; rw [norm_one] at this; linarith
  have k3 := mul_le_mul_of_nonneg_left q1 u0.le
  have d1 : ‖d - (1 - A * B)‖ ≤ 2.09 * u := by
    have := norm_add_le (d - (1 - p)) ((1 - p) - (1 - A * B))
    rw [sub_add_sub_cancel, sub_sub_sub_cancel_left, norm_sub_rev (A * B)] at this
    linarith
  have d2 := abs_le.1 (abs_norm_sub_norm_le d (1 - p) |>.trans hd)
  have d3 := norm_sub_norm_le (1 : ℂ) (A * B)
  rw [norm_one] at d3
  exact ⟨N1, d1, N2, by linarith, by linarith, by linarith⟩

/-- Arithmetic: the quotient. -/
theorem expected_near {u : ℝ} (u0 : 0 < u) {N d M D ex : ℂ} (h1 : ‖N - M‖ ≤ 5.29 * u)
    (h2 : ‖d - D‖ ≤ 2.09 * u) (hN : ‖N‖ ≤ 0.388) (hM : ‖M‖ ≤ 0.388) (hd : 0.962 ≤ ‖d‖) (hD : 0.962 ≤ ‖D‖)
    (hex : ‖ex - N / d‖ ≤ 6.5 * u * ‖N / d‖ + u / 2 ^ 16) : ‖ex - M / D‖ ≤ 9.1 * u ∧ ‖M / D‖ ≤ 0.4034 := by
  have hd0 : d ≠ 0 := norm_pos_iff.1 (by linarith)
  have hD0 : D ≠ 0 := norm_pos_iff.1 (by linarith)
  have q1 : ‖N / d‖ ≤ 0.4034 := by rw [norm_div, div_le_iff₀ (by linarith)]; linarith
  have q2 : ‖M / D‖ ≤ 0.4034 := by rw [norm_div, div_le_iff₀ (by linarith)]; linarith
  have e : N / d - M / D = (N - M) / d + M / D * ((D - d) / d) := by field_simp; ring
  have k1 : ‖(N - M) / d‖ ≤ 5.5 * u := by
    rw [norm_div, div_le_iff₀ (by linarith)]
    have := mul_le_mul_of_nonneg_left hd u0.le
    linarith
  have k2 : ‖(D - d) / d‖ ≤ 2.18 * u := by
    rw [norm_div, div_le_iff₀ (by linarith), norm_sub_rev]
    have := mul_le_mul_of_nonneg_left hd u0.le
    linarith
  have k3 : ‖N / d - M / D‖ ≤ 6.39 * u := by
    rw [e]
    refine (norm_add_le _ _).trans ?_
    rw [norm_mul]
    have := mul_le_mul q2 k2 (norm_nonneg _) (by norm_num)
    linarith
  have k4 := mul_le_mul_of_nonneg_left q1 (show 0 ≤ 6.5 * u by positivity)
  have tri := norm_add_le (ex - N / d) (N / d - M / D)
  rw [sub_add_sub_cancel] at tri
  exact ⟨by linarith, q2⟩

theorem tan_shift {u : ℝ} (u0 : 0 < u) (u1 : u ≤ 1 / 2 ^ 20) {x y : ℂ} (h : ‖x - y‖ ≤ 0.375 * u) (hx : ‖x‖ ≤ 0.3751) (hy : ‖y‖ ≤ 0.3751) :
    ‖_root_.Complex.tan x - _root_.Complex.tan y‖ ≤ 0.45 * u := by
  obtain ⟨c1, -, -⟩ := mid_cos hx
  obtain ⟨c2, -, -⟩ := mid_cos hy
  rw [tan_sub_tan (norm_pos_iff.1 (by linarith)) (norm_pos_iff.1 (by linarith)), norm_div, norm_mul]
  have k1 := norm_sin_le (x - y)
  have k2 := sinh_small (norm_nonneg (x - y)) (by linarith)
  have k3 : 0.8537 ≤ ‖_root_.Complex.cos x‖ * ‖_root_.Complex.cos y‖ := by
    have := mul_le_mul c1 c2 (by norm_num) (norm_nonneg _)
    linarith
  rw [div_le_iff₀ (by linarith)]
  have := mul_le_mul_of_nonneg_left k3 u0.le
  linarith

section

variable [RExp (Ieee F)] [RSin (Ieee F)] [RCos (Ieee F)] [RSinh (Ieee F)] [RCosh (Ieee F)] {R ε θ : ℝ}

/-- Both sides of the addition theorem as the test computes them. -/
theorem tan_add_near (hp : 20 ≤ F.p) (hpe : F.p + 24 ≤ F.emax) (h : FnLib F R ε θ) (hε : ε ≤ 1.001 * F.u) (hθ : θ ≤ F.u / 1024)
    (hR0 : 0.3751 ≤ R) (hR : 8 * Real.exp R ≤ 2 ^ F.emax) {a b : Complex (Ieee F)} (ha : CFinite a) (hb : CFinite b)
    (hna : ‖cval a‖ ≤ 3 / 16) (hnb : ‖cval b‖ ≤ 3 / 16) :
    ∃ c tc d ex, a.add b = .ok c ∧ c.tan = .ok tc ∧ tanDenominator a b = .ok d ∧ tanExpected a b = .ok ex ∧ CFinite tc ∧
      CFinite d ∧ CFinite ex ∧ 0.962 ≤ ‖cval d‖ ∧ ‖cval d‖ ≤ 1.04 ∧
      ‖cval tc - _root_.Complex.tan (cval a + cval b)‖ ≤ 5.6 * F.u ∧
      ‖cval ex - _root_.Complex.tan (cval a + cval b)‖ ≤ 9.1 * F.u ∧ ‖_root_.Complex.tan (cval a + cval b)‖ ≤ 0.4034 := by
  obtain ⟨u0, u1⟩ := Fmt.u_small (F := F) hp
  have hη := η_u_sq hpe
  have uu : (F.u : ℝ) ^ 2 ≤ F.u / 2 ^ 20 := by nlinarith
  have h44 : (2 : ℝ) ^ 44 ≤ 2 ^ F.emax := by
    rw [← zpow_natCast]
    exact zpow_le_zpow_right₀ (by norm_num) (by push_cast; omega)
  norm_num at h44
  obtain ⟨ca, A⟩ := small_tan hna
  obtain ⟨cb, B⟩ := small_tan hnb
  obtain ⟨ta, eta, fta, hta⟩ := tan_near hp hpe h hε hθ hR ha (by linarith) (by linarith)
  obtain ⟨tb, etb, ftb, htb⟩ := tan_near hp hpe h hε hθ hR hb (by linarith) (by linarith)
  have ka := mul_le_mul_of_nonneg_left A (show 0 ≤ 12.6 * (F.u : ℝ) by positivity)
  have kb := mul_le_mul_of_nonneg_left B (show 0 ≤ 12.6 * (F.u : ℝ) by positivity)
  have hta' : ‖cval ta - _root_.Complex.tan (cval a)‖ ≤ 2.45 * F.u := by linarith
  have htb' : ‖cval tb - _root_.Complex.tan (cval b)‖ ≤ 2.45 * F.u := by linarith
  have na : ‖cval ta‖ ≤ 1 := by have := norm_of_near hta' A; linarith
  have nb : ‖cval tb‖ ≤ 1 := by have := norm_of_near htb' B; linarith
  obtain ⟨n, en, fn, hn⟩ := cadd_near fta ftb (by linarith)
  have nab : ‖cval ta‖ * ‖cval tb‖ ≤ 1 := by
    have := mul_le_mul na nb (norm_nonneg _) (by norm_num)
    linarith
  obtain ⟨p, ep, fp, hpp⟩ := cmul_near fta ftb (by linarith)
  have cu := cu_small (F := F) hp
  have cη := cη_small (F := F) hp
  have hp' : ‖cval p - cval ta * cval tb‖ ≤ 2.42 * F.u * ‖cval ta * cval tb‖ + F.u / 1000 := by
    have := mul_le_mul_of_nonneg_right cu (norm_nonneg (cval ta * cval tb))
    linarith
  have e1 : cval (⟨one, zero⟩ : Complex (Ieee F)) = 1 := by
    apply _root_.Complex.ext
    · show ((1 : ℚ) : ℝ) = 1; norm_num
    · show ((0 : ℚ) : ℝ) = 0; norm_num
  have np : ‖cval p‖ ≤ 10 := by
    have h1 := norm_sub_norm_le (cval p) (cval ta * cval tb)
    rw [norm_mul] at h1 hp'
    have : 2.42 * F.u * (‖cval ta‖ * ‖cval tb‖) ≤ 1 := by nlinarith [norm_nonneg (cval ta), norm_nonneg (cval tb)]
    linarith
  obtain ⟨d, ed, fd, hd⟩ := csub_near (a := (⟨one, zero⟩ : Complex (Ieee F))) (b := p) ⟨trivial, trivial⟩ fp (by
    rw [e1, norm_one]; linarith)
  rw [e1] at hd
  obtain ⟨p1, p2, p3, p4, p5, p6⟩ := parts_near u0 u1 A B hta' htb' hn hp' hd
  obtain ⟨ex, eex, fex, hex⟩ := cdiv_near hp hpe fn fd (by linarith) (by linarith) (by linarith)
  have M : ‖_root_.Complex.tan (cval a) + _root_.Complex.tan (cval b)‖ ≤ 0.388 := (norm_add_le _ _).trans (by linarith)
  obtain ⟨x1, x2⟩ := expected_near u0 p1 p2 p3 M p4 p6 hex
  have ca0 : _root_.Complex.cos (cval a) ≠ 0 := norm_pos_iff.1 (by linarith)
  have cb0 : _root_.Complex.cos (cval b) ≠ 0 := norm_pos_iff.1 (by linarith)
  rw [← tan_sum ca0 cb0] at x1 x2
  -- the tangent of the sum
  obtain ⟨c, ec, fc, hc⟩ := cadd_near ha hb (by linarith)
  have ns : ‖cval a + cval b‖ ≤ 0.375 := (norm_add_le _ _).trans (by linarith)
  have hc' : ‖cval c - (cval a + cval b)‖ ≤ 0.375 * F.u := by
    have := mul_le_mul_of_nonneg_left ns u0.le
    linarith
  have nc : ‖cval c‖ ≤ 0.3751 := by have := norm_of_near hc' ns; linarith only [this, u1]
  obtain ⟨tc, etc, ftc, htc⟩ := tan_near hp hpe h hε hθ hR fc nc (by linarith)
  have diff := tan_shift u0 u1 hc' nc (show ‖cval a + cval b‖ ≤ 0.3751 by linarith only [ns])
  have tcn : ‖_root_.Complex.tan (cval c)‖ ≤ 0.4035 := by have := norm_of_near diff x2; linarith only [this, u1]
  have tri := norm_add_le (cval tc - _root_.Complex.tan (cval c)) (_root_.Complex.tan (cval c) - _root_.Complex.tan (cval a + cval b))
  rw [sub_add_sub_cancel] at tri
  have k := mul_le_mul_of_nonneg_left tcn (show 0 ≤ 12.6 * (F.u : ℝ) by positivity)
  have eden : tanDenominator a b = .ok d := by
    unfold tanDenominator
    simp only [eta, etb, ep, bind, Except.bind]
    exact ed
  refine ⟨c, tc, d, ex, ec, etc, eden, ?_, ftc, fd, fex, p4, p5, by linarith only [tri, k, htc, diff, u0], x1, x2⟩
  unfold tanExpected
  rw [eden]
  simp only [eta, etb, en, bind, Except.bind]
  exact eex

end

end Magnesia
