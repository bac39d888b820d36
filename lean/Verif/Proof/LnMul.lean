import Verif.Spec.LnCheck
import Verif.Props.Libm
import Verif.Props.SqrtCheck
import Verif.Proof.CPerturb
import Mathlib.Analysis.Real.Pi.Bounds

/-!
# The logarithm of a product
-/

namespace Magnesia

open RZero ROne

variable {F : Fmt}

/-! ### Angles -/

/-- If `z` is near the product of two points, its angle is near the sum of their angles, up to a turn. -/
theorem arg_of_near_product {a b c : ℂ} {s t r κ : ℝ} (ha : a ≠ 0) (hb : b ≠ 0) (h1 : IsArg s a) (h2 : IsArg t b)
    (h3 : IsArg r c) (h : ‖c - a * b‖ ≤ κ * ‖a * b‖) (hκ : κ < 1 / 2) :
    (∃ k : ℤ, |k| ≤ 1 ∧ |r - s - t - 2 * Real.pi * k| ≤ κ / (1 - κ)) ∧
      |Real.log ‖c‖ - Real.log ‖a‖ - Real.log ‖b‖| ≤ κ / (1 - κ) := by
  have hab : a * b ≠ 0 := mul_ne_zero ha hb
  have hn : 0 < ‖a * b‖ := norm_pos_iff.2 hab
  have hna : 0 < ‖a‖ := norm_pos_iff.2 ha
  have hnb : 0 < ‖b‖ := norm_pos_iff.2 hb
  set q := c / (a * b) with hq
  have hq1 : ‖1 - q‖ ≤ κ := by
    rw [hq, one_sub_div hab, norm_div, div_le_iff₀ hn, norm_sub_rev]; exact h
  have hκ0 : 0 ≤ κ := (norm_nonneg _).trans hq1
  have hcut : cutDist 1 = 1 := by simp [cutDist]
  have hl := log_perturb hq1 (by rw [hcut]; linarith)
  rw [_root_.Complex.log_one, zero_sub, norm_neg, norm_one] at hl
  have hq0 : q ≠ 0 := by
    rintro h0
    rw [h0, sub_zero, norm_one] at hq1
    linarith
  have hc : c = q * (a * b) := by rw [hq, div_mul_cancel₀ _ hab]
  have hc0 : c ≠ 0 := by rw [hc]; exact mul_ne_zero hq0 hab
  have hnc : 0 < ‖c‖ := norm_pos_iff.2 hc0
  have eexp : ∀ {z : ℂ} {u : ℝ}, 0 < ‖z‖ → IsArg u z → z = _root_.Complex.exp (Real.log ‖z‖ + u * _root_.Complex.I) := by
    intro z u hz hu
    rw [_root_.Complex.exp_add, ← _root_.Complex.ofReal_exp, Real.exp_log hz]
    exact hu.2
  have e1 : _root_.Complex.exp (Real.log ‖c‖ + r * _root_.Complex.I) =
      _root_.Complex.exp (_root_.Complex.log q + ((Real.log ‖a‖ + s * _root_.Complex.I) + (Real.log ‖b‖ + t * _root_.Complex.I))) := by
    rw [← eexp hnc h3, _root_.Complex.exp_add, _root_.Complex.exp_log hq0, _root_.Complex.exp_add, ← eexp hna h1, ← eexp hnb h2]
    exact hc
  obtain ⟨n, hn'⟩ := _root_.Complex.exp_eq_exp_iff_exists_int.1 e1
  have him := congrArg _root_.Complex.im hn'
  have hre := congrArg _root_.Complex.re hn'
  simp only [_root_.Complex.add_im, _root_.Complex.add_re, _root_.Complex.mul_im, _root_.Complex.mul_re, _root_.Complex.ofReal_im,
    _root_.Complex.ofReal_re, _root_.Complex.I_im, _root_.Complex.I_re, _root_.Complex.intCast_im, _root_.Complex.intCast_re,
    _root_.Complex.re_ofNat, _root_.Complex.im_ofNat, mul_zero, zero_mul, mul_one, add_zero, zero_add, sub_zero] at him hre
  have b1 : |(_root_.Complex.log q).im| ≤ κ / (1 - κ) := (_root_.Complex.abs_im_le_norm _).trans hl
  have b2 : |(_root_.Complex.log q).re| ≤ κ / (1 - κ) := (_root_.Complex.abs_re_le_norm _).trans hl
  refine ⟨⟨n, ?_, ?_⟩, ?_⟩
  · have hd : κ / (1 - κ) < 1 := by rw [div_lt_one (by linarith)]; linarith
    have hpi := Real.pi_gt_d2
    have h4 : |2 * Real.pi * n| < 2 * Real.pi * 2 := by
      have e : 2 * Real.pi * n = r - s - t - (_root_.Complex.log q).im := by linarith
      rw [e]
      have p1 := abs_le.1 h1.1
      have p2 := abs_le.1 h2.1
      have p3 := abs_le.1 h3.1
      have p4 := abs_le.1 b1
      rw [abs_lt]
      constructor <;> linarith
    rw [abs_mul, abs_of_pos (by positivity : 0 < 2 * Real.pi)] at h4
    have h5 : |(n : ℝ)| < 2 := lt_of_mul_lt_mul_left h4 (by positivity)
    have h6 : |n| < 2 := by exact_mod_cast h5
    omega
  · have e : r - s - t - 2 * Real.pi * n = (_root_.Complex.log q).im := by linarith
    rw [e]; exact b1
  · have e : Real.log ‖c‖ - Real.log ‖a‖ - Real.log ‖b‖ = (_root_.Complex.log q).re := by linarith
    rw [e]; exact b2

/-! ### The logarithm of one number -/

theorem Ieee.half_finite {c : Ieee F} (hc : c.Finite) : (c.div (.fin 2 two_ne_zero F.representable_two)).Finite := by
  cases c with
  | nan => exact hc.elim
  | inf => exact hc.elim
  | zero s => trivial
  | fin x h0 hr =>
    show (round (x / 2) : Ieee F).Finite
    refine round_finite_iff.2 ?_
    have h1 : |F.roundQ (x / 2)| ≤ |F.roundQ x| := F.abs_roundQ_mono (by
      rw [abs_div, _root_.abs_two]
      have := abs_nonneg x
      linarith)
    rw [F.roundQ_representable hr] at h1
    exact h1.trans_lt hr.2

theorem ln_near {ε θ δ : ℝ} [RLn (Ieee F)] [RAtan2 (Ieee F)] (h : LogLib F ε θ δ) {z : Complex (Ieee F)} {s : Ieee F}
    (hz : CFinite z) (h0 : cval z ≠ 0) (hs : z.sqrNorm = .ok s) (hf : s.Finite) (hd : sqrNormErr F ‖cval z‖ < 1) :
    ∃ r t, z.ln = .ok r ∧ CFinite r ∧
      |(r.re.value : ℝ) - Real.log ‖cval z‖| ≤ ((1 + F.u) * (1 + ε) - 1) * |Real.log ‖cval z‖| +
        (1 + F.u) * (1 + ε) / 2 * (sqrNormErr F ‖cval z‖ / (1 - sqrNormErr F ‖cval z‖)) + (1 + F.u) * θ / 2 + F.η ∧
      IsArg t (cval z) ∧ |(r.im.value : ℝ) - t| ≤ δ := by
  have hn : 0 < ‖cval z‖ := norm_pos_iff.2 h0
  have hsp : 0 < s.value := by
    have e1 := (abs_le.1 (sqrNorm_rel hs hf h0)).1
    have hN : (0 : ℝ) < ‖cval z‖ ^ 2 := by positivity
    have := mul_lt_mul_of_pos_right hd hN
    have h3 : (0 : ℝ) < s.value := by linarith
    exact_mod_cast h3
  obtain ⟨c, hc, hcf, hc'⟩ := h.ln s hf hsp
  obtain ⟨t, ht, htf, a, ha, ha'⟩ := h.atan2 z.im z.re hz.2 hz.1 h0
  refine ⟨⟨c.div (.fin 2 two_ne_zero F.representable_two), t⟩, a, ?_, ⟨Ieee.half_finite hcf, htf⟩,
    half_log_near h.ε_nonneg hs hf h0 hd (fun _ _ _ => hc') (Ieee.half_finite hcf), ha, ha'⟩
  have e1 : (AddAssignRef.addAssign (one : Ieee F) one).toRes = .ok (.fin 2 two_ne_zero F.representable_two) :=
    congrArg Except.ok Ieee.one_add_one
  unfold Complex.ln
  rw [e1, hs]
  show (do
    let re ← RDiv.div (← RLn.ln s) (.fin 2 two_ne_zero F.representable_two : Ieee F)
    let im ← RAtan2.atan2 z.im z.re
    pure (⟨re, im⟩ : Complex (Ieee F))) = _
  rw [hc, ht]; rfl

/-! ### Sizes -/

theorem cval_size {k : ℕ} {z : Complex (Ieee F)} (hr : z.re.Between (-k) k) (hi : z.im.Between (-k) k) (hz : cval z ≠ 0) :
    (2 : ℝ) ^ (-(k : ℤ)) ≤ ‖cval z‖ ∧ ‖cval z‖ ≤ 2 * (2 : ℝ) ^ (k : ℤ) := by
  have hxk : |(z.re.value : ℝ)| ≤ (2 : ℝ) ^ (k : ℤ) := (Rat.cast_abs _).ge.trans (cast_le_two.1 (Trap.abs_le_of_between hr))
  have hyk : |(z.im.value : ℝ)| ≤ (2 : ℝ) ^ (k : ℤ) := (Rat.cast_abs _).ge.trans (cast_le_two.1 (Trap.abs_le_of_between hi))
  constructor
  · by_cases h0 : z.re.value = 0
    · have h1 : z.im.value ≠ 0 := by
        intro h1
        apply hz
        apply _root_.Complex.ext <;> simp [cval, h0, h1]
      refine le_trans ?_ (_root_.Complex.abs_im_le_norm _)
      exact (two_le_cast.1 (hi.2.resolve_left h1).1).trans_eq (Rat.cast_abs _)
    · refine le_trans ?_ (_root_.Complex.abs_re_le_norm _)
      exact (two_le_cast.1 (hr.2.resolve_left h0).1).trans_eq (Rat.cast_abs _)
  · refine (_root_.Complex.norm_le_abs_re_add_abs_im _).trans ?_
    show |(z.re.value : ℝ)| + |(z.im.value : ℝ)| ≤ _
    linarith

/-- `sqr_norm` does not overflow. -/
theorem sqrNorm_finite {z : Complex (Ieee F)} (hz : CFinite z) (h : 4 * ‖cval z‖ ^ 2 + 4 ≤ 2 ^ F.emax) :
    ∃ s, z.sqrNorm = .ok s ∧ s.Finite := by
  have hu : (F.u : ℝ) ≤ 1 / 4 := by
    have := F.u_le_quarter
    have : (F.u : ℝ) ≤ ((1 / 4 : ℚ) : ℝ) := by exact_mod_cast this
    norm_num at this ⊢; linarith
  have hη : (F.η : ℝ) ≤ 1 := by
    have : F.η ≤ 1 := zpow_le_one_of_nonpos₀ (by norm_num) (by
      have := F.p_le_emax; have := F.two_le_p; unfold Fmt.emin; omega)
    exact_mod_cast this
  have h2 : ‖cval z‖ ^ 2 = (z.re.value : ℝ) ^ 2 + (z.im.value : ℝ) ^ 2 := by
    rw [_root_.Complex.sq_norm, _root_.Complex.normSq_apply]
    show (z.re.value : ℝ) * z.re.value + (z.im.value : ℝ) * z.im.value = _
    ring
  have s1 := sq_nonneg (z.re.value : ℝ)
  have s2 := sq_nonneg (z.im.value : ℝ)
  obtain ⟨f1, g1⟩ := Ieee.mul_near hz.1 hz.1 (M := 2 ^ F.emax) (by rw [← pow_two, abs_of_nonneg s1]; linarith) le_rfl
  obtain ⟨f2, g2⟩ := Ieee.mul_near hz.2 hz.2 (M := 2 ^ F.emax) (by rw [← pow_two, abs_of_nonneg s2]; linarith) le_rfl
  rw [← pow_two, abs_of_nonneg s1] at g1
  rw [← pow_two, abs_of_nonneg s2] at g2
  have k1 := mul_le_mul_of_nonneg_right hu s1
  have k2 := mul_le_mul_of_nonneg_right hu s2
  have b1 := abs_le.1 g1
  have b2 := abs_le.1 g2
  obtain ⟨f3, _⟩ := Ieee.add_near f1 f2 (M := 2 ^ F.emax) (by rw [abs_le]; constructor <;> linarith) le_rfl
  exact ⟨_, rfl, f3⟩

/-! ### Constants -/

theorem Fmt.u_small (hp : 20 ≤ F.p) : (0 : ℝ) < F.u ∧ (F.u : ℝ) ≤ 1 / 2 ^ 20 := by
  refine ⟨by exact_mod_cast F.u_pos, ?_⟩
  have h : F.u ≤ 2 ^ (-20 : ℤ) := zpow_le_zpow_right₀ (by norm_num) (by omega)
  have h2 : F.u ≤ 1 / 2 ^ 20 := h.trans (by norm_num)
  have h3 : ((F.u : ℚ) : ℝ) ≤ ((1 / 2 ^ 20 : ℚ) : ℝ) := by exact_mod_cast h2
  exact h3.trans (by norm_num)

theorem Fmt.η_small {k : ℕ} (hk : 4 * k + 10 ≤ F.emax) : (F.η : ℝ) ≤ F.u * ((2 : ℝ) ^ (-(k : ℤ))) ^ 4 / 2 ^ 8 := by
  have h1 : F.η ≤ F.u * ((2 : ℚ) ^ (-(k : ℤ))) ^ 4 / 2 ^ 8 := by
    rw [show (2 : ℚ) ^ 8 = 2 ^ (8 : ℤ) by norm_num, Fmt.u, ← zpow_natCast (2 ^ (-(k : ℤ))), ← zpow_mul, ← zpow_add₀ (by norm_num),
      ← zpow_sub₀ (by norm_num)]
    exact zpow_le_zpow_right₀ (by norm_num) (by unfold Fmt.emin; push_cast; omega)
  have h2 : ((F.η : ℚ) : ℝ) ≤ ((F.u * ((2 : ℚ) ^ (-(k : ℤ))) ^ 4 / 2 ^ 8 : ℚ) : ℝ) := by exact_mod_cast h1
  push_cast at h2
  exact h2

theorem cu_small (hp : 20 ≤ F.p) : F.cu ≤ 2.42 * F.u := by
  obtain ⟨h0, h1⟩ := Fmt.u_small (F := F) hp
  have hs : Real.sqrt 2 ≤ 1.415 := Real.sqrt_le_left (by norm_num) |>.2 (by norm_num)
  have hs0 := Real.sqrt_nonneg 2
  unfold Fmt.cu
  have k1 := mul_le_mul_of_nonneg_right hs h0.le
  have k2 : Real.sqrt 2 * F.u * F.u ≤ 1.415 / 2 ^ 20 * F.u := by
    refine mul_le_mul_of_nonneg_right ?_ h0.le
    have := mul_le_mul hs h1 h0.le (by norm_num)
    linarith
  have e : (1 + (F.u : ℝ)) * (1 + Real.sqrt 2 * F.u) - 1 = F.u + Real.sqrt 2 * F.u + Real.sqrt 2 * F.u * F.u := by ring
  rw [e]
  linarith

theorem cη_small (hp : 20 ≤ F.p) : F.cη ≤ 3 * F.η := by
  obtain ⟨h0, h1⟩ := Fmt.u_small (F := F) hp
  have hs : Real.sqrt 2 ≤ 1.415 := Real.sqrt_le_left (by norm_num) |>.2 (by norm_num)
  have hs0 := Real.sqrt_nonneg 2
  have hη : (0 : ℝ) ≤ F.η := by exact_mod_cast F.η_pos.le
  unfold Fmt.cη
  refine mul_le_mul_of_nonneg_right ?_ hη
  have := mul_le_mul hs (show 1 + (F.u : ℝ) ≤ 1 + 1 / 2 ^ 20 by linarith) (by linarith) (by norm_num)
  linarith

theorem sqrNormErr_small (hp : 20 ≤ F.p) {r : ℝ} (hr : 0 < r) (hη : (F.η : ℝ) ≤ F.u * r ^ 2 / 200) :
    sqrNormErr F r ≤ 2.011 * F.u ∧ 0 ≤ sqrNormErr F r ∧ sqrNormErr F r / (1 - sqrNormErr F r) ≤ 2.02 * F.u := by
  obtain ⟨h0, h1⟩ := Fmt.u_small (F := F) hp
  have hη0 : (0 : ℝ) ≤ F.η := by exact_mod_cast F.η_pos.le
  have hq : 2 * F.η / r ^ 2 ≤ F.u / 100 := by
    rw [div_le_iff₀ (by positivity)]; linarith
  have hq0 : 0 ≤ 2 * (F.η : ℝ) / r ^ 2 := by positivity
  have k : sqrNormErr F r ≤ 2.011 * F.u := by
    unfold sqrNormErr
    have k1 : (1 + (F.u : ℝ)) ^ 2 ≤ 1 + 2.0001 * F.u := by nlinarith
    have k2 : (1 + (F.u : ℝ)) ^ 2 * (1 + 2 * F.η / r ^ 2) ≤ (1 + 2.0001 * F.u) * (1 + F.u / 100) :=
      mul_le_mul k1 (by linarith) (by positivity) (by positivity)
    nlinarith
  have k0 : 0 ≤ sqrNormErr F r := by
    unfold sqrNormErr
    nlinarith [mul_nonneg (sq_nonneg (1 + (F.u : ℝ))) hq0]
  refine ⟨k, k0, ?_⟩
  rw [div_le_iff₀ (by linarith)]
  nlinarith

/-- The logarithm of a number of moderate size. -/
theorem ln_near_sized {ε θ δ : ℝ} [RLn (Ieee F)] [RAtan2 (Ieee F)] (hp : 20 ≤ F.p) (h : LogLib F ε θ δ) (hε : ε ≤ 1 / 16)
    {z : Complex (Ieee F)} {K L : ℝ} (L0 : 0 < L) (L1 : L ≤ 1) (hη : (F.η : ℝ) ≤ F.u * L ^ 4 / 2 ^ 8)
    (hbig : 512 * K ^ 4 ≤ (2 : ℝ) ^ F.emax) (K4 : 1 ≤ K ^ 4) (hz : CFinite z) (hz0 : cval z ≠ 0) (l1 : 0.99 * L ^ 2 ≤ ‖cval z‖)
    (l2 : ‖cval z‖ ≤ 4.04 * K ^ 2) :
    ∃ r t, z.ln = .ok r ∧ CFinite r ∧
      |(r.re.value : ℝ) - Real.log ‖cval z‖| ≤ ((1 + F.u) * (1 + ε) - 1) * |Real.log ‖cval z‖| + (1.09 * F.u + 0.51 * θ) ∧
      IsArg t (cval z) ∧ |(r.im.value : ℝ) - t| ≤ δ := by
  obtain ⟨u0, u1⟩ := Fmt.u_small (F := F) hp
  have hε0 := h.ε_nonneg
  have hθ0 := h.θ_nonneg
  have z0 : 0 < ‖cval z‖ := norm_pos_iff.2 hz0
  have z1 : ‖cval z‖ ^ 2 ≤ 17 * K ^ 4 := by
    have := pow_le_pow_left₀ z0.le l2 2
    rw [mul_pow, ← pow_mul] at this
    norm_num at this
    linarith [show (0 : ℝ) ≤ K ^ 4 by positivity]
  have z2 : 0.98 * L ^ 4 ≤ ‖cval z‖ ^ 2 := by
    have := pow_le_pow_left₀ (by positivity) l1 2
    rw [mul_pow, ← pow_mul] at this
    norm_num at this
    linarith [show (0 : ℝ) ≤ L ^ 4 by positivity]
  obtain ⟨s, hs, hsf⟩ := sqrNorm_finite hz (by linarith)
  obtain ⟨r1, r2, r3⟩ := sqrNormErr_small (F := F) hp z0 (by
    have := mul_le_mul_of_nonneg_left z2 u0.le
    linarith [mul_nonneg u0.le (show 0 ≤ L ^ 4 by positivity)])
  obtain ⟨r, t, e1, e2, e3, e4, e5⟩ := ln_near h hz hz0 hs hsf (by linarith)
  refine ⟨r, t, e1, e2, e3.trans ?_, e4, e5⟩
  have w1 : (1 + (F.u : ℝ)) * (1 + ε) / 2 ≤ 0.5313 := by
    have := mul_le_mul (show 1 + (F.u : ℝ) ≤ 1 + 1 / 2 ^ 20 by linarith) (show 1 + ε ≤ 17 / 16 by linarith) (by linarith) (by norm_num)
    linarith
  have w2 := mul_le_mul w1 r3 (div_nonneg r2 (by linarith)) (by norm_num)
  have w3 : (1 + (F.u : ℝ)) * θ / 2 ≤ 0.51 * θ := by
    have := mul_le_mul_of_nonneg_right u1 hθ0
    linarith
  have w4 : (F.η : ℝ) ≤ F.u / 100 := by
    have : F.u * L ^ 4 ≤ F.u * 1 := mul_le_mul_of_nonneg_left (pow_le_one₀ L0.le L1) u0.le
    linarith
  linarith

/-- The computed product of numbers of moderate size. -/
theorem mul_near_sized (hp : 20 ≤ F.p) {a b : Complex (Ieee F)} {K L : ℝ} (L0 : 0 < L) (L1 : L ≤ 1)
    (hη : (F.η : ℝ) ≤ F.u * L ^ 4 / 2 ^ 8) (hbig : 512 * K ^ 4 ≤ (2 : ℝ) ^ F.emax) (K4 : 1 ≤ K ^ 4) (K24 : K ^ 2 ≤ K ^ 4)
    (ha : CFinite a) (hb : CFinite b) (AB1 : L ^ 2 ≤ ‖cval a‖ * ‖cval b‖) (AB2 : ‖cval a‖ * ‖cval b‖ ≤ 4 * K ^ 2) :
    ∃ c, a.mul b = .ok c ∧ CFinite c ∧ ‖cval c - cval a * cval b‖ ≤ 2.44 * F.u * ‖cval a * cval b‖ ∧
      0.99 * L ^ 2 ≤ ‖cval c‖ ∧ ‖cval c‖ ≤ 4.04 * K ^ 2 := by
  obtain ⟨u0, u1⟩ := Fmt.u_small (F := F) hp
  set A := ‖cval a‖
  set B := ‖cval b‖
  have A0 : 0 ≤ A := norm_nonneg _
  have AB0 : 0 < A * B := lt_of_lt_of_le (by positivity) AB1
  have L42 : L ^ 4 ≤ L ^ 2 := pow_le_pow_of_le_one L0.le L1 (by norm_num)
  -- the product is finite
  have hxk : ∀ {z : Complex (Ieee F)}, |(z.re.value : ℝ)| ≤ ‖cval z‖ ∧ |(z.im.value : ℝ)| ≤ ‖cval z‖ := fun {z} =>
    ⟨_root_.Complex.abs_re_le_norm (cval z), _root_.Complex.abs_im_le_norm (cval z)⟩
  have prod : ∀ {x y : Ieee F}, x.Finite → y.Finite → |(x.value : ℝ)| ≤ A → |(y.value : ℝ)| ≤ B →
      (x.mul y).Finite ∧ |((x.mul y).value : ℝ)| ≤ 2 * (A * B) + 1 := by
    intro x y hx hy h1 h2
    have h3 : |(x.value : ℝ) * y.value| ≤ A * B := by
      rw [abs_mul]; exact mul_le_mul h1 h2 (abs_nonneg _) A0
    obtain ⟨f, g⟩ := Ieee.mul_near hx hy (M := 2 ^ F.emax) (by linarith) le_rfl
    refine ⟨f, ?_⟩
    have h4 := abs_add_le (((x.mul y).value : ℝ) - x.value * y.value) (x.value * y.value)
    rw [sub_add_cancel] at h4
    have h5 := mul_le_mul_of_nonneg_right (show (F.u : ℝ) ≤ 1 / 2 by linarith) (abs_nonneg ((x.value : ℝ) * y.value))
    have h6 : (F.η : ℝ) ≤ 1 := by
      have : F.u * L ^ 4 ≤ 1 := by
        have : L ^ 4 ≤ 1 := pow_le_one₀ L0.le L1
        nlinarith
      linarith
    linarith [abs_nonneg ((x.value : ℝ) * y.value)]
  obtain ⟨p1, q1⟩ := prod ha.1 hb.1 hxk.1 hxk.1
  obtain ⟨p2, q2⟩ := prod ha.2 hb.2 hxk.2 hxk.2
  obtain ⟨p3, q3⟩ := prod ha.1 hb.2 hxk.1 hxk.2
  obtain ⟨p4, q4⟩ := prod ha.2 hb.1 hxk.2 hxk.1
  have c1 := (Ieee.sub_near p1 p2 (M := 2 ^ F.emax) ((abs_sub _ _).trans (by linarith)) le_rfl).1
  have c2 := (Ieee.add_near p3 p4 (M := 2 ^ F.emax) ((abs_add_le _ _).trans (by linarith)) le_rfl).1
  obtain ⟨c, ec, hc⟩ := C57_mul_error a b
  have hcf : CFinite c := by
    rw [ieee_cmul] at ec
    cases ec
    exact ⟨c1, c2⟩
  obtain ⟨_, _, hce⟩ := hc hcf
  have hκ : ‖cval c - cval a * cval b‖ ≤ 2.44 * F.u * ‖cval a * cval b‖ := by
    have n1 := mul_le_mul_of_nonneg_right (cu_small (F := F) hp) (norm_nonneg (cval a * cval b))
    have n2 := cη_small (F := F) hp
    have n3 : 3 * (F.η : ℝ) ≤ 0.02 * F.u * ‖cval a * cval b‖ := by
      rw [norm_mul]
      have : F.u * L ^ 4 ≤ F.u * (A * B) := mul_le_mul_of_nonneg_left (L42.trans AB1) u0.le
      show _ ≤ 0.02 * F.u * (A * B)
      linarith [mul_nonneg u0.le AB0.le]
    linarith
  have hnc : 0.99 * (A * B) ≤ ‖cval c‖ ∧ ‖cval c‖ ≤ 1.01 * (A * B) := by
    rw [norm_mul] at hκ
    change _ ≤ 2.44 * F.u * (A * B) at hκ
    have n1 := abs_norm_sub_norm_le (cval c) (cval a * cval b)
    rw [norm_mul] at n1
    change |_ - A * B| ≤ _ at n1
    have n2 := abs_le.1 (n1.trans hκ)
    have n3 : F.u * (A * B) ≤ 1 / 2 ^ 20 * (A * B) := mul_le_mul_of_nonneg_right u1 (by positivity)
    constructor <;> linarith
  exact ⟨c, ec, hcf, hκ, by linarith [hnc.1], by linarith [hnc.2]⟩

theorem re_combine {u θ m la lb lc ra rb rc : ℝ} (hu : 0 ≤ u) (hθ : 0 ≤ θ) (m0 : 0 ≤ m) (m1 : m ≤ 0.07)
    (h : |lc - la - lb| ≤ 2.45 * u) (h1 : |ra - la| ≤ m * |la| + (1.09 * u + 0.51 * θ))
    (h2 : |rb - lb| ≤ m * |lb| + (1.09 * u + 0.51 * θ)) (h3 : |rc - lc| ≤ m * |lc| + (1.09 * u + 0.51 * θ)) :
    |rc - ra - rb| ≤ 2 * m * (|la| + |lb|) + 6 * u + 2 * θ ∧ |rc - ra| ≤ 2 * m * (|la| + |lb|) + |lb| + 6 * u + 2 * θ := by
  have n4 := abs_le.1 h
  have hlc : |lc| ≤ |la| + |lb| + 2.45 * u := by
    have e : lc = (lc - la - lb) + la + lb := by ring
    have := abs_add_three (lc - la - lb) la lb
    rw [← e] at this
    linarith
  have hmc := mul_le_mul_of_nonneg_left hlc m0
  have hmu := mul_le_mul_of_nonneg_right m1 hu
  have A3 := abs_le.1 h1
  have B3 := abs_le.1 h2
  have C3 := abs_le.1 h3
  have := abs_le.1 (le_refl |lb|)
  have := mul_nonneg m0 (abs_nonneg lb)
  constructor <;> rw [abs_le] <;> constructor <;> linarith

theorem im_combine {d δ ta tb tc ra rb rc v : ℝ} (h : |tc - ta - tb - v| ≤ d) (h1 : |ra - ta| ≤ δ) (h2 : |rb - tb| ≤ δ)
    (h3 : |rc - tc| ≤ δ) : |rc - ra - rb - v| ≤ 3 * δ + d := by
  have N := abs_le.1 h
  have Ya := abs_le.1 h1
  have Yb := abs_le.1 h2
  have Yc := abs_le.1 h3
  rw [abs_le]
  constructor <;> linarith

theorem near_bound {r t δ p : ℝ} (h : |t| ≤ p) (h1 : |r - t| ≤ δ) : |r| ≤ p + δ := by
  have := abs_le.1 h1; have := abs_le.1 h; rw [abs_le]; constructor <;> linarith

/-- Everything about the logarithms of two numbers and of their product. -/
theorem ln_mul_near {ε θ δ : ℝ} [RLn (Ieee F)] [RAtan2 (Ieee F)] (hp : 20 ≤ F.p) {k : ℕ} (hk : 4 * k + 10 ≤ F.emax)
    (h : LogLib F ε θ δ) (hε : ε ≤ 1 / 16) {a b : Complex (Ieee F)} (ha : a.re.Between (-k) k ∧ a.im.Between (-k) k)
    (hb : b.re.Between (-k) k ∧ b.im.Between (-k) k) (ha0 : cval a ≠ 0) (hb0 : cval b ≠ 0) :
    ∃ c la lb lc, a.mul b = .ok c ∧ a.ln = .ok la ∧ b.ln = .ok lb ∧ c.ln = .ok lc ∧ CFinite la ∧ CFinite lb ∧ CFinite lc ∧
      |(lc.re.value : ℝ) - la.re.value - lb.re.value| ≤
        2 * ((1 + F.u) * (1 + ε) - 1) * (|Real.log ‖cval a‖| + |Real.log ‖cval b‖|) + 6 * F.u + 2 * θ ∧
      (∃ n : ℤ, |n| ≤ 1 ∧ |(lc.im.value : ℝ) - la.im.value - lb.im.value - 2 * Real.pi * n| ≤ 3 * δ + 2.45 * F.u) ∧
      (|(lc.im.value : ℝ)| ≤ Real.pi + δ ∧ |(la.im.value : ℝ)| ≤ Real.pi + δ ∧ |(lb.im.value : ℝ)| ≤ Real.pi + δ) ∧
      (|(lc.re.value : ℝ) - la.re.value| ≤ 2 * ((1 + F.u) * (1 + ε) - 1) * (|Real.log ‖cval a‖| + |Real.log ‖cval b‖|) +
        |Real.log ‖cval b‖| + 6 * F.u + 2 * θ) := by
  obtain ⟨u0, u1⟩ := Fmt.u_small (F := F) hp
  have hε0 := h.ε_nonneg
  have hθ0 := h.θ_nonneg
  have hd : 2.44 * (F.u : ℝ) / (1 - 2.44 * F.u) ≤ 2.45 * F.u := by
    rw [div_le_iff₀ (by linarith)]; nlinarith
  have m0 : 0 ≤ (1 + (F.u : ℝ)) * (1 + ε) - 1 := by nlinarith
  have m1 : (1 + (F.u : ℝ)) * (1 + ε) - 1 ≤ 0.07 := by
    have := mul_le_mul (show 1 + (F.u : ℝ) ≤ 1 + 1 / 2 ^ 20 by linarith) (show 1 + ε ≤ 17 / 16 by linarith) (by linarith) (by norm_num)
    linarith
  have hη := Fmt.η_small hk
  obtain ⟨a1, a2⟩ := cval_size ha.1 ha.2 ha0
  obtain ⟨b1, b2⟩ := cval_size hb.1 hb.2 hb0
  set K : ℝ := (2 : ℝ) ^ (k : ℤ) with hK
  have hKi : (2 : ℝ) ^ (-(k : ℤ)) = K⁻¹ := by rw [zpow_neg]
  rw [hKi] at a1 b1 hη
  have K1 : 1 ≤ K := one_le_zpow₀ (by norm_num) (by positivity)
  have hbig : 512 * K ^ 4 ≤ (2 : ℝ) ^ F.emax := by
    rw [hK, show (512 : ℝ) = 2 ^ (9 : ℤ) by norm_num, ← zpow_natCast, ← zpow_mul, ← zpow_add₀ (by norm_num)]
    exact zpow_le_zpow_right₀ (by norm_num) (by push_cast; omega)
  set L := K⁻¹ with hL
  have L0 : 0 < L := by positivity
  have L1 : L ≤ 1 := inv_le_one_of_one_le₀ K1
  set A := ‖cval a‖
  set B := ‖cval b‖
  have A0 : 0 < A := L0.trans_le a1
  have B0 : 0 < B := L0.trans_le b1
  have AB1 : L ^ 2 ≤ A * B := by rw [pow_two]; exact mul_le_mul a1 b1 L0.le A0.le
  have AB2 : A * B ≤ 4 * K ^ 2 := by
    have := mul_le_mul a2 b2 B0.le (by positivity); linarith
  have L42 : L ^ 4 ≤ L ^ 2 := pow_le_pow_of_le_one L0.le L1 (by norm_num)
  have K24 : K ^ 2 ≤ K ^ 4 := pow_le_pow_right₀ K1 (by norm_num)
  have K4 : 1 ≤ K ^ 4 := one_le_pow₀ K1
  obtain ⟨c, ec, hcf, hκ, nc1, nc2⟩ := mul_near_sized (F := F) hp L0 L1 hη hbig K4 K24 ⟨ha.1.1, ha.2.1⟩ ⟨hb.1.1, hb.2.1⟩ AB1 AB2
  have hc0 : cval c ≠ 0 := by
    rw [← norm_pos_iff]
    exact lt_of_lt_of_le (by positivity) nc1
  have sqr := fun {z : Complex (Ieee F)} => ln_near_sized (F := F) (z := z) hp h hε (K := K) (L := L) L0 L1 hη hbig K4
  have LL : L ^ 2 ≤ L := by rw [pow_two]; exact mul_le_of_le_one_right L0.le L1
  have KK : K ≤ K ^ 2 := by rw [pow_two]; exact le_mul_of_one_le_right (by linarith) K1
  obtain ⟨la, ta, ea, fa, xa, ga, ya⟩ := sqr ⟨ha.1.1, ha.2.1⟩ ha0 (by show _ ≤ A; linarith) (by show A ≤ _; linarith)
  obtain ⟨lb, tb, eb, fb, xb, gb, yb⟩ := sqr ⟨hb.1.1, hb.2.1⟩ hb0 (by show _ ≤ B; linarith) (by show B ≤ _; linarith)
  obtain ⟨lc, tc, elc, fc, xc, gc, yc⟩ := sqr hcf hc0 nc1 nc2
  obtain ⟨⟨n, n1, n2⟩, n3⟩ := arg_of_near_product ha0 hb0 ga gb gc hκ (by linarith)
  obtain ⟨R1, R2⟩ := re_combine u0.le hθ0 m0 m1 (n3.trans hd) xa xb xc
  refine ⟨c, la, lb, lc, ec, ea, eb, elc, fa, fb, fc, ?_, ⟨n, n1, ?_⟩, ⟨?_, ?_, ?_⟩, ?_⟩
  · exact R1
  · exact im_combine (n2.trans hd) ya yb yc
  · exact near_bound gc.1 yc
  · exact near_bound ga.1 ya
  · exact near_bound gb.1 yb
  · exact R2

end Magnesia
