import Verif.Proof.TanAdd

/-!
# Division of complex numbers of bounded absolute value, whatever underflows
-/

namespace Magnesia

open RZero ROne

variable {F : Fmt}

/-- Real arithmetic of division: the reciprocal. -/
theorem rcp_sized {u η n N r : ℝ} (u0 : 0 < u) (u1 : u ≤ 1 / 2 ^ 20) (N0 : 0 < N) (hη : η ≤ 0.004 * (u * (1 / N)))
    (h1 : |n - N| ≤ 2.011 * u * N) (h2 : |r - 1 / n| ≤ u * (1 / n) + η) :
    |r - 1 / N| ≤ 3.03 * u * (1 / N) ∧ r ≤ 1.0001 * (1 / N) ∧ 0 ≤ r := by
  have hn := abs_le.1 h1
  have uN : u * N ≤ 1 / 2 ^ 20 * N := mul_le_mul_of_nonneg_right u1 N0.le
  have n0 : 0 < n := by nlinarith
  have i1 : |1 / n - 1 / N| ≤ 2.012 * u * (1 / N) := by
    rw [div_sub_div _ _ n0.ne' N0.ne', one_mul, mul_one, abs_div, abs_sub_comm, abs_of_pos (mul_pos n0 N0), div_le_iff₀ (mul_pos n0 N0)]
    have e : 2.012 * u * (1 / N) * (n * N) = 2.012 * u * n := by field_simp
    rw [e]
    have : 2.011 * u * N ≤ 2.012 * u * n := by
      have h3 : 2.011 * N ≤ 2.012 * n := by linarith
      nlinarith
    linarith
  have b := abs_le.1 i1
  have iN : 0 < 1 / N := by positivity
  have uI : u * (1 / N) ≤ 1 / 2 ^ 20 * (1 / N) := mul_le_mul_of_nonneg_right u1 iN.le
  have uI0 : 0 ≤ u * (1 / N) := by positivity
  have h4 : u * (1 / n) ≤ u * (1.001 * (1 / N)) := mul_le_mul_of_nonneg_left (by linarith) u0.le
  have g := abs_le.1 (abs_sub_le r (1 / n) (1 / N) |>.trans (add_le_add h2 i1))
  refine ⟨abs_le.2 ⟨by linarith, by linarith⟩, by linarith, by linarith⟩

/-- Real and complex arithmetic of division: putting the errors together. -/
theorem quotient_errors {u η r cu cη : ℝ} {z w p q : ℂ} (u0 : 0 < u) (u1 : u ≤ 1 / 2 ^ 20) (η0 : 0 < η) (hw : w ≠ 0)
    (hcu : cu ≤ 2.42 * u) (hcη : cη ≤ 3 * η)
    (hp : ‖p - z * (starRingEnd ℂ) w‖ ≤ cu * (‖z‖ * ‖w‖) + cη)
    (s1 : |r - 1 / ‖w‖ ^ 2| ≤ 3.03 * u * (1 / ‖w‖ ^ 2)) (s2 : r ≤ 1.0001 * (1 / ‖w‖ ^ 2)) (s3 : 0 ≤ r)
    (d1 : ‖q - p * (r : ℝ)‖ ≤ u * ‖p * (r : ℝ)‖ + Real.sqrt 2 * η) :
    ‖q - z / w‖ ≤ 6.5 * u * ‖z / w‖ + (1.5 * η + 4 * η * (1 / ‖w‖ ^ 2)) := by
  have w0 : 0 < ‖w‖ := norm_pos_iff.2 hw
  have zw0 : 0 ≤ ‖z‖ * ‖w‖ := by positivity
  have iW : 0 < 1 / ‖w‖ ^ 2 := by positivity
  have pn : ‖p‖ ≤ 1.0001 * (‖z‖ * ‖w‖) + 3 * η := by
    have := norm_sub_norm_le p (z * (starRingEnd ℂ) w)
    rw [norm_mul, _root_.Complex.norm_conj] at this
    have h5 : cu * (‖z‖ * ‖w‖) ≤ 0.0001 * (‖z‖ * ‖w‖) := mul_le_mul_of_nonneg_right (by linarith) zw0
    linarith
  have e : z / w = z * (starRingEnd ℂ) w * ((1 / ‖w‖ ^ 2 : ℝ) : ℂ) := by
    rw [div_eq_mul_inv, _root_.Complex.inv_def, ← mul_assoc, _root_.Complex.normSq_eq_norm_sq]
    push_cast; ring_nf
  have X : ‖z / w‖ = ‖z‖ * ‖w‖ * (1 / ‖w‖ ^ 2) := by
    rw [norm_div]; field_simp
  have split : q - z / w = (q - p * (r : ℝ)) + (p - z * (starRingEnd ℂ) w) * (r : ℝ) +
      z * (starRingEnd ℂ) w * (r - (1 / ‖w‖ ^ 2 : ℝ) : ℝ) := by
    rw [e]; push_cast; ring
  have d2 : ‖(p - z * (starRingEnd ℂ) w) * (r : ℝ)‖ ≤
      (2.42 * u * (‖z‖ * ‖w‖) + 3 * η) * (1.0001 * (1 / ‖w‖ ^ 2)) := by
    rw [norm_mul, _root_.Complex.norm_real, Real.norm_eq_abs, abs_of_nonneg s3]
    refine mul_le_mul (hp.trans (add_le_add (mul_le_mul_of_nonneg_right hcu zw0) hcη)) s2 s3 (by positivity)
  have d3 : ‖z * (starRingEnd ℂ) w * (r - (1 / ‖w‖ ^ 2 : ℝ) : ℝ)‖ ≤ ‖z‖ * ‖w‖ * (3.03 * u * (1 / ‖w‖ ^ 2)) := by
    rw [norm_mul, norm_mul, _root_.Complex.norm_conj, _root_.Complex.norm_real, Real.norm_eq_abs]
    exact mul_le_mul_of_nonneg_left s1 zw0
  have d4 : ‖p * (r : ℝ)‖ ≤ (1.0001 * (‖z‖ * ‖w‖) + 3 * η) * (1.0001 * (1 / ‖w‖ ^ 2)) := by
    rw [norm_mul, _root_.Complex.norm_real, Real.norm_eq_abs, abs_of_nonneg s3]
    exact mul_le_mul pn s2 s3 (by positivity)
  have tri := (norm_add_le _ _).trans (add_le_add_left (norm_add_le (q - p * (r : ℝ)) ((p - z * (starRingEnd ℂ) w) * (r : ℝ)))
    ‖z * (starRingEnd ℂ) w * (r - (1 / ‖w‖ ^ 2 : ℝ) : ℝ)‖)
  rw [← split] at tri
  have q2 := sqrt_two_bounds.1
  have k1 := mul_le_mul_of_nonneg_left d4 u0.le
  have k2 : Real.sqrt 2 * η ≤ 1.415 * η := mul_le_mul_of_nonneg_right q2 η0.le
  have ηW : 0 ≤ η * (1 / ‖w‖ ^ 2) := by positivity
  have k4 : u * (η * (1 / ‖w‖ ^ 2)) ≤ 0.001 * (η * (1 / ‖w‖ ^ 2)) := mul_le_mul_of_nonneg_right (by linarith) ηW
  have k5 : 0 ≤ u * (‖z‖ * ‖w‖ * (1 / ‖w‖ ^ 2)) := by positivity
  rw [X]
  linarith only [tri, d1, d2, d3, k1, k2, k4, k5, ηW, η0]

/-- Division of numbers of absolute value up to `2 ^ k` by numbers of absolute value between `2 ^ -k` and `2 ^ k`. -/
theorem cdiv_sized (hp : 20 ≤ F.p) {k : ℕ} (hk : 4 * k + 10 ≤ F.emax) {z w : Complex (Ieee F)} (hz : CFinite z) (hw : CFinite w)
    (h1 : (2 : ℝ) ^ (-(k : ℤ)) ≤ ‖cval w‖) (h2 : ‖cval w‖ ≤ 2 ^ (k : ℤ)) (h3 : ‖cval z‖ ≤ 2 ^ (k : ℤ)) :
    ∃ q, z.div w = .ok q ∧ CFinite q ∧ ‖cval q - cval z / cval w‖ ≤ 6.5 * F.u * ‖cval z / cval w‖ + 8 * F.η * 4 ^ k := by
  obtain ⟨u0, u1⟩ := Fmt.u_small (F := F) hp
  have hη := Fmt.η_small hk
  have η0 := (η_le_one F).1
  have K1 : (1 : ℝ) ≤ 2 ^ (k : ℤ) := one_le_zpow₀ (by norm_num) (by positivity)
  have hbig : 2 ^ 10 * ((2 : ℝ) ^ (k : ℤ)) ^ 4 ≤ 2 ^ F.emax := by
    rw [← zpow_natCast, ← zpow_natCast, ← zpow_mul, ← zpow_add₀ (by norm_num)]
    exact zpow_le_zpow_right₀ (by norm_num) (by push_cast; omega)
  have e4 : (4 : ℝ) ^ k = ((2 : ℝ) ^ (k : ℤ)) ^ 2 := by
    rw [zpow_natCast, ← pow_mul, mul_comm, pow_mul]; norm_num
  rw [e4]
  have hKi : (2 : ℝ) ^ (-(k : ℤ)) = ((2 : ℝ) ^ (k : ℤ))⁻¹ := by rw [zpow_neg]
  rw [hKi] at h1 hη
  set K : ℝ := (2 : ℝ) ^ (k : ℤ) with hK
  have K0 : 0 < K := by linarith
  have w0 : 0 < ‖cval w‖ := (inv_pos.2 K0).trans_le h1
  have hw0 : cval w ≠ 0 := norm_pos_iff.1 w0
  have z0 := norm_nonneg (cval z)
  have K2 : 1 ≤ K ^ 2 := one_le_pow₀ K1
  have K4 : K ^ 2 ≤ K ^ 4 := pow_le_pow_right₀ K1 (by norm_num)
  have zw : ‖cval z‖ * ‖cval w‖ ≤ K ^ 2 := by rw [pow_two]; exact mul_le_mul h3 h2 w0.le K0.le
  have zw0 : 0 ≤ ‖cval z‖ * ‖cval w‖ := by positivity
  have W2 : ‖cval w‖ ^ 2 ≤ K ^ 2 := pow_le_pow_left₀ w0.le h2 2
  have W1 : K⁻¹ ^ 2 ≤ ‖cval w‖ ^ 2 := pow_le_pow_left₀ (inv_pos.2 K0).le h1 2
  have W0 : 0 < ‖cval w‖ ^ 2 := by positivity
  have iW : 1 / ‖cval w‖ ^ 2 ≤ K ^ 2 := by
    rw [div_le_iff₀ W0]
    have := mul_le_mul_of_nonneg_left W1 (show 0 ≤ K ^ 2 by positivity)
    rwa [← mul_pow, mul_inv_cancel₀ K0.ne', one_pow] at this
  have iW' : K⁻¹ ^ 2 ≤ 1 / ‖cval w‖ ^ 2 := by
    rw [le_div_iff₀ W0]
    have := mul_le_mul_of_nonneg_left W2 (show 0 ≤ K⁻¹ ^ 2 by positivity)
    rwa [← mul_pow K⁻¹ K, inv_mul_cancel₀ K0.ne', one_pow] at this
  have L1 : K⁻¹ ≤ 1 := inv_le_one_of_one_le₀ K1
  have L0 : 0 < K⁻¹ := inv_pos.2 K0
  have L4 : K⁻¹ ^ 4 ≤ K⁻¹ ^ 2 := pow_le_pow_of_le_one L0.le L1 (by norm_num)
  have L21 : K⁻¹ ^ 2 ≤ 1 := pow_le_one₀ L0.le L1
  have uL : F.u * K⁻¹ ^ 4 ≤ F.u * K⁻¹ ^ 2 := mul_le_mul_of_nonneg_left L4 u0.le
  obtain ⟨p, ep, fp, hpn⟩ := conj_numerator hz hw (by linarith)
  obtain ⟨n, en, fn⟩ := sqrNorm_finite hw (by linarith)
  have hn := sqrNorm_rel en fn hw0
  have uW : F.u * K⁻¹ ^ 2 ≤ F.u * ‖cval w‖ ^ 2 := mul_le_mul_of_nonneg_left W1 u0.le
  obtain ⟨r1, -, -⟩ := sqrNormErr_small (F := F) hp w0 (by linarith)
  have hn' := hn.trans (mul_le_mul_of_nonneg_right r1 (sq_nonneg _))
  have nb := abs_le.1 hn'
  have uW1 : F.u * ‖cval w‖ ^ 2 ≤ 1 / 2 ^ 20 * ‖cval w‖ ^ 2 := mul_le_mul_of_nonneg_right u1 (sq_nonneg _)
  have n0 : 0.9 * ‖cval w‖ ^ 2 ≤ n.value := by linarith
  have np : (0 : ℝ) < n.value := by linarith
  have nne : n.value ≠ 0 := by intro e; rw [e, Rat.cast_zero] at np; exact lt_irrefl _ np
  have edv : (one : Ieee F).div n = .round (1 / n.value) := Ieee.div_fin (a := one) one_ne_zero nne
  have inv : (1 / n.value : ℝ) ≤ 2 * (1 / ‖cval w‖ ^ 2) := by
    rw [div_le_iff₀ np]
    have := mul_le_mul_of_nonneg_left n0 (show 0 ≤ 2 * (1 / ‖cval w‖ ^ 2) by positivity)
    have e : 2 * (1 / ‖cval w‖ ^ 2) * (0.9 * ‖cval w‖ ^ 2) = 1.8 := by field_simp; norm_num
    linarith
  have fr : ((one : Ieee F).div n).Finite := by
    rw [edv]
    refine Ieee.round_small (le_of_real ?_)
    push_cast
    rw [abs_of_pos (by positivity)]
    linarith
  have hr : |((((one : Ieee F).div n).value : ℚ) : ℝ) - 1 / n.value| ≤ F.u * (1 / n.value) + F.η := by
    have e6 := F.roundQ_err_any (1 / n.value)
    rw [edv] at fr ⊢
    rw [Ieee.round_finite fr]
    have : |((F.roundQ (1 / n.value) : ℚ) : ℝ) - 1 / n.value| ≤ F.u * |(1 / n.value : ℝ)| + F.η := by exact_mod_cast e6
    rwa [abs_of_pos (show (0 : ℝ) < 1 / n.value by positivity)] at this
  have uI : F.u * K⁻¹ ^ 2 ≤ F.u * (1 / ‖cval w‖ ^ 2) := mul_le_mul_of_nonneg_left iW' u0.le
  obtain ⟨s1, s2, s3⟩ := rcp_sized u0 u1 W0 (by linarith) hn' hr
  generalize hrr : (one : Ieee F).div n = r at *
  -- the final products
  have cu := cu_small (F := F) hp
  have cη := cη_small (F := F) hp
  have pn : ‖cval p‖ ≤ 2 * K ^ 2 := by
    have := norm_sub_norm_le (cval p) (cval z * (starRingEnd ℂ) (cval w))
    rw [norm_mul, _root_.Complex.norm_conj] at this
    have h5 : F.cu * (‖cval z‖ * ‖cval w‖) ≤ 0.0001 * (‖cval z‖ * ‖cval w‖) := mul_le_mul_of_nonneg_right (by linarith) zw0
    have h6 : F.u * K⁻¹ ^ 2 ≤ F.u * 1 := mul_le_mul_of_nonneg_left L21 u0.le
    linarith
  have prod : ∀ {x : Ieee F}, x.Finite → |(x.value : ℝ)| ≤ ‖cval p‖ → (x.mul r).Finite ∧
      |((x.mul r).value : ℝ) - x.value * r.value| ≤ F.u * |(x.value : ℝ) * r.value| + F.η := by
    intro x fx hx
    refine Ieee.mul_near fx fr (M := 4 * K ^ 4) ?_ (by linarith)
    rw [abs_mul, abs_of_nonneg s3]
    refine (mul_le_mul (hx.trans pn) (show (r.value : ℝ) ≤ 2 * K ^ 2 by linarith) s3 (by positivity)).trans (le_of_eq ?_)
    ring
  obtain ⟨f1, g1⟩ := prod fp.1 (_root_.Complex.abs_re_le_norm (cval p))
  obtain ⟨f2, g2⟩ := prod fp.2 (_root_.Complex.abs_im_le_norm (cval p))
  refine ⟨⟨p.re.mul r, p.im.mul r⟩, ?_, ⟨f1, f2⟩, ?_⟩
  · rw [ieee_cdiv]
    have en' : (w.re.mul w.re).add (w.im.mul w.im) = n := Except.ok.inj en
    simp only [en', hrr, ep]
  · set q : Complex (Ieee F) := ⟨p.re.mul r, p.im.mul r⟩ with hq
    have d1 : ‖cval q - cval p * (r.value : ℝ)‖ ≤ F.u * ‖cval p * (r.value : ℝ)‖ + Real.sqrt 2 * F.η := by
      refine norm_le_of_parts_add u0.le η0.le ?_ ?_
      · simpa [cval, hq] using g1
      · simpa [cval, hq] using g2
    have := quotient_errors u0 u1 η0 hw0 cu cη hpn s1 s2 s3 d1
    have h7 : F.η * (1 / ‖cval w‖ ^ 2) ≤ F.η * K ^ 2 := mul_le_mul_of_nonneg_left iW η0.le
    have h8 : F.η * 1 ≤ F.η * K ^ 2 := mul_le_mul_of_nonneg_left K2 η0.le
    linarith only [this, h7, h8, η0]

end Magnesia
