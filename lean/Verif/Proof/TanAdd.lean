import Verif.Spec.TanCheck
import Verif.Props.IeeeSpecial
import Verif.Props.Euler
import Verif.Proof.IeeeLaws
import Verif.Proof.CPerturb

/-!
# The tangent near zero and the addition theorem
-/

namespace Magnesia

open RZero ROne

variable {F : Fmt}

/-- The product of two complex numbers of moderate size. -/
theorem cmul_near {a b : Complex (Ieee F)} (ha : CFinite a) (hb : CFinite b) (h : 4 * (‖cval a‖ * ‖cval b‖) + 4 ≤ 2 ^ F.emax) :
    ∃ p, a.mul b = .ok p ∧ CFinite p ∧ ‖cval p - cval a * cval b‖ ≤ F.cu * ‖cval a * cval b‖ + F.cη := by
  obtain ⟨u0, u1⟩ := u_quarter F
  obtain ⟨η0, η1⟩ := η_le_one F
  have a1 : |(a.re.value : ℝ)| ≤ ‖cval a‖ := _root_.Complex.abs_re_le_norm (cval a)
  have a2 : |(a.im.value : ℝ)| ≤ ‖cval a‖ := _root_.Complex.abs_im_le_norm (cval a)
  have b1 : |(b.re.value : ℝ)| ≤ ‖cval b‖ := _root_.Complex.abs_re_le_norm (cval b)
  have b2 : |(b.im.value : ℝ)| ≤ ‖cval b‖ := _root_.Complex.abs_im_le_norm (cval b)
  have m0 : 0 ≤ ‖cval a‖ * ‖cval b‖ := by positivity
  have key : ∀ {x y : Ieee F}, x.Finite → y.Finite → |(x.value : ℝ)| ≤ ‖cval a‖ → |(y.value : ℝ)| ≤ ‖cval b‖ →
      (x.mul y).Finite ∧ |((x.mul y).value : ℝ)| ≤ 1.25 * (‖cval a‖ * ‖cval b‖) + 1 := by
    intro x y fx fy hx hy
    have hxy : |(x.value : ℝ) * y.value| ≤ ‖cval a‖ * ‖cval b‖ := by
      rw [abs_mul]; exact mul_le_mul hx hy (abs_nonneg _) (norm_nonneg _)
    obtain ⟨f, g⟩ := Ieee.mul_near fx fy hxy (by linarith)
    refine ⟨f, ?_⟩
    have h1 := abs_sub_abs_le_abs_sub ((x.mul y).value : ℝ) (x.value * y.value)
    have h2 : F.u * |(x.value : ℝ) * y.value| ≤ 1 / 4 * (‖cval a‖ * ‖cval b‖) := mul_le_mul u1 hxy (abs_nonneg _) (by norm_num)
    linarith
  obtain ⟨f1, g1⟩ := key ha.1 hb.1 a1 b1
  obtain ⟨f2, g2⟩ := key ha.2 hb.2 a2 b2
  obtain ⟨f3, g3⟩ := key ha.1 hb.2 a1 b2
  obtain ⟨f4, g4⟩ := key ha.2 hb.1 a2 b1
  obtain ⟨f5, _⟩ := Ieee.sub_near f1 f2 ((abs_sub _ _).trans (add_le_add g1 g2)) (by linarith)
  obtain ⟨f6, _⟩ := Ieee.add_near f3 f4 ((abs_add_le _ _).trans (add_le_add g3 g4)) (by linarith)
  obtain ⟨p, ep, hp⟩ := C57_mul_error a b
  rw [ieee_cmul] at ep
  cases ep
  exact ⟨_, rfl, ⟨f5, f6⟩, (hp ⟨f5, f6⟩).2.2⟩

/-- The numerator that division computes: the product with the conjugate. -/
theorem conj_numerator {z w : Complex (Ieee F)} (hz : CFinite z) (hw : CFinite w) (h : 4 * (‖cval z‖ * ‖cval w‖) + 4 ≤ 2 ^ F.emax) :
    ∃ p : Complex (Ieee F), p = ⟨(z.re.mul w.re).add (z.im.mul w.im), (z.im.mul w.re).sub (z.re.mul w.im)⟩ ∧ CFinite p ∧
      ‖cval p - cval z * (starRingEnd ℂ) (cval w)‖ ≤ F.cu * (‖cval z‖ * ‖cval w‖) + F.cη := by
  have e : cval (⟨w.re, w.im.neg⟩ : Complex (Ieee F)) = (starRingEnd ℂ) (cval w) := by
    apply _root_.Complex.ext
    · rfl
    · show ((w.im.neg.value : ℚ) : ℝ) = -(w.im.value : ℝ)
      rw [Ieee.neg_value]; push_cast; rfl
  have n : ‖cval (⟨w.re, w.im.neg⟩ : Complex (Ieee F))‖ = ‖cval w‖ := by rw [e, _root_.Complex.norm_conj]
  obtain ⟨p, ep, fp, hp⟩ := cmul_near (b := ⟨w.re, w.im.neg⟩) hz ⟨hw.1, Ieee.neg_finite.2 hw.2⟩ (by rwa [n])
  rw [ieee_cmul] at ep
  cases ep
  rw [e, norm_mul, _root_.Complex.norm_conj] at hp
  refine ⟨_, ?_, fp, hp⟩
  simp only [Ieee.mul_neg]
  congr 1
  · show ((z.re.mul w.re).add (z.im.mul w.im).neg.neg) = _
    rw [Ieee.neg_neg]
  · rw [Ieee.add_comm]; rfl

/-- Real arithmetic of division: the reciprocal. -/
theorem rcp_near {u η n N r : ℝ} (u0 : 0 < u) (u1 : u ≤ 1 / 2 ^ 20) (hη : η ≤ u ^ 2 / 2 ^ 22) (hN0 : 0.81 ≤ N)
    (hN1 : N ≤ 1.21) (h1 : |n - N| ≤ 2.011 * u * N) (h2 : |r - 1 / n| ≤ u * (1 / n) + η) :
    |r - 1 / N| ≤ 3.03 * u * (1 / N) ∧ r ≤ 1.0001 * (1 / N) ∧ 0 ≤ r := by
  have hn := abs_le.1 h1
  have uN : u * N ≤ 1 / 2 ^ 20 * N := mul_le_mul_of_nonneg_right u1 (by linarith)
  have n0 : 0 < n := by nlinarith
  have N0 : 0 < N := by linarith
  have i1 : |1 / n - 1 / N| ≤ 2.012 * u * (1 / N) := by
    rw [div_sub_div _ _ n0.ne' N0.ne', one_mul, mul_one, abs_div, abs_sub_comm, abs_of_pos (mul_pos n0 N0), div_le_iff₀ (mul_pos n0 N0)]
    have e : 2.012 * u * (1 / N) * (n * N) = 2.012 * u * n := by field_simp
    rw [e]
    have : 2.011 * u * N ≤ 2.012 * u * n := by
      have h3 : 2.011 * N ≤ 2.012 * n := by linarith
      nlinarith
    linarith
  have b := abs_le.1 i1
  have iN : 0 < 1 / N := by positivity
  have uI : u * (1 / N) ≤ 1 / 2 ^ 20 * (1 / N) := mul_le_mul_of_nonneg_right u1 iN.le
  have uI0 : 0 ≤ u * (1 / N) := by positivity
  have iN8 : 0.8 ≤ 1 / N := by rw [le_div_iff₀ N0]; linarith
  have h4 : u * (1 / n) ≤ u * (1.001 * (1 / N)) := mul_le_mul_of_nonneg_left (by linarith) u0.le
  have h5 : η ≤ 0.001 * (u * (1 / N)) := by
    have : u ^ 2 ≤ u / 2 ^ 20 := by nlinarith
    have : u * 0.8 ≤ u * (1 / N) := mul_le_mul_of_nonneg_left iN8 u0.le
    linarith
  have g := abs_le.1 (abs_sub_le r (1 / n) (1 / N) |>.trans (add_le_add h2 i1))
  refine ⟨abs_le.2 ⟨by linarith, by linarith⟩, by linarith, by linarith⟩

/-- Division by a number of absolute value about 1, whatever underflows. -/
theorem cdiv_near (hp : 20 ≤ F.p) (hpe : F.p + 24 ≤ F.emax) {z w : Complex (Ieee F)} (hz : CFinite z) (hw : CFinite w)
    (h1 : 0.9 ≤ ‖cval w‖) (h2 : ‖cval w‖ ≤ 1.1) (h3 : ‖cval z‖ ≤ 2) :
    ∃ q, z.div w = .ok q ∧ CFinite q ∧ ‖cval q - cval z / cval w‖ ≤ 6.5 * F.u * ‖cval z / cval w‖ + F.u / 2 ^ 16 := by
  obtain ⟨u0, u1⟩ := Fmt.u_small (F := F) hp
  have hη := η_u_sq hpe
  have η0 := (η_le_one F).1
  have h44 : (2 : ℝ) ^ 44 ≤ 2 ^ F.emax := by
    rw [← zpow_natCast]
    exact zpow_le_zpow_right₀ (by norm_num) (by push_cast; omega)
  norm_num at h44
  have z0 := norm_nonneg (cval z)
  have w0 : 0 < ‖cval w‖ := by linarith
  have hw0 : cval w ≠ 0 := norm_pos_iff.1 w0
  have zw : ‖cval z‖ * ‖cval w‖ ≤ 2.2 := by nlinarith
  have zw0 : 0 ≤ ‖cval z‖ * ‖cval w‖ := by positivity
  obtain ⟨p, ep, fp, hpn⟩ := conj_numerator hz hw (by linarith)
  have W2 : 0.81 ≤ ‖cval w‖ ^ 2 ∧ ‖cval w‖ ^ 2 ≤ 1.21 := by constructor <;> nlinarith
  obtain ⟨n, en, fn⟩ := sqrNorm_finite hw (by linarith)
  have hn := sqrNorm_rel en fn hw0
  have uu : (F.u : ℝ) ^ 2 ≤ F.u / 2 ^ 20 := by nlinarith
  obtain ⟨r1, -, -⟩ := sqrNormErr_small (F := F) hp w0 (by nlinarith)
  have hn' := hn.trans (mul_le_mul_of_nonneg_right r1 (sq_nonneg _))
  have nb := abs_le.1 hn'
  have uW : F.u * ‖cval w‖ ^ 2 ≤ 1 / 2 ^ 20 * ‖cval w‖ ^ 2 := mul_le_mul_of_nonneg_right u1 (sq_nonneg _)
  have n0 : (0.8 : ℝ) ≤ n.value := by linarith
  have nne : n.value ≠ 0 := by intro e; rw [e] at n0; norm_num at n0
  have edv : (one : Ieee F).div n = .round (1 / n.value) := Ieee.div_fin (a := one) one_ne_zero nne
  have fr : ((one : Ieee F).div n).Finite := by
    rw [edv]
    refine Ieee.round_small (le_of_real ?_)
    push_cast
    rw [abs_of_pos (by positivity), div_le_iff₀ (by linarith)]
    nlinarith
  have hr : |((((one : Ieee F).div n).value : ℚ) : ℝ) - 1 / n.value| ≤ F.u * (1 / n.value) + F.η := by
    have e6 := F.roundQ_err_any (1 / n.value)
    rw [edv] at fr ⊢
    rw [Ieee.round_finite fr]
    have : |((F.roundQ (1 / n.value) : ℚ) : ℝ) - 1 / n.value| ≤ F.u * |(1 / n.value : ℝ)| + F.η := by exact_mod_cast e6
    rwa [abs_of_pos (show (0 : ℝ) < 1 / n.value by positivity)] at this
  obtain ⟨s1, s2, s3⟩ := rcp_near u0 u1 hη W2.1 W2.2 hn' hr
  generalize hrr : (one : Ieee F).div n = r at *
  -- the final products
  have cu := cu_small (F := F) hp
  have cη := cη_small (F := F) hp
  have cu0 := F.cu_nonneg
  have pn : ‖cval p‖ ≤ 1.0001 * (‖cval z‖ * ‖cval w‖) + 3 * F.η := by
    have := norm_sub_norm_le (cval p) (cval z * (starRingEnd ℂ) (cval w))
    rw [norm_mul, _root_.Complex.norm_conj] at this
    have h5 : F.cu * (‖cval z‖ * ‖cval w‖) ≤ 0.0001 * (‖cval z‖ * ‖cval w‖) := mul_le_mul_of_nonneg_right (by linarith) zw0
    linarith
  have iW : 1 / ‖cval w‖ ^ 2 ≤ 1.25 := by rw [div_le_iff₀ (by positivity)]; linarith
  have ηs : (F.η : ℝ) ≤ F.u / 2 ^ 42 := by linarith
  have r2 : (r.value : ℝ) ≤ 1.3 := by linarith
  have prod : ∀ {x : Ieee F}, x.Finite → |(x.value : ℝ)| ≤ ‖cval p‖ → (x.mul r).Finite ∧
      |((x.mul r).value : ℝ) - x.value * r.value| ≤ F.u * |(x.value : ℝ) * r.value| + F.η := by
    intro x fx hx
    refine Ieee.mul_near fx fr (M := 100) ?_ (by linarith)
    rw [abs_mul, abs_of_nonneg s3]
    exact (mul_le_mul (hx.trans (show ‖cval p‖ ≤ 10 by linarith)) r2 s3 (by norm_num)).trans (by norm_num)
  obtain ⟨f1, g1⟩ := prod fp.1 (_root_.Complex.abs_re_le_norm (cval p))
  obtain ⟨f2, g2⟩ := prod fp.2 (_root_.Complex.abs_im_le_norm (cval p))
  refine ⟨⟨p.re.mul r, p.im.mul r⟩, ?_, ⟨f1, f2⟩, ?_⟩
  · rw [ieee_cdiv]
    have en' : (w.re.mul w.re).add (w.im.mul w.im) = n := Except.ok.inj en
    simp only [en', hrr, ep]
  · set q : Complex (Ieee F) := ⟨p.re.mul r, p.im.mul r⟩ with hq
    have d1 : ‖cval q - cval p * (r.value : ℝ)‖ ≤ F.u * ‖cval p * (r.value : ℝ)‖ + Real.sqrt 2 * F.η := by
      refine norm_le_of_parts_add u0.le η0.le ?_ ?_
      · simpa [cval, hq] using g1
      · simpa [cval, hq] using g2
    have e : cval z / cval w = cval z * (starRingEnd ℂ) (cval w) * ((1 / ‖cval w‖ ^ 2 : ℝ) : ℂ) := by
      rw [div_eq_mul_inv, _root_.Complex.inv_def, ← mul_assoc, _root_.Complex.normSq_eq_norm_sq]
      push_cast; ring_nf
    have X : ‖cval z / cval w‖ = ‖cval z‖ * ‖cval w‖ * (1 / ‖cval w‖ ^ 2) := by
      rw [norm_div]; field_simp
    have split : cval q - cval z / cval w = (cval q - cval p * (r.value : ℝ)) +
        (cval p - cval z * (starRingEnd ℂ) (cval w)) * (r.value : ℝ) +
        cval z * (starRingEnd ℂ) (cval w) * ((r.value : ℝ) - (1 / ‖cval w‖ ^ 2 : ℝ) : ℝ) := by
      rw [e]; push_cast; ring
    have d2 : ‖(cval p - cval z * (starRingEnd ℂ) (cval w)) * (r.value : ℝ)‖ ≤
        (2.42 * F.u * (‖cval z‖ * ‖cval w‖) + 3 * F.η) * (1.0001 * (1 / ‖cval w‖ ^ 2)) := by
      rw [norm_mul, _root_.Complex.norm_real, Real.norm_eq_abs, abs_of_nonneg s3]
      refine mul_le_mul (hpn.trans (add_le_add (mul_le_mul_of_nonneg_right cu zw0) cη)) s2 s3 (by positivity)
    have d3 : ‖cval z * (starRingEnd ℂ) (cval w) * ((r.value : ℝ) - (1 / ‖cval w‖ ^ 2 : ℝ) : ℝ)‖ ≤
        ‖cval z‖ * ‖cval w‖ * (3.03 * F.u * (1 / ‖cval w‖ ^ 2)) := by
      rw [norm_mul, norm_mul, _root_.Complex.norm_conj, _root_.Complex.norm_real, Real.norm_eq_abs]
      exact mul_le_mul_of_nonneg_left s1 zw0
    have d4 : ‖cval p * (r.value : ℝ)‖ ≤ (1.0001 * (‖cval z‖ * ‖cval w‖) + 3 * F.η) * (1.0001 * (1 / ‖cval w‖ ^ 2)) := by
      rw [norm_mul, _root_.Complex.norm_real, Real.norm_eq_abs, abs_of_nonneg s3]
      exact mul_le_mul pn s2 s3 (by positivity)
    have tri := (norm_add_le _ _).trans (add_le_add_left (norm_add_le (cval q - cval p * (r.value : ℝ))
      ((cval p - cval z * (starRingEnd ℂ) (cval w)) * (r.value : ℝ)))
      ‖cval z * (starRingEnd ℂ) (cval w) * ((r.value : ℝ) - (1 / ‖cval w‖ ^ 2 : ℝ) : ℝ)‖)
    rw [← split] at tri
    have q2 := sqrt_two_bounds.1
    have k1 := mul_le_mul_of_nonneg_left d4 u0.le
    have k2 : Real.sqrt 2 * F.η ≤ 1.415 * F.η := mul_le_mul_of_nonneg_right q2 η0.le
    have k3 : 3 * F.η * (1.0001 * (1 / ‖cval w‖ ^ 2)) ≤ 4 * F.η := by
      have := mul_le_mul_of_nonneg_left (show 1.0001 * (1 / ‖cval w‖ ^ 2) ≤ 1.3 by linarith) (show 0 ≤ 3 * (F.η : ℝ) by positivity)
      linarith
    have k4 : F.u * (3 * F.η * (1.0001 * (1 / ‖cval w‖ ^ 2))) ≤ 1 * (4 * F.η) := by
      have : 0 ≤ 3 * (F.η : ℝ) * (1.0001 * (1 / ‖cval w‖ ^ 2)) := by positivity
      exact mul_le_mul (by linarith) k3 this (by norm_num)
    have k5 : 0 ≤ F.u * (‖cval z‖ * ‖cval w‖ * (1 / ‖cval w‖ ^ 2)) := by positivity
    rw [X]
    linarith

end Magnesia
