import Verif.Proof.CPerturb
import Verif.Props.Libm
import Verif.Props.IeeeSqrtErr
import Verif.Proof.FormFloat

/-!
# C69: accuracy of any formula of complex functions
-/

namespace Magnesia

open RZero ROne

/-- Multiplication by a real number. -/
theorem scale_error {F : Fmt} (z : Complex (Ieee F)) (c : Ieee F) : ∃ r, z.mulScalar c = .ok r ∧ (CFinite r →
    ‖cval r - cval z * (c.value : ℝ)‖ ≤ F.u * ‖cval z * (c.value : ℝ)‖ + Real.sqrt 2 * F.η) := by
  refine ⟨⟨z.re.mul c, z.im.mul c⟩, rfl, fun ⟨h1, h2⟩ => ?_⟩
  have hu : (0 : ℝ) ≤ F.u := by exact_mod_cast F.u_pos.le
  have hη : (0 : ℝ) ≤ F.η := by exact_mod_cast F.η_pos.le
  have k1 := Ieee.mul_errR h1
  have k2 := Ieee.mul_errR h2
  exact norm_le_of_parts_add hu hη (by simpa [cval] using k1) (by simpa [cval] using k2)

variable {F : Fmt} [RExp (Ieee F)] [RSin (Ieee F)] [RCos (Ieee F)] [RSinh (Ieee F)] [RCosh (Ieee F)] [RLn (Ieee F)]
  [RAtan2 (Ieee F)] {ε θ : ℝ}

theorem CForm.got_ok {x : ℕ → Complex (Ieee F)} {f : CForm} {r : Complex (Ieee F)} (h : f.run x = .ok r) :
    f.got x = cval r := by
  unfold CForm.got; rw [h]

/-- An operation: its rounding error, and the error passed on. -/
theorem step_err {c e E : ℂ} {a b : ℝ} (h1 : ‖c - e‖ ≤ a) (h2 : ‖e - E‖ ≤ b) : ‖c - E‖ ≤ a + b := by
  have := norm_add_le (c - e) (e - E)
  rw [sub_add_sub_cancel] at this
  linarith

theorem sum_perturb {a A b B : ℂ} {d e : ℝ} (h1 : ‖a - A‖ ≤ d) (h2 : ‖b - B‖ ≤ e) : ‖a + b - (A + B)‖ ≤ d + e := by
  rw [add_sub_add_comm]; exact (norm_add_le _ _).trans (add_le_add h1 h2)

theorem diff_perturb {a A b B : ℂ} {d e : ℝ} (h1 : ‖a - A‖ ≤ d) (h2 : ‖b - B‖ ≤ e) : ‖a - b - (A - B)‖ ≤ d + e := by
  rw [sub_sub_sub_comm]; exact (norm_sub_le _ _).trans (add_le_add h1 h2)

theorem prod_perturb {a A b B : ℂ} {d e : ℝ} (h1 : ‖a - A‖ ≤ d) (h2 : ‖b - B‖ ≤ e) :
    ‖a * b - A * B‖ ≤ d * ‖b‖ + ‖a‖ * e + d * e := by
  have e1 : a * b - A * B = (a - A) * b + a * (b - B) - (a - A) * (b - B) := by ring
  rw [e1]
  refine (norm_sub_le _ _).trans (add_le_add ((norm_add_le _ _).trans (add_le_add ?_ ?_)) ?_)
  · rw [norm_mul]; exact mul_le_mul_of_nonneg_right h1 (norm_nonneg _)
  · rw [norm_mul]; exact mul_le_mul_of_nonneg_left h2 (norm_nonneg _)
  · rw [norm_mul]; exact mul_le_mul h1 h2 (norm_nonneg _) ((norm_nonneg _).trans h1)

theorem quot_perturb {a A b B : ℂ} {d e : ℝ} (h1 : ‖a - A‖ ≤ d) (h2 : ‖b - B‖ ≤ e) (h : e < ‖b‖) :
    ‖a / b - A / B‖ ≤ (d * ‖b‖ + ‖a‖ * e) / (‖b‖ * (‖b‖ - e)) := by
  have hb : 0 < ‖b‖ := ((norm_nonneg _).trans h2).trans_lt h
  have hB : ‖b‖ - e ≤ ‖B‖ := by have := norm_sub_norm_le b B; linarith
  have hB0 : 0 < ‖B‖ := by linarith
  have hb' := norm_pos_iff.1 hb
  have hB' := norm_pos_iff.1 hB0
  have e1 : a / b - A / B = ((a - A) * b - a * (b - B)) / (b * B) := by
    field_simp
    ring
  rw [e1, norm_div, norm_mul b B]
  have hn : ‖(a - A) * b - a * (b - B)‖ ≤ d * ‖b‖ + ‖a‖ * e := by
    refine (norm_sub_le _ _).trans (add_le_add ?_ ?_)
    · rw [norm_mul]; exact mul_le_mul_of_nonneg_right h1 (norm_nonneg _)
    · rw [norm_mul]; exact mul_le_mul_of_nonneg_left h2 (norm_nonneg _)
  exact div_le_div₀ ((norm_nonneg _).trans hn) hn (mul_pos hb (by linarith)) (mul_le_mul_of_nonneg_left hB hb.le)

/-- C69: for every library of scalar functions with relative error `ε` and absolute error `θ`: a safe formula of complex
functions, computed in floating point, gives a finite number within the running error bound of the true value. -/
theorem C69_formulas (hp : 8 ≤ F.p) (k : ℕ) (hk : 4 * k + F.p + 1 ≤ F.emax) (h : AccurateFns F ε θ) (h' : AccurateLog F ε θ)
    (x : ℕ → Complex (Ieee F)) (f : CForm) (hs : f.Safe k ε θ x) :
    ∃ r, f.run x = .ok r ∧ CFinite r ∧ ‖cval r - f.exact (fun i => cval (x i))‖ ≤ f.err ε θ x := by
  induction f with
  | var i => exact ⟨_, rfl, hs, by simp [CForm.exact, CForm.err]⟩
  | zero => exact ⟨_, rfl, ⟨trivial, trivial⟩, by simp [CForm.exact, CForm.err, cval, RZero.zero, Ieee.value, _root_.Complex.ext_iff]⟩
  | one =>
    refine ⟨_, rfl, ⟨trivial, trivial⟩, ?_⟩
    have : cval (one : Complex (Ieee F)) = 1 := by
      apply _root_.Complex.ext <;> simp [cval, ROne.one, RZero.zero, Ieee.value]
    simp [CForm.exact, CForm.err, this]
  | add a b iha ihb =>
    obtain ⟨h1, h2, h3⟩ := hs
    obtain ⟨p, ep, fp, bp⟩ := iha h1
    obtain ⟨q, eq, fq, bq⟩ := ihb h2
    obtain ⟨s, es, hs⟩ := C57_add_error p q
    have er : (CForm.add a b).run x = .ok s := by simp only [CForm.run, ep, eq]; exact es
    obtain ⟨_, _, l⟩ := hs (h3 s er)
    refine ⟨s, er, h3 s er, ?_⟩
    simp only [CForm.exact, CForm.err, CForm.got_ok ep, CForm.got_ok eq]
    exact step_err l (sum_perturb bp bq)
  | sub a b iha ihb =>
    obtain ⟨h1, h2, h3⟩ := hs
    obtain ⟨p, ep, fp, bp⟩ := iha h1
    obtain ⟨q, eq, fq, bq⟩ := ihb h2
    obtain ⟨s, es, hs⟩ := C57_sub_error p q
    have er : (CForm.sub a b).run x = .ok s := by simp only [CForm.run, ep, eq]; exact es
    obtain ⟨_, _, l⟩ := hs (h3 s er)
    refine ⟨s, er, h3 s er, ?_⟩
    simp only [CForm.exact, CForm.err, CForm.got_ok ep, CForm.got_ok eq]
    exact step_err l (diff_perturb bp bq)
  | mul a b iha ihb =>
    obtain ⟨h1, h2, h3⟩ := hs
    obtain ⟨p, ep, fp, bp⟩ := iha h1
    obtain ⟨q, eq, fq, bq⟩ := ihb h2
    obtain ⟨s, es, hs⟩ := C57_mul_error p q
    have er : (CForm.mul a b).run x = .ok s := by simp only [CForm.run, ep, eq]; exact es
    obtain ⟨_, _, l⟩ := hs (h3 s er)
    refine ⟨s, er, h3 s er, ?_⟩
    simp only [CForm.exact, CForm.err, CForm.got_ok ep, CForm.got_ok eq]
    exact step_err l (prod_perturb bp bq)
  | div a b iha ihb =>
    obtain ⟨h1, h2, h3, h4, h5⟩ := hs
    obtain ⟨p, ep, fp, bp⟩ := iha h1
    obtain ⟨q, eq, fq, bq⟩ := ihb h2
    rw [CForm.got_ok eq] at h5
    have hq0 : cval q ≠ 0 := norm_pos_iff.1 (((norm_nonneg _).trans bq).trans_lt h5)
    obtain ⟨s, es, fs, l⟩ := C57_div_error k hk p q (h3 p ep).1 (h3 p ep).2 (h4 q eq).1 (h4 q eq).2 hq0
    have er : (CForm.div a b).run x = .ok s := by simp only [CForm.run, ep, eq]; exact es
    refine ⟨s, er, fs, ?_⟩
    simp only [CForm.exact, CForm.err, CForm.got_ok ep, CForm.got_ok eq]
    exact step_err l (quot_perturb bp bq h5)
  | neg a iha =>
    obtain ⟨p, ep, fp, bp⟩ := iha hs
    refine ⟨⟨p.re.neg, p.im.neg⟩, by simp only [CForm.run, ep]; rfl, ⟨Ieee.neg_finite.2 fp.1, Ieee.neg_finite.2 fp.2⟩, ?_⟩
    have : cval (⟨p.re.neg, p.im.neg⟩ : Complex (Ieee F)) = -cval p := by
      apply _root_.Complex.ext <;> simp [cval, Ieee.neg_value]
    simp only [CForm.exact, CForm.err]
    rw [this, neg_sub_neg, norm_sub_rev]
    exact bp
  | conj a iha =>
    obtain ⟨p, ep, fp, bp⟩ := iha hs
    refine ⟨⟨p.re, p.im.neg⟩, by simp only [CForm.run, ep]; rfl, ⟨fp.1, Ieee.neg_finite.2 fp.2⟩, ?_⟩
    have : cval (⟨p.re, p.im.neg⟩ : Complex (Ieee F)) = (starRingEnd ℂ) (cval p) := by
      apply _root_.Complex.ext <;> simp [cval, Ieee.neg_value]
    simp only [CForm.exact, CForm.err]
    rw [this, ← map_sub, _root_.Complex.norm_conj]
    exact bp
  | scale a i iha =>
    obtain ⟨h1, h3⟩ := hs
    obtain ⟨p, ep, fp, bp⟩ := iha h1
    obtain ⟨s, es, hs⟩ := scale_error p (x i).re
    have er : (CForm.scale a i).run x = .ok s := by simp only [CForm.run, ep]; exact es
    refine ⟨s, er, h3 s er, ?_⟩
    simp only [CForm.exact, CForm.err, CForm.got_ok ep]
    refine step_err (hs (h3 s er)) ?_
    rw [show ((cval (x i)).re : ℝ) = ((x i).re.value : ℝ) from rfl, ← sub_mul, norm_mul, _root_.Complex.norm_real]
    exact mul_le_mul_of_nonneg_right bp (norm_nonneg _)
  | exp a iha =>
    obtain ⟨h1, h3⟩ := hs
    obtain ⟨p, ep, fp, bp⟩ := iha h1
    obtain ⟨s, es, _⟩ := C58_exp h p fp
    have er : (CForm.exp a).run x = .ok s := by simp only [CForm.run, ep]; exact es
    refine ⟨s, er, h3 s er, ?_⟩
    simp only [CForm.exact, CForm.err, CForm.got_ok ep]
    exact step_err (C58_exp_norm h p s fp es (h3 s er)) (exp_perturb bp)
  | sin a iha =>
    obtain ⟨h1, h3⟩ := hs
    obtain ⟨p, ep, fp, bp⟩ := iha h1
    obtain ⟨s, es, _⟩ := C58_sin h p fp
    have er : (CForm.sin a).run x = .ok s := by simp only [CForm.run, ep]; exact es
    refine ⟨s, er, h3 s er, ?_⟩
    simp only [CForm.exact, CForm.err, CForm.got_ok ep]
    exact step_err (C58_sin_norm h p s fp es (h3 s er)) (sin_perturb bp)
  | cos a iha =>
    obtain ⟨h1, h3⟩ := hs
    obtain ⟨p, ep, fp, bp⟩ := iha h1
    obtain ⟨s, es, _⟩ := C58_cos h p fp
    have er : (CForm.cos a).run x = .ok s := by simp only [CForm.run, ep]; exact es
    refine ⟨s, er, h3 s er, ?_⟩
    simp only [CForm.exact, CForm.err, CForm.got_ok ep]
    exact step_err (C58_cos_norm h p s fp es (h3 s er)) (cos_perturb bp)
  | sinh a iha =>
    obtain ⟨h1, h3⟩ := hs
    obtain ⟨p, ep, fp, bp⟩ := iha h1
    obtain ⟨s, es, _⟩ := C58_sinh h p fp
    have er : (CForm.sinh a).run x = .ok s := by simp only [CForm.run, ep]; exact es
    refine ⟨s, er, h3 s er, ?_⟩
    simp only [CForm.exact, CForm.err, CForm.got_ok ep]
    exact step_err (C58_sinh_norm h p s fp es (h3 s er)) (sinh_perturb bp)
  | cosh a iha =>
    obtain ⟨h1, h3⟩ := hs
    obtain ⟨p, ep, fp, bp⟩ := iha h1
    obtain ⟨s, es, _⟩ := C58_cosh h p fp
    have er : (CForm.cosh a).run x = .ok s := by simp only [CForm.run, ep]; exact es
    refine ⟨s, er, h3 s er, ?_⟩
    simp only [CForm.exact, CForm.err, CForm.got_ok ep]
    exact step_err (C58_cosh_norm h p s fp es (h3 s er)) (cosh_perturb bp)
  | ln a iha =>
    obtain ⟨h1, h2, h3, h4, h5⟩ := hs
    obtain ⟨p, ep, fp, bp⟩ := iha h1
    rw [CForm.got_ok ep] at h3 h4
    have hcut : cval p ∈ _root_.Complex.slitPlane := mem_slitPlane_of_cutDist (z := cval p) (by
      rw [sub_self, norm_zero]; exact ((norm_nonneg _).trans bp).trans_lt h4)
    obtain ⟨n, en⟩ : ∃ n, p.sqrNorm = .ok n := ⟨_, ieee_sqrNorm p⟩
    obtain ⟨s, es, l1, l2⟩ := C58_ln h' p n fp en (h2 p ep n en) hcut h3
    have er : (CForm.ln a).run x = .ok s := by simp only [CForm.run, ep]; exact es
    have fs := h5 s er
    refine ⟨s, er, fs, ?_⟩
    simp only [CForm.exact, CForm.err, CForm.got_ok ep]
    refine step_err ?_ (log_perturb bp h4)
    refine (_root_.Complex.norm_le_abs_re_add_abs_im _).trans (add_le_add ?_ ?_)
    · rw [_root_.Complex.sub_re]; exact l1 fs.1
    · rw [_root_.Complex.sub_im]; exact l2 fs.2
  | sqrt a iha =>
    obtain ⟨h1, h2, h3⟩ := hs
    obtain ⟨p, ep, fp, bp⟩ := iha h1
    rw [CForm.got_ok ep] at h3
    obtain ⟨s, w, es, w1, w2, w3, l1, l2⟩ := C56_sqrt_norm_error (by omega) k (by omega) p (h2 p ep).1 (h2 p ep).2
    obtain ⟨s', w', es', _, _, _, f1, f2, _⟩ := C56_sqrt_error (by omega) k (by omega) p (h2 p ep).1 (h2 p ep).2
    obtain rfl : s' = s := Except.ok.inj (es'.symm.trans es)
    have er : (CForm.sqrt a).run x = .ok s' := by simp only [CForm.run, ep]; exact es
    refine ⟨s', er, ⟨f1, f2⟩, ?_⟩
    obtain rfl := principal_root w1 w2 w3
    simp only [CForm.exact, CForm.err, CForm.got_ok ep]
    exact step_err l1 (sqrt_perturb bp h3)

/-- C69: two formulas that mean the same number: the computed numbers differ at most by the sum of the bounds. -/
theorem C69_two_ways (hp : 8 ≤ F.p) (k : ℕ) (hk : 4 * k + F.p + 1 ≤ F.emax) (h : AccurateFns F ε θ) (h' : AccurateLog F ε θ)
    (x : ℕ → Complex (Ieee F)) (f g : CForm) (hf : f.Safe k ε θ x) (hg : g.Safe k ε θ x)
    (he : f.exact (fun i => cval (x i)) = g.exact (fun i => cval (x i))) :
    ∃ p q, f.run x = .ok p ∧ g.run x = .ok q ∧ ‖cval p - cval q‖ ≤ f.err ε θ x + g.err ε θ x := by
  obtain ⟨p, ep, _, bp⟩ := C69_formulas hp k hk h h' x f hf
  obtain ⟨q, eq, _, bq⟩ := C69_formulas hp k hk h h' x g hg
  rw [← he, norm_sub_rev] at bq
  exact ⟨p, q, ep, eq, step_err bp bq⟩

/-- C69: `tan` is the formula `sin / cos`. -/
theorem C69_tan (x : ℕ → Complex (Ieee F)) (a : CForm) :
    a.tan.run x = (do (← a.run x).tan) ∧
      a.tan.exact (fun i => cval (x i)) = _root_.Complex.tan (a.exact (fun i => cval (x i))) := by
  refine ⟨?_, rfl⟩
  simp only [CForm.tan, CForm.run]
  cases a.run x with
  | error e => rfl
  | ok z => rfl

/-- C69: `exp(a + b)` and `exp(a) * exp(b)`. -/
theorem C69_exp_add (hp : 8 ≤ F.p) (k : ℕ) (hk : 4 * k + F.p + 1 ≤ F.emax) (h : AccurateFns F ε θ) (h' : AccurateLog F ε θ)
    (x : ℕ → Complex (Ieee F)) (a b : CForm) (h1 : (CForm.exp (.add a b)).Safe k ε θ x)
    (h2 : (CForm.mul (.exp a) (.exp b)).Safe k ε θ x) :
    ∃ p q, (CForm.exp (.add a b)).run x = .ok p ∧ (CForm.mul (.exp a) (.exp b)).run x = .ok q ∧
      ‖cval p - cval q‖ ≤ (CForm.exp (.add a b)).err ε θ x + (CForm.mul (.exp a) (.exp b)).err ε θ x :=
  C69_two_ways hp k hk h h' x _ _ h1 h2 (_root_.Complex.exp_add _ _)

/-- C69: `sin(a) * sin(a) + cos(a) * cos(a)` is near 1, and `cosh(a) * cosh(a) - sinh(a) * sinh(a)` is. -/
theorem C69_pythagoras (hp : 8 ≤ F.p) (k : ℕ) (hk : 4 * k + F.p + 1 ≤ F.emax) (h : AccurateFns F ε θ) (h' : AccurateLog F ε θ)
    (x : ℕ → Complex (Ieee F)) (a : CForm) :
    (∀ f : CForm, f = .add (.mul (.sin a) (.sin a)) (.mul (.cos a) (.cos a)) → f.Safe k ε θ x →
      ∃ p, f.run x = .ok p ∧ ‖cval p - 1‖ ≤ f.err ε θ x) ∧
    (∀ f : CForm, f = .sub (.mul (.cosh a) (.cosh a)) (.mul (.sinh a) (.sinh a)) → f.Safe k ε θ x →
      ∃ p, f.run x = .ok p ∧ ‖cval p - 1‖ ≤ f.err ε θ x) := by
  constructor
  · rintro f rfl hs
    obtain ⟨p, ep, _, bp⟩ := C69_formulas hp k hk h h' x _ hs
    refine ⟨p, ep, ?_⟩
    have e : ∀ z : ℂ, _root_.Complex.sin z * _root_.Complex.sin z + _root_.Complex.cos z * _root_.Complex.cos z = 1 := fun z => by
      have := _root_.Complex.sin_sq_add_cos_sq z
      rw [pow_two, pow_two] at this; exact this
    simp only [CForm.exact, e] at bp
    exact bp
  · rintro f rfl hs
    obtain ⟨p, ep, _, bp⟩ := C69_formulas hp k hk h h' x _ hs
    refine ⟨p, ep, ?_⟩
    have e : ∀ z : ℂ, _root_.Complex.cosh z * _root_.Complex.cosh z - _root_.Complex.sinh z * _root_.Complex.sinh z = 1 := fun z => by
      have := _root_.Complex.cosh_sq_sub_sinh_sq z
      rw [pow_two, pow_two] at this; exact this
    simp only [CForm.exact, e] at bp
    exact bp

/-- C69: `exp(ln(a))` and `a`. -/
theorem C69_exp_ln (hp : 8 ≤ F.p) (k : ℕ) (hk : 4 * k + F.p + 1 ≤ F.emax) (h : AccurateFns F ε θ) (h' : AccurateLog F ε θ)
    (x : ℕ → Complex (Ieee F)) (a : CForm) (hs : (CForm.exp (.ln a)).Safe k ε θ x) :
    ∃ p q, (CForm.exp (.ln a)).run x = .ok p ∧ a.run x = .ok q ∧
      ‖cval p - cval q‖ ≤ (CForm.exp (.ln a)).err ε θ x + a.err ε θ x := by
  obtain ⟨⟨h1, _, _, h4, _⟩, _⟩ := id hs
  refine C69_two_ways hp k hk h h' x _ _ hs h1 ?_
  obtain ⟨p, ep, _, bp⟩ := C69_formulas hp k hk h h' x a h1
  rw [CForm.got_ok ep] at h4
  rw [norm_sub_rev] at bp
  exact _root_.Complex.exp_log (_root_.Complex.slitPlane_ne_zero (mem_slitPlane_of_cutDist (bp.trans_lt h4)))

/-- C69: `sqrt(a) * sqrt(a)` and `a`. -/
theorem C69_sqrt_sq (hp : 8 ≤ F.p) (k : ℕ) (hk : 4 * k + F.p + 1 ≤ F.emax) (h : AccurateFns F ε θ) (h' : AccurateLog F ε θ)
    (x : ℕ → Complex (Ieee F)) (a : CForm) (hs : (CForm.mul (.sqrt a) (.sqrt a)).Safe k ε θ x) :
    ∃ p q, (CForm.mul (.sqrt a) (.sqrt a)).run x = .ok p ∧ a.run x = .ok q ∧
      ‖cval p - cval q‖ ≤ (CForm.mul (.sqrt a) (.sqrt a)).err ε θ x + a.err ε θ x := by
  refine C69_two_ways hp k hk h h' x _ _ hs hs.1.1 ?_
  simp only [CForm.exact]
  rw [← pow_two, show (1 / 2 : ℂ) = ((2 : ℕ) : ℂ)⁻¹ by norm_num]
  exact _root_.Complex.cpow_nat_inv_pow _ two_ne_zero

/-- C69: `(a * b) / b` and `a`. -/
theorem C69_mul_div (hp : 8 ≤ F.p) (k : ℕ) (hk : 4 * k + F.p + 1 ≤ F.emax) (h : AccurateFns F ε θ) (h' : AccurateLog F ε θ)
    (x : ℕ → Complex (Ieee F)) (a b : CForm) (hs : (CForm.div (.mul a b) b).Safe k ε θ x) :
    ∃ p q, (CForm.div (.mul a b) b).run x = .ok p ∧ a.run x = .ok q ∧
      ‖cval p - cval q‖ ≤ (CForm.div (.mul a b) b).err ε θ x + a.err ε θ x := by
  obtain ⟨⟨h1, _, _⟩, h2, _, _, h5⟩ := id hs
  refine C69_two_ways hp k hk h h' x _ _ hs h1 ?_
  obtain ⟨q, eq, _, bq⟩ := C69_formulas hp k hk h h' x b h2
  rw [CForm.got_ok eq] at h5
  have h0 : b.exact (fun i => cval (x i)) ≠ 0 := by
    intro h0
    rw [h0, sub_zero] at bq
    linarith
  exact mul_div_cancel_right₀ _ h0

end Magnesia
