import Verif.Spec.Libm
import Verif.Props.CxRound
import Verif.Props.IeeeSqrtErr
import Verif.Proof.IeeeMono
import Mathlib.Analysis.SpecialFunctions.Log.Basic
import Mathlib.Analysis.Complex.ExponentialBounds
import Mathlib.Analysis.SpecialFunctions.Trigonometric.Bounds
import Mathlib.Analysis.SpecialFunctions.Trigonometric.DerivHyp
import Verif.Proof.RealFns

/-!
# Property C58: complex functions are as accurate as the scalar functions they call
-/

namespace Magnesia

open RZero ROne MulRefs

variable {F : Fmt}

theorem nearProduct {ε θ : ℝ} (hε : 0 ≤ ε) (hθ : 0 ≤ θ) {a b : Ieee F} {x y : ℝ} (h : (a.mul b).Finite)
    (ha : |(a.value : ℝ) - x| ≤ ε * |x| + θ) (hb : |(b.value : ℝ) - y| ≤ ε * |y| + θ) :
    NearProduct F ε θ (a.mul b) x y := by
  have h1 := (Approx.exact x).round hε hθ ha
  have h2 := (Approx.exact y).round hε hθ hb
  have hu : (0 : ℝ) ≤ F.u := by exact_mod_cast F.u_pos.le
  have hη : (0 : ℝ) ≤ F.η := by exact_mod_cast F.η_pos.le
  have h3 : |((a.mul b).value : ℝ) - a.value * b.value| ≤ F.u * |(a.value : ℝ) * b.value| + F.η := by
    have := F.roundQ_err_any (a.value * b.value)
    rw [← (Ieee.mul_finite h).2.2] at this
    exact_mod_cast this
  have h4 := (h1.mul h2 hu hη h3).err
  unfold NearProduct
  rw [abs_mul]
  refine h4.trans (le_of_eq ?_)
  ring

theorem NearProduct.neg {ε θ : ℝ} {x : Ieee F} {a b : ℝ} (h : NearProduct F ε θ x a b) : NearProduct F ε θ x.neg (-a) b := by
  unfold NearProduct at *
  rw [Ieee.neg_value]
  push_cast
  rw [show -(x.value : ℝ) - -a * b = -((x.value : ℝ) - a * b) by ring, abs_neg, neg_mul, abs_neg, abs_neg]
  exact h


theorem norm_le_of_parts_add {e s : ℂ} {α k : ℝ} (hα : 0 ≤ α) (hk : 0 ≤ k) (h1 : |e.re| ≤ α * |s.re| + k)
    (h2 : |e.im| ≤ α * |s.im| + k) : ‖e‖ ≤ α * ‖s‖ + Real.sqrt 2 * k := by
  have h3 : ‖e‖ ≤ ‖(⟨α * |s.re| + k, α * |s.im| + k⟩ : ℂ)‖ := by
    have := norm_le_of_parts (e := e) (s := ⟨α * |s.re| + k, α * |s.im| + k⟩) zero_le_one
      (by rw [one_mul]; exact h1.trans (le_abs_self _)) (by rw [one_mul]; exact h2.trans (le_abs_self _))
    rwa [one_mul] at this
  have h4 : (⟨α * |s.re| + k, α * |s.im| + k⟩ : ℂ) = ⟨α * |s.re|, α * |s.im|⟩ + ⟨k, k⟩ := rfl
  rw [h4] at h3
  refine h3.trans ((norm_add_le _ _).trans (add_le_add ?_ ?_))
  · refine norm_le_of_parts hα ?_ ?_
    · exact le_of_eq (abs_of_nonneg (by positivity))
    · exact le_of_eq (abs_of_nonneg (by positivity))
  · exact norm_le_of_parts_le hk (le_of_eq (abs_of_nonneg hk)) (le_of_eq (abs_of_nonneg hk))

/-- From the parts to the norm. -/
theorem NearProduct.norm {ε θ : ℝ} (hε : 0 ≤ ε) (hθ : 0 ≤ θ) {r : Complex (Ieee F)} {a b c d M : ℝ}
    (h1 : NearProduct F ε θ r.re a b) (h2 : NearProduct F ε θ r.im c d) (hM : |a| + |b| ≤ M) (hM' : |c| + |d| ≤ M) {w : ℂ}
    (hw : w = ⟨a * b, c * d⟩) : ‖cval r - w‖ ≤ fnErr F ε θ M w := by
  have hu : (0 : ℝ) ≤ F.u := by exact_mod_cast F.u_pos.le
  have hη : (0 : ℝ) ≤ F.η := by exact_mod_cast F.η_pos.le
  have hM0 : 0 ≤ M := le_trans (by positivity) hM
  have hG : (0 : ℝ) ≤ (1 + ε) ^ 2 * (1 + F.u) := by positivity
  have key : ∀ s : ℝ, s ≤ M → (1 + ε) ^ 2 * (1 + F.u) * (θ ^ 2 + s * θ + F.η) ≤
      (1 + ε) ^ 2 * (1 + F.u) * (θ ^ 2 + M * θ + F.η) := fun s hs =>
    mul_le_mul_of_nonneg_left (by nlinarith) hG
  subst hw
  unfold fnErr
  refine norm_le_of_parts_add ?_ (by positivity) ?_ ?_
  · nlinarith [mul_nonneg hε hu, mul_nonneg (mul_nonneg hε hε) hu, mul_nonneg hε hε]
  · exact h1.trans (add_le_add le_rfl (key _ hM))
  · exact h2.trans (add_le_add le_rfl (key _ hM'))

section Fns

variable [RExp (Ieee F)] [RSin (Ieee F)] [RCos (Ieee F)] [RSinh (Ieee F)] [RCosh (Ieee F)] {ε θ : ℝ}

/-- C58: `exp`: each finite part is accurate. -/
theorem C58_exp (h : AccurateFns F ε θ) (z : Complex (Ieee F)) (hz : CFinite z) : ∃ r, z.exp = .ok r ∧
    (r.re.Finite → NearProduct F ε θ r.re (Real.exp z.re.value) (Real.cos z.im.value)) ∧
    (r.im.Finite → NearProduct F ε θ r.im (Real.exp z.re.value) (Real.sin z.im.value)) := by
  obtain ⟨e, he, he'⟩ := h.exp z.re
  obtain ⟨c, hc, hc'⟩ := h.cos z.im
  obtain ⟨s, hs, hs'⟩ := h.sin z.im
  refine ⟨⟨e.mul c, e.mul s⟩, ?_, fun hf => ?_, fun hf => ?_⟩
  · unfold Complex.exp; rw [he, hc, hs]; rfl
  · obtain ⟨f1, f2, _⟩ := Ieee.mul_finite hf
    exact nearProduct h.ε_nonneg h.θ_nonneg hf (he' hz.1 f1) (hc' hz.2 f2)
  · obtain ⟨f1, f2, _⟩ := Ieee.mul_finite hf
    exact nearProduct h.ε_nonneg h.θ_nonneg hf (he' hz.1 f1) (hs' hz.2 f2)

/-- C58: `sin`. -/
theorem C58_sin (h : AccurateFns F ε θ) (z : Complex (Ieee F)) (hz : CFinite z) : ∃ r, z.sin = .ok r ∧
    (r.re.Finite → NearProduct F ε θ r.re (Real.sin z.re.value) (Real.cosh z.im.value)) ∧
    (r.im.Finite → NearProduct F ε θ r.im (Real.cos z.re.value) (Real.sinh z.im.value)) := by
  obtain ⟨s, hs, hs'⟩ := h.sin z.re
  obtain ⟨c, hc, hc'⟩ := h.cos z.re
  obtain ⟨sh, hsh, hsh'⟩ := h.sinh z.im
  obtain ⟨ch, hch, hch'⟩ := h.cosh z.im
  refine ⟨⟨s.mul ch, c.mul sh⟩, ?_, fun hf => ?_, fun hf => ?_⟩
  · unfold Complex.sin; rw [hs, hc, hsh, hch]; rfl
  · obtain ⟨f1, f2, _⟩ := Ieee.mul_finite hf
    exact nearProduct h.ε_nonneg h.θ_nonneg hf (hs' hz.1 f1) (hch' hz.2 f2)
  · obtain ⟨f1, f2, _⟩ := Ieee.mul_finite hf
    exact nearProduct h.ε_nonneg h.θ_nonneg hf (hc' hz.1 f1) (hsh' hz.2 f2)

/-- C58: `cos`. -/
theorem C58_cos (h : AccurateFns F ε θ) (z : Complex (Ieee F)) (hz : CFinite z) : ∃ r, z.cos = .ok r ∧
    (r.re.Finite → NearProduct F ε θ r.re (Real.cos z.re.value) (Real.cosh z.im.value)) ∧
    (r.im.Finite → NearProduct F ε θ r.im (-Real.sin z.re.value) (Real.sinh z.im.value)) := by
  obtain ⟨s, hs, hs'⟩ := h.sin z.re
  obtain ⟨c, hc, hc'⟩ := h.cos z.re
  obtain ⟨sh, hsh, hsh'⟩ := h.sinh z.im
  obtain ⟨ch, hch, hch'⟩ := h.cosh z.im
  refine ⟨⟨c.mul ch, (s.mul sh).neg⟩, ?_, fun hf => ?_, fun hf => ?_⟩
  · unfold Complex.cos; rw [hs, hc, hsh, hch]; rfl
  · obtain ⟨f1, f2, _⟩ := Ieee.mul_finite hf
    exact nearProduct h.ε_nonneg h.θ_nonneg hf (hc' hz.1 f1) (hch' hz.2 f2)
  · have hf := Ieee.neg_finite.1 hf
    obtain ⟨f1, f2, _⟩ := Ieee.mul_finite hf
    exact (nearProduct h.ε_nonneg h.θ_nonneg hf (hs' hz.1 f1) (hsh' hz.2 f2)).neg

/-- C58: `sinh`. -/
theorem C58_sinh (h : AccurateFns F ε θ) (z : Complex (Ieee F)) (hz : CFinite z) : ∃ r, z.sinh = .ok r ∧
    (r.re.Finite → NearProduct F ε θ r.re (Real.sinh z.re.value) (Real.cos z.im.value)) ∧
    (r.im.Finite → NearProduct F ε θ r.im (Real.cosh z.re.value) (Real.sin z.im.value)) := by
  obtain ⟨s, hs, hs'⟩ := h.sin z.im
  obtain ⟨c, hc, hc'⟩ := h.cos z.im
  obtain ⟨sh, hsh, hsh'⟩ := h.sinh z.re
  obtain ⟨ch, hch, hch'⟩ := h.cosh z.re
  refine ⟨⟨sh.mul c, ch.mul s⟩, ?_, fun hf => ?_, fun hf => ?_⟩
  · unfold Complex.sinh; rw [hs, hc, hsh, hch]; rfl
  · obtain ⟨f1, f2, _⟩ := Ieee.mul_finite hf
    exact nearProduct h.ε_nonneg h.θ_nonneg hf (hsh' hz.1 f1) (hc' hz.2 f2)
  · obtain ⟨f1, f2, _⟩ := Ieee.mul_finite hf
    exact nearProduct h.ε_nonneg h.θ_nonneg hf (hch' hz.1 f1) (hs' hz.2 f2)

/-- C58: `cosh`. -/
theorem C58_cosh (h : AccurateFns F ε θ) (z : Complex (Ieee F)) (hz : CFinite z) : ∃ r, z.cosh = .ok r ∧
    (r.re.Finite → NearProduct F ε θ r.re (Real.cosh z.re.value) (Real.cos z.im.value)) ∧
    (r.im.Finite → NearProduct F ε θ r.im (Real.sinh z.re.value) (Real.sin z.im.value)) := by
  obtain ⟨s, hs, hs'⟩ := h.sin z.im
  obtain ⟨c, hc, hc'⟩ := h.cos z.im
  obtain ⟨sh, hsh, hsh'⟩ := h.sinh z.re
  obtain ⟨ch, hch, hch'⟩ := h.cosh z.re
  refine ⟨⟨ch.mul c, sh.mul s⟩, ?_, fun hf => ?_, fun hf => ?_⟩
  · unfold Complex.cosh; rw [hs, hc, hsh, hch]; rfl
  · obtain ⟨f1, f2, _⟩ := Ieee.mul_finite hf
    exact nearProduct h.ε_nonneg h.θ_nonneg hf (hch' hz.1 f1) (hc' hz.2 f2)
  · obtain ⟨f1, f2, _⟩ := Ieee.mul_finite hf
    exact nearProduct h.ε_nonneg h.θ_nonneg hf (hsh' hz.1 f1) (hs' hz.2 f2)

/-! ### In the norm -/

/-- Computing with real and imaginary parts. -/
macro "cparts" : tactic => `(tactic| (apply _root_.Complex.ext <;> simp only [_root_.Complex.add_re, _root_.Complex.add_im,
  _root_.Complex.sub_re, _root_.Complex.sub_im, _root_.Complex.mul_re, _root_.Complex.mul_im, _root_.Complex.I_re,
  _root_.Complex.I_im, _root_.Complex.sin_ofReal_re, _root_.Complex.sin_ofReal_im, _root_.Complex.cosh_ofReal_re,
  _root_.Complex.cosh_ofReal_im, _root_.Complex.cos_ofReal_re, _root_.Complex.cos_ofReal_im,
  _root_.Complex.sinh_ofReal_re, _root_.Complex.sinh_ofReal_im] <;> ring))

theorem sin_parts (z : ℂ) : _root_.Complex.sin z =
    ⟨Real.sin z.re * Real.cosh z.im, Real.cos z.re * Real.sinh z.im⟩ := by
  rw [_root_.Complex.sin_eq]; cparts

theorem cos_parts (z : ℂ) : _root_.Complex.cos z =
    ⟨Real.cos z.re * Real.cosh z.im, -Real.sin z.re * Real.sinh z.im⟩ := by
  rw [_root_.Complex.cos_eq]; cparts

theorem sinh_parts (z : ℂ) : _root_.Complex.sinh z =
    ⟨Real.sinh z.re * Real.cos z.im, Real.cosh z.re * Real.sin z.im⟩ := by
  conv_lhs => rw [← _root_.Complex.re_add_im z]
  rw [_root_.Complex.sinh_add, _root_.Complex.sinh_mul_I, _root_.Complex.cosh_mul_I]; cparts

theorem cosh_parts (z : ℂ) : _root_.Complex.cosh z =
    ⟨Real.cosh z.re * Real.cos z.im, Real.sinh z.re * Real.sin z.im⟩ := by
  conv_lhs => rw [← _root_.Complex.re_add_im z]
  rw [_root_.Complex.cosh_add, _root_.Complex.sinh_mul_I, _root_.Complex.cosh_mul_I]; cparts

theorem abs_sinh_le_cosh (x : ℝ) : |Real.sinh x| ≤ Real.cosh x := by
  exact abs_le.2 ⟨by linarith [Real.cosh_add_sinh x, Real.exp_pos x], (Real.sinh_lt_cosh x).le⟩

/-- C58: a finite result of `exp` is near the complex exponential. -/
theorem C58_exp_norm (h : AccurateFns F ε θ) (z r : Complex (Ieee F)) (hz : CFinite z) (he : z.exp = .ok r) (hr : CFinite r) :
    ‖cval r - _root_.Complex.exp (cval z)‖ ≤ fnErr F ε θ (Real.exp z.re.value + 1) (_root_.Complex.exp (cval z)) := by
  obtain ⟨r', hr', h1, h2⟩ := C58_exp h z hz
  obtain rfl : r' = r := Except.ok.inj (hr'.symm.trans he)
  refine NearProduct.norm h.ε_nonneg h.θ_nonneg (h1 hr.1) (h2 hr.2) ?_ ?_ ?_
  · rw [Real.abs_exp]; exact add_le_add le_rfl (Real.abs_cos_le_one _)
  · rw [Real.abs_exp]; exact add_le_add le_rfl (Real.abs_sin_le_one _)
  · exact _root_.Complex.ext (_root_.Complex.exp_re _) (_root_.Complex.exp_im _)

/-- C58: a finite result of `sin` is near the complex sine. -/
theorem C58_sin_norm (h : AccurateFns F ε θ) (z r : Complex (Ieee F)) (hz : CFinite z) (he : z.sin = .ok r) (hr : CFinite r) :
    ‖cval r - _root_.Complex.sin (cval z)‖ ≤ fnErr F ε θ (1 + Real.cosh z.im.value) (_root_.Complex.sin (cval z)) := by
  obtain ⟨r', hr', h1, h2⟩ := C58_sin h z hz
  obtain rfl : r' = r := Except.ok.inj (hr'.symm.trans he)
  refine NearProduct.norm h.ε_nonneg h.θ_nonneg (h1 hr.1) (h2 hr.2) ?_ ?_ (sin_parts _)
  · exact add_le_add (Real.abs_sin_le_one _) (abs_of_pos (Real.cosh_pos _)).le
  · exact add_le_add (Real.abs_cos_le_one _) (abs_sinh_le_cosh _)

/-- C58: a finite result of `cos` is near the complex cosine. -/
theorem C58_cos_norm (h : AccurateFns F ε θ) (z r : Complex (Ieee F)) (hz : CFinite z) (he : z.cos = .ok r) (hr : CFinite r) :
    ‖cval r - _root_.Complex.cos (cval z)‖ ≤ fnErr F ε θ (1 + Real.cosh z.im.value) (_root_.Complex.cos (cval z)) := by
  obtain ⟨r', hr', h1, h2⟩ := C58_cos h z hz
  obtain rfl : r' = r := Except.ok.inj (hr'.symm.trans he)
  refine NearProduct.norm h.ε_nonneg h.θ_nonneg (h1 hr.1) (h2 hr.2) ?_ ?_ (cos_parts _)
  · exact add_le_add (Real.abs_cos_le_one _) (abs_of_pos (Real.cosh_pos _)).le
  · rw [abs_neg]; exact add_le_add (Real.abs_sin_le_one _) (abs_sinh_le_cosh _)

/-- C58: a finite result of `sinh` is near the complex hyperbolic sine. -/
theorem C58_sinh_norm (h : AccurateFns F ε θ) (z r : Complex (Ieee F)) (hz : CFinite z) (he : z.sinh = .ok r)
    (hr : CFinite r) :
    ‖cval r - _root_.Complex.sinh (cval z)‖ ≤ fnErr F ε θ (Real.cosh z.re.value + 1) (_root_.Complex.sinh (cval z)) := by
  obtain ⟨r', hr', h1, h2⟩ := C58_sinh h z hz
  obtain rfl : r' = r := Except.ok.inj (hr'.symm.trans he)
  refine NearProduct.norm h.ε_nonneg h.θ_nonneg (h1 hr.1) (h2 hr.2) ?_ ?_ (sinh_parts _)
  · exact add_le_add (abs_sinh_le_cosh _) (Real.abs_cos_le_one _)
  · exact add_le_add (abs_of_pos (Real.cosh_pos _)).le (Real.abs_sin_le_one _)

/-- C58: a finite result of `cosh` is near the complex hyperbolic cosine. -/
theorem C58_cosh_norm (h : AccurateFns F ε θ) (z r : Complex (Ieee F)) (hz : CFinite z) (he : z.cosh = .ok r)
    (hr : CFinite r) :
    ‖cval r - _root_.Complex.cosh (cval z)‖ ≤ fnErr F ε θ (Real.cosh z.re.value + 1) (_root_.Complex.cosh (cval z)) := by
  obtain ⟨r', hr', h1, h2⟩ := C58_cosh h z hz
  obtain rfl : r' = r := Except.ok.inj (hr'.symm.trans he)
  refine NearProduct.norm h.ε_nonneg h.θ_nonneg (h1 hr.1) (h2 hr.2) ?_ ?_ (cosh_parts _)
  · exact add_le_add (abs_of_pos (Real.cosh_pos _)).le (Real.abs_cos_le_one _)
  · exact add_le_add (abs_sinh_le_cosh _) (Real.abs_sin_le_one _)

/-! ### tan -/

theorem quotient_error {q s c S C : ℂ} {k E E' : ℝ} (hk : 0 ≤ k) (hs : ‖s - S‖ ≤ E) (hc : ‖c - C‖ ≤ E') (hE' : E' < ‖C‖)
    (hq : ‖q - s / c‖ ≤ k * ‖s / c‖) : ‖q - S / C‖ ≤ (1 + k) * (‖S‖ + E) / (‖C‖ - E') - ‖S‖ / ‖C‖ := by
  have hE0 : 0 ≤ E' := (norm_nonneg _).trans hc
  have hE1 : 0 ≤ E := (norm_nonneg _).trans hs
  have hC : 0 < ‖C‖ := hE0.trans_lt hE'
  have hC0 : C ≠ 0 := norm_pos_iff.1 hC
  have h1 : ‖C‖ - E' ≤ ‖c‖ := by
    have := norm_sub_norm_le C c
    rw [norm_sub_rev] at this
    linarith
  have hd : 0 < ‖C‖ - E' := by linarith
  have hcp : 0 < ‖c‖ := hd.trans_le h1
  have hc0 : c ≠ 0 := norm_pos_iff.1 hcp
  have h2 : ‖s‖ ≤ ‖S‖ + E := by
    have := norm_sub_norm_le s S
    linarith
  have h3 : ‖s / c‖ ≤ (‖S‖ + E) / (‖C‖ - E') := by
    rw [norm_div]
    exact div_le_div₀ (by positivity) h2 hd h1
  have h4 : s / c - S / C = (s - S) / c + S / C * ((C - c) / c) := by field_simp; ring
  have h5 : ‖s / c - S / C‖ ≤ E / (‖C‖ - E') + ‖S‖ / ‖C‖ * (E' / (‖C‖ - E')) := by
    rw [h4]
    refine (norm_add_le _ _).trans (add_le_add ?_ ?_)
    · rw [norm_div]
      exact div_le_div₀ hE1 hs hd h1
    · rw [norm_mul, norm_div, norm_div, norm_sub_rev C c]
      exact mul_le_mul_of_nonneg_left (div_le_div₀ hE0 hc hd h1) (by positivity)
  have h6 : ‖q - S / C‖ ≤ ‖q - s / c‖ + ‖s / c - S / C‖ := by
    have := norm_add_le (q - s / c) (s / c - S / C)
    rwa [sub_add_sub_cancel] at this
  have h7 := mul_le_mul_of_nonneg_left h3 hk
  refine (h6.trans (add_le_add (hq.trans h7) h5)).trans (le_of_eq ?_)
  field_simp
  ring

/-- C58: `tan` computes the quotient of the computed sine and cosine. Unless their parts are so large or so small that the
division overflows or underflows, and unless the computed cosine may be zero, the result is near the complex tangent. -/
theorem C58_tan (h : AccurateFns F ε θ) (k : ℕ) (hk : 4 * k + F.p + 1 ≤ F.emax) (z s c : Complex (Ieee F)) (hz : CFinite z)
    (hs : z.sin = .ok s) (hc : z.cos = .ok c) (hsr : s.re.Between (-k) k) (hsi : s.im.Between (-k) k)
    (hcr : c.re.Between (-k) k) (hci : c.im.Between (-k) k)
    (hpole : fnErr F ε θ (1 + Real.cosh z.im.value) (_root_.Complex.cos (cval z)) < ‖_root_.Complex.cos (cval z)‖) :
    ∃ q, z.tan = .ok q ∧ CFinite q ∧ ‖cval q - _root_.Complex.tan (cval z)‖ ≤
      (1 + Real.sqrt 2 * ((1 + F.u) ^ 4 / (2 - (1 + F.u) ^ 2) - 1)) *
        (‖_root_.Complex.sin (cval z)‖ + fnErr F ε θ (1 + Real.cosh z.im.value) (_root_.Complex.sin (cval z))) /
        (‖_root_.Complex.cos (cval z)‖ - fnErr F ε θ (1 + Real.cosh z.im.value) (_root_.Complex.cos (cval z))) -
      ‖_root_.Complex.tan (cval z)‖ := by
  have e1 := C58_sin_norm h z s hz hs ⟨hsr.1, hsi.1⟩
  have e2 := C58_cos_norm h z c hz hc ⟨hcr.1, hci.1⟩
  have hc0 : cval c ≠ 0 := by
    intro h0
    rw [h0, zero_sub, norm_neg] at e2
    linarith
  obtain ⟨q, hq, hf, e3⟩ := C57_div_error k hk s c hsr hsi hcr hci hc0
  refine ⟨q, ?_, hf, ?_⟩
  · show (do RDiv.div (← z.sin) (← z.cos)) = _
    rw [hs, hc]; exact hq
  · rw [_root_.Complex.tan, norm_div]
    refine quotient_error ?_ e1 e2 hpole e3
    have hu : (0 : ℝ) ≤ F.u := by exact_mod_cast F.u_pos.le
    have hu4 : (F.u : ℝ) ≤ 1 / 4 := by
      have := F.u_le_quarter
      have : (F.u : ℝ) ≤ ((1 / 4 : ℚ) : ℝ) := by exact_mod_cast this
      norm_num at this ⊢; linarith
    refine mul_nonneg (Real.sqrt_nonneg 2) ?_
    rw [sub_nonneg, le_div_iff₀ (by nlinarith)]
    nlinarith [mul_nonneg hu hu, mul_nonneg (mul_nonneg hu hu) hu, mul_nonneg (mul_nonneg hu hu) (mul_nonneg hu hu)]

end Fns

/-! ### ln -/

variable {ε θ : ℝ}

theorem Ieee.one_add_one : (one : Ieee F).add one = .fin 2 two_ne_zero F.representable_two := by
  have h1 : (one : Ieee F).Finite := trivial
  rw [Ieee.fin_eq_round, Ieee.add_fin h1 h1]
  · congr 1
    show (1 : ℚ) + 1 = 2
    norm_num
  · show (1 : ℚ) + 1 ≠ 0
    norm_num

theorem sqrNorm_rel {z : Complex (Ieee F)} {s : Ieee F} (hs : z.sqrNorm = .ok s) (hf : s.Finite) (h0 : cval z ≠ 0) :
    |(s.value : ℝ) - ‖cval z‖ ^ 2| ≤ sqrNormErr F ‖cval z‖ * ‖cval z‖ ^ 2 := by
  have h := C49_ieee_sqr_norm_error z s hs hf
  have h1 : |(s.value : ℝ) - ((z.re.value : ℝ) ^ 2 + (z.im.value : ℝ) ^ 2)| ≤
      ((1 + F.u) ^ 2 - 1) * ((z.re.value : ℝ) ^ 2 + (z.im.value : ℝ) ^ 2) + (1 + F.u) ^ 2 * (2 * F.η) := by
    exact_mod_cast h
  have h2 : ‖cval z‖ ^ 2 = (z.re.value : ℝ) ^ 2 + (z.im.value : ℝ) ^ 2 := by
    rw [_root_.Complex.sq_norm, _root_.Complex.normSq_apply]
    show (z.re.value : ℝ) * z.re.value + (z.im.value : ℝ) * z.im.value = _
    ring
  rw [← h2] at h1
  have hn : 0 < ‖cval z‖ := norm_pos_iff.2 h0
  refine h1.trans (le_of_eq ?_)
  unfold sqrNormErr
  field_simp
  ring

theorem abs_log_le {t d : ℝ} (hd : d < 1) (h : |t - 1| ≤ d) : |Real.log t| ≤ d / (1 - d) := by
  obtain ⟨h1, h2⟩ := abs_le.1 h
  have ht : 0 < t := by linarith
  have hd0 : 0 ≤ d := (abs_nonneg _).trans h
  have h3 := Real.log_le_sub_one_of_pos ht
  have h4 := Real.one_sub_inv_le_log_of_pos ht
  have h5 : d ≤ d / (1 - d) := by rw [le_div_iff₀ (by linarith)]; nlinarith
  have h6 : t⁻¹ ≤ (1 - d)⁻¹ := inv_anti₀ (by linarith) (by linarith)
  have h7 : d / (1 - d) = (1 - d)⁻¹ - 1 := by
    have : 1 - d ≠ 0 := by linarith
    field_simp; ring
  rw [abs_le]
  constructor <;> linarith

/-- Half the logarithm of `|z|²`. -/
theorem half_log_near {z : Complex (Ieee F)} {s c : Ieee F} (hε : 0 ≤ ε) (hs : z.sqrNorm = .ok s) (hf : s.Finite)
    (h0 : cval z ≠ 0) (hd : sqrNormErr F ‖cval z‖ < 1)
    (hc' : s.Finite → 0 < s.value → c.Finite → |(c.value : ℝ) - Real.log s.value| ≤ ε * |Real.log s.value| + θ)
    (hr : (c.div (.fin 2 two_ne_zero F.representable_two)).Finite) :
    |((c.div (.fin 2 two_ne_zero F.representable_two)).value : ℝ) - Real.log ‖cval z‖| ≤
        ((1 + F.u) * (1 + ε) - 1) * |Real.log ‖cval z‖| +
        (1 + F.u) * (1 + ε) / 2 * (sqrNormErr F ‖cval z‖ / (1 - sqrNormErr F ‖cval z‖)) + (1 + F.u) * θ / 2 + F.η := by
  have hn : 0 < ‖cval z‖ := norm_pos_iff.2 h0
  have e1 := sqrNorm_rel hs hf h0
  have hN : (0 : ℝ) < ‖cval z‖ ^ 2 := by positivity
  have e2 : |(s.value : ℝ) / ‖cval z‖ ^ 2 - 1| ≤ sqrNormErr F ‖cval z‖ := by
    rw [div_sub_one hN.ne', abs_div, abs_of_pos hN, div_le_iff₀ hN]
    exact e1
  have hsp : (0 : ℝ) < s.value := by
    have := (abs_le.1 e2).1
    have h3 : 0 < (s.value : ℝ) / ‖cval z‖ ^ 2 := by linarith
    exact (div_pos_iff_of_pos_right hN).1 h3
  have e3 := abs_log_le hd e2
  rw [Real.log_div hsp.ne' hN.ne', Real.log_pow] at e3
  have hcf : c.Finite := by
    cases c with
    | nan => exact hr.elim
    | inf => exact hr.elim
    | _ => trivial
  have e4 := hc' hf (by exact_mod_cast hsp) hcf
  obtain ⟨_, e5⟩ := Ieee.div_finite (b := .fin 2 two_ne_zero F.representable_two) hcf trivial hr
  have e6 := F.roundQ_err_any (c.value / 2)
  have e7 : |((c.div (.fin 2 two_ne_zero F.representable_two)).value : ℝ) - c.value / 2| ≤ F.u * |(c.value : ℝ) / 2| + F.η := by
    rw [e5]; exact_mod_cast e6
  have hu : (0 : ℝ) ≤ F.u := by exact_mod_cast F.u_pos.le
  set x : ℝ := ((c.div (.fin 2 two_ne_zero F.representable_two)).value : ℝ)
  set L := Real.log s.value
  set ℓ := Real.log ‖cval z‖
  set D := sqrNormErr F ‖cval z‖ / (1 - sqrNormErr F ‖cval z‖)
  have hL : |L| ≤ 2 * |ℓ| + D := by
    have : |L| ≤ |L - 2 * ℓ| + |2 * ℓ| := by
      have := abs_add_le (L - 2 * ℓ) (2 * ℓ); rwa [sub_add_cancel] at this
    rw [abs_mul, abs_two] at this
    push_cast at e3
    linarith
  have hcL : |(c.value : ℝ)| ≤ (1 + ε) * |L| + θ := by
    have := abs_add_le ((c.value : ℝ) - L) L
    rw [sub_add_cancel] at this
    linarith
  have ht : |x - ℓ| ≤ |x - c.value / 2| + |(c.value : ℝ) - L| / 2 + |L - 2 * ℓ| / 2 := by
    have h1 := abs_add_three (x - c.value / 2) (((c.value : ℝ) - L) / 2) ((L - 2 * ℓ) / 2)
    rw [abs_div, abs_div, abs_two] at h1
    refine le_trans (le_of_eq ?_) h1
    congr 1; ring
  rw [abs_div, abs_two] at e7
  push_cast at e3
  have k1 := mul_le_mul_of_nonneg_left hcL hu
  have k2 := mul_le_mul_of_nonneg_left hL (show 0 ≤ (1 + (F.u : ℝ)) * (1 + ε) - 1 by nlinarith [mul_nonneg hu hε])
  nlinarith

/-- C58: `ln`. If `|z|²` neither overflows nor underflows much, finite parts of the result are near the logarithm of the
absolute value and the argument. The real part has a small absolute error, not a small relative error. -/
theorem C58_ln [RLn (Ieee F)] [RAtan2 (Ieee F)] (h : AccurateLog F ε θ) (z : Complex (Ieee F)) (s : Ieee F)
    (hz : CFinite z) (hs : z.sqrNorm = .ok s) (hf : s.Finite) (hcut : cval z ∈ _root_.Complex.slitPlane)
    (hd : sqrNormErr F ‖cval z‖ < 1) :
    ∃ r, z.ln = .ok r ∧
      (r.re.Finite → |(r.re.value : ℝ) - (_root_.Complex.log (cval z)).re| ≤
        ((1 + F.u) * (1 + ε) - 1) * |(_root_.Complex.log (cval z)).re| +
        (1 + F.u) * (1 + ε) / 2 * (sqrNormErr F ‖cval z‖ / (1 - sqrNormErr F ‖cval z‖)) + (1 + F.u) * θ / 2 + F.η) ∧
      (r.im.Finite → |(r.im.value : ℝ) - (_root_.Complex.log (cval z)).im| ≤
        ε * |(_root_.Complex.log (cval z)).im| + θ) := by
  obtain ⟨c, hc, hc'⟩ := h.ln s
  obtain ⟨t, ht, ht'⟩ := h.atan2 z.im z.re
  have h0 : cval z ≠ 0 := _root_.Complex.slitPlane_ne_zero hcut
  refine ⟨⟨c.div (.fin 2 two_ne_zero F.representable_two), t⟩, ?_, fun hr => ?_, fun hi => by
    rw [_root_.Complex.log_im]; exact ht' hz.2 hz.1 hcut hi⟩
  · have e1 : (AddAssignRef.addAssign (one : Ieee F) one).toRes = .ok (.fin 2 two_ne_zero F.representable_two) :=
      congrArg Except.ok Ieee.one_add_one
    unfold Complex.ln
    rw [e1, hs]
    show (do
      let re ← RDiv.div (← RLn.ln s) (.fin 2 two_ne_zero F.representable_two : Ieee F)
      let im ← RAtan2.atan2 z.im z.re
      pure (⟨re, im⟩ : Complex (Ieee F))) = _
    rw [hc, ht]; rfl
  · rw [_root_.Complex.log_re]
    exact half_log_near h.ε_nonneg hs hf h0 hd hc' hr

/-- C58: the bound used in `C58_ln` is about `4 u` as soon as `|z|²` is at least the smallest normal number. -/
theorem C58_sqrNormErr_normal (r : ℝ) (hr : (2 : ℝ) ^ F.emin ≤ r ^ 2) :
    sqrNormErr F r ≤ (1 + F.u) ^ 2 * (1 + 2 * F.u) - 1 := by
  have hp : (0 : ℝ) < 2 ^ F.emin := by positivity
  have hu : (0 : ℝ) ≤ F.u := by exact_mod_cast F.u_pos.le
  have h1 : (F.η : ℝ) = F.u * 2 ^ F.emin := by
    have : F.η = F.u * 2 ^ F.emin := by
      unfold Fmt.η Fmt.u
      rw [← zpow_add₀ (by norm_num)]
      congr 1; ring
    rw [this]; push_cast; rfl
  have h2 : 2 * (F.η : ℝ) / r ^ 2 ≤ 2 * F.u := by
    rw [div_le_iff₀ (hp.trans_le hr), h1]
    nlinarith
  unfold sqrNormErr
  have : (0 : ℝ) ≤ (1 + F.u) ^ 2 := by positivity
  nlinarith

/-! ### The hypotheses can be met

A library that returns, for every function, a correctly rounded rational approximation of the true value. -/

/-- The floating point number nearest to a rational number within `η` of `y`. -/
noncomputable def roundReal (F : Fmt) (y : ℝ) : Ieee F :=
  Ieee.round (Classical.choose (exists_rat_btwn (show y < y + F.η by
    have : (0 : ℝ) < F.η := by exact_mod_cast F.η_pos
    linarith)))

theorem roundReal_spec (y : ℝ) : ∃ q : ℚ, roundReal F y = Ieee.round q ∧ y < q ∧ (q : ℝ) < y + F.η :=
  ⟨_, rfl, Classical.choose_spec (exists_rat_btwn (show y < y + F.η by
    have : (0 : ℝ) < F.η := by exact_mod_cast F.η_pos
    linarith))⟩

theorem roundReal_err {y : ℝ} (h : (roundReal F y).Finite) :
    |((roundReal F y).value : ℝ) - y| ≤ F.u * |y| + 3 * F.η := by
  obtain ⟨q, h1, h2, h3⟩ := roundReal_spec (F := F) y
  rw [h1] at h ⊢
  have hu : (0 : ℝ) ≤ F.u := by exact_mod_cast F.u_pos.le
  have hu1 : (F.u : ℝ) ≤ 1 := by
    have : F.u ≤ 1 := F.u_le_quarter.trans (by norm_num)
    exact_mod_cast this
  have hη : (0 : ℝ) < F.η := by exact_mod_cast F.η_pos
  have h4 := F.roundQ_err_any q
  rw [← Ieee.round_finite h] at h4
  have h5 : |((Ieee.round q : Ieee F).value : ℝ) - q| ≤ F.u * |(q : ℝ)| + F.η := by exact_mod_cast h4
  have h6 : |(q : ℝ) - y| ≤ F.η := abs_le.2 ⟨by linarith, by linarith⟩
  have h7 : |(q : ℝ)| ≤ |y| + F.η := by
    have := abs_add_le ((q : ℝ) - y) y
    rw [sub_add_cancel] at this
    linarith
  have h8 := abs_add_le (((Ieee.round q : Ieee F).value : ℝ) - q) ((q : ℝ) - y)
  rw [sub_add_sub_cancel] at h8
  nlinarith [mul_le_mul_of_nonneg_left h7 hu]

/-- Moderate numbers do not overflow. -/
theorem roundReal_le {y : ℝ} {k : ℤ} (hk : F.emin ≤ k) (hk' : k ≤ F.emax) (h : |y| + 1 ≤ 2 ^ k) :
    (roundReal F y).Finite ∧ |(roundReal F y).value| ≤ 2 ^ k := by
  obtain ⟨q, h1, h2, h3⟩ := roundReal_spec (F := F) y
  have hη : (F.η : ℝ) ≤ 1 := by
    have : F.η ≤ 1 := zpow_le_one_of_nonpos₀ (by norm_num) (by
      have := F.p_le_emax; have := F.two_le_p; unfold Fmt.emin; omega)
    exact_mod_cast this
  have h4 : |(q : ℝ)| ≤ 2 ^ k := by
    obtain ⟨a, b⟩ := abs_le.1 (le_refl |y|)
    exact abs_le.2 ⟨by linarith, by linarith⟩
  have h5 : |q| ≤ 2 ^ k := by
    have : ((|q| : ℚ) : ℝ) ≤ ((2 ^ k : ℚ) : ℝ) := by push_cast; exact h4
    exact_mod_cast this
  have h6 := F.abs_roundQ_le hk h5
  have hf : (Ieee.round q : Ieee F).Finite := Ieee.round_finite_iff.2
    (h6.trans_lt (zpow_lt_zpow_right₀ (by norm_num) (by omega)))
  rw [h1, Ieee.round_finite hf]
  exact ⟨hf, h6⟩

section Example

noncomputable local instance : RExp (Ieee F) := ⟨fun a => .ok (roundReal F (Real.exp a.value))⟩
noncomputable local instance : RSin (Ieee F) := ⟨fun a => .ok (roundReal F (Real.sin a.value))⟩
noncomputable local instance : RCos (Ieee F) := ⟨fun a => .ok (roundReal F (Real.cos a.value))⟩
noncomputable local instance : RSinh (Ieee F) := ⟨fun a => .ok (roundReal F (Real.sinh a.value))⟩
noncomputable local instance : RCosh (Ieee F) := ⟨fun a => .ok (roundReal F (Real.cosh a.value))⟩
noncomputable local instance : RLn (Ieee F) := ⟨fun a => .ok (roundReal F (Real.log a.value))⟩
noncomputable local instance : RAtan2 (Ieee F) := ⟨fun y x => .ok (roundReal F (_root_.Complex.arg ⟨x.value, y.value⟩))⟩

/-- Such a library has the relative error `u` and the absolute error `3 η` (which matters for subnormal results only). -/
theorem accurateFns_example : AccurateFns F F.u (3 * F.η) where
  ε_nonneg := by exact_mod_cast F.u_pos.le
  θ_nonneg := by have : (0 : ℝ) < F.η := by exact_mod_cast F.η_pos
                 linarith
  exp _ := ⟨_, rfl, fun _ h => roundReal_err h⟩
  sin _ := ⟨_, rfl, fun _ h => roundReal_err h⟩
  cos _ := ⟨_, rfl, fun _ h => roundReal_err h⟩
  sinh _ := ⟨_, rfl, fun _ h => roundReal_err h⟩
  cosh _ := ⟨_, rfl, fun _ h => roundReal_err h⟩

theorem accurateLog_example : AccurateLog F F.u (3 * F.η) where
  ε_nonneg := by exact_mod_cast F.u_pos.le
  θ_nonneg := by have : (0 : ℝ) < F.η := by exact_mod_cast F.η_pos
                 linarith
  ln _ := ⟨_, rfl, fun _ _ h => roundReal_err h⟩
  atan2 _ _ := ⟨_, rfl, fun _ _ _ h => roundReal_err h⟩

theorem mul_finite_of_le {a b : Ieee F} {k l : ℤ} (ha : a.Finite ∧ |a.value| ≤ 2 ^ k) (hb : b.Finite ∧ |b.value| ≤ 2 ^ l)
    (h1 : F.emin ≤ k + l) (h2 : k + l ≤ F.emax) : (a.mul b).Finite := by
  rw [Ieee.mul_finite_iff ha.1 hb.1]
  refine (F.abs_roundQ_le h1 (x := a.value * b.value) ?_).trans_lt (zpow_lt_zpow_right₀ (by norm_num) (by omega))
  rw [abs_mul, zpow_add₀ (by norm_num)]
  exact mul_le_mul ha.2 hb.2 (abs_nonneg _) (by positivity)

/-- With it, `exp (1 + 2i)` is finite. -/
example : ∃ r, (⟨f64 1, f64 2⟩ : Complex _).exp = .ok r ∧ CFinite r := by
  have h1 : (f64 1).value = 1 := by decide +kernel
  refine ⟨_, rfl, ?_, ?_⟩ <;> refine mul_finite_of_le (k := 2) (l := 1) (roundReal_le ?_ ?_ ?_) (roundReal_le ?_ ?_ ?_) ?_ ?_
  any_goals (norm_num [Fmt.emin, Fmt.f64]; done)
  · have := Real.exp_one_lt_d9
    rw [h1, Rat.cast_one, Real.abs_exp]; norm_num at this ⊢; linarith
  · have := Real.abs_cos_le_one (((f64 2).value : ℚ) : ℝ)
    norm_num at this ⊢; linarith
  · have := Real.exp_one_lt_d9
    rw [h1, Rat.cast_one, Real.abs_exp]; norm_num at this ⊢; linarith
  · have := Real.abs_sin_le_one (((f64 2).value : ℚ) : ℝ)
    norm_num at this ⊢; linarith

/-- The hypotheses of `C58_ln` for `z = 1 + 2i`. -/
theorem ln_example : (⟨f64 1, f64 2⟩ : Complex _).sqrNorm = .ok (f64 5) ∧ CFinite (⟨f64 1, f64 2⟩ : Complex _) ∧ (f64 5).Finite ∧
    cval ⟨f64 1, f64 2⟩ ∈ _root_.Complex.slitPlane ∧ sqrNormErr Fmt.f64 ‖cval ⟨f64 1, f64 2⟩‖ < 1 := by
  have h1 : (f64 1).value = 1 := by decide +kernel
  have h2 : (f64 2).value = 2 := by decide +kernel
  refine ⟨by decide +kernel, by decide +kernel, by decide +kernel, .inl ?_, ?_⟩
  · show (0 : ℝ) < ((f64 1).value : ℝ)
    rw [h1]; norm_num
  · have h3 : ‖cval ⟨f64 1, f64 2⟩‖ ^ 2 = 5 := by
      rw [_root_.Complex.sq_norm, _root_.Complex.normSq_apply]
      show ((f64 1).value : ℝ) * (f64 1).value + ((f64 2).value : ℝ) * (f64 2).value = 5
      rw [h1, h2]; norm_num
    refine (C58_sqrNormErr_normal _ ?_).trans_lt ?_
    · rw [h3]
      have : (2 : ℝ) ^ Fmt.f64.emin ≤ 1 := zpow_le_one_of_nonpos₀ (by norm_num) (by norm_num [Fmt.emin, Fmt.f64])
      linarith
    · norm_num [Fmt.u, Fmt.f64]

theorem roundReal_between {y : ℝ} {lo hi : ℤ} (hlo : F.emin ≤ lo) (hhi : hi ≤ F.emax) (h1 : 2 ^ lo ≤ y) (h2 : y + 1 ≤ 2 ^ hi) :
    (roundReal F y).Between lo hi ∧ (roundReal F y).value ≠ 0 := by
  obtain ⟨q, e, h3, h4⟩ := roundReal_spec (F := F) y
  have hη : (F.η : ℝ) ≤ 1 := by
    have : F.η ≤ 1 := zpow_le_one_of_nonpos₀ (by norm_num) (by
      have := F.p_le_emax; have := F.two_le_p; unfold Fmt.emin; omega)
    exact_mod_cast this
  have hp : (0 : ℝ) < 2 ^ lo := by positivity
  have hq : 0 < q := by
    have : (0 : ℝ) < q := by linarith
    exact_mod_cast this
  rw [e]
  refine Ieee.round_between hlo hhi ?_ ?_ <;> rw [abs_of_pos hq]
  · have : (((2 : ℚ) ^ lo : ℚ) : ℝ) ≤ (q : ℝ) := by push_cast; linarith
    exact_mod_cast this
  · have : (q : ℝ) ≤ (((2 : ℚ) ^ hi : ℚ) : ℝ) := by push_cast; linarith
    exact_mod_cast this

theorem mul_between_pos {a b : Ieee F} {lo hi : ℤ} (ha : a.Between lo hi ∧ a.value ≠ 0) (hb : b.Between lo hi ∧ b.value ≠ 0)
    (h1 : F.emin ≤ lo + lo) (h2 : hi + hi ≤ F.emax) : (a.mul b).Between (lo + lo) (hi + hi) := by
  rw [Ieee.mul_fin ha.2 hb.2]
  obtain ⟨a1, a2⟩ := ha.1.2.resolve_left ha.2
  obtain ⟨b1, b2⟩ := hb.1.2.resolve_left hb.2
  refine (Ieee.round_between h1 h2 ?_ ?_).1 <;> rw [abs_mul, zpow_add₀ (by norm_num)]
  · exact mul_le_mul a1 b1 (by positivity) (abs_nonneg _)
  · exact mul_le_mul a2 b2 (abs_nonneg _) (by positivity)

/-- The hypotheses of `C58_tan` for `z = 1 + i`, with `k = 4`. -/
theorem tan_example : ∃ s c : Complex (Ieee Fmt.f64), (⟨f64 1, f64 1⟩ : Complex _).sin = .ok s ∧ (⟨f64 1, f64 1⟩ : Complex _).cos = .ok c ∧
    s.re.Between (-(4 : ℕ)) (4 : ℕ) ∧ s.im.Between (-(4 : ℕ)) (4 : ℕ) ∧ c.re.Between (-(4 : ℕ)) (4 : ℕ) ∧
    c.im.Between (-(4 : ℕ)) (4 : ℕ) ∧
    fnErr Fmt.f64 Fmt.f64.u (3 * Fmt.f64.η) (1 + Real.cosh (f64 1).value) (_root_.Complex.cos (cval ⟨f64 1, f64 1⟩)) <
      ‖_root_.Complex.cos (cval ⟨f64 1, f64 1⟩)‖ := by
  have h1 : (f64 1).value = 1 := by decide +kernel
  have e1 := Real.exp_one_lt_d9
  have c1 : (1 / 2 : ℝ) ≤ Real.cos 1 := by have := Real.one_sub_sq_div_two_le_cos (x := 1); norm_num at this ⊢; linarith
  have c2 := Real.cos_le_one 1
  have s1 : (1 / 2 : ℝ) ≤ Real.sin 1 := by
    have := Real.sin_gt_sub_cube (x := 1) (by norm_num); norm_num at this ⊢; linarith
  have s2 := Real.sin_le_one 1
  have sh1 : (1 : ℝ) ≤ Real.sinh 1 := Real.self_le_sinh_iff.2 (by norm_num)
  have ch1 : (1 : ℝ) ≤ Real.cosh 1 := Real.one_le_cosh 1
  have ch2 := Real.cosh_add_sinh 1
  have em : Fmt.f64.emin ≤ -1 := by norm_num [Fmt.emin, Fmt.f64]
  have eM : (2 : ℤ) ≤ Fmt.f64.emax := by norm_num [Fmt.f64]
  have bt : ∀ y : ℝ, 1 / 2 ≤ y → y ≤ 2 → (roundReal Fmt.f64 y).Between (-1) 2 ∧ (roundReal Fmt.f64 y).value ≠ 0 := fun y a b =>
    roundReal_between em eM (by norm_num; linarith) (by norm_num; linarith)
  have pr : ∀ x y : ℝ, 1 / 2 ≤ x → x ≤ 2 → 1 / 2 ≤ y → y ≤ 2 →
      ((roundReal Fmt.f64 x).mul (roundReal Fmt.f64 y)).Between (-(4 : ℕ)) (4 : ℕ) := fun x y a b c d =>
    (mul_between_pos (bt x a b) (bt y c d) (by norm_num [Fmt.emin, Fmt.f64]) (by norm_num [Fmt.f64])).mono (by norm_num) (by norm_num)
  have v1 : (((f64 1).value : ℚ) : ℝ) = 1 := by rw [h1]; norm_num
  refine ⟨_, _, rfl, rfl, ?_, ?_, ?_, ?_, ?_⟩
  · exact pr _ _ (by rw [v1]; linarith) (by rw [v1]; linarith) (by rw [v1]; linarith) (by rw [v1]; linarith)
  · exact pr _ _ (by rw [v1]; linarith) (by rw [v1]; linarith) (by rw [v1]; linarith) (by rw [v1]; linarith)
  · exact pr _ _ (by rw [v1]; linarith) (by rw [v1]; linarith) (by rw [v1]; linarith) (by rw [v1]; linarith)
  · have := pr (Real.sin (f64 1).value) (Real.sinh (f64 1).value) (by rw [v1]; linarith) (by rw [v1]; linarith)
      (by rw [v1]; linarith) (by rw [v1]; linarith)
    refine ⟨Ieee.neg_finite.2 this.1, ?_⟩
    have h := this.2
    rw [← abs_neg, ← Ieee.neg_value, ← neg_eq_zero, ← Ieee.neg_value] at h
    exact h
  · have hn : (1 / 2 : ℝ) ≤ ‖_root_.Complex.cos (cval ⟨f64 1, f64 1⟩)‖ := by
      refine le_trans ?_ (_root_.Complex.abs_re_le_norm _)
      rw [cos_parts]
      show _ ≤ |Real.cos ((f64 1).value : ℝ) * Real.cosh ((f64 1).value : ℝ)|
      rw [v1]
      refine le_trans ?_ (le_abs_self _)
      nlinarith
    set n := ‖_root_.Complex.cos (cval ⟨f64 1, f64 1⟩)‖
    have hu : (Fmt.f64.u : ℝ) = 1 / 2 ^ 53 := by norm_num [Fmt.u, Fmt.f64]
    have hη : (Fmt.f64.η : ℝ) ≤ 1 / 2 ^ 53 := by
      have : Fmt.f64.η ≤ (2 : ℚ) ^ (-53 : ℤ) := zpow_le_zpow_right₀ (by norm_num) (by norm_num [Fmt.emin, Fmt.f64])
      have h2 : (Fmt.f64.η : ℝ) ≤ (((2 : ℚ) ^ (-53 : ℤ) : ℚ) : ℝ) := by exact_mod_cast this
      refine h2.trans (le_of_eq ?_)
      norm_num
    have hη0 : (0 : ℝ) < Fmt.f64.η := by exact_mod_cast Fmt.f64.η_pos
    have hr : Real.sqrt 2 ≤ 2 := Real.sqrt_le_left (by norm_num) |>.2 (by norm_num)
    have hr0 := Real.sqrt_nonneg 2
    unfold fnErr
    rw [hu, v1]
    set η := (Fmt.f64.η : ℝ)
    have k1 : (3 * η) ^ 2 + (1 + Real.cosh 1) * (3 * η) + η ≤ 1 / 2 ^ 20 := by
      have : Real.cosh 1 ≤ 2 := by linarith
      have : (1 + Real.cosh 1) * (3 * η) ≤ 3 * (3 * (1 / 2 ^ 53)) :=
        mul_le_mul (by linarith) (by linarith) (by linarith) (by norm_num)
      have : (3 * η) ^ 2 ≤ (3 * (1 / 2 ^ 53)) ^ 2 := pow_le_pow_left₀ (by linarith) (by linarith) 2
      norm_num at *
      linarith
    have k0 : 0 ≤ (3 * η) ^ 2 + (1 + Real.cosh 1) * (3 * η) + η := by
      have : 0 ≤ (1 + Real.cosh 1) * (3 * η) := mul_nonneg (by linarith) (by linarith)
      nlinarith [sq_nonneg (3 * η)]
    have k2 : Real.sqrt 2 * ((1 + 1 / 2 ^ 53) ^ 2 * (1 + 1 / 2 ^ 53) * ((3 * η) ^ 2 + (1 + Real.cosh 1) * (3 * η) + η)) ≤
        2 * (2 * (1 / 2 ^ 20)) := by
      refine mul_le_mul hr (mul_le_mul (by norm_num) k1 k0 (by norm_num)) (mul_nonneg (by norm_num) k0) (by norm_num)
    have k3 : ((1 + 1 / 2 ^ 53) ^ 2 * (1 + 1 / 2 ^ 53) - 1) * n ≤ 1 / 2 ^ 20 * n :=
      mul_le_mul_of_nonneg_right (by norm_num) (by linarith)
    norm_num at *
    linarith

end Example

end Magnesia
