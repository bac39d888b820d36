import Verif.Spec.Euler
import Verif.Props.LnCheck

/-!
# Euler's formulas in floating point arithmetic
-/

namespace Magnesia

open RZero ROne

variable {F : Fmt}

/-! ### Exact operations -/

theorem Ieee.mul_exact {a b : Ieee F} (ha : a.Finite) (hb : b.Finite) (h : F.Representable (a.value * b.value)) :
    (a.mul b).Finite ∧ (a.mul b).value = a.value * b.value := by
  have hf := (mul_finite_iff ha hb).2 (by rw [F.roundQ_representable h]; exact h.2)
  exact ⟨hf, by rw [(mul_finite hf).2.2, F.roundQ_representable h]⟩

theorem Ieee.add_exact {a b : Ieee F} (ha : a.Finite) (hb : b.Finite) (h : F.Representable (a.value + b.value)) :
    (a.add b).Finite ∧ (a.add b).value = a.value + b.value := by
  have hf := (add_finite_iff ha hb).2 (by rw [F.roundQ_representable h]; exact h.2)
  exact ⟨hf, by rw [(add_finite hf).2.2, F.roundQ_representable h]⟩

theorem Ieee.sub_exact {a b : Ieee F} (ha : a.Finite) (hb : b.Finite) (h : F.Representable (a.value - b.value)) :
    (a.sub b).Finite ∧ (a.sub b).value = a.value - b.value := by
  have hf := (sub_finite_iff ha hb).2 (by rw [F.roundQ_representable h]; exact h.2)
  exact ⟨hf, by rw [(sub_finite hf).2.2, F.roundQ_representable h]⟩

/-- A product by a number of value 0, 1 or -1. -/
theorem Ieee.mul_unit {a b : Ieee F} (ha : a.Finite) (hb : b.Finite) (h : a.value = 0 ∨ a.value = 1 ∨ a.value = -1) :
    (a.mul b).Finite ∧ (a.mul b).value = a.value * b.value := by
  refine mul_exact ha hb ?_
  rcases h with h | h | h <;> rw [h]
  · rw [MulZeroClass.zero_mul]; exact Ieee.Fmt.representable_zero F
  · rw [_root_.one_mul]; exact value_representable b
  · rw [neg_one_mul]; exact F.representable_neg (value_representable b)

/-- Multiplication by `i` or `-i` is exact. -/
theorem mul_i {i z : Complex (Ieee F)} (hi : CFinite i) (h0 : i.re.value = 0) (h1 : i.im.value = 1 ∨ i.im.value = -1)
    (hz : CFinite z) : ∃ w, i.mul z = .ok w ∧ CFinite w ∧ w.re.value = -(i.im.value * z.im.value) ∧
      w.im.value = i.im.value * z.re.value := by
  obtain ⟨f1, g1⟩ := Ieee.mul_unit hi.1 hz.1 (.inl h0)
  obtain ⟨f2, g2⟩ := Ieee.mul_unit hi.1 hz.2 (.inl h0)
  obtain ⟨f3, g3⟩ := Ieee.mul_unit hi.2 hz.1 (.inr h1)
  obtain ⟨f4, g4⟩ := Ieee.mul_unit hi.2 hz.2 (.inr h1)
  rw [h0, zero_mul] at g1 g2
  obtain ⟨f5, g5⟩ := Ieee.sub_exact f1 f4 (by
    rw [g1, zero_sub]; exact F.representable_neg (Ieee.value_representable _))
  obtain ⟨f6, g6⟩ := Ieee.add_exact f2 f3 (by rw [g2, zero_add]; exact Ieee.value_representable _)
  rw [g1, zero_sub, g4] at g5
  rw [g2, zero_add, g3] at g6
  exact ⟨_, rfl, ⟨f5, f6⟩, g5, g6⟩

theorem roundQ_half_err {x : ℚ} (h : F.Representable x) : |F.roundQ (x / 2) - x / 2| ≤ F.η := by
  by_cases hx : 2 ^ (F.emin + 1) ≤ |x|
  · rw [F.roundQ_representable (h.halve hx), sub_self, abs_zero]; exact F.η_pos.le
  · refine F.roundQ_err_tiny ?_
    rw [abs_div, abs_two]
    rw [not_le, zpow_add_one₀ (by norm_num)] at hx
    linarith

/-- Doubling and division by 4. -/
theorem Ieee.half_near {a r : Ieee F} (ha : a.Finite) (hr : r.Finite) (hr4 : r.value = 1 / 4) {x : ℚ}
    (hx : F.Representable x) (h : a.value = x * 2) : (a.mul r).Finite ∧ |(a.mul r).value - x / 2| ≤ F.η := by
  have e : a.value * r.value = x / 2 := by rw [h, hr4]; ring
  have hf : (a.mul r).Finite := (mul_finite_iff ha hr).2 (by
    rw [e]
    have h1 : |F.roundQ (x / 2)| ≤ |F.roundQ x| := F.abs_roundQ_mono (by
      rw [abs_div, _root_.abs_two]
      have := abs_nonneg x
      linarith)
    rw [F.roundQ_representable hx] at h1
    exact h1.trans_lt hx.2)
  refine ⟨hf, ?_⟩
  rw [(mul_finite hf).2.2, e]
  exact roundQ_half_err hx

theorem Fmt.representable_four (hp : 20 ≤ F.p) : F.Representable 4 := by
  have := F.representable_zpow (e := 2) (by unfold Fmt.emin; have := F.p_le_emax; omega) (by have := F.p_le_emax; omega)
  norm_num at this
  exact this

/-- The reciprocal of the square norm of a divisor of value `2` or `2i`. -/
theorem rcp_four (hp : 20 ≤ F.p) {w : Complex (Ieee F)} (hw : CFinite w)
    (h : w.re.value = 2 ∧ w.im.value = 0 ∨ w.re.value = 0 ∧ w.im.value = 2) :
    ((one : Ieee F).div ((w.re.mul w.re).add (w.im.mul w.im))).Finite ∧
      ((one : Ieee F).div ((w.re.mul w.re).add (w.im.mul w.im))).value = 1 / 4 := by
  have hpe := F.p_le_emax
  have r4 := Fmt.representable_four (F := F) hp
  have sq : ∀ a : Ieee F, a.Finite → a.value = 2 ∨ a.value = 0 → (a.mul a).Finite ∧ (a.mul a).value = a.value * a.value := by
    intro a ha h
    refine Ieee.mul_exact ha ha ?_
    rcases h with h | h <;> rw [h] <;> norm_num
    · exact r4
    · exact Ieee.Fmt.representable_zero F
  obtain ⟨f1, g1⟩ := sq w.re hw.1 (by tauto)
  obtain ⟨f2, g2⟩ := sq w.im hw.2 (by tauto)
  have e : (w.re.mul w.re).value + (w.im.mul w.im).value = 4 := by
    rw [g1, g2]
    rcases h with ⟨h1, h2⟩ | ⟨h1, h2⟩ <;> rw [h1, h2] <;> norm_num
  obtain ⟨f3, g3⟩ := Ieee.add_exact f1 f2 (by rw [e]; exact r4)
  rw [e] at g3
  generalize (w.re.mul w.re).add (w.im.mul w.im) = s at *
  cases s with
  | nan => exact f3.elim
  | inf => exact f3.elim
  | zero => simp [Ieee.value] at g3
  | fin x h0 hr =>
    obtain rfl : x = 4 := g3
    have r : F.Representable (1 / 4) := by
      have := F.representable_zpow (e := -2) (by unfold Fmt.emin; omega) (by omega)
      norm_num at this ⊢
      exact this
    have hf : (Ieee.round (1 / 4) : Ieee F).Finite := Ieee.round_finite_iff.2 (by
      rw [F.roundQ_representable r]; exact r.2)
    exact ⟨hf, (Ieee.round_finite hf).trans (F.roundQ_representable r)⟩

/-- Division by `2` is exact up to underflow. -/
theorem div_two (hp : 20 ≤ F.p) {d w : Complex (Ieee F)} (hd : CFinite d) (hw : CFinite w) (h1 : w.re.value = 2)
    (h2 : w.im.value = 0) (hr : |d.re.value * 2| < 2 ^ (F.emax + 1)) (hi : |d.im.value * 2| < 2 ^ (F.emax + 1)) :
    ∃ b, d.div w = .ok b ∧ CFinite b ∧ |b.re.value - d.re.value / 2| ≤ F.η ∧ |b.im.value - d.im.value / 2| ≤ F.η := by
  obtain ⟨fr, gr⟩ := rcp_four hp hw (.inl ⟨h1, h2⟩)
  have rr := (Ieee.value_representable d.re).double hr
  have ri := (Ieee.value_representable d.im).double hi
  obtain ⟨f1, g1⟩ := Ieee.mul_exact hd.1 hw.1 (by rwa [h1])
  obtain ⟨f2, g2⟩ := Ieee.mul_exact hd.2 hw.1 (by rwa [h1])
  obtain ⟨f3, g3⟩ := Ieee.mul_exact hd.1 hw.2 (by rw [h2, mul_zero]; exact Ieee.Fmt.representable_zero F)
  obtain ⟨f4, g4⟩ := Ieee.mul_exact hd.2 hw.2 (by rw [h2, mul_zero]; exact Ieee.Fmt.representable_zero F)
  rw [h1] at g1 g2
  rw [h2, mul_zero] at g3 g4
  obtain ⟨f5, g5⟩ := Ieee.add_exact f1 f4 (by rw [g1, g4, add_zero]; exact rr)
  obtain ⟨f6, g6⟩ := Ieee.sub_exact f2 f3 (by rw [g2, g3, sub_zero]; exact ri)
  rw [g1, g4, add_zero] at g5
  rw [g2, g3, sub_zero] at g6
  obtain ⟨f7, g7⟩ := Ieee.half_near f5 fr gr (Ieee.value_representable d.re) g5
  obtain ⟨f8, g8⟩ := Ieee.half_near f6 fr gr (Ieee.value_representable d.im) g6
  exact ⟨_, rfl, ⟨f7, f8⟩, g7, g8⟩

/-- Division by `2i` is exact up to underflow. -/
theorem div_two_i (hp : 20 ≤ F.p) {d w : Complex (Ieee F)} (hd : CFinite d) (hw : CFinite w) (h1 : w.re.value = 0)
    (h2 : w.im.value = 2) (hr : |d.re.value * 2| < 2 ^ (F.emax + 1)) (hi : |d.im.value * 2| < 2 ^ (F.emax + 1)) :
    ∃ b, d.div w = .ok b ∧ CFinite b ∧ |b.re.value - d.im.value / 2| ≤ F.η ∧ |b.im.value - -d.re.value / 2| ≤ F.η := by
  obtain ⟨fr, gr⟩ := rcp_four hp hw (.inr ⟨h1, h2⟩)
  have rr := (Ieee.value_representable d.re).double hr
  have ri := (Ieee.value_representable d.im).double hi
  obtain ⟨f1, g1⟩ := Ieee.mul_exact hd.1 hw.1 (by rw [h1, mul_zero]; exact Ieee.Fmt.representable_zero F)
  obtain ⟨f2, g2⟩ := Ieee.mul_exact hd.2 hw.1 (by rw [h1, mul_zero]; exact Ieee.Fmt.representable_zero F)
  obtain ⟨f3, g3⟩ := Ieee.mul_exact hd.1 hw.2 (by rwa [h2])
  obtain ⟨f4, g4⟩ := Ieee.mul_exact hd.2 hw.2 (by rwa [h2])
  rw [h1, mul_zero] at g1 g2
  rw [h2] at g3 g4
  obtain ⟨f5, g5⟩ := Ieee.add_exact f1 f4 (by rw [g1, g4, zero_add]; exact ri)
  obtain ⟨f6, g6⟩ := Ieee.sub_exact f2 f3 (by rw [g2, g3, zero_sub]; exact F.representable_neg rr)
  rw [g1, g4, zero_add] at g5
  rw [g2, g3, zero_sub, ← neg_mul] at g6
  obtain ⟨f7, g7⟩ := Ieee.half_near f5 fr gr (Ieee.value_representable d.im) g5
  obtain ⟨f8, g8⟩ := Ieee.half_near f6 fr gr (F.representable_neg (Ieee.value_representable d.re)) g6
  exact ⟨_, rfl, ⟨f7, f8⟩, g7, g8⟩

/-! ### The complex functions -/

/-- A product of two computed factors. -/
theorem factors_near {ε θ : ℝ} (hε : 0 ≤ ε) (hθ : 0 ≤ θ) (hε' : ε ≤ 1 / 4) (hθ' : θ ≤ 1 / 4) {a b : Ieee F} {x y : ℝ}
    (ha : a.Finite) (hb : b.Finite) (h1 : |(a.value : ℝ) - x| ≤ ε * |x| + θ) (h2 : |(b.value : ℝ) - y| ≤ ε * |y| + θ)
    (h : 2 * ((|x| + 1) * (|y| + 1)) ≤ 2 ^ F.emax) : (a.mul b).Finite ∧ NearProduct F ε θ (a.mul b) x y := by
  have size : ∀ {c z : ℝ}, |c - z| ≤ ε * |z| + θ → |c| ≤ 5 / 4 * (|z| + 1) := by
    intro c z hc
    have h3 := abs_add_le (c - z) z
    rw [sub_add_cancel] at h3
    have h4 := mul_le_mul_of_nonneg_right hε' (abs_nonneg z)
    linarith
  have s1 := size h1
  have s2 := size h2
  have hf : (a.mul b).Finite := by
    refine Ieee.mul_small ha hb (le_of_real (x := a.value * b.value) ?_)
    push_cast
    rw [abs_mul]
    have h3 := mul_le_mul s1 s2 (abs_nonneg _) (by positivity)
    have h4 : 0 ≤ (|x| + 1) * (|y| + 1) := by positivity
    linarith
  exact ⟨hf, nearProduct hε hθ hf h1 h2⟩

theorem factors_near' {ε θ E : ℝ} (hε : 0 ≤ ε) (hθ : 0 ≤ θ) (hε' : ε ≤ 1 / 4) (hθ' : θ ≤ 1 / 4) {a b : Ieee F} {x y : ℝ}
    (ha : a.Finite) (hb : b.Finite) (h1 : |(a.value : ℝ) - x| ≤ ε * |x| + θ) (h2 : |(b.value : ℝ) - y| ≤ ε * |y| + θ)
    (hE : 1 ≤ E) (h : |x| ≤ 1 ∧ |y| ≤ E ∨ |x| ≤ E ∧ |y| ≤ 1) (h' : 8 * E ≤ 2 ^ F.emax) :
    (a.mul b).Finite ∧ NearProduct F ε θ (a.mul b) x y := by
  refine factors_near hε hθ hε' hθ' ha hb h1 h2 ?_
  rcases h with ⟨h3, h4⟩ | ⟨h3, h4⟩
  · have := mul_le_mul (show |x| + 1 ≤ 2 by linarith) (show |y| + 1 ≤ 2 * E by linarith) (by positivity) (by norm_num)
    linarith
  · have := mul_le_mul (show |x| + 1 ≤ 2 * E by linarith) (show |y| + 1 ≤ 2 by linarith) (by positivity) (by linarith)
    linarith

section Fns

variable [RExp (Ieee F)] [RSin (Ieee F)] [RCos (Ieee F)] [RSinh (Ieee F)] [RCosh (Ieee F)] {R ε θ : ℝ}

theorem abs_exp_le {R t : ℝ} (h : |t| ≤ R) : |Real.exp t| ≤ Real.exp R := by
  rw [Real.abs_exp]; exact Real.exp_le_exp.2 ((le_abs_self t).trans h)

theorem cosh_le_exp_abs (t : ℝ) : Real.cosh t ≤ Real.exp |t| := by
  rw [← Real.cosh_abs, Real.cosh_eq]
  have : Real.exp (-|t|) ≤ Real.exp |t| := Real.exp_le_exp.2 (by have := abs_nonneg t; linarith)
  linarith

theorem abs_cosh_le {R t : ℝ} (h : |t| ≤ R) : |Real.cosh t| ≤ Real.exp R := by
  rw [abs_of_pos (Real.cosh_pos t)]
  exact (cosh_le_exp_abs t).trans (Real.exp_le_exp.2 h)

theorem abs_sinh_le {R t : ℝ} (h : |t| ≤ R) : |Real.sinh t| ≤ Real.exp R :=
  (abs_sinh_le_cosh t).trans ((le_abs_self _).trans (abs_cosh_le h))

theorem exp_near (h : FnLib F R ε θ) (hε : ε ≤ 1 / 4) (hθ : θ ≤ 1 / 4) (hR : 8 * Real.exp R ≤ 2 ^ F.emax)
    {z : Complex (Ieee F)} (hz : CFinite z) (h1 : |(z.re.value : ℝ)| ≤ R) (h2 : |(z.im.value : ℝ)| ≤ R) :
    ∃ r, z.exp = .ok r ∧ CFinite r ∧
      ‖cval r - _root_.Complex.exp (cval z)‖ ≤ fnErr F ε θ (Real.exp z.re.value + 1) (_root_.Complex.exp (cval z)) := by
  obtain ⟨e, he, fe, he'⟩ := h.exp z.re hz.1 h1
  obtain ⟨c, hc, fc, hc'⟩ := h.cos z.im hz.2 h2
  obtain ⟨s, hs, fs, hs'⟩ := h.sin z.im hz.2 h2
  have hE : 1 ≤ Real.exp R := Real.one_le_exp ((abs_nonneg _).trans h1)
  obtain ⟨f1, n1⟩ := factors_near' h.ε_nonneg h.θ_nonneg hε hθ fe fc he' hc' hE
    (.inr ⟨abs_exp_le h1, Real.abs_cos_le_one _⟩) hR
  obtain ⟨f2, n2⟩ := factors_near' h.ε_nonneg h.θ_nonneg hε hθ fe fs he' hs' hE
    (.inr ⟨abs_exp_le h1, Real.abs_sin_le_one _⟩) hR
  refine ⟨⟨e.mul c, e.mul s⟩, ?_, ⟨f1, f2⟩, NearProduct.norm h.ε_nonneg h.θ_nonneg n1 n2 ?_ ?_ ?_⟩
  · unfold Complex.exp; rw [he, hc, hs]; rfl
  · rw [Real.abs_exp]; exact add_le_add le_rfl (Real.abs_cos_le_one _)
  · rw [Real.abs_exp]; exact add_le_add le_rfl (Real.abs_sin_le_one _)
  · exact _root_.Complex.ext (_root_.Complex.exp_re _) (_root_.Complex.exp_im _)

theorem sin_near (h : FnLib F R ε θ) (hε : ε ≤ 1 / 4) (hθ : θ ≤ 1 / 4) (hR : 8 * Real.exp R ≤ 2 ^ F.emax)
    {z : Complex (Ieee F)} (hz : CFinite z) (h1 : |(z.re.value : ℝ)| ≤ R) (h2 : |(z.im.value : ℝ)| ≤ R) :
    ∃ r, z.sin = .ok r ∧ CFinite r ∧
      ‖cval r - _root_.Complex.sin (cval z)‖ ≤ fnErr F ε θ (1 + Real.cosh z.im.value) (_root_.Complex.sin (cval z)) := by
  obtain ⟨s, hs, fs, hs'⟩ := h.sin z.re hz.1 h1
  obtain ⟨c, hc, fc, hc'⟩ := h.cos z.re hz.1 h1
  obtain ⟨sh, hsh, fsh, hsh'⟩ := h.sinh z.im hz.2 h2
  obtain ⟨ch, hch, fch, hch'⟩ := h.cosh z.im hz.2 h2
  have hE : 1 ≤ Real.exp R := Real.one_le_exp ((abs_nonneg _).trans h1)
  obtain ⟨f1, n1⟩ := factors_near' h.ε_nonneg h.θ_nonneg hε hθ fs fch hs' hch' hE
    (.inl ⟨Real.abs_sin_le_one _, abs_cosh_le h2⟩) hR
  obtain ⟨f2, n2⟩ := factors_near' h.ε_nonneg h.θ_nonneg hε hθ fc fsh hc' hsh' hE
    (.inl ⟨Real.abs_cos_le_one _, abs_sinh_le h2⟩) hR
  refine ⟨⟨s.mul ch, c.mul sh⟩, ?_, ⟨f1, f2⟩, NearProduct.norm h.ε_nonneg h.θ_nonneg n1 n2 ?_ ?_ (sin_parts _)⟩
  · unfold Complex.sin; rw [hs, hc, hsh, hch]; rfl
  · exact add_le_add (Real.abs_sin_le_one _) (abs_of_pos (Real.cosh_pos _)).le
  · exact add_le_add (Real.abs_cos_le_one _) (abs_sinh_le_cosh _)

theorem cos_near (h : FnLib F R ε θ) (hε : ε ≤ 1 / 4) (hθ : θ ≤ 1 / 4) (hR : 8 * Real.exp R ≤ 2 ^ F.emax)
    {z : Complex (Ieee F)} (hz : CFinite z) (h1 : |(z.re.value : ℝ)| ≤ R) (h2 : |(z.im.value : ℝ)| ≤ R) :
    ∃ r, z.cos = .ok r ∧ CFinite r ∧
      ‖cval r - _root_.Complex.cos (cval z)‖ ≤ fnErr F ε θ (1 + Real.cosh z.im.value) (_root_.Complex.cos (cval z)) := by
  obtain ⟨s, hs, fs, hs'⟩ := h.sin z.re hz.1 h1
  obtain ⟨c, hc, fc, hc'⟩ := h.cos z.re hz.1 h1
  obtain ⟨sh, hsh, fsh, hsh'⟩ := h.sinh z.im hz.2 h2
  obtain ⟨ch, hch, fch, hch'⟩ := h.cosh z.im hz.2 h2
  have hE : 1 ≤ Real.exp R := Real.one_le_exp ((abs_nonneg _).trans h1)
  obtain ⟨f1, n1⟩ := factors_near' h.ε_nonneg h.θ_nonneg hε hθ fc fch hc' hch' hE
    (.inl ⟨Real.abs_cos_le_one _, abs_cosh_le h2⟩) hR
  obtain ⟨f2, n2⟩ := factors_near' h.ε_nonneg h.θ_nonneg hε hθ fs fsh hs' hsh' hE
    (.inl ⟨Real.abs_sin_le_one _, abs_sinh_le h2⟩) hR
  refine ⟨⟨c.mul ch, (s.mul sh).neg⟩, ?_, ⟨f1, Ieee.neg_finite.2 f2⟩,
    NearProduct.norm h.ε_nonneg h.θ_nonneg n1 n2.neg ?_ ?_ (cos_parts _)⟩
  · unfold Complex.cos; rw [hs, hc, hsh, hch]; rfl
  · exact add_le_add (Real.abs_cos_le_one _) (abs_of_pos (Real.cosh_pos _)).le
  · rw [abs_neg]; exact add_le_add (Real.abs_sin_le_one _) (abs_sinh_le_cosh _)

theorem sinh_near (h : FnLib F R ε θ) (hε : ε ≤ 1 / 4) (hθ : θ ≤ 1 / 4) (hR : 8 * Real.exp R ≤ 2 ^ F.emax)
    {z : Complex (Ieee F)} (hz : CFinite z) (h1 : |(z.re.value : ℝ)| ≤ R) (h2 : |(z.im.value : ℝ)| ≤ R) :
    ∃ r, z.sinh = .ok r ∧ CFinite r ∧
      ‖cval r - _root_.Complex.sinh (cval z)‖ ≤ fnErr F ε θ (1 + Real.cosh z.re.value) (_root_.Complex.sinh (cval z)) := by
  obtain ⟨s, hs, fs, hs'⟩ := h.sin z.im hz.2 h2
  obtain ⟨c, hc, fc, hc'⟩ := h.cos z.im hz.2 h2
  obtain ⟨sh, hsh, fsh, hsh'⟩ := h.sinh z.re hz.1 h1
  obtain ⟨ch, hch, fch, hch'⟩ := h.cosh z.re hz.1 h1
  have hE : 1 ≤ Real.exp R := Real.one_le_exp ((abs_nonneg _).trans h1)
  obtain ⟨f1, n1⟩ := factors_near' h.ε_nonneg h.θ_nonneg hε hθ fsh fc hsh' hc' hE
    (.inr ⟨abs_sinh_le h1, Real.abs_cos_le_one _⟩) hR
  obtain ⟨f2, n2⟩ := factors_near' h.ε_nonneg h.θ_nonneg hε hθ fch fs hch' hs' hE
    (.inr ⟨abs_cosh_le h1, Real.abs_sin_le_one _⟩) hR
  refine ⟨⟨sh.mul c, ch.mul s⟩, ?_, ⟨f1, f2⟩, NearProduct.norm h.ε_nonneg h.θ_nonneg n1 n2 ?_ ?_ (sinh_parts _)⟩
  · unfold Complex.sinh; rw [hs, hc, hsh, hch]; rfl
  · rw [add_comm 1]; exact add_le_add (abs_sinh_le_cosh _) (Real.abs_cos_le_one _)
  · rw [add_comm 1]; exact add_le_add (abs_of_pos (Real.cosh_pos _)).le (Real.abs_sin_le_one _)

theorem cosh_near (h : FnLib F R ε θ) (hε : ε ≤ 1 / 4) (hθ : θ ≤ 1 / 4) (hR : 8 * Real.exp R ≤ 2 ^ F.emax)
    {z : Complex (Ieee F)} (hz : CFinite z) (h1 : |(z.re.value : ℝ)| ≤ R) (h2 : |(z.im.value : ℝ)| ≤ R) :
    ∃ r, z.cosh = .ok r ∧ CFinite r ∧
      ‖cval r - _root_.Complex.cosh (cval z)‖ ≤ fnErr F ε θ (1 + Real.cosh z.re.value) (_root_.Complex.cosh (cval z)) := by
  obtain ⟨s, hs, fs, hs'⟩ := h.sin z.im hz.2 h2
  obtain ⟨c, hc, fc, hc'⟩ := h.cos z.im hz.2 h2
  obtain ⟨sh, hsh, fsh, hsh'⟩ := h.sinh z.re hz.1 h1
  obtain ⟨ch, hch, fch, hch'⟩ := h.cosh z.re hz.1 h1
  have hE : 1 ≤ Real.exp R := Real.one_le_exp ((abs_nonneg _).trans h1)
  obtain ⟨f1, n1⟩ := factors_near' h.ε_nonneg h.θ_nonneg hε hθ fch fc hch' hc' hE
    (.inr ⟨abs_cosh_le h1, Real.abs_cos_le_one _⟩) hR
  obtain ⟨f2, n2⟩ := factors_near' h.ε_nonneg h.θ_nonneg hε hθ fsh fs hsh' hs' hE
    (.inr ⟨abs_sinh_le h1, Real.abs_sin_le_one _⟩) hR
  refine ⟨⟨ch.mul c, sh.mul s⟩, ?_, ⟨f1, f2⟩, NearProduct.norm h.ε_nonneg h.θ_nonneg n1 n2 ?_ ?_ (cosh_parts _)⟩
  · unfold Complex.cosh; rw [hs, hc, hsh, hch]; rfl
  · rw [add_comm 1]; exact add_le_add (abs_of_pos (Real.cosh_pos _)).le (Real.abs_cos_le_one _)
  · rw [add_comm 1]; exact add_le_add (abs_sinh_le_cosh _) (Real.abs_sin_le_one _)

end Fns

/-! ### Sums of exponentials -/

theorem u_quarter (F : Fmt) : (0 : ℝ) < F.u ∧ (F.u : ℝ) ≤ 1 / 4 := by
  refine ⟨by exact_mod_cast F.u_pos, ?_⟩
  have : ((F.u : ℚ) : ℝ) ≤ ((1 / 4 : ℚ) : ℝ) := by exact_mod_cast F.u_le_quarter
  norm_num at this ⊢; linarith

theorem η_le_one (F : Fmt) : (0 : ℝ) < F.η ∧ (F.η : ℝ) ≤ 1 := by
  refine ⟨by exact_mod_cast F.η_pos, ?_⟩
  have : F.η ≤ 1 := zpow_le_one_of_nonpos₀ (by norm_num) (by
    have := F.p_le_emax; have := F.two_le_p; unfold Fmt.emin; omega)
  exact_mod_cast this

theorem sqrt_two_bounds : Real.sqrt 2 ≤ 1.415 ∧ 0 ≤ Real.sqrt 2 :=
  ⟨Real.sqrt_le_left (by norm_num) |>.2 (by norm_num), Real.sqrt_nonneg 2⟩

theorem G_bounds {ε u : ℝ} (hε : 0 ≤ ε) (hε' : ε ≤ 1 / 4) (hu : 0 ≤ u) (hu' : u ≤ 1 / 4) :
    1 ≤ (1 + ε) ^ 2 * (1 + u) ∧ (1 + ε) ^ 2 * (1 + u) ≤ 2 := by
  have h1 : 1 ≤ (1 + ε) ^ 2 := one_le_pow₀ (by linarith)
  have h2 : (1 + ε) ^ 2 ≤ (1 + 1 / 4) ^ 2 := pow_le_pow_left₀ (by linarith) (by linarith) 2
  constructor
  · have := mul_le_mul h1 (show 1 ≤ 1 + u by linarith) zero_le_one (by positivity)
    linarith
  · have := mul_le_mul h2 (show 1 + u ≤ 1 + 1 / 4 by linarith) (by linarith) (by norm_num)
    norm_num at this
    linarith

theorem fnErr_size {ε θ M E : ℝ} (hε : 0 ≤ ε) (hε' : ε ≤ 1 / 4) (hθ : 0 ≤ θ) (hθ' : θ ≤ 1 / 4) {w : ℂ} (hE : 1 ≤ E)
    (hw : ‖w‖ ≤ E) (hM0 : 0 ≤ M) (hM : M ≤ 2 * E) : fnErr F ε θ M w ≤ 7 * E := by
  obtain ⟨u0, u1⟩ := u_quarter F
  obtain ⟨e0, e1⟩ := η_le_one F
  obtain ⟨s1, s0⟩ := sqrt_two_bounds
  obtain ⟨g1, g2⟩ := G_bounds hε hε' u0.le u1
  unfold fnErr
  generalize (1 + ε) ^ 2 * (1 + (F.u : ℝ)) = G at *
  have k1 : (G - 1) * ‖w‖ ≤ 1 * E := mul_le_mul (by linarith) hw (norm_nonneg _) (by norm_num)
  have k2 : θ ^ 2 ≤ 1 / 16 := by
    have := pow_le_pow_left₀ hθ hθ' 2
    norm_num at this ⊢; linarith
  have k3 : M * θ ≤ 2 * E * (1 / 4) := mul_le_mul hM hθ' hθ (by linarith)
  have k4 : θ ^ 2 + M * θ + F.η ≤ 1.6 * E := by linarith
  have k0 : 0 ≤ θ ^ 2 + M * θ + F.η := by positivity
  have k5 := mul_le_mul g2 k4 k0 (by norm_num)
  have k6 := mul_le_mul s1 k5 (by positivity) (by norm_num)
  linarith

theorem cadd_near {a b : Complex (Ieee F)} (ha : CFinite a) (hb : CFinite b) (h : 4 * (‖cval a‖ + ‖cval b‖) ≤ 2 ^ F.emax) :
    ∃ d, a.add b = .ok d ∧ CFinite d ∧ ‖cval d - (cval a + cval b)‖ ≤ F.u * ‖cval a + cval b‖ := by
  have n := norm_add_le (cval a) (cval b)
  have n0 := norm_nonneg (cval a + cval b)
  obtain ⟨f1, g1⟩ := Ieee.add_near ha.1 hb.1 ((_root_.Complex.abs_re_le_norm (cval a + cval b)).trans (by linarith)) le_rfl
  obtain ⟨f2, g2⟩ := Ieee.add_near ha.2 hb.2 ((_root_.Complex.abs_im_le_norm (cval a + cval b)).trans (by linarith)) le_rfl
  exact ⟨_, rfl, ⟨f1, f2⟩, norm_le_of_parts (u_quarter F).1.le g1 g2⟩

theorem csub_near {a b : Complex (Ieee F)} (ha : CFinite a) (hb : CFinite b) (h : 4 * (‖cval a‖ + ‖cval b‖) ≤ 2 ^ F.emax) :
    ∃ d, a.sub b = .ok d ∧ CFinite d ∧ ‖cval d - (cval a - cval b)‖ ≤ F.u * ‖cval a - cval b‖ := by
  have n := norm_sub_le (cval a) (cval b)
  have n0 := norm_nonneg (cval a - cval b)
  obtain ⟨f1, g1⟩ := Ieee.sub_near ha.1 hb.1 ((_root_.Complex.abs_re_le_norm (cval a - cval b)).trans (by linarith)) le_rfl
  obtain ⟨f2, g2⟩ := Ieee.sub_near ha.2 hb.2 ((_root_.Complex.abs_im_le_norm (cval a - cval b)).trans (by linarith)) le_rfl
  exact ⟨_, rfl, ⟨f1, f2⟩, norm_le_of_parts (u_quarter F).1.le g1 g2⟩

theorem double_lt {d : Complex (Ieee F)} (h : 2 * ‖cval d‖ ≤ 2 ^ F.emax) :
    |d.re.value * 2| < 2 ^ (F.emax + 1) ∧ |d.im.value * 2| < 2 ^ (F.emax + 1) := by
  have key : ∀ x : ℚ, |(x : ℝ)| ≤ ‖cval d‖ → |x * 2| < 2 ^ (F.emax + 1) := by
    intro x hx
    have h1 : |((x * 2 : ℚ) : ℝ)| ≤ 2 ^ F.emax := by
      push_cast
      rw [abs_mul, abs_two]
      linarith
    refine (le_of_real h1).trans_lt ?_
    exact zpow_lt_zpow_right₀ (by norm_num) (by omega)
  exact ⟨key _ (_root_.Complex.abs_re_le_norm (cval d)), key _ (_root_.Complex.abs_im_le_norm (cval d))⟩

/-- The error of a rounded sum of two approximations, divided by a number of absolute value 2. -/
theorem combine {u η δ₁ δ₂ : ℝ} {e₁ e₂ E₁ E₂ d b c : ℂ} (hu : 0 ≤ u) (hc : ‖c‖ = 2) (h1 : ‖e₁ - E₁‖ ≤ δ₁) (h2 : ‖e₂ - E₂‖ ≤ δ₂)
    (hd : ‖d - (e₁ + e₂)‖ ≤ u * ‖e₁ + e₂‖) (hb : ‖b - d / c‖ ≤ 2 * η) :
    ‖b - (E₁ + E₂) / c‖ ≤ (1 + u) * ((δ₁ + δ₂) / 2) + u * ‖(E₁ + E₂) / c‖ + 2 * η := by
  have hs : ‖(e₁ + e₂) - (E₁ + E₂)‖ ≤ δ₁ + δ₂ := by
    rw [show (e₁ + e₂) - (E₁ + E₂) = (e₁ - E₁) + (e₂ - E₂) by ring]
    exact (norm_add_le _ _).trans (add_le_add h1 h2)
  have hn : ‖e₁ + e₂‖ ≤ δ₁ + δ₂ + ‖E₁ + E₂‖ := by
    have := norm_add_le ((e₁ + e₂) - (E₁ + E₂)) (E₁ + E₂)
    rw [sub_add_cancel] at this
    linarith
  have hd' : ‖d - (E₁ + E₂)‖ ≤ (1 + u) * (δ₁ + δ₂) + u * ‖E₁ + E₂‖ := by
    have := norm_add_le (d - (e₁ + e₂)) ((e₁ + e₂) - (E₁ + E₂))
    rw [sub_add_sub_cancel] at this
    have := mul_le_mul_of_nonneg_left hn hu
    linarith
  have hq : ‖d / c - (E₁ + E₂) / c‖ ≤ (1 + u) * ((δ₁ + δ₂) / 2) + u * ‖(E₁ + E₂) / c‖ := by
    rw [← sub_div, norm_div, norm_div, hc]
    have := div_le_div_of_nonneg_right hd' (show (0 : ℝ) ≤ 2 by norm_num)
    refine this.trans (le_of_eq ?_)
    ring
  have := norm_add_le (b - d / c) (d / c - (E₁ + E₂) / c)
  rw [sub_add_sub_cancel] at this
  linarith

/-- Both exponentials together. -/
theorem fnErr_pair {ε θ t : ℝ} {E₁ E₂ w : ℂ} (h1 : ‖E₁‖ = Real.exp t) (h2 : ‖E₂‖ = Real.exp (-t)) :
    (1 + F.u) * ((fnErr F ε θ (Real.exp t + 1) E₁ + fnErr F ε θ (Real.exp (-t) + 1) E₂) / 2) + F.u * ‖w‖ + 2 * F.η =
      eulerErr F ε θ t w := by
  unfold fnErr eulerErr
  rw [h1, h2, Real.cosh_eq]
  ring

theorem norm_of_near {e E : ℂ} {A D : ℝ} (h : ‖e - E‖ ≤ A) (h' : ‖E‖ ≤ D) : ‖e‖ ≤ A + D := by
  have := norm_add_le (e - E) E
  rw [sub_add_cancel] at this
  linarith

/-- Sizes of the two computed exponentials. -/
theorem exps_size {R ε θ t : ℝ} (hε : 0 ≤ ε) (hε' : ε ≤ 1 / 4) (hθ : 0 ≤ θ) (hθ' : θ ≤ 1 / 4) (ht : |t| ≤ R)
    {e₁ e₂ E₁ E₂ : ℂ} (h1 : ‖E₁‖ = Real.exp t) (h2 : ‖E₂‖ = Real.exp (-t))
    (d1 : ‖e₁ - E₁‖ ≤ fnErr F ε θ (Real.exp t + 1) E₁) (d2 : ‖e₂ - E₂‖ ≤ fnErr F ε θ (Real.exp (-t) + 1) E₂) :
    ‖e₁‖ + ‖e₂‖ ≤ 16 * Real.exp R := by
  have hE : 1 ≤ Real.exp R := Real.one_le_exp ((abs_nonneg _).trans ht)
  have b1 : Real.exp t ≤ Real.exp R := Real.exp_le_exp.2 ((le_abs_self t).trans ht)
  have b2 : Real.exp (-t) ≤ Real.exp R := Real.exp_le_exp.2 ((neg_le_abs t).trans ht)
  have p1 := Real.exp_pos t
  have p2 := Real.exp_pos (-t)
  have s1 := norm_of_near (d1.trans (fnErr_size hε hε' hθ hθ' hE (h1.trans_le b1) (by linarith) (by linarith))) (h1.trans_le b1)
  have s2 := norm_of_near (d2.trans (fnErr_size hε hε' hθ hθ' hE (h2.trans_le b2) (by linarith) (by linarith))) (h2.trans_le b2)
  linarith

/-- The rounded sum is not too large to be doubled. -/
theorem sum_size {u S E : ℝ} {d s : ℂ} (hu : u ≤ 1 / 4) (h : ‖d - s‖ ≤ u * ‖s‖) (hs : ‖s‖ ≤ 16 * E) (hE : 64 * E ≤ S) (hE0 : 1 ≤ E) :
    2 * ‖d‖ ≤ S := by
  have h1 := norm_of_near h le_rfl
  have h2 := mul_le_mul_of_nonneg_right hu (norm_nonneg s)
  linarith

theorem part_norm {e : ℂ} {η : ℝ} (hη : 0 ≤ η) (h1 : |e.re| ≤ η) (h2 : |e.im| ≤ η) : ‖e‖ ≤ 2 * η := by
  refine (norm_le_of_parts_le hη h1 h2).trans (mul_le_mul_of_nonneg_right ?_ hη)
  linarith [sqrt_two_bounds.1]

theorem cval_near (b : Complex (Ieee F)) {x y : ℚ} {w : ℂ} (h1 : |b.re.value - x| ≤ F.η) (h2 : |b.im.value - y| ≤ F.η)
    (hw : w = ⟨x, y⟩) : ‖cval b - w‖ ≤ 2 * F.η := by
  subst hw
  refine part_norm (η_le_one F).1.le ?_ ?_
  · show |(b.re.value : ℝ) - x| ≤ _
    exact_mod_cast h1
  · show |(b.im.value : ℝ) - y| ≤ _
    exact_mod_cast h2

/-- `(e₁ - e₂) / 2i`. -/
theorem sub_div_two_i (hp : 20 ≤ F.p) {R ε θ t : ℝ} (hε : 0 ≤ ε) (hε' : ε ≤ 1 / 4) (hθ : 0 ≤ θ) (hθ' : θ ≤ 1 / 4) (ht : |t| ≤ R)
    (hR : 64 * Real.exp R ≤ 2 ^ F.emax) {e₁ e₂ w : Complex (Ieee F)} {E₁ E₂ : ℂ} (f1 : CFinite e₁) (f2 : CFinite e₂)
    (h1 : ‖E₁‖ = Real.exp t) (h2 : ‖E₂‖ = Real.exp (-t)) (d1 : ‖cval e₁ - E₁‖ ≤ fnErr F ε θ (Real.exp t + 1) E₁)
    (d2 : ‖cval e₂ - E₂‖ ≤ fnErr F ε θ (Real.exp (-t) + 1) E₂) (fw : CFinite w) (w1 : w.re.value = 0) (w2 : w.im.value = 2) :
    ∃ d b, e₁.sub e₂ = .ok d ∧ d.div w = .ok b ∧ CFinite b ∧
      ‖cval b - (E₁ - E₂) / (2 * _root_.Complex.I)‖ ≤ eulerErr F ε θ t ((E₁ - E₂) / (2 * _root_.Complex.I)) := by
  have hE : 1 ≤ Real.exp R := Real.one_le_exp ((abs_nonneg _).trans ht)
  have sz := exps_size (F := F) hε hε' hθ hθ' ht h1 h2 d1 d2
  obtain ⟨u0, u1⟩ := u_quarter F
  obtain ⟨d, ed, fd, hd⟩ := csub_near f1 f2 (by linarith)
  obtain ⟨q1, q2⟩ := double_lt (sum_size u1 hd ((norm_sub_le _ _).trans sz) hR hE)
  obtain ⟨b, eb, fb, b1, b2⟩ := div_two_i hp fd fw w1 w2 q1 q2
  refine ⟨d, b, ed, eb, fb, ?_⟩
  rw [← fnErr_pair h1 h2, sub_eq_add_neg E₁]
  refine combine (e₁ := cval e₁) (e₂ := -cval e₂) (d := cval d) u0.le (by simp) d1 ?_ ?_ ?_
  · rwa [neg_sub_neg, norm_sub_rev]
  · rw [← sub_eq_add_neg]; exact hd
  · exact cval_near b (x := d.im.value / 2) (y := -d.re.value / 2) b1 b2 (by
      rw [div_mul_eq_div_div, _root_.Complex.div_I]
      apply _root_.Complex.ext <;> simp [cval] ; ring)

/-- `(e₁ - e₂) / 2`. -/
theorem sub_div_two (hp : 20 ≤ F.p) {R ε θ t : ℝ} (hε : 0 ≤ ε) (hε' : ε ≤ 1 / 4) (hθ : 0 ≤ θ) (hθ' : θ ≤ 1 / 4) (ht : |t| ≤ R)
    (hR : 64 * Real.exp R ≤ 2 ^ F.emax) {e₁ e₂ w : Complex (Ieee F)} {E₁ E₂ : ℂ} (f1 : CFinite e₁) (f2 : CFinite e₂)
    (h1 : ‖E₁‖ = Real.exp t) (h2 : ‖E₂‖ = Real.exp (-t)) (d1 : ‖cval e₁ - E₁‖ ≤ fnErr F ε θ (Real.exp t + 1) E₁)
    (d2 : ‖cval e₂ - E₂‖ ≤ fnErr F ε θ (Real.exp (-t) + 1) E₂) (fw : CFinite w) (w1 : w.re.value = 2) (w2 : w.im.value = 0) :
    (∃ d b, e₁.sub e₂ = .ok d ∧ d.div w = .ok b ∧ CFinite b ∧
      ‖cval b - (E₁ - E₂) / 2‖ ≤ eulerErr F ε θ t ((E₁ - E₂) / 2)) ∧
    ∃ d b, e₁.add e₂ = .ok d ∧ d.div w = .ok b ∧ CFinite b ∧
      ‖cval b - (E₁ + E₂) / 2‖ ≤ eulerErr F ε θ t ((E₁ + E₂) / 2) := by
  have hE : 1 ≤ Real.exp R := Real.one_le_exp ((abs_nonneg _).trans ht)
  have sz := exps_size (F := F) hε hε' hθ hθ' ht h1 h2 d1 d2
  obtain ⟨u0, u1⟩ := u_quarter F
  have half : ∀ {b d : Complex (Ieee F)}, |b.re.value - d.re.value / 2| ≤ F.η → |b.im.value - d.im.value / 2| ≤ F.η →
      ‖cval b - cval d / 2‖ ≤ 2 * F.η := by
    intro b d b1 b2
    exact cval_near b (x := d.re.value / 2) (y := d.im.value / 2) b1 b2 (by
      apply _root_.Complex.ext <;> simp [cval])
  constructor
  · obtain ⟨d, ed, fd, hd⟩ := csub_near f1 f2 (by linarith)
    obtain ⟨q1, q2⟩ := double_lt (sum_size u1 hd ((norm_sub_le _ _).trans sz) hR hE)
    obtain ⟨b, eb, fb, b1, b2⟩ := div_two hp fd fw w1 w2 q1 q2
    refine ⟨d, b, ed, eb, fb, ?_⟩
    rw [← fnErr_pair h1 h2, sub_eq_add_neg E₁]
    refine combine (e₁ := cval e₁) (e₂ := -cval e₂) (d := cval d) u0.le (by simp) d1 ?_ ?_ (half b1 b2)
    · rwa [neg_sub_neg, norm_sub_rev]
    · rw [← sub_eq_add_neg]; exact hd
  · obtain ⟨d, ed, fd, hd⟩ := cadd_near f1 f2 (by linarith)
    obtain ⟨q1, q2⟩ := double_lt (sum_size u1 hd ((norm_add_le _ _).trans sz) hR hE)
    obtain ⟨b, eb, fb, b1, b2⟩ := div_two hp fd fw w1 w2 q1 q2
    refine ⟨d, b, ed, eb, fb, ?_⟩
    rw [← fnErr_pair h1 h2]
    exact combine (d := cval d) u0.le (by simp) d1 d2 hd (half b1 b2)

end Magnesia
