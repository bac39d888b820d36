import Verif.Proof.Euler

/-!
# Property C72: Euler's formulas; the crate's tests of `sin`, `cos`, `sinh` and `cosh`
-/

namespace Magnesia

open RZero ROne

variable {F : Fmt} [RExp (Ieee F)] [RSin (Ieee F)] [RCos (Ieee F)] [RSinh (Ieee F)] [RCosh (Ieee F)] {R ε θ : ℝ}

omit [RExp (Ieee F)] [RSin (Ieee F)] [RCos (Ieee F)] [RSinh (Ieee F)] [RCosh (Ieee F)] in
theorem two_i (hp : 20 ≤ F.p) : ∃ w : Complex (Ieee F), (⟨zero, one⟩ : Complex (Ieee F)).mulScalar (.ofInt 2) = .ok w ∧ CFinite w ∧
    w.re.value = 0 ∧ w.im.value = 2 := by
  obtain ⟨f, g⟩ := ofInt_small (F := F) hp (n := 2) (by norm_num)
  obtain ⟨f1, g1⟩ := Ieee.mul_unit (a := (zero : Ieee F)) trivial f (.inl rfl)
  obtain ⟨f2, g2⟩ := Ieee.mul_unit (a := (one : Ieee F)) trivial f (.inr (.inl rfl))
  refine ⟨_, rfl, ⟨f1, f2⟩, g1.trans ?_, g2.trans ?_⟩
  · show (0 : ℚ) * _ = 0
    rw [zero_mul]
  · show (1 : ℚ) * _ = 2
    rw [one_mul, g]; norm_num

/-- The two exponentials of `iz` and `-iz`. -/
theorem exps_i (h : FnLib F R ε θ) (hε : ε ≤ 1 / 4) (hθ : θ ≤ 1 / 4) (hR : 64 * Real.exp R ≤ 2 ^ F.emax)
    {z : Complex (Ieee F)} (hz : CFinite z) (h1 : |(z.re.value : ℝ)| ≤ R) (h2 : |(z.im.value : ℝ)| ≤ R) :
    ∃ w₁ w₂ i' e₁ e₂ : Complex (Ieee F), (⟨zero, one⟩ : Complex (Ieee F)).mul z = .ok w₁ ∧
      (⟨zero, one⟩ : Complex (Ieee F)).neg = .ok i' ∧ i'.mul z = .ok w₂ ∧ w₁.exp = .ok e₁ ∧ w₂.exp = .ok e₂ ∧
      CFinite e₁ ∧ CFinite e₂ ∧
      ‖cval e₁ - _root_.Complex.exp (_root_.Complex.I * cval z)‖ ≤
        fnErr F ε θ (Real.exp (-z.im.value) + 1) (_root_.Complex.exp (_root_.Complex.I * cval z)) ∧
      ‖cval e₂ - _root_.Complex.exp (-_root_.Complex.I * cval z)‖ ≤
        fnErr F ε θ (Real.exp z.im.value + 1) (_root_.Complex.exp (-_root_.Complex.I * cval z)) := by
  have hE := Real.exp_pos R
  obtain ⟨w₁, e1, f1, a1, b1⟩ := mul_i (i := (⟨zero, one⟩ : Complex (Ieee F))) ⟨trivial, trivial⟩ rfl (.inl rfl) hz
  obtain ⟨w₂, e2, f2, a2, b2⟩ := mul_i (i := (⟨(zero : Ieee F).neg, (one : Ieee F).neg⟩ : Complex (Ieee F)))
    ⟨trivial, trivial⟩ ((Ieee.neg_value (zero : Ieee F)).trans neg_zero) (.inr (Ieee.neg_value (one : Ieee F))) hz
  have a1' : (w₁.re.value : ℝ) = -z.im.value := by rw [a1]; show ((-(1 * z.im.value) : ℚ) : ℝ) = _; push_cast; ring
  have b1' : (w₁.im.value : ℝ) = z.re.value := by rw [b1]; show (((1 * z.re.value) : ℚ) : ℝ) = _; push_cast; ring
  have n1 : (one : Ieee F).neg.value = -1 := Ieee.neg_value (one : Ieee F)
  have a2' : (w₂.re.value : ℝ) = z.im.value := by
    rw [a2]; show ((-((one : Ieee F).neg.value * z.im.value) : ℚ) : ℝ) = _; rw [n1]; push_cast; ring
  have b2' : (w₂.im.value : ℝ) = -z.re.value := by
    rw [b2]; show ((((one : Ieee F).neg.value * z.re.value) : ℚ) : ℝ) = _; rw [n1]; push_cast; ring
  have c1 : cval w₁ = _root_.Complex.I * cval z := by
    apply _root_.Complex.ext <;> simp [cval, a1', b1']
  have c2 : cval w₂ = -_root_.Complex.I * cval z := by
    apply _root_.Complex.ext <;> simp [cval, a2', b2']
  obtain ⟨r₁, x1, g1, y1⟩ := exp_near h hε hθ (by linarith) f1 (by rw [a1', abs_neg]; exact h2) (by rw [b1']; exact h1)
  obtain ⟨r₂, x2, g2, y2⟩ := exp_near h hε hθ (by linarith) f2 (by rw [a2']; exact h2) (by rw [b2', abs_neg]; exact h1)
  rw [c1, a1'] at y1
  rw [c2, a2'] at y2
  exact ⟨w₁, w₂, _, r₁, r₂, e1, rfl, e2, x1, x2, g1, g2, y1, y2⟩

theorem norm_exp_I (z : ℂ) : ‖_root_.Complex.exp (_root_.Complex.I * z)‖ = Real.exp (-z.im) := by
  rw [_root_.Complex.norm_exp]; simp

theorem norm_exp_neg_I (z : ℂ) : ‖_root_.Complex.exp (-_root_.Complex.I * z)‖ = Real.exp (- -z.im) := by
  rw [_root_.Complex.norm_exp]; simp

theorem sin_formula (z : ℂ) : (_root_.Complex.exp (_root_.Complex.I * z) - _root_.Complex.exp (-_root_.Complex.I * z)) /
    (2 * _root_.Complex.I) = _root_.Complex.sin z := by
  rw [_root_.Complex.sin, div_mul_eq_div_div, _root_.Complex.div_I, mul_comm _root_.Complex.I, mul_comm (-_root_.Complex.I),
    mul_neg, neg_mul]
  ring

theorem cos_formula (z : ℂ) : (_root_.Complex.exp (_root_.Complex.I * z) + _root_.Complex.exp (-_root_.Complex.I * z)) / 2 =
    _root_.Complex.cos z := by
  rw [_root_.Complex.cos, mul_comm _root_.Complex.I, mul_comm (-_root_.Complex.I), mul_neg, neg_mul]

/-- C72: `sin` and Euler's formula `(e^iz - e^-iz) / 2i`, computed with the operators of the crate, are both near the complex
sine. -/
theorem C72_sin (hp : 20 ≤ F.p) (h : FnLib F R ε θ) (hε : ε ≤ 1 / 4) (hθ : θ ≤ 1 / 4) (hR : 64 * Real.exp R ≤ 2 ^ F.emax)
    (z : Complex (Ieee F)) (hz : CFinite z) (h1 : |(z.re.value : ℝ)| ≤ R) (h2 : |(z.im.value : ℝ)| ≤ R) :
    ∃ a b, z.sin = .ok a ∧ sinEuler z = .ok b ∧ CFinite a ∧ CFinite b ∧
      ‖cval a - _root_.Complex.sin (cval z)‖ ≤ fnErr F ε θ (1 + Real.cosh z.im.value) (_root_.Complex.sin (cval z)) ∧
      ‖cval b - _root_.Complex.sin (cval z)‖ ≤ eulerErr F ε θ z.im.value (_root_.Complex.sin (cval z)) := by
  have hE := Real.exp_pos R
  obtain ⟨a, ea, fa, ha⟩ := sin_near h hε hθ (by linarith) hz h1 h2
  obtain ⟨w₁, w₂, i', e₁, e₂, q1, q2, q3, q4, q5, f1, f2, d1, d2⟩ := exps_i h hε hθ hR hz h1 h2
  obtain ⟨w, ew, fw, w1, w2⟩ := two_i (F := F) hp
  obtain ⟨d, b, ed, eb, fb, hb⟩ := sub_div_two_i (t := -z.im.value) hp h.ε_nonneg hε h.θ_nonneg hθ (by rwa [abs_neg]) hR f1 f2
    (norm_exp_I _) (norm_exp_neg_I _) d1 (by rwa [neg_neg]) fw w1 w2
  refine ⟨a, b, ea, ?_, fa, fb, ha, ?_⟩
  · unfold sinEuler
    simp only [q1, q2, q3, q4, q5, ew, ed, eb, bind, Except.bind]
  · rw [sin_formula] at hb
    unfold eulerErr at hb ⊢
    rwa [Real.cosh_neg] at hb

/-- C72: the same for `cos` and `(e^iz + e^-iz) / 2`. -/
theorem C72_cos (hp : 20 ≤ F.p) (h : FnLib F R ε θ) (hε : ε ≤ 1 / 4) (hθ : θ ≤ 1 / 4) (hR : 64 * Real.exp R ≤ 2 ^ F.emax)
    (z : Complex (Ieee F)) (hz : CFinite z) (h1 : |(z.re.value : ℝ)| ≤ R) (h2 : |(z.im.value : ℝ)| ≤ R) :
    ∃ a b, z.cos = .ok a ∧ cosEuler z = .ok b ∧ CFinite a ∧ CFinite b ∧
      ‖cval a - _root_.Complex.cos (cval z)‖ ≤ fnErr F ε θ (1 + Real.cosh z.im.value) (_root_.Complex.cos (cval z)) ∧
      ‖cval b - _root_.Complex.cos (cval z)‖ ≤ eulerErr F ε θ z.im.value (_root_.Complex.cos (cval z)) := by
  have hE := Real.exp_pos R
  obtain ⟨a, ea, fa, ha⟩ := cos_near h hε hθ (by linarith) hz h1 h2
  obtain ⟨w₁, w₂, i', e₁, e₂, q1, q2, q3, q4, q5, f1, f2, d1, d2⟩ := exps_i h hε hθ hR hz h1 h2
  obtain ⟨fw, gw⟩ := ofInt_small (F := F) hp (n := 2) (by norm_num)
  obtain ⟨d, b, ed, eb, fb, hb⟩ := (sub_div_two (w := ⟨.ofInt 2, zero⟩) (t := -z.im.value) hp h.ε_nonneg hε h.θ_nonneg hθ (by rwa [abs_neg]) hR f1 f2
    (norm_exp_I _) (norm_exp_neg_I _) d1 (by rwa [neg_neg]) ⟨fw, trivial⟩ (gw.trans (by norm_num)) rfl).2
  refine ⟨a, b, ea, ?_, fa, fb, ha, ?_⟩
  · unfold cosEuler
    simp only [q1, q2, q3, q4, q5, ed, eb, bind, Except.bind]
  · rw [cos_formula] at hb
    unfold eulerErr at hb ⊢
    rwa [Real.cosh_neg] at hb

/-- The two exponentials of `z` and `-z`. -/
theorem exps_re (h : FnLib F R ε θ) (hε : ε ≤ 1 / 4) (hθ : θ ≤ 1 / 4) (hR : 64 * Real.exp R ≤ 2 ^ F.emax)
    {z : Complex (Ieee F)} (hz : CFinite z) (h1 : |(z.re.value : ℝ)| ≤ R) (h2 : |(z.im.value : ℝ)| ≤ R) :
    ∃ n e₁ e₂ : Complex (Ieee F), z.neg = .ok n ∧ z.exp = .ok e₁ ∧ n.exp = .ok e₂ ∧ CFinite e₁ ∧ CFinite e₂ ∧
      ‖cval e₁ - _root_.Complex.exp (cval z)‖ ≤ fnErr F ε θ (Real.exp z.re.value + 1) (_root_.Complex.exp (cval z)) ∧
      ‖cval e₂ - _root_.Complex.exp (-cval z)‖ ≤ fnErr F ε θ (Real.exp (-z.re.value) + 1) (_root_.Complex.exp (-cval z)) := by
  have hE := Real.exp_pos R
  have a2 : ((z.re.neg.value : ℚ) : ℝ) = -z.re.value := by rw [Ieee.neg_value]; push_cast; rfl
  have b2 : ((z.im.neg.value : ℚ) : ℝ) = -z.im.value := by rw [Ieee.neg_value]; push_cast; rfl
  have c2 : cval (⟨z.re.neg, z.im.neg⟩ : Complex (Ieee F)) = -cval z := by
    apply _root_.Complex.ext <;> simp [cval, a2, b2]
  obtain ⟨r₁, x1, g1, y1⟩ := exp_near h hε hθ (by linarith) hz h1 h2
  obtain ⟨r₂, x2, g2, y2⟩ := exp_near (z := ⟨z.re.neg, z.im.neg⟩) h hε hθ (by linarith)
    ⟨Ieee.neg_finite.2 hz.1, Ieee.neg_finite.2 hz.2⟩ (by rw [a2, abs_neg]; exact h1) (by rw [b2, abs_neg]; exact h2)
  rw [c2, a2] at y2
  exact ⟨_, r₁, r₂, rfl, x1, x2, g1, g2, y1, y2⟩

theorem norm_exp_re (z : ℂ) : ‖_root_.Complex.exp z‖ = Real.exp z.re := _root_.Complex.norm_exp z

theorem norm_exp_neg (z : ℂ) : ‖_root_.Complex.exp (-z)‖ = Real.exp (-z.re) := by
  rw [_root_.Complex.norm_exp, _root_.Complex.neg_re]

/-- C72: the same for `sinh` and `(e^z - e^-z) / 2`. -/
theorem C72_sinh (hp : 20 ≤ F.p) (h : FnLib F R ε θ) (hε : ε ≤ 1 / 4) (hθ : θ ≤ 1 / 4) (hR : 64 * Real.exp R ≤ 2 ^ F.emax)
    (z : Complex (Ieee F)) (hz : CFinite z) (h1 : |(z.re.value : ℝ)| ≤ R) (h2 : |(z.im.value : ℝ)| ≤ R) :
    ∃ a b, z.sinh = .ok a ∧ sinhEuler z = .ok b ∧ CFinite a ∧ CFinite b ∧
      ‖cval a - _root_.Complex.sinh (cval z)‖ ≤ fnErr F ε θ (1 + Real.cosh z.re.value) (_root_.Complex.sinh (cval z)) ∧
      ‖cval b - _root_.Complex.sinh (cval z)‖ ≤ eulerErr F ε θ z.re.value (_root_.Complex.sinh (cval z)) := by
  have hE := Real.exp_pos R
  obtain ⟨a, ea, fa, ha⟩ := sinh_near h hε hθ (by linarith) hz h1 h2
  obtain ⟨n, e₁, e₂, q1, q2, q3, f1, f2, d1, d2⟩ := exps_re h hε hθ hR hz h1 h2
  obtain ⟨fw, gw⟩ := ofInt_small (F := F) hp (n := 2) (by norm_num)
  obtain ⟨d, b, ed, eb, fb, hb⟩ := (sub_div_two (w := ⟨.ofInt 2, zero⟩) (t := z.re.value) hp h.ε_nonneg hε h.θ_nonneg hθ h1 hR f1 f2
    (norm_exp_re _) (norm_exp_neg _) d1 d2 ⟨fw, trivial⟩ (gw.trans (by norm_num)) rfl).1
  refine ⟨a, b, ea, ?_, fa, fb, ha, hb⟩
  unfold sinhEuler
  simp only [q1, q2, q3, ed, eb, bind, Except.bind]

/-- C72: the same for `cosh` and `(e^z + e^-z) / 2`. -/
theorem C72_cosh (hp : 20 ≤ F.p) (h : FnLib F R ε θ) (hε : ε ≤ 1 / 4) (hθ : θ ≤ 1 / 4) (hR : 64 * Real.exp R ≤ 2 ^ F.emax)
    (z : Complex (Ieee F)) (hz : CFinite z) (h1 : |(z.re.value : ℝ)| ≤ R) (h2 : |(z.im.value : ℝ)| ≤ R) :
    ∃ a b, z.cosh = .ok a ∧ coshEuler z = .ok b ∧ CFinite a ∧ CFinite b ∧
      ‖cval a - _root_.Complex.cosh (cval z)‖ ≤ fnErr F ε θ (1 + Real.cosh z.re.value) (_root_.Complex.cosh (cval z)) ∧
      ‖cval b - _root_.Complex.cosh (cval z)‖ ≤ eulerErr F ε θ z.re.value (_root_.Complex.cosh (cval z)) := by
  have hE := Real.exp_pos R
  obtain ⟨a, ea, fa, ha⟩ := cosh_near h hε hθ (by linarith) hz h1 h2
  obtain ⟨n, e₁, e₂, q1, q2, q3, f1, f2, d1, d2⟩ := exps_re h hε hθ hR hz h1 h2
  obtain ⟨fw, gw⟩ := ofInt_small (F := F) hp (n := 2) (by norm_num)
  obtain ⟨d, b, ed, eb, fb, hb⟩ := (sub_div_two (w := ⟨.ofInt 2, zero⟩) (t := z.re.value) hp h.ε_nonneg hε h.θ_nonneg hθ h1 hR f1 f2
    (norm_exp_re _) (norm_exp_neg _) d1 d2 ⟨fw, trivial⟩ (gw.trans (by norm_num)) rfl).2
  refine ⟨a, b, ea, ?_, fa, fb, ha, hb⟩
  unfold coshEuler
  simp only [q1, q2, q3, ed, eb, bind, Except.bind]

/-! ### The tests -/

omit [RExp (Ieee F)] [RSin (Ieee F)] [RCos (Ieee F)] [RSinh (Ieee F)] [RCosh (Ieee F)] in
/-- `abs` without assumptions on underflow. -/
theorem abs_sq {z : Complex (Ieee F)} (hz : CFinite z) (h : 4 * ‖cval z‖ ^ 2 + 4 ≤ 2 ^ F.emax) :
    ∃ r, z.abs = .ok r ∧ r.Finite ∧ (0 : ℝ) ≤ r.value ∧
      (r.value : ℝ) ^ 2 ≤ (1 + F.u) ^ 4 * (‖cval z‖ ^ 2 + 2 * F.η) ∧
      (1 - F.u) ^ 2 * ((2 - (1 + F.u) ^ 2) * ‖cval z‖ ^ 2 - (1 + F.u) ^ 2 * (2 * F.η)) ≤ (r.value : ℝ) ^ 2 := by
  obtain ⟨s, es, fs⟩ := sqrNorm_finite hz h
  have h2 : ‖cval z‖ ^ 2 = ((z.re.value ^ 2 + z.im.value ^ 2 : ℚ) : ℝ) := by
    rw [_root_.Complex.sq_norm, _root_.Complex.normSq_apply]
    show (z.re.value : ℝ) * z.re.value + (z.im.value : ℝ) * z.im.value = _
    push_cast; ring
  have e := C49_ieee_sqr_norm_error z s es fs
  have e' : |(s.value : ℝ) - ‖cval z‖ ^ 2| ≤ ((1 + F.u) ^ 2 - 1) * ‖cval z‖ ^ 2 + (1 + F.u) ^ 2 * (2 * F.η) := by
    rw [h2]; exact_mod_cast e
  obtain ⟨e1, e2⟩ := abs_le.1 e'
  have hs0 : 0 ≤ s.value := by
    obtain rfl : (z.re.mul z.re).add (z.im.mul z.im) = s := Except.ok.inj es
    obtain ⟨k1, k2, k3⟩ := Ieee.add_finite fs
    rw [k3, (Ieee.mul_finite k1).2.2, (Ieee.mul_finite k2).2.2]
    exact F.roundQ_nonneg (add_nonneg (F.roundQ_nonneg (mul_self_nonneg _)) (F.roundQ_nonneg (mul_self_nonneg _)))
  have fr : s.sqrt.Finite := (Ieee.sqrt_finite_iff (.inr ⟨fs, hs0⟩)).2 fs
  have key : 0 ≤ s.sqrt.value ∧ (1 - F.u) ^ 2 * s.value ≤ s.sqrt.value ^ 2 ∧ s.sqrt.value ^ 2 ≤ (1 + F.u) ^ 2 * s.value := by
    rcases Ieee.sqrt_finite fs fr with ⟨h3, h4⟩ | ⟨h3, h4⟩
    · rw [h3, h4]; norm_num
    · rw [h4]; exact F.roundSqrt_err h3
  obtain ⟨k0, k1, k2⟩ := key
  have k1' : (1 - (F.u : ℝ)) ^ 2 * s.value ≤ (s.sqrt.value : ℝ) ^ 2 := by exact_mod_cast k1
  have k2' : (s.sqrt.value : ℝ) ^ 2 ≤ (1 + (F.u : ℝ)) ^ 2 * s.value := by exact_mod_cast k2
  refine ⟨s.sqrt, ?_, fr, by exact_mod_cast k0, ?_, ?_⟩
  · show (do let n ← z.sqrNorm; pure n.sqrt) = _
    rw [es]; rfl
  · refine k2'.trans ?_
    rw [show (1 + (F.u : ℝ)) ^ 4 * (‖cval z‖ ^ 2 + 2 * F.η) =
      (1 + (F.u : ℝ)) ^ 2 * ((1 + (F.u : ℝ)) ^ 2 * (‖cval z‖ ^ 2 + 2 * F.η)) by ring]
    exact mul_le_mul_of_nonneg_left (by linarith) (by positivity)
  · exact (mul_le_mul_of_nonneg_left (by linarith) (by positivity)).trans k1'

/-- Real arithmetic: from the square to an upper bound. -/
theorem upper_of_sq {u η n r : ℝ} (hu : 0 < u) (hn : 0 ≤ n) (hη : η ≤ u ^ 2 / 2 ^ 22) (h : r ^ 2 ≤ (1 + u) ^ 4 * (n ^ 2 + 2 * η)) :
    r ≤ (1 + u) ^ 2 * (n + u / 1000) := by
  refine (abs_le_of_sq_le_sq' ?_ (by positivity)).2
  rw [mul_pow, ← pow_mul]
  refine h.trans (mul_le_mul_of_nonneg_left ?_ (by positivity))
  nlinarith [mul_nonneg hn hu.le, sq_nonneg u]

/-- Real arithmetic: from the square to a lower bound. -/
theorem lower_of_sq {u η n r : ℝ} (hu : 0 < u) (hu' : u ≤ 1 / 2 ^ 20) (hn : 0.01 ≤ n) (hr : 0 ≤ r) (hη : η ≤ u ^ 2 / 2 ^ 22)
    (h : (1 - u) ^ 2 * ((2 - (1 + u) ^ 2) * n ^ 2 - (1 + u) ^ 2 * (2 * η)) ≤ r ^ 2) : (1 - 3 * u) * n ≤ r := by
  refine (abs_le_of_sq_le_sq' ?_ hr).2
  refine le_trans ?_ h
  have h1 : (1 + u) ^ 2 ≤ 1 + 2.001 * u := by nlinarith
  have h0 : 1 ≤ (1 + u) ^ 2 := one_le_pow₀ (by linarith)
  have hn2 : (0.01 : ℝ) ^ 2 ≤ n ^ 2 := pow_le_pow_left₀ (by norm_num) hn 2
  have h2 : (1 + u) ^ 2 * (2 * η) ≤ 0.001 * u * n ^ 2 := by
    have k1 : u ^ 2 ≤ u / 2 ^ 20 := by nlinarith
    have k2 : u * 0.01 ^ 2 ≤ u * n ^ 2 := mul_le_mul_of_nonneg_left hn2 hu.le
    have k3 : (1 + u) ^ 2 * (2 * η) ≤ 2 * (2 * (u ^ 2 / 2 ^ 22)) := by
      by_cases h3 : 0 ≤ η
      · exact mul_le_mul (by linarith) (by linarith) (by linarith) (by norm_num)
      · have : (1 + u) ^ 2 * (2 * η) ≤ 0 := mul_nonpos_of_nonneg_of_nonpos (by positivity) (by linarith)
        have : 0 ≤ 2 * (2 * (u ^ 2 / 2 ^ 22)) := by positivity
        linarith
    linarith
  have h3 : (1 - 2.01 * u) * n ^ 2 ≤ (2 - (1 + u) ^ 2) * n ^ 2 - (1 + u) ^ 2 * (2 * η) := by
    have := mul_le_mul_of_nonneg_right h1 (sq_nonneg n)
    nlinarith [mul_nonneg hu.le (sq_nonneg n)]
  refine le_trans ?_ (mul_le_mul_of_nonneg_left h3 (sq_nonneg _))
  rw [mul_pow, ← mul_assoc]
  refine mul_le_mul_of_nonneg_right ?_ (sq_nonneg n)
  nlinarith [mul_nonneg hu.le hu.le, mul_nonneg (mul_nonneg hu.le hu.le) hu.le]

/-- The tolerance does not shrink much by rounding. -/
theorem exp_abs_lower {u r h : ℝ} (hr : 512 * u * r ≤ 1) (h0 : 0 ≤ h) (hl : 0.01 ≤ r → (1 - 3 * u) * r ≤ h) :
    0.99 * Real.exp r ≤ Real.exp h := by
  by_cases h1 : 0.01 ≤ r
  · have h2 := hl h1
    have h3 : 1 - 3 * u * r ≤ Real.exp (-(3 * u * r)) := by
      have := Real.add_one_le_exp (-(3 * u * r)); linarith
    have h4 : Real.exp h ≥ Real.exp (r + -(3 * u * r)) := Real.exp_le_exp.2 (by linarith)
    rw [Real.exp_add] at h4
    have h5 := mul_le_mul_of_nonneg_left h3 (Real.exp_pos r).le
    have h6 : 0.99 * Real.exp r ≤ Real.exp r * (1 - 3 * u * r) := by
      rw [mul_comm (0.99 : ℝ)]
      exact mul_le_mul_of_nonneg_left (by linarith) (Real.exp_pos r).le
    linarith
  · have h2 : Real.exp r ≤ 1 / (1 - r) := by
      have h3 := Real.add_one_le_exp (-r)
      rw [le_div_iff₀ (by linarith)]
      have h4 : Real.exp r * (-r + 1) ≤ Real.exp r * Real.exp (-r) := mul_le_mul_of_nonneg_left h3 (Real.exp_pos r).le
      rw [← Real.exp_add, add_neg_cancel, Real.exp_zero] at h4
      linarith
    have h3 : 1 / (1 - r) ≤ 1 / 0.99 := one_div_le_one_div_of_le (by norm_num) (by linarith)
    have h4 := Real.one_le_exp h0
    have : 0.99 * Real.exp r ≤ 0.99 * (1 / 0.99) := mul_le_mul_of_nonneg_left (h2.trans h3) (by norm_num)
    norm_num at this
    linarith

omit [RExp (Ieee F)] [RSin (Ieee F)] [RCos (Ieee F)] [RSinh (Ieee F)] [RCosh (Ieee F)] in
/-- Real arithmetic: the sum of both errors. -/
theorem both_errs {ε θ t E : ℝ} (hp : 20 ≤ F.p) (hε : 0 ≤ ε) (hε' : ε ≤ 1.1 * F.u) (hθ : 0 ≤ θ) (hθ' : θ ≤ F.u / 256)
    (hη : (F.η : ℝ) ≤ F.u ^ 2 / 2 ^ 22) {w : ℂ} (hE : 1 ≤ E) (ht : Real.cosh t ≤ E)
    (hmain : (2 * ε + F.u) * (Real.cosh t + ‖w‖) + F.u * ‖w‖ ≤ 3.82 * F.u * E) (hw : ‖w‖ ≤ E) :
    fnErr F ε θ (1 + Real.cosh t) w + eulerErr F ε θ t w ≤ 3.86 * F.u * E := by
  obtain ⟨u0, u1⟩ := Fmt.u_small (F := F) hp
  obtain ⟨s1, s0⟩ := sqrt_two_bounds
  have e0 := (η_le_one F).1
  have c0 := Real.cosh_pos t
  have w0 := norm_nonneg w
  set u : ℝ := ((F.u : ℚ) : ℝ) with hu
  have hG : (1 + ε) ^ 2 * (1 + u) - 1 ≤ 2 * ε + u + 0.001 * u := by nlinarith [mul_nonneg hε u0.le, mul_nonneg (mul_nonneg hε hε) u0.le]
  have hG0 : 0 ≤ (1 + ε) ^ 2 * (1 + u) - 1 := by nlinarith [mul_nonneg hε u0.le, mul_nonneg (mul_nonneg hε hε) u0.le]
  unfold fnErr eulerErr
  set G := (1 + ε) ^ 2 * (1 + u) with hGdef
  have uu : u ^ 2 ≤ u / 2 ^ 20 := by nlinarith
  have uE : u ≤ u * E := by nlinarith
  -- the absolute part
  have k2 : θ ^ 2 ≤ u / 2 ^ 20 := by nlinarith
  have k3 : (1 + Real.cosh t) * θ ≤ 2 * E * (u / 256) := mul_le_mul (by linarith) hθ' hθ (by linarith)
  have k4 : θ ^ 2 + (1 + Real.cosh t) * θ + F.η ≤ 0.00785 * (u * E) := by linarith
  have k0 : 0 ≤ θ ^ 2 + (1 + Real.cosh t) * θ + F.η := by positivity
  have k5 : G * (θ ^ 2 + (1 + Real.cosh t) * θ + F.η) ≤ 1.001 * (0.00785 * (u * E)) := mul_le_mul (by linarith) k4 k0 (by norm_num)
  have k6 : Real.sqrt 2 * (G * (θ ^ 2 + (1 + Real.cosh t) * θ + F.η)) ≤ 1.415 * (1.001 * (0.00785 * (u * E))) :=
    mul_le_mul s1 k5 (mul_nonneg (by linarith) k0) (by norm_num)
  have k6' : 0 ≤ Real.sqrt 2 * (G * (θ ^ 2 + (1 + Real.cosh t) * θ + F.η)) := mul_nonneg s0 (mul_nonneg (by linarith) k0)
  generalize Real.sqrt 2 * (G * (θ ^ 2 + (1 + Real.cosh t) * θ + F.η)) = K at *
  -- the relative part
  have m1 : (G - 1) * (Real.cosh t + ‖w‖) ≤ (2 * ε + u) * (Real.cosh t + ‖w‖) + 0.001 * u * (Real.cosh t + ‖w‖) := by
    rw [← add_mul]; exact mul_le_mul_of_nonneg_right hG (by linarith)
  have m2 : 0.001 * u * (Real.cosh t + ‖w‖) ≤ 0.001 * u * (2 * E) := mul_le_mul_of_nonneg_left (by linarith) (by positivity)
  have m3 : u * ((G - 1) * Real.cosh t + K) ≤ u * (0.001 * E) := by
    refine mul_le_mul_of_nonneg_left ?_ u0.le
    have : (G - 1) * Real.cosh t ≤ 0.0005 * E := mul_le_mul (by linarith) ht c0.le (by norm_num)
    have : u * E ≤ 1 / 2 ^ 20 * E := mul_le_mul_of_nonneg_right u1 (by linarith)
    linarith
  have e : (G - 1) * ‖w‖ + K + ((1 + u) * ((G - 1) * Real.cosh t + K) + u * ‖w‖ + 2 * F.η) =
      (G - 1) * (Real.cosh t + ‖w‖) + u * ((G - 1) * Real.cosh t + K) + 2 * K + u * ‖w‖ + 2 * F.η := by ring
  rw [e]
  linarith

omit [RExp (Ieee F)] [RSin (Ieee F)] [RCos (Ieee F)] [RSinh (Ieee F)] [RCosh (Ieee F)] in
theorem exp_sq_size (hp : 20 ≤ F.p) (hpe : F.p + 24 ≤ F.emax) (hR : Real.exp (2 * R) ≤ 2 ^ F.emax) :
    64 * Real.exp R ≤ 2 ^ F.emax ∧ (2 : ℝ) ^ 44 ≤ 2 ^ F.emax := by
  have h44 : (2 : ℝ) ^ 44 ≤ 2 ^ F.emax := by
    rw [← zpow_natCast]
    exact zpow_le_zpow_right₀ (by norm_num) (by push_cast; omega)
  refine ⟨?_, h44⟩
  rw [two_mul, Real.exp_add] at hR
  have := Real.exp_pos R
  by_cases h : 64 ≤ Real.exp R
  · have := mul_le_mul_of_nonneg_right h this.le
    linarith
  · have : (4096 : ℝ) ≤ 2 ^ 44 := by norm_num
    linarith

omit [RExp (Ieee F)] [RSin (Ieee F)] [RCos (Ieee F)] [RSinh (Ieee F)] [RCosh (Ieee F)] in
theorem η_u_sq (hpe : F.p + 24 ≤ F.emax) : (F.η : ℝ) ≤ (F.u : ℝ) ^ 2 / 2 ^ 22 := by
  have h1 : F.η ≤ F.u ^ 2 / 2 ^ 22 := by
    rw [show (2 : ℚ) ^ 22 = 2 ^ (22 : ℤ) by norm_num, Fmt.u, Fmt.η, ← zpow_natCast, ← zpow_mul, ← zpow_sub₀ (by norm_num)]
    exact zpow_le_zpow_right₀ (by norm_num) (by unfold Fmt.emin; push_cast; omega)
  have h2 : ((F.η : ℚ) : ℝ) ≤ ((F.u ^ 2 / 2 ^ 22 : ℚ) : ℝ) := by exact_mod_cast h1
  push_cast at h2
  exact h2

omit [RExp (Ieee F)] [RSin (Ieee F)] [RCos (Ieee F)] [RSinh (Ieee F)] [RCosh (Ieee F)] in
/-- The left side of the comparison. -/
theorem diff_small (hp : 20 ≤ F.p) (hpe : F.p + 24 ≤ F.emax) {a b : Complex (Ieee F)} (fa : CFinite a) (fb : CFinite b) {E A B : ℝ}
    {w : ℂ} (hw : ‖w‖ ≤ E) (ha : ‖cval a - w‖ ≤ A) (hb : ‖cval b - w‖ ≤ B) (err : A + B ≤ 3.86 * F.u * E) (hE1 : 1 ≤ E)
    (hE : 64 * E ≤ 2 ^ F.emax) (hE2 : E ^ 2 ≤ 2 ^ F.emax) (R44 : (2 : ℝ) ^ 44 ≤ 2 ^ F.emax) :
    ∃ c d, a.sub b = .ok c ∧ c.abs = .ok d ∧ d.Finite ∧ (d.value : ℝ) ≤ 3.87 * F.u * E := by
  obtain ⟨u0, u1⟩ := Fmt.u_small (F := F) hp
  have hη := η_u_sq hpe
  have uE : F.u * E ≤ 1 / 2 ^ 20 * E := mul_le_mul_of_nonneg_right u1 (by linarith)
  have uE0 : 0 ≤ F.u * E := by positivity
  have uE1 : (F.u : ℝ) ≤ F.u * E := le_mul_of_one_le_right u0.le hE1
  have hab : ‖cval a - cval b‖ ≤ 3.86 * F.u * E := by
    have := norm_sub_le (cval a - w) (cval b - w)
    rw [sub_sub_sub_cancel_right] at this
    linarith
  have na : ‖cval a‖ ≤ 2 * E := by
    have h1 : 0 ≤ B := (norm_nonneg _).trans hb
    have := norm_of_near ha hw
    linarith
  have nb : ‖cval b‖ ≤ 2 * E := by
    have h1 : 0 ≤ A := (norm_nonneg _).trans ha
    have := norm_of_near hb hw
    linarith
  obtain ⟨c, ec, fc, hc⟩ := csub_near fa fb (by linarith)
  have nc : ‖cval c‖ ≤ 3.861 * F.u * E := by
    have h1 := norm_of_near hc hab
    have h2 := mul_le_mul_of_nonneg_left hab u0.le
    have h3 := mul_le_mul_of_nonneg_left uE u0.le
    linarith
  have nc2 : ‖cval c‖ ^ 2 ≤ 0.001 * E ^ 2 := by
    have h1 := pow_le_pow_left₀ (norm_nonneg _) (nc.trans (show 3.861 * F.u * E ≤ 0.01 * E by linarith)) 2
    rw [mul_pow] at h1
    have := sq_nonneg E
    linarith
  obtain ⟨d, ed, fd, d0, d1, _⟩ := abs_sq fc (by norm_num at R44; linarith)
  have hd := upper_of_sq u0 (norm_nonneg _) hη d1
  refine ⟨c, d, ec, ed, fd, hd.trans ?_⟩
  have h1 : ‖cval c‖ + F.u / 1000 ≤ 3.863 * (F.u * E) := by linarith
  have h2 : (1 + (F.u : ℝ)) ^ 2 ≤ 1.0001 := by nlinarith
  have h3 := mul_le_mul h2 h1 (by positivity) (by norm_num)
  linarith

omit [RSin (Ieee F)] [RCos (Ieee F)] [RSinh (Ieee F)] [RCosh (Ieee F)] in
/-- The right side of the comparison. -/
theorem tolerance_large (hp : 20 ≤ F.p) (hpe : F.p + 24 ≤ F.emax) (h : AccurateUpTo (F := F) R RExp.exp Real.exp ε θ)
    (hε0 : 0 ≤ ε) (hε : ε ≤ 1.1 * F.u) (hθ : θ ≤ F.u / 256)
    (hR : 64 * Real.exp R ≤ 2 ^ F.emax) (hRu : 512 * F.u * R ≤ 1) {z : Complex (Ieee F)} (hz : CFinite z) (hn : ‖cval z‖ + 1 ≤ R) :
    ∃ x e, z.abs = .ok x ∧ RExp.exp x = .ok e ∧ ((e.mul (.ofInt 2)).mul .epsilon).Finite ∧
      3.87 * F.u * Real.exp ‖cval z‖ ≤ ((e.mul (.ofInt 2)).mul .epsilon).value := by
  obtain ⟨u0, u1⟩ := Fmt.u_small (F := F) hp
  have hη := η_u_sq hpe
  have r0 := norm_nonneg (cval z)
  have hE1 : 1 ≤ Real.exp ‖cval z‖ := Real.one_le_exp r0
  have hR0 : 1 ≤ Real.exp R := Real.one_le_exp (by linarith)
  have hr2 : ‖cval z‖ ^ 2 ≤ 2 * Real.exp R := by
    have h1 := Real.quadratic_le_exp_of_nonneg (show 0 ≤ R by linarith)
    have h2 := pow_le_pow_left₀ r0 (show ‖cval z‖ ≤ R by linarith) 2
    linarith
  obtain ⟨x, ex, fx, x0, x1, x2⟩ := abs_sq hz (by linarith)
  have hx := upper_of_sq u0 r0 hη x1
  have hrR : F.u * ‖cval z‖ ≤ 1 / 512 := by
    have := mul_le_mul_of_nonneg_left (show ‖cval z‖ ≤ R by linarith) u0.le
    linarith
  have hxR : |(x.value : ℝ)| ≤ R := by
    rw [abs_of_nonneg x0]
    refine hx.trans ?_
    have h2 : (1 + (F.u : ℝ)) ^ 2 ≤ 1 + 2.001 * F.u := by nlinarith
    have h3 := mul_le_mul_of_nonneg_right h2 (show 0 ≤ ‖cval z‖ + F.u / 1000 by positivity)
    have h4 : (F.u : ℝ) * (F.u / 1000) ≤ F.u * 1 := mul_le_mul_of_nonneg_left (by linarith) u0.le
    linarith
  have hex := exp_abs_lower (u := F.u) (r := ‖cval z‖) (by linarith) x0 (fun h1 => lower_of_sq u0 u1 h1 x0 hη x2)
  obtain ⟨e, ee, fe, he⟩ := h x fx hxR
  refine ⟨x, e, ex, ee, ?_⟩
  have hxE : Real.exp x.value ≤ Real.exp R := Real.exp_le_exp.2 ((le_abs_self _).trans hxR)
  rw [Real.abs_exp] at he
  have X0 := Real.exp_pos (x.value : ℝ)
  have εX : ε * Real.exp x.value ≤ 0.00001 * Real.exp x.value := mul_le_mul_of_nonneg_right (by linarith) X0.le
  have ε0 : 0 ≤ ε * Real.exp x.value := mul_nonneg hε0 X0.le
  obtain ⟨he1, he2⟩ := abs_le.1 he
  clear he x1 x2 hx hxR h ex ee hr2 hrR
  generalize Real.exp (x.value : ℝ) = X at *
  generalize Real.exp ‖cval z‖ = E at *
  generalize Real.exp R = T at *
  have el : 0.9899 * E ≤ (e.value : ℝ) := by linarith
  have eu : (e.value : ℝ) ≤ 2 * T := by linarith
  obtain ⟨f2, g2⟩ := ofInt_small (F := F) hp (n := 2) (by norm_num)
  obtain ⟨fε, gε⟩ := epsilon_value (F := F) hp
  have g2' : ((Ieee.ofInt 2 : Ieee F).value : ℝ) = 2 := by rw [g2]; norm_num
  have gε' : ((Ieee.epsilon : Ieee F).value : ℝ) = 2 * F.u := by rw [gε]; push_cast; rfl
  have p1 : |(e.value : ℝ) * (Ieee.ofInt 2 : Ieee F).value| ≤ 4 * T := by
    rw [g2', abs_of_nonneg (by linarith)]; linarith
  obtain ⟨f3, g3⟩ := Ieee.mul_near fe f2 p1 (by linarith)
  rw [g2', abs_of_nonneg (show 0 ≤ (e.value : ℝ) * 2 by linarith)] at g3
  obtain ⟨g31, g32⟩ := abs_le.1 g3
  have ue : F.u * ((e.value : ℝ) * 2) ≤ 0.00001 * ((e.value : ℝ) * 2) := mul_le_mul_of_nonneg_right (by linarith) (by linarith)
  have ηs : (F.η : ℝ) ≤ 0.00001 * F.u := by nlinarith
  generalize e.mul (Ieee.ofInt 2) = m at *
  have ml : 1.979 * E ≤ (m.value : ℝ) := by linarith
  have mu : (m.value : ℝ) ≤ 5 * T := by linarith
  have p2 : |(m.value : ℝ) * (Ieee.epsilon : Ieee F).value| ≤ 5 * T * 1 := by
    rw [gε', abs_of_nonneg (mul_nonneg (by linarith) (by linarith))]
    exact mul_le_mul mu (by linarith) (by linarith) (by linarith)
  obtain ⟨f4, g4⟩ := Ieee.mul_near f3 fε p2 (by linarith)
  rw [gε', abs_of_nonneg (show 0 ≤ (m.value : ℝ) * (2 * F.u) from mul_nonneg (by linarith) (by linarith))] at g4
  obtain ⟨g41, g42⟩ := abs_le.1 g4
  have mm : 1.979 * E * (2 * F.u) ≤ (m.value : ℝ) * (2 * F.u) := mul_le_mul_of_nonneg_right ml (by linarith)
  have um : F.u * ((m.value : ℝ) * (2 * F.u)) ≤ 0.00001 * ((m.value : ℝ) * (2 * F.u)) :=
    mul_le_mul_of_nonneg_right (by linarith) (mul_nonneg (by linarith) (by linarith))
  have uE0 : (F.u : ℝ) ≤ F.u * E := le_mul_of_one_le_right u0.le hE1
  refine ⟨f4, ?_⟩
  linarith

/-- The last line of the tests. -/
theorem check_passes (hp : 20 ≤ F.p) (hpe : F.p + 24 ≤ F.emax) (h : FnLib F R ε θ) (hε : ε ≤ 1.1 * F.u) (hθ : θ ≤ F.u / 256)
    (hR : Real.exp (2 * R) ≤ 2 ^ F.emax) (hRu : 512 * F.u * R ≤ 1) {z a b : Complex (Ieee F)} (hz : CFinite z) (hn : ‖cval z‖ + 1 ≤ R)
    (fa : CFinite a) (fb : CFinite b) {w : ℂ} {t : ℝ} (ht : |t| ≤ ‖cval z‖) (hw : ‖w‖ ≤ Real.exp ‖cval z‖)
    (ha : ‖cval a - w‖ ≤ fnErr F ε θ (1 + Real.cosh t) w) (hb : ‖cval b - w‖ ≤ eulerErr F ε θ t w)
    (hmain : (2 * ε + F.u) * (Real.cosh t + ‖w‖) + F.u * ‖w‖ ≤ 3.82 * F.u * Real.exp ‖cval z‖) :
    ∃ c d x e, a.sub b = .ok c ∧ c.abs = .ok d ∧ z.abs = .ok x ∧ RExp.exp x = .ok e ∧
      d.fle ((e.mul (.ofInt 2)).mul .epsilon) = true := by
  have hE1 : 1 ≤ Real.exp ‖cval z‖ := Real.one_le_exp (norm_nonneg _)
  have hER : Real.exp ‖cval z‖ ≤ Real.exp R := Real.exp_le_exp.2 (by linarith)
  have hct : Real.cosh t ≤ Real.exp ‖cval z‖ := (cosh_le_exp_abs t).trans (Real.exp_le_exp.2 ht)
  have err := both_errs hp h.ε_nonneg hε h.θ_nonneg hθ (η_u_sq hpe) hE1 hct hmain hw
  obtain ⟨R64, R44⟩ := exp_sq_size hp hpe hR
  have hR2 : Real.exp ‖cval z‖ ^ 2 ≤ 2 ^ F.emax := by
    rw [← Real.exp_nat_mul]
    exact (Real.exp_le_exp.2 (by push_cast; linarith)).trans hR
  obtain ⟨c, d, q1, q2, fd, hd⟩ := diff_small hp hpe fa fb hw ha hb err hE1 (by linarith) hR2 R44
  obtain ⟨x, e, q3, q4, ft, ht'⟩ := tolerance_large hp hpe h.exp h.ε_nonneg hε hθ R64 hRu hz hn
  refine ⟨c, d, x, e, q1, q2, q3, q4, ?_⟩
  rw [Ieee.fle_value fd ft]
  have := hd.trans ht'
  exact_mod_cast this

omit [RExp (Ieee F)] [RSin (Ieee F)] [RCos (Ieee F)] [RSinh (Ieee F)] [RCosh (Ieee F)] in
theorem abs_im_le (z : Complex (Ieee F)) : |(z.im.value : ℝ)| ≤ ‖cval z‖ := _root_.Complex.abs_im_le_norm (cval z)
omit [RExp (Ieee F)] [RSin (Ieee F)] [RCos (Ieee F)] [RSinh (Ieee F)] [RCosh (Ieee F)] in
theorem abs_re_le (z : Complex (Ieee F)) : |(z.re.value : ℝ)| ≤ ‖cval z‖ := _root_.Complex.abs_re_le_norm (cval z)

theorem sinh_lt_exp (r : ℝ) (hr : 0 ≤ r) : Real.sinh r ≤ Real.exp r / 2 ∧ Real.cosh r + Real.sinh r = Real.exp r ∧ 0 ≤ Real.sinh r := by
  refine ⟨?_, Real.cosh_add_sinh r, Real.sinh_nonneg_iff.2 hr⟩
  rw [Real.sinh_eq]
  linarith [Real.exp_pos (-r)]

/-- Real arithmetic: odd functions. -/
theorem main_odd {u ε t r : ℝ} {w : ℂ} (hu : 0 < u) (hε' : ε ≤ 1.1 * u) (hr : 0 ≤ r) (ht : |t| ≤ r) (hw : ‖w‖ ≤ Real.sinh r) :
    (2 * ε + u) * (Real.cosh t + ‖w‖) + u * ‖w‖ ≤ 3.82 * u * Real.exp r := by
  obtain ⟨h1, h2, h3⟩ := sinh_lt_exp r hr
  have hc : Real.cosh t ≤ Real.cosh r := Real.cosh_le_cosh.2 (by rwa [abs_of_nonneg hr])
  have c0 := Real.cosh_pos t
  have w0 := norm_nonneg w
  have k1 : (2 * ε + u) * (Real.cosh t + ‖w‖) ≤ 3.2 * u * Real.exp r :=
    mul_le_mul (by linarith) (by linarith) (by linarith) (by linarith)
  have k2 : u * ‖w‖ ≤ u * (Real.exp r / 2) := mul_le_mul_of_nonneg_left (by linarith) hu.le
  have := mul_pos hu (Real.exp_pos r)
  linarith

theorem cosh_le_part {r : ℝ} (hr : 1.2 ≤ r) : Real.cosh r ≤ 0.5457 * Real.exp r := by
  have h1 : Real.exp (-(2 * r)) ≤ 0.0914 := by
    have h2 : Real.exp (-(2 * r)) ≤ Real.exp (-2.4) := Real.exp_le_exp.2 (by linarith)
    refine h2.trans ?_
    have h3 : (10.941 : ℝ) ≤ Real.exp 2.4 := by
      have h4 := Real.exp_one_gt_d9
      have h5 : Real.exp 2.4 = Real.exp 1 * Real.exp 1 * Real.exp 0.4 := by
        rw [← Real.exp_add, ← Real.exp_add]; norm_num
      have h6 : (1.4809 : ℝ) ≤ Real.exp 0.4 := by
        have := Real.sum_le_exp_of_nonneg (x := 0.4) (by norm_num) 4
        norm_num [Finset.sum_range_succ, Nat.factorial] at this ⊢
        linarith
      rw [h5]
      have h7 : (2.7182 : ℝ) * 2.7182 ≤ Real.exp 1 * Real.exp 1 := mul_le_mul (by linarith) (by linarith) (by norm_num) (by positivity)
      have h8 := mul_le_mul h7 h6 (by norm_num) (by positivity)
      norm_num at h8 ⊢
      linarith
    rw [Real.exp_neg, inv_le_comm₀ (Real.exp_pos _) (by norm_num)]
    norm_num at h3 ⊢
    linarith
  have h2 : Real.exp (-r) = Real.exp (-(2 * r)) * Real.exp r := by rw [← Real.exp_add]; ring_nf
  have h3 := mul_le_mul_of_nonneg_right h1 (Real.exp_pos r).le
  rw [Real.cosh_eq, h2]
  linarith

/-- Real arithmetic: even functions. -/
theorem main_even {u ε t r : ℝ} {w : ℂ} (hu : 0 < u) (hε' : ε ≤ u) (hr : 1.2 ≤ r) (ht : |t| ≤ r) (hw : ‖w‖ ≤ Real.cosh t) :
    (2 * ε + u) * (Real.cosh t + ‖w‖) + u * ‖w‖ ≤ 3.82 * u * Real.exp r := by
  have h1 := cosh_le_part hr
  have hc : Real.cosh t ≤ Real.cosh r := Real.cosh_le_cosh.2 (by rwa [abs_of_nonneg (by linarith : 0 ≤ r)])
  have c0 := Real.cosh_pos t
  have w0 := norm_nonneg w
  have k1 : (2 * ε + u) * (Real.cosh t + ‖w‖) ≤ 3 * u * (2 * (0.5457 * Real.exp r)) :=
    mul_le_mul (by linarith) (by linarith) (by linarith) (by linarith)
  have k2 : u * ‖w‖ ≤ u * (0.5457 * Real.exp r) := mul_le_mul_of_nonneg_left (by linarith) hu.le
  have := mul_pos hu (Real.exp_pos r)
  linarith

/-- C72: the test of `sin` passes for every `z`, not just the one the crate tries. -/
theorem C72_sin_test (hp : 20 ≤ F.p) (hpe : F.p + 24 ≤ F.emax) (h : FnLib F R ε θ) (hε : ε ≤ 1.1 * F.u) (hθ : θ ≤ F.u / 256)
    (hR : Real.exp (2 * R) ≤ 2 ^ F.emax) (hRu : 512 * F.u * R ≤ 1) (z : Complex (Ieee F)) (hz : CFinite z)
    (hn : ‖cval z‖ + 1 ≤ R) : eulerCheck Complex.sin sinEuler z = .ok true := by
  obtain ⟨u0, u1⟩ := Fmt.u_small (F := F) hp
  have r0 := norm_nonneg (cval z)
  obtain ⟨a, b, ea, eb, fa, fb, ha, hb⟩ := C72_sin hp h (by linarith) (by linarith) (exp_sq_size hp hpe hR).1 z hz
    ((abs_re_le z).trans (by linarith)) ((abs_im_le z).trans (by linarith))
  have hw := norm_sin_le (cval z)
  obtain ⟨s1, s2, s3⟩ := sinh_lt_exp _ r0
  obtain ⟨c, d, x, e, q1, q2, q3, q4, q5⟩ := check_passes hp hpe h hε hθ hR hRu hz hn fa fb (abs_im_le z)
    (hw.trans (by linarith [Real.exp_pos ‖cval z‖])) ha hb (main_odd u0 hε r0 (abs_im_le z) hw)
  unfold eulerCheck
  simp only [ea, eb, q1, q2, q3, q4, q5, bind, Except.bind, pure, Except.pure]

/-- C72: the test of `sinh` passes for every `z`. -/
theorem C72_sinh_test (hp : 20 ≤ F.p) (hpe : F.p + 24 ≤ F.emax) (h : FnLib F R ε θ) (hε : ε ≤ 1.1 * F.u) (hθ : θ ≤ F.u / 256)
    (hR : Real.exp (2 * R) ≤ 2 ^ F.emax) (hRu : 512 * F.u * R ≤ 1) (z : Complex (Ieee F)) (hz : CFinite z)
    (hn : ‖cval z‖ + 1 ≤ R) : eulerCheck Complex.sinh sinhEuler z = .ok true := by
  obtain ⟨u0, u1⟩ := Fmt.u_small (F := F) hp
  have r0 := norm_nonneg (cval z)
  obtain ⟨a, b, ea, eb, fa, fb, ha, hb⟩ := C72_sinh hp h (by linarith) (by linarith) (exp_sq_size hp hpe hR).1 z hz
    ((abs_re_le z).trans (by linarith)) ((abs_im_le z).trans (by linarith))
  have hw := norm_sinh_le (cval z)
  obtain ⟨s1, s2, s3⟩ := sinh_lt_exp _ r0
  obtain ⟨c, d, x, e, q1, q2, q3, q4, q5⟩ := check_passes hp hpe h hε hθ hR hRu hz hn fa fb (abs_re_le z)
    (hw.trans (by linarith [Real.exp_pos ‖cval z‖])) ha hb (main_odd u0 hε r0 (abs_re_le z) hw)
  unfold eulerCheck
  simp only [ea, eb, q1, q2, q3, q4, q5, bind, Except.bind, pure, Except.pure]

/-- C72: the test of `cos` passes for every `z` with `|z| ≥ 1.2` (the crate tries one with `|z| = 1.23..`), with a library as
accurate as correct rounding. Nearer to 0, the tolerance `4u e^|z|` is smaller than what rounding errors may add up to. -/
theorem C72_cos_test (hp : 20 ≤ F.p) (hpe : F.p + 24 ≤ F.emax) (h : FnLib F R ε θ) (hε : ε ≤ F.u) (hθ : θ ≤ F.u / 256)
    (hR : Real.exp (2 * R) ≤ 2 ^ F.emax) (hRu : 512 * F.u * R ≤ 1) (z : Complex (Ieee F)) (hz : CFinite z) (hz' : 1.2 ≤ ‖cval z‖)
    (hn : ‖cval z‖ + 1 ≤ R) : eulerCheck Complex.cos cosEuler z = .ok true := by
  obtain ⟨u0, u1⟩ := Fmt.u_small (F := F) hp
  obtain ⟨a, b, ea, eb, fa, fb, ha, hb⟩ := C72_cos hp h (by linarith) (by linarith) (exp_sq_size hp hpe hR).1 z hz
    ((abs_re_le z).trans (by linarith)) ((abs_im_le z).trans (by linarith))
  have hw := norm_cos_le_im (cval z)
  obtain ⟨c, d, x, e, q1, q2, q3, q4, q5⟩ := check_passes hp hpe h (by linarith) hθ hR hRu hz hn fa fb (abs_im_le z)
    (hw.trans ((cosh_le_exp_abs _).trans (Real.exp_le_exp.2 (abs_im_le z)))) ha hb
    (main_even u0 hε hz' (abs_im_le z) hw)
  unfold eulerCheck
  simp only [ea, eb, q1, q2, q3, q4, q5, bind, Except.bind, pure, Except.pure]

/-- C72: the test of `cosh` passes for every `z` with `|z| ≥ 1.2`. -/
theorem C72_cosh_test (hp : 20 ≤ F.p) (hpe : F.p + 24 ≤ F.emax) (h : FnLib F R ε θ) (hε : ε ≤ F.u) (hθ : θ ≤ F.u / 256)
    (hR : Real.exp (2 * R) ≤ 2 ^ F.emax) (hRu : 512 * F.u * R ≤ 1) (z : Complex (Ieee F)) (hz : CFinite z) (hz' : 1.2 ≤ ‖cval z‖)
    (hn : ‖cval z‖ + 1 ≤ R) : eulerCheck Complex.cosh coshEuler z = .ok true := by
  obtain ⟨u0, u1⟩ := Fmt.u_small (F := F) hp
  obtain ⟨a, b, ea, eb, fa, fb, ha, hb⟩ := C72_cosh hp h (by linarith) (by linarith) (exp_sq_size hp hpe hR).1 z hz
    ((abs_re_le z).trans (by linarith)) ((abs_im_le z).trans (by linarith))
  have hw := norm_cosh_le_re (cval z)
  obtain ⟨c, d, x, e, q1, q2, q3, q4, q5⟩ := check_passes hp hpe h (by linarith) hθ hR hRu hz hn fa fb (abs_re_le z)
    (hw.trans ((cosh_le_exp_abs _).trans (Real.exp_le_exp.2 (abs_re_le z)))) ha hb
    (main_even u0 hε hz' (abs_re_le z) hw)
  unfold eulerCheck
  simp only [ea, eb, q1, q2, q3, q4, q5, bind, Except.bind, pure, Except.pure]

end Magnesia
