import Verif.Proof.TanAdd3
import Mathlib.Analysis.Real.Pi.Bounds

/-!
# C86: the addition theorem of the tangent, and the crate's randomized test of the complex tangent
-/

namespace Magnesia

open RZero ROne

variable {F : Fmt}

section

variable [RSin (Ieee F)] [RCos (Ieee F)] [RSinh (Ieee F)] [RCosh (Ieee F)]

/-- C86: the limit of use of the test, whatever the library computes: if the computed `1 - tan a tan b` is zero, then the
expected value is NaN and the assertion fails, although the tolerance is infinite. -/
theorem C86_test_zero (a b c tc d : Complex (Ieee F)) (hc : a.add b = .ok c) (htc : c.tan = .ok tc)
    (hd : tanDenominator a b = .ok d) (hf : CFinite d) (h0 : cval d = 0) : tanCheck a b = .ok false := by
  obtain ⟨s, hs⟩ := Ieee.eq_zero hf.1 (Rat.cast_eq_zero.1 (congrArg _root_.Complex.re h0))
  obtain ⟨t, ht⟩ := Ieee.eq_zero hf.2 (Rat.cast_eq_zero.1 (congrArg _root_.Complex.im h0))
  have e : d = ⟨.zero s, .zero t⟩ := by cases d; simp_all
  have ex : tanExpected a b = .ok ⟨.nan, .nan⟩ := by
    unfold tanExpected
    unfold tanDenominator at hd ⊢
    match hta : a.tan, htb : b.tan with
    | .error _, _ => rw [hta] at hd; exact absurd hd (by simp [bind, Except.bind])
    | .ok ta, .error _ => rw [hta, htb] at hd; exact absurd hd (by simp [bind, Except.bind])
    | .ok ta, .ok tb =>
      rw [hta, htb] at hd
      show (do let d' ← (do (⟨one, zero⟩ : Complex (Ieee F)).sub (← ta.mul tb)); Complex.div ⟨ta.re.add tb.re, ta.im.add tb.im⟩ d') = _
      have hd' : (do (⟨one, zero⟩ : Complex (Ieee F)).sub (← ta.mul tb)) = Except.ok d := hd
      rw [hd', e]
      exact C50_div_zero _ s t
  have eq : tc.sub (⟨.nan, .nan⟩ : Complex (Ieee F)) = .ok (⟨.nan, .nan⟩ : Complex (Ieee F)) := by
    have k : ∀ x : Ieee F, x.sub .nan = .nan := fun x => by cases x <;> rfl
    show Except.ok (Complex.mk (tc.re.sub .nan) (tc.im.sub .nan)) = _
    rw [k, k]
  unfold tanCheck tanTolerance
  rw [hc, hd]
  simp only [bind, Except.bind, htc, ex, eq]
  rfl

end

/-! ### Near zero -/

section

variable [RExp (Ieee F)] [RSin (Ieee F)] [RCos (Ieee F)] [RSinh (Ieee F)] [RCosh (Ieee F)] {R ε θ : ℝ}

/-- C86: the addition theorem. For `a`, `b` of absolute value up to `3/16` and a library as accurate as correct rounding, the
computed `tan(a + b)` and the computed `(tan a + tan b) / (1 - tan a tan b)` are both near the tangent of the exact sum. -/
theorem C86_tan_add (hp : 20 ≤ F.p) (hpe : F.p + 24 ≤ F.emax) (h : FnLib F R ε θ) (hε : ε ≤ 1.001 * F.u) (hθ : θ ≤ F.u / 1024)
    (hR0 : 0.3751 ≤ R) (hR : 8 * Real.exp R ≤ 2 ^ F.emax) (a b : Complex (Ieee F)) (ha : CFinite a) (hb : CFinite b)
    (hna : ‖cval a‖ ≤ 3 / 16) (hnb : ‖cval b‖ ≤ 3 / 16) :
    ∃ c tc ex, a.add b = .ok c ∧ c.tan = .ok tc ∧ tanExpected a b = .ok ex ∧ CFinite tc ∧ CFinite ex ∧
      ‖cval tc - _root_.Complex.tan (cval a + cval b)‖ ≤ 5.6 * F.u ∧
      ‖cval ex - _root_.Complex.tan (cval a + cval b)‖ ≤ 9.1 * F.u := by
  obtain ⟨c, tc, d, ex, e1, e2, _, e4, f1, _, f3, _, _, g1, g2, _⟩ := tan_add_near hp hpe h hε hθ hR0 hR ha hb hna hnb
  exact ⟨c, tc, ex, e1, e2, e4, f1, f3, g1, g2⟩

omit [RExp (Ieee F)] [RSin (Ieee F)] [RCos (Ieee F)] [RSinh (Ieee F)] [RCosh (Ieee F)] in
/-- The square of the absolute value of a number of absolute value about 1. -/
theorem sqrNorm_mid (hp : 20 ≤ F.p) (hpe : F.p + 24 ≤ F.emax) {z : Complex (Ieee F)} {t : Ieee F} (et : z.sqrNorm = .ok t)
    (ft : t.Finite) (hz : ‖cval z‖ ^ 2 ≤ 2) : |(t.value : ℝ) - ‖cval z‖ ^ 2| ≤ 0.001 ∧ -(3 * (F.η : ℝ)) ≤ t.value := by
  obtain ⟨u0, u1⟩ := Fmt.u_small (F := F) hp
  have hη := η_u_sq hpe
  have η0 := (η_le_one F).1
  have uu : (F.u : ℝ) ^ 2 ≤ F.u / 2 ^ 20 := by nlinarith
  have sq : ‖cval z‖ ^ 2 = (z.re.value : ℝ) ^ 2 + (z.im.value : ℝ) ^ 2 := by
    rw [_root_.Complex.sq_norm, _root_.Complex.normSq_apply]
    show (z.re.value : ℝ) * z.re.value + (z.im.value : ℝ) * z.im.value = _
    ring
  have h1 := C49_ieee_sqr_norm_error z t et ft
  have h2 : |(t.value : ℝ) - ((z.re.value : ℝ) ^ 2 + (z.im.value : ℝ) ^ 2)| ≤
      ((1 + F.u) ^ 2 - 1) * ((z.re.value : ℝ) ^ 2 + (z.im.value : ℝ) ^ 2) + (1 + F.u) ^ 2 * (2 * F.η) := by
    exact_mod_cast h1
  rw [← sq] at h2
  have s0 := sq_nonneg ‖cval z‖
  have h3 : (1 + (F.u : ℝ)) ^ 2 - 1 ≤ 0.0001 := by nlinarith
  have h4 : ((1 + (F.u : ℝ)) ^ 2 - 1) * ‖cval z‖ ^ 2 ≤ 0.0001 * ‖cval z‖ ^ 2 := mul_le_mul_of_nonneg_right h3 s0
  have h5 : (1 + (F.u : ℝ)) ^ 2 * (2 * F.η) ≤ 3 / 2 * (2 * F.η) := mul_le_mul_of_nonneg_right (by linarith) (by positivity)
  have := (abs_le.1 h2).1
  exact ⟨by linarith, by linarith⟩

omit [RExp (Ieee F)] in
/-- The tolerance of the test, near zero. -/
theorem tan_tolerance (hp : 20 ≤ F.p) (hpe : F.p + 24 ≤ F.emax) {a b tc d : Complex (Ieee F)} (f1 : CFinite tc) (f2 : CFinite d)
    (ntc : ‖cval tc‖ ≤ 1) (d1 : 0.962 ≤ ‖cval d‖) (d2 : ‖cval d‖ ≤ 1.04) (ed : tanDenominator a b = .ok d) :
    ∃ t, tanTolerance a b tc = .ok t ∧ t.Finite ∧ 15.9 * F.u ≤ (t.value : ℝ) := by
  obtain ⟨u0, u1⟩ := Fmt.u_small (F := F) hp
  have hη := η_u_sq hpe
  have η0 := (η_le_one F).1
  have uu : (F.u : ℝ) ^ 2 ≤ F.u / 2 ^ 20 := by nlinarith
  have h44 : (2 : ℝ) ^ 44 ≤ 2 ^ F.emax := by
    rw [← zpow_natCast]
    exact zpow_le_zpow_right₀ (by norm_num) (by push_cast; omega)
  norm_num at h44
  obtain ⟨s, es, fs⟩ := sqrNorm_finite f1 (by nlinarith [norm_nonneg (cval tc)])
  obtain ⟨n, en, fn⟩ := sqrNorm_finite f2 (by nlinarith [norm_nonneg (cval d)])
  have s1 : ‖cval tc‖ ^ 2 ≤ 1 := by nlinarith [norm_nonneg (cval tc)]
  have n1 : 0.9 ≤ ‖cval d‖ ^ 2 := by nlinarith
  have n2 : ‖cval d‖ ^ 2 ≤ 2 := by nlinarith
  obtain ⟨hs, sge⟩ := sqrNorm_mid hp hpe es fs (by linarith)
  obtain ⟨hn, -⟩ := sqrNorm_mid hp hpe en fn n2
  replace hs := abs_le.1 hs
  replace hn := abs_le.1 hn
  have s0 := sq_nonneg ‖cval tc‖
  have o1 : (((one : Ieee F).value : ℚ) : ℝ) = 1 := Rat.cast_one
  have apos : (0 : ℝ) ≤ s.value + ((one : Ieee F).value : ℚ) := by rw [o1]; linarith
  obtain ⟨fA, gA⟩ := Ieee.add_near fs (b := one) trivial (M := 2 ^ F.emax)
    (by rw [abs_of_nonneg apos, o1]; linarith) le_rfl
  rw [abs_of_nonneg apos, o1] at gA
  have gA := abs_le.1 gA
  have hA1 : F.u * ((s.value : ℝ) + 1) ≤ 1 / 2 ^ 20 * 3 := mul_le_mul u1 (by linarith) (by linarith) (by norm_num)
  have nne : n.value ≠ 0 := by
    intro e; rw [e, Rat.cast_zero] at hn; linarith
  have edv : (one : Ieee F).div n = .round (1 / n.value) := Ieee.div_fin (a := one) one_ne_zero nne
  have i0 : (0 : ℝ) < 1 / n.value := one_div_pos.2 (by linarith)
  have i1 : (1 / n.value : ℝ) ≤ 2 := by rw [div_le_iff₀ (by linarith)]; linarith
  have fB : ((one : Ieee F).div n).Finite := by
    rw [edv]
    refine Ieee.round_small (le_of_real ?_)
    push_cast
    rw [abs_of_pos i0]
    linarith
  have gB : ((((one : Ieee F).div n).value : ℚ) : ℝ) ≤ 3 := by
    have e6 := F.roundQ_err_any (1 / n.value)
    rw [edv] at fB ⊢
    rw [Ieee.round_finite fB]
    have h1 : |((F.roundQ (1 / n.value) : ℚ) : ℝ) - 1 / n.value| ≤ F.u * |(1 / n.value : ℝ)| + F.η := by exact_mod_cast e6
    rw [abs_of_pos i0] at h1
    have := (abs_le.1 h1).2
    have h2 : F.u * (1 / n.value : ℝ) ≤ 1 / 2 ^ 20 * 2 := mul_le_mul u1 i1 i0.le (by norm_num)
    linarith
  obtain ⟨fM, gM⟩ := Ieee.fmax_finite fA fB
  have gM' : (((s.add one).fmax ((one : Ieee F).div n)).value : ℝ) =
      max ((s.add one).value : ℝ) (((one : Ieee F).div n).value : ℚ) := by rw [gM, Rat.cast_max]
  generalize hM : (s.add one).fmax ((one : Ieee F).div n) = m at *
  have m1 : (0.999 : ℝ) ≤ m.value := by rw [gM']; exact le_max_of_le_left (by linarith)
  have m2 : (m.value : ℝ) ≤ 4 := by rw [gM']; exact max_le (by linarith) (by linarith)
  obtain ⟨fe, ge⟩ := epsilon_value (F := F) hp
  obtain ⟨ft, gt⟩ := ofInt_small (F := F) hp (n := 8) (by norm_num)
  have ge' : ((Ieee.epsilon : Ieee F).value : ℝ) = 2 * F.u := by rw [ge]; push_cast; rfl
  have gt' : ((Ieee.ofInt 8 : Ieee F).value : ℝ) = 8 := by rw [gt]; norm_num
  obtain ⟨f8, g8⟩ := Ieee.mul_near ft fe (M := 1) (by
    rw [ge', gt', abs_of_nonneg (by positivity)]; linarith) (by linarith)
  rw [ge', gt', abs_of_nonneg (show (0 : ℝ) ≤ 8 * (2 * F.u) by linarith)] at g8
  have g8 := abs_le.1 g8
  generalize hQ : (Ieee.ofInt 8 : Ieee F).mul Ieee.epsilon = q at *
  have q1 : 15.999 * F.u ≤ (q.value : ℝ) := by linarith
  have q2 : (q.value : ℝ) ≤ 17 * F.u := by linarith
  have mq1 : 15.98 * F.u ≤ (m.value : ℝ) * q.value := by
    have := mul_le_mul m1 q1 (by positivity) (by linarith)
    linarith
  have mq2 : (m.value : ℝ) * q.value ≤ 68 * F.u := by
    have := mul_le_mul m2 q2 (by linarith) (by norm_num)
    linarith
  obtain ⟨fT, gT⟩ := Ieee.mul_near fM f8 (M := 1) (by
    rw [abs_of_nonneg (by linarith)]; linarith) (by linarith)
  rw [abs_of_nonneg (show (0 : ℝ) ≤ m.value * q.value by linarith)] at gT
  have gT := (abs_le.1 gT).1
  have um : F.u * ((m.value : ℝ) * q.value) ≤ F.u * (68 * F.u) := mul_le_mul_of_nonneg_left mq2 u0.le
  refine ⟨m.mul q, ?_, fT, by linarith only [gT, um, mq1, uu, hη, u0, u1]⟩
  unfold tanTolerance
  simp only [ed, es, en, bind, Except.bind]
  rw [hM, hQ]
  rfl

/-- C86: so the assertion of the test holds for all such `a` and `b`, with the error and the tolerance computed in floating
point as well. -/
theorem C86_test (hp : 20 ≤ F.p) (hpe : F.p + 24 ≤ F.emax) (h : FnLib F R ε θ) (hε : ε ≤ 1.001 * F.u) (hθ : θ ≤ F.u / 1024)
    (hR0 : 0.3751 ≤ R) (hR : 8 * Real.exp R ≤ 2 ^ F.emax) (a b : Complex (Ieee F)) (ha : CFinite a) (hb : CFinite b)
    (hna : ‖cval a‖ ≤ 3 / 16) (hnb : ‖cval b‖ ≤ 3 / 16) : tanCheck a b = .ok true := by
  obtain ⟨c, tc, d, ex, e1, e2, e3, e4, f1, f2, f3, d1, d2, g1, g2, g3⟩ := tan_add_near hp hpe h hε hθ hR0 hR ha hb hna hnb
  obtain ⟨u0, u1⟩ := Fmt.u_small (F := F) hp
  have hη := η_u_sq hpe
  have η0 := (η_le_one F).1
  have uu : (F.u : ℝ) ^ 2 ≤ F.u / 2 ^ 20 := by nlinarith
  have h44 : (2 : ℝ) ^ 44 ≤ 2 ^ F.emax := by
    rw [← zpow_natCast]
    exact zpow_le_zpow_right₀ (by norm_num) (by push_cast; omega)
  norm_num at h44
  obtain ⟨df, x, edf, ex', fx, hx⟩ := diff_small (E := 4) hp hpe f1 f3 (by linarith) g1 g2 (by linarith) (by norm_num)
    (by linarith) (by linarith) (by norm_num; linarith)
  have ntc : ‖cval tc‖ ≤ 1 := by have := norm_of_near g1 g3; linarith
  obtain ⟨t, et, ft, ht⟩ := tan_tolerance hp hpe f1 f2 ntc d1 d2 e3
  have : x.fle t = true := (Ieee.fle_value fx ft).2 (by
    have : (x.value : ℝ) ≤ t.value := by linarith
    exact_mod_cast this)
  unfold tanCheck
  simp only [e1, e2, e4, edf, ex', et, bind, Except.bind, this]
  rfl

end

/-! ### The point `a = b = π/4` -/

/-- `std::f32::consts::FRAC_PI_4`: the number nearest to `π/4`. -/
def quarterPi : Ieee .f32 := .round (13176795 / 2 ^ 24)

/-- The floating point number nearest to both its sine and its cosine. -/
def halfRoot : Ieee .f32 := .round (11863283 / 2 ^ 24)

theorem quarterPi_val : quarterPi.Finite ∧ quarterPi.value = 13176795 / 2 ^ 24 := by
  constructor <;> decide +kernel

theorem halfRoot_val : halfRoot.Finite ∧ halfRoot.value = 11863283 / 2 ^ 24 := by
  constructor <;> decide +kernel

theorem sq_quarterPi : |Real.sin (13176795 / 2 ^ 24) ^ 2 - (1 / 2 + 2.185e-8)| ≤ 1e-10 ∧
    |Real.cos (13176795 / 2 ^ 24) ^ 2 - (1 / 2 - 2.185e-8)| ≤ 1e-10 := by
  have p1 := Real.pi_gt_d20
  have p2 := Real.pi_lt_d20
  set t : ℝ := 13176795 / 2 ^ 23 - Real.pi / 2 with ht
  have e : Real.cos (2 * (13176795 / 2 ^ 24)) = -Real.sin t := by
    rw [show (2 : ℝ) * (13176795 / 2 ^ 24) = t + Real.pi / 2 by rw [ht]; ring, Real.cos_add_pi_div_two]
  have t1 : 4.371e-8 ≤ t := by rw [ht]; norm_num at p2 ⊢; linarith
  have t2 : t ≤ 4.3712e-8 := by rw [ht]; norm_num at p1 ⊢; linarith
  have s1 := Real.sin_le (show 0 ≤ t by linarith)
  have s2 := Real.sin_gt_sub_cube (show 0 < t by linarith)
  have s3 : t ^ 3 / 4 ≤ 1e-12 := by
    have := pow_le_pow_left₀ (show 0 ≤ t by linarith) t2 3
    norm_num at this ⊢; linarith
  have hc := Real.cos_sq (13176795 / 2 ^ 24)
  have hs := Real.sin_sq_add_cos_sq (13176795 / 2 ^ 24)
  rw [e] at hc
  generalize Real.sin (13176795 / 2 ^ 24) ^ 2 = S at *
  generalize Real.cos (13176795 / 2 ^ 24) ^ 2 = C at *
  norm_num at *
  constructor <;> rw [abs_le] <;> constructor <;> linarith

/-- A floating point number nearest to a real number close to `halfRoot` is `halfRoot`. -/
theorem nearest_halfRoot {c : Ieee .f32} {r : ℝ} (hc : Nearest c r) (h : |(11863283 / 2 ^ 24 : ℝ) - r| < 1 / 2 ^ 25) : c = halfRoot := by
  obtain ⟨hf, hn⟩ := hc
  have h1 := hn halfRoot halfRoot_val.1
  rw [halfRoot_val.2] at h1
  push_cast at h1
  have h2 : |(c.value : ℝ) - 11863283 / 2 ^ 24| < 1 / 2 ^ 24 := by
    have := abs_sub_le (c.value : ℝ) r (11863283 / 2 ^ 24)
    rw [abs_sub_comm r] at this
    have e : (1 : ℝ) / 2 ^ 24 = 1 / 2 ^ 25 + 1 / 2 ^ 25 := by norm_num
    rw [e]; linarith
  have h3 : |c.value - 11863283 / 2 ^ 24| < 1 / 2 ^ 24 := by
    have : ((|c.value - 11863283 / 2 ^ 24| : ℚ) : ℝ) < ((1 / 2 ^ 24 : ℚ) : ℝ) := by push_cast; exact h2
    exact Rat.cast_lt.1 this
  have h4 : (2 : ℚ) ^ (-1 : ℤ) ≤ |c.value| := by
    have := (abs_lt.1 h3).1
    rw [abs_of_pos (by norm_num at this ⊢; linarith)]
    norm_num at this ⊢; linarith
  obtain ⟨n, hn⟩ := (Ieee.value_representable c).multiple h4
  have e : (-1 : ℤ) - ((Fmt.f32.p : ℤ) - 1) = -24 := by decide
  have e' : c.value = n / 2 ^ 24 := by
    rw [hn, e, zpow_neg]; norm_num [div_eq_mul_inv]
  have hne : n = 11863283 := by
    rw [e', ← sub_div, abs_div, abs_of_pos (show (0 : ℚ) < 2 ^ 24 by norm_num), div_lt_div_iff_of_pos_right (by norm_num)] at h3
    have h5 : |n - 11863283| < 1 := by exact_mod_cast h3
    have := Int.abs_lt_one_iff.1 h5
    omega
  rw [hne] at e'
  have hv : c.value = halfRoot.value := by rw [e', halfRoot_val.2]; norm_num
  have hz : halfRoot.value ≠ 0 := by rw [halfRoot_val.2]; norm_num
  generalize halfRoot = d at *
  cases c <;> cases d <;> simp_all [Ieee.value, Ieee.Finite]

theorem near_of_sq {s : ℝ} (h0 : 0 ≤ s) (h : |s ^ 2 - 1 / 2| ≤ 2.2e-8) (h' : s ^ 2 ≤ 1 / 2 + 2.196e-8) :
    |(11863283 / 2 ^ 24 : ℝ) - s| < 1 / 2 ^ 25 := by
  rw [abs_le] at h
  rw [abs_lt]
  constructor
  · have : s < 11863283 / 2 ^ 24 + 1 / 2 ^ 25 := by
      refine lt_of_pow_lt_pow_left₀ 2 (by norm_num) (h'.trans_lt ?_)
      norm_num
    linarith
  · have : 11863283 / 2 ^ 24 - 1 / 2 ^ 25 < s := by
      refine lt_of_pow_lt_pow_left₀ 2 h0 (lt_of_lt_of_le ?_ (show 1 / 2 - 2.2e-8 ≤ s ^ 2 by linarith [h.1]))
      norm_num
    linarith

theorem nearest_exact {c d : Ieee F} (hc : Nearest c d.value) (hd : d.Finite) : c.value = d.value := by
  have := hc.2 d hd
  rw [sub_self, abs_zero] at this
  have := abs_nonpos_iff.1 this
  exact_mod_cast sub_eq_zero.1 this

section

variable [RSin (Ieee .f32)] [RCos (Ieee .f32)] [RSinh (Ieee .f32)] [RCosh (Ieee .f32)]

/-- C86: with the best possible library the test still fails for some of the pairs it samples from: for `a = b = π/4`, rounded
to `f32`, the computed tangents are exactly 1. So the test can fail at random although the code is right. -/
theorem C86_test_fails (h : CorrectlyRounded .f32 2) :
    tanCheck (⟨quarterPi, zero⟩ : Complex (Ieee .f32)) ⟨quarterPi, zero⟩ = .ok false := by
  obtain ⟨q1, q2⟩ := quarterPi_val
  have qv : (quarterPi.value : ℝ) = 13176795 / 2 ^ 24 := by rw [q2]; push_cast; rfl
  have q3 : |(quarterPi.value : ℝ)| ≤ 2 := by rw [qv, abs_of_pos (by norm_num)]; norm_num
  have z3 : |(((zero : Ieee .f32).value : ℚ) : ℝ)| ≤ 2 := by show |((0 : ℚ) : ℝ)| ≤ 2; norm_num
  obtain ⟨s, es, hs⟩ := h.sin quarterPi q1 q3
  obtain ⟨c, ec, hc⟩ := h.cos quarterPi q1 q3
  obtain ⟨sh, esh, hsh⟩ := h.sinh zero trivial z3
  obtain ⟨ch, ech, hch⟩ := h.cosh zero trivial z3
  rw [qv] at hs hc
  obtain ⟨k1, k2⟩ := sq_quarterPi
  rw [abs_le] at k1 k2
  have s0 : 0 ≤ Real.sin (13176795 / 2 ^ 24) := Real.sin_nonneg_of_nonneg_of_le_pi (by norm_num) (by
    have := Real.pi_gt_three; norm_num; linarith)
  have c0 : 0 ≤ Real.cos (13176795 / 2 ^ 24) := Real.cos_nonneg_of_neg_pi_div_two_le_of_le (by
    have := Real.pi_gt_three; norm_num; linarith) (by have := Real.pi_gt_three; norm_num; linarith)
  obtain rfl := nearest_halfRoot hs (near_of_sq s0 (by rw [abs_le]; norm_num at k1 ⊢; constructor <;> linarith)
    (by norm_num at k1 ⊢; linarith))
  obtain rfl := nearest_halfRoot hc (near_of_sq c0 (by rw [abs_le]; norm_num at k2 ⊢; constructor <;> linarith)
    (by norm_num at k2 ⊢; linarith))
  have e0 : (((zero : Ieee .f32).value : ℚ) : ℝ) = 0 := Rat.cast_zero
  have e1 : (((one : Ieee .f32).value : ℚ) : ℝ) = 1 := Rat.cast_one
  rw [e0, Real.sinh_zero, ← e0] at hsh
  rw [e0, Real.cosh_zero, ← e1] at hch
  obtain ⟨t, rfl⟩ := Ieee.eq_zero hsh.1 (nearest_exact hsh trivial)
  obtain rfl : ch = one := by
    have hv := nearest_exact hch trivial
    have hv : ch.value = 1 := hv
    cases ch <;> simp_all [Ieee.value, ROne.one]
  have hsin : (⟨quarterPi, zero⟩ : Complex (Ieee .f32)).sin = .ok ⟨halfRoot.mul one, halfRoot.mul (.zero t)⟩ := by
    unfold Complex.sin; simp only [es, ec, esh, ech]; rfl
  have hcos : (⟨quarterPi, zero⟩ : Complex (Ieee .f32)).cos = .ok ⟨halfRoot.mul one, (halfRoot.mul (.zero t)).neg⟩ := by
    unfold Complex.cos; simp only [es, ec, esh, ech]; rfl
  have htan : (⟨quarterPi, zero⟩ : Complex (Ieee .f32)).tan =
      Complex.div (⟨halfRoot.mul one, halfRoot.mul (.zero t)⟩ : Complex (Ieee .f32))
        ⟨halfRoot.mul one, (halfRoot.mul (.zero t)).neg⟩ := by
    show (do RDiv.div (← (⟨quarterPi, zero⟩ : Complex (Ieee .f32)).sin) (← (⟨quarterPi, zero⟩ : Complex (Ieee .f32)).cos)) = _
    rw [hsin, hcos]; rfl
  obtain ⟨d, hd, hf, h0⟩ : ∃ d, tanDenominator (⟨quarterPi, zero⟩ : Complex (Ieee .f32)) ⟨quarterPi, zero⟩ = .ok d ∧ CFinite d ∧
      d.re.value = 0 ∧ d.im.value = 0 := by
    unfold tanDenominator
    rw [htan]
    cases t
    · refine ⟨⟨.zero false, .zero false⟩, by decide +kernel, ⟨trivial, trivial⟩, rfl, rfl⟩
    · refine ⟨⟨.zero false, .zero false⟩, by decide +kernel, ⟨trivial, trivial⟩, rfl, rfl⟩
  -- the tangent of the sum
  have v2 : (quarterPi.add quarterPi).Finite ∧ (quarterPi.add quarterPi).value = 13176795 / 2 ^ 23 := by
    constructor <;> decide +kernel
  have q4 : |((quarterPi.add quarterPi).value : ℝ)| ≤ 2 := by
    rw [v2.2]; push_cast; rw [abs_of_pos (by norm_num)]; norm_num
  have z4 : ((zero : Ieee .f32).add zero) = zero := rfl
  obtain ⟨s', es', _⟩ := h.sin _ v2.1 q4
  obtain ⟨c', ec', _⟩ := h.cos _ v2.1 q4
  have htc : ∃ tc, (⟨quarterPi.add quarterPi, zero⟩ : Complex (Ieee .f32)).tan = .ok tc := by
    set z : Complex (Ieee .f32) := ⟨quarterPi.add quarterPi, zero⟩ with hz
    show ∃ tc, (do RDiv.div (← z.sin) (← z.cos)) = Except.ok tc
    unfold Complex.sin Complex.cos
    simp only [hz, es', ec', esh, ech]
    exact ⟨_, rfl⟩
  obtain ⟨tc, htc⟩ := htc
  refine C86_test_zero _ _ ⟨quarterPi.add quarterPi, zero⟩ tc d rfl htc hd hf ?_
  apply _root_.Complex.ext
  · show ((d.re.value : ℚ) : ℝ) = 0
    rw [h0.1, Rat.cast_zero]
  · show ((d.im.value : ℚ) : ℝ) = 0
    rw [h0.2, Rat.cast_zero]

end

end Magnesia
