import Verif.Proof.LnMul

/-!
# C70: the logarithm of a product, and the crate's randomized test of the complex logarithm
-/

namespace Magnesia

open RZero ROne

variable {F : Fmt}

/-- C70: `ln(a * b)` and `ln(a) + ln(b)`. For every `a`, `b` other than zero whose parts are zero or of magnitude between
`2^-k` and `2^k` (`k = 29` for `f32`, `k = 253` for `f64`): the real parts agree up to the rounding errors, and the imaginary
parts agree up to their errors and possibly one full turn. -/
theorem C70_ln_mul {ε θ δ : ℝ} [RLn (Ieee F)] [RAtan2 (Ieee F)] (hp : 20 ≤ F.p) (k : ℕ) (hk : 4 * k + 10 ≤ F.emax)
    (h : LogLib F ε θ δ) (hε : ε ≤ 1 / 16) (a b : Complex (Ieee F)) (ha : a.re.Between (-k) k ∧ a.im.Between (-k) k)
    (hb : b.re.Between (-k) k ∧ b.im.Between (-k) k) (ha0 : cval a ≠ 0) (hb0 : cval b ≠ 0) :
    ∃ c la lb lc, a.mul b = .ok c ∧ a.ln = .ok la ∧ b.ln = .ok lb ∧ c.ln = .ok lc ∧ CFinite la ∧ CFinite lb ∧ CFinite lc ∧
      |(lc.re.value : ℝ) - la.re.value - lb.re.value| ≤
        2 * ((1 + F.u) * (1 + ε) - 1) * (|Real.log ‖cval a‖| + |Real.log ‖cval b‖|) + 6 * F.u + 2 * θ ∧
      ∃ n : ℤ, |n| ≤ 1 ∧ |(lc.im.value : ℝ) - la.im.value - lb.im.value - 2 * Real.pi * n| ≤ 3 * δ + 2.45 * F.u := by
  obtain ⟨c, la, lb, lc, e1, e2, e3, e4, f1, f2, f3, g1, g2, _⟩ := ln_mul_near hp hk h hε ha hb ha0 hb0
  exact ⟨c, la, lb, lc, e1, e2, e3, e4, f1, f2, f3, g1, g2⟩

/-! ### The tolerance -/

theorem Ieee.fmax_finite {a b : Ieee F} (ha : a.Finite) (hb : b.Finite) :
    (a.fmax b).Finite ∧ (a.fmax b).value = max a.value b.value := by
  have e : a.fmax b = if a.flt b then b else a := by
    cases a <;> cases b <;> first | rfl | exact ha.elim
  rw [e]
  have h := flt_value ha hb
  split
  · rename_i h1
    exact ⟨hb, (max_eq_right (h.1 h1).le).symm⟩
  · rename_i h1
    exact ⟨ha, (max_eq_left (not_lt.1 (fun h2 => h1 (h.2 h2)))).symm⟩

theorem one_add_abs_log_le {x : ℝ} (hx : 0 < x) : 1 + |Real.log x| ≤ max x (1 / x) := by
  rcases le_total 0 (Real.log x) with h | h
  · rw [abs_of_nonneg h]
    have := Real.add_one_le_exp (Real.log x)
    rw [Real.exp_log hx] at this
    exact le_max_of_le_left (by linarith)
  · rw [abs_of_nonpos h]
    have := Real.add_one_le_exp (-Real.log x)
    rw [Real.exp_neg, Real.exp_log hx, ← one_div] at this
    exact le_max_of_le_right (by linarith)

theorem ofInt_small (hp : 20 ≤ F.p) {n : ℤ} (hn : |n| ≤ 2 ^ 20) : (Ieee.ofInt n : Ieee F).Finite ∧ (Ieee.ofInt n : Ieee F).value = n := by
  refine Ieee.ofInt_representable ?_
  have hpe := F.p_le_emax
  have h1 : |n| ≤ 2 ^ F.p := hn.trans (pow_le_pow_right₀ (by norm_num) hp)
  have := F.representable_of (m := n) (e := 0) h1 (by unfold Fmt.emin; omega) (by
    rw [zpow_zero, mul_one]
    have h2 : |(n : ℚ)| ≤ 2 ^ F.p := by exact_mod_cast h1
    refine h2.trans_lt ?_
    rw [← zpow_natCast]
    exact zpow_lt_zpow_right₀ (by norm_num) (by omega))
  rwa [zpow_zero, mul_one] at this

theorem epsilon_value (hp : 20 ≤ F.p) : (Ieee.epsilon : Ieee F).Finite ∧ (Ieee.epsilon : Ieee F).value = 2 * F.u := by
  have hpe := F.p_le_emax
  have hr : F.Representable ((2 : ℚ) ^ (1 - (F.p : ℤ))) := by
    have := F.representable_of (m := 1) (e := 1 - F.p) (by rw [abs_one]; exact one_le_pow₀ (by norm_num))
      (by unfold Fmt.emin; omega) (by
        rw [Int.cast_one, _root_.one_mul, abs_of_pos (by positivity)]
        exact zpow_lt_zpow_right₀ (by norm_num) (by omega))
    rwa [Int.cast_one, _root_.one_mul] at this
  have g1 : (Ieee.epsilon : Ieee F).Finite := Ieee.round_finite_iff.2 (by rw [F.roundQ_representable hr]; exact hr.2)
  refine ⟨g1, ?_⟩
  unfold Ieee.epsilon at g1 ⊢
  rw [Ieee.round_finite g1, F.roundQ_representable hr, Fmt.u, sub_eq_add_neg, zpow_add₀ (by norm_num), zpow_one]

/-- One summand of the tolerance. -/
theorem tol_part (hp : 20 ≤ F.p) {k : ℕ} (hk : 4 * k + 10 ≤ F.emax) {z : Complex (Ieee F)}
    (hz : z.re.Between (-k) k ∧ z.im.Between (-k) k) (hz0 : cval z ≠ 0) :
    ∃ h, z.abs = .ok h ∧ (h.fmax ((one : Ieee F).div h)).Finite ∧
      0.99 * (1 + |Real.log ‖cval z‖|) ≤ ((h.fmax ((one : Ieee F).div h)).value : ℝ) ∧
      ((h.fmax ((one : Ieee F).div h)).value : ℝ) ≤ 4 * (2 : ℝ) ^ (k : ℤ) := by
  obtain ⟨u0, u1⟩ := Fmt.u_small (F := F) hp
  have hη := Fmt.η_small hk
  have hη0 : (0 : ℝ) ≤ F.η := by exact_mod_cast F.η_pos.le
  obtain ⟨a1, a2⟩ := cval_size hz.1 hz.2 hz0
  have hn : ‖cval z‖ ^ 2 = (z.re.value : ℝ) ^ 2 + (z.im.value : ℝ) ^ 2 := by
    rw [_root_.Complex.sq_norm, _root_.Complex.normSq_apply]
    show (z.re.value : ℝ) * z.re.value + (z.im.value : ℝ) * z.im.value = _
    ring
  have hne : z.re.value ≠ 0 ∨ z.im.value ≠ 0 := by
    by_contra h
    rw [not_or, not_not, not_not] at h
    exact hz0 (by apply _root_.Complex.ext <;> simp [cval, h.1, h.2])
  obtain ⟨_, _, h, _, eh, _, _, hf, herr, _⟩ := sqrt_trace (F := F) (by omega) k (by omega) z hz.1 hz.2 hne (norm_nonneg _) hn rfl
  refine ⟨h, eh, ?_⟩
  set K : ℝ := (2 : ℝ) ^ (k : ℤ) with hK
  have hKi : (2 : ℝ) ^ (-(k : ℤ)) = K⁻¹ := by rw [zpow_neg]
  rw [hKi] at a1 hη
  have K1 : 1 ≤ K := one_le_zpow₀ (by norm_num) (by positivity)
  have hbig : 8 * K ≤ (2 : ℝ) ^ F.emax := by
    rw [hK, show (8 : ℝ) = 2 ^ (3 : ℤ) by norm_num, ← zpow_add₀ (by norm_num)]
    exact zpow_le_zpow_right₀ (by norm_num) (by omega)
  set A := ‖cval z‖
  have hL0 : 0 < K⁻¹ := by positivity
  have A0 : 0 < A := hL0.trans_le a1
  have iA : 1 / A ≤ K := by
    rw [div_le_iff₀ A0]
    have := mul_le_mul_of_nonneg_left a1 (show 0 ≤ K by linarith)
    rwa [mul_inv_cancel₀ (by linarith)] at this
  have iA' : K⁻¹ / 2 ≤ 1 / A := by
    rw [div_le_div_iff₀ (by norm_num) A0]
    have := mul_le_mul_of_nonneg_left a2 hL0.le
    have e : K⁻¹ * (2 * K) = 2 := by field_simp
    linarith
  have hh : 0.9999 * A ≤ (h.value : ℝ) ∧ (h.value : ℝ) ≤ 1.0001 * A := by
    have e : (1 + (F.u : ℝ)) ^ 2 - 1 ≤ 0.0001 := by nlinarith
    have := abs_le.1 (herr.trans (mul_le_mul_of_nonneg_right e A0.le))
    constructor <;> linarith
  have h0 : (0 : ℝ) < h.value := by linarith
  have hne' : h.value ≠ 0 := by
    intro e; rw [e] at h0; simp at h0
  have ih1 : (1 / h.value : ℝ) ≤ 1.001 * (1 / A) := by
    rw [div_le_iff₀ h0]
    have : (1 / A) * (h.value : ℝ) ≥ (1 / A) * (0.9999 * A) := mul_le_mul_of_nonneg_left hh.1 (by positivity)
    have e : (1 / A) * (0.9999 * A) = 0.9999 := by field_simp
    linarith
  have ih2 : 0.999 * (1 / A) ≤ (1 / h.value : ℝ) := by
    rw [le_div_iff₀ h0]
    have : (1 / A) * (h.value : ℝ) ≤ (1 / A) * (1.0001 * A) := mul_le_mul_of_nonneg_left hh.2 (by positivity)
    have e : (1 / A) * (1.0001 * A) = 1.0001 := by field_simp
    linarith
  have edv : (one : Ieee F).div h = .round (1 / h.value) := Ieee.div_fin (a := one) one_ne_zero hne'
  have gf : ((one : Ieee F).div h).Finite := by
    rw [edv]
    refine Ieee.round_small (le_of_real ?_)
    push_cast
    rw [abs_of_pos (by positivity)]
    linarith
  have gv : |(((one : Ieee F).div h).value : ℝ) - 1 / h.value| ≤ F.u * (1 / h.value) + F.η := by
    have e6 := F.roundQ_err_any (1 / h.value)
    rw [edv] at gf ⊢
    rw [Ieee.round_finite gf]
    have : |((F.roundQ (1 / h.value) : ℚ) : ℝ) - 1 / h.value| ≤ F.u * |(1 / h.value : ℝ)| + F.η := by exact_mod_cast e6
    rwa [abs_of_pos (show (0 : ℝ) < 1 / h.value by positivity)] at this
  have L1 : K⁻¹ ≤ 1 := inv_le_one_of_one_le₀ K1
  have hη2 : (F.η : ℝ) ≤ 0.001 * (1 / A) := by
    have h4 : K⁻¹ ^ 4 ≤ K⁻¹ := by
      have := pow_le_pow_of_le_one hL0.le L1 (show 1 ≤ 4 by norm_num)
      rwa [pow_one] at this
    have h5 : F.u * K⁻¹ ^ 4 ≤ 1 / 2 ^ 20 * K⁻¹ := mul_le_mul u1 h4 (by positivity) (by norm_num)
    linarith
  have hu2 : F.u * (1 / h.value : ℝ) ≤ 1 / 2 ^ 20 * (1.001 * (1 / A)) := mul_le_mul u1 ih1 (by positivity) (by norm_num)
  have g3 := abs_le.1 gv
  have iA0 : 0 < 1 / A := by positivity
  have fm := Ieee.fmax_finite hf gf
  refine ⟨fm.1, ?_, ?_⟩
  · rw [fm.2, Rat.cast_max]
    have h1 := one_add_abs_log_le A0
    rcases le_max_iff.1 h1 with h2 | h2
    · refine le_max_of_le_left ?_
      linarith
    · refine le_max_of_le_right ?_
      linarith
  · rw [fm.2, Rat.cast_max]
    refine max_le ?_ ?_ <;> linarith

/-- The tolerance computed by the test is large enough. -/
theorem tol_near (hp : 20 ≤ F.p) {k : ℕ} (hk : 4 * k + 10 ≤ F.emax) {a b : Complex (Ieee F)}
    (ha : a.re.Between (-k) k ∧ a.im.Between (-k) k)
    (hb : b.re.Between (-k) k ∧ b.im.Between (-k) k) (ha0 : cval a ≠ 0) (hb0 : cval b ≠ 0) :
    ∃ t, lnTolerance a b = .ok t ∧ ((Ieee.ofInt 10 : Ieee F).mul t).Finite ∧
      19 * F.u * (2 + |Real.log ‖cval a‖| + |Real.log ‖cval b‖|) ≤ (((Ieee.ofInt 10 : Ieee F).mul t).value : ℝ) := by
  obtain ⟨u0, u1⟩ := Fmt.u_small (F := F) hp
  obtain ⟨x, ex, fx, lx, ux⟩ := tol_part hp hk ha ha0
  obtain ⟨y, ey, fy, ly, uy⟩ := tol_part hp hk hb hb0
  have hη : (F.η : ℝ) ≤ F.u / 2 ^ 8 := by
    refine (Fmt.η_small hk).trans ?_
    have : ((2 : ℝ) ^ (-(k : ℤ))) ^ 4 ≤ 1 := pow_le_one₀ (by positivity) (zpow_le_one_of_nonpos₀ (by norm_num) (by omega))
    have := mul_le_mul_of_nonneg_left this u0.le
    linarith
  have hbig : 256 * (2 : ℝ) ^ (k : ℤ) ≤ (2 : ℝ) ^ F.emax := by
    rw [show (256 : ℝ) = 2 ^ (8 : ℤ) by norm_num, ← zpow_add₀ (by norm_num)]
    exact zpow_le_zpow_right₀ (by norm_num) (by omega)
  have K1 : 1 ≤ (2 : ℝ) ^ (k : ℤ) := one_le_zpow₀ (by norm_num) (by positivity)
  have l1 := abs_nonneg (Real.log ‖cval a‖)
  have l2 := abs_nonneg (Real.log ‖cval b‖)
  generalize |Real.log ‖cval a‖| = la at *
  generalize |Real.log ‖cval b‖| = lb at *
  generalize (2 : ℝ) ^ (k : ℤ) = K at *
  set X := x.fmax ((one : Ieee F).div x)
  set Y := y.fmax ((one : Ieee F).div y)
  obtain ⟨fs, gs⟩ := Ieee.add_near fx fy (M := 2 ^ F.emax) (by rw [abs_of_nonneg (by linarith)]; linarith) le_rfl
  obtain ⟨fe, ge⟩ := epsilon_value (F := F) hp
  obtain ⟨ft, gt⟩ := ofInt_small (F := F) hp (n := 10) (by norm_num)
  have ge' : ((Ieee.epsilon : Ieee F).value : ℝ) = 2 * F.u := by rw [ge]; push_cast; rfl
  have gt' : ((Ieee.ofInt 10 : Ieee F).value : ℝ) = 10 := by rw [gt]; norm_num
  rw [abs_of_nonneg (by linarith : (0 : ℝ) ≤ (X.value : ℝ) + Y.value)] at gs
  set S := X.add Y
  have S1 := abs_le.1 gs
  have S2 : F.u * ((X.value : ℝ) + Y.value) ≤ 1 / 2 ^ 20 * ((X.value : ℝ) + Y.value) := mul_le_mul_of_nonneg_right u1 (by linarith)
  have S0 : (0 : ℝ) < S.value := by linarith
  have hse : |(S.value : ℝ) * (Ieee.epsilon : Ieee F).value| ≤ 2 ^ F.emax := by
    rw [ge', abs_of_nonneg (by positivity)]
    have : (S.value : ℝ) * (2 * F.u) ≤ (S.value : ℝ) * 1 := mul_le_mul_of_nonneg_left (by linarith) S0.le
    linarith
  obtain ⟨f1, g1⟩ := Ieee.mul_near fs fe hse le_rfl
  rw [ge', abs_of_nonneg (show (0 : ℝ) ≤ S.value * (2 * F.u) by positivity)] at g1
  set T := S.mul .epsilon
  have T1 := abs_le.1 g1
  have su : F.u * ((S.value : ℝ) * (2 * F.u)) ≤ 1 / 2 ^ 20 * ((S.value : ℝ) * (2 * F.u)) := mul_le_mul_of_nonneg_right u1 (by positivity)
  have sl : 1.979 * F.u * (2 + la + lb) ≤ (S.value : ℝ) * (2 * F.u) := by
    have := mul_le_mul_of_nonneg_right (show 0.9895 * (2 + la + lb) ≤ (S.value : ℝ) by linarith) (show 0 ≤ 2 * (F.u : ℝ) by linarith)
    linarith
  have sup : (S.value : ℝ) * (2 * F.u) ≤ 9 * K * 1 := mul_le_mul (by linarith) (by linarith) (by linarith) (by linarith)
  have ul : 2 * F.u ≤ F.u * (2 + la + lb) := by
    have := mul_nonneg u0.le (show 0 ≤ la + lb by linarith); linarith
  have T0 : 1.95 * (F.u * (2 + la + lb)) ≤ (T.value : ℝ) := by linarith
  have T0' : 0 ≤ (T.value : ℝ) := by linarith
  obtain ⟨f2, g2⟩ := Ieee.mul_near ft f1 (M := 2 ^ F.emax) (by
    rw [gt', abs_of_nonneg (by linarith)]; linarith) le_rfl
  rw [gt', abs_of_nonneg (show (0 : ℝ) ≤ 10 * T.value by linarith)] at g2
  refine ⟨T, by unfold lnTolerance; rw [ex, ey]; rfl, f2, ?_⟩
  have T2 := abs_le.1 g2
  have tu : F.u * (10 * (T.value : ℝ)) ≤ 1 / 2 ^ 20 * (10 * (T.value : ℝ)) := mul_le_mul_of_nonneg_right u1 (by linarith)
  linarith

/-! ### The imaginary part -/

/-- Rounding a number below `2^e` changes it by at most `2^e u / 2`. -/
theorem roundQ_err_below {x : ℚ} {e : ℤ} (he : F.emin < e) (h : |x| < 2 ^ e) : |F.roundQ x - x| ≤ 2 ^ (e - 1) * F.u := by
  by_cases h0 : x = 0
  · subst h0
    rw [F.roundQ_zero, sub_zero, abs_zero]
    have := F.u_pos
    positivity
  have hl : Int.log 2 |x| < e := by
    by_contra h1
    have h2 := Fmt.zpow_log_le h0
    have h3 : (2 : ℚ) ^ e ≤ 2 ^ Int.log 2 |x| := zpow_le_zpow_right₀ (by norm_num) (not_lt.1 h1)
    linarith
  refine (F.roundQ_err x).trans ?_
  have h1 : F.ulp x ≤ 2 ^ (e - 1 - (F.p - 1)) := zpow_le_zpow_right₀ (by norm_num) (by unfold Fmt.ulpExp; omega)
  rw [Fmt.u, ← zpow_add₀ (by norm_num)]
  have h2 : (2 : ℚ) ^ (e - 1 - ((F.p : ℤ) - 1)) = 2 * 2 ^ (e - 1 + -(F.p : ℤ)) := by
    rw [show e - 1 - ((F.p : ℤ) - 1) = 1 + (e - 1 + -(F.p : ℤ)) by ring, zpow_add₀ (by norm_num), zpow_one]
  linarith

/-- The last comparison of the test: `x` was rounded from `r`, which is near `2 pi`. -/
theorem im_check (hp : 20 ≤ F.p) {pi x : Ieee F} {r : ℚ} (hpi : pi.Finite) (h1 : 3 ≤ pi.value) (h2 : pi.value ≤ 3.5) (hx : x.Finite)
    (hv : x.value = F.roundQ r) :
    (|r - 2 * pi.value| ≤ 16 * F.u →
      (x.sub ((Ieee.ofInt 2).mul pi)).abs.fle ((Ieee.ofInt 8).mul .epsilon) = true ∧ 1 < x.value) ∧
    (|r + 2 * pi.value| ≤ 16 * F.u →
      (x.add ((Ieee.ofInt 2).mul pi)).abs.fle ((Ieee.ofInt 8).mul .epsilon) = true ∧ x.value < -1) := by
  have hpe := F.p_le_emax
  have hu : F.u ≤ 1 / 2 ^ 20 := by
    have h : F.u ≤ 2 ^ (-20 : ℤ) := zpow_le_zpow_right₀ (by norm_num) (by omega)
    exact h.trans (by norm_num)
  have u0 := F.u_pos
  obtain ⟨f2, g2⟩ := ofInt_small (F := F) hp (n := 2) (by norm_num)
  obtain ⟨f8, g8⟩ := ofInt_small (F := F) hp (n := 8) (by norm_num)
  obtain ⟨fe, ge⟩ := epsilon_value (F := F) hp
  have big : (16 : ℚ) ≤ 2 ^ F.emax := by
    rw [show (16 : ℚ) = 2 ^ (4 : ℤ) by norm_num]
    exact zpow_le_zpow_right₀ (by norm_num) (by omega)
  have huz : (2 : ℚ) ^ (3 - (F.p : ℤ)) = 8 * F.u := by
    rw [Fmt.u, sub_eq_add_neg, zpow_add₀ (by norm_num)]; norm_num
  -- multiples of `8u` below 8 are representable
  have rep : ∀ n : ℤ, |(n : ℚ) * (8 * F.u)| ≤ 8 → F.Representable (n * (8 * F.u)) := by
    intro n hn
    rw [← huz] at hn ⊢
    refine F.representable_of ?_ (by unfold Fmt.emin; omega) (hn.trans_lt ?_)
    · have h3 : |(n : ℚ)| ≤ 2 ^ F.p := by
        rw [abs_mul, abs_of_pos (show (0 : ℚ) < 2 ^ (3 - (F.p : ℤ)) by positivity), sub_eq_add_neg, zpow_add₀ (by norm_num),
          show (2 : ℚ) ^ (3 : ℤ) = 8 by norm_num, zpow_neg, zpow_natCast] at hn
        have h4 : (0 : ℚ) < 2 ^ F.p := by positivity
        field_simp at hn
        linarith
      exact_mod_cast h3
    · rw [zpow_add_one₀ (by norm_num)]; linarith
  -- twice pi
  obtain ⟨n, hn⟩ := (Ieee.value_representable pi).multiple (lo := 1) (by rw [abs_of_pos (by linarith)]; norm_num; linarith)
  have hn' : 2 * pi.value = n * (8 * F.u) := by
    rw [hn, ← huz, show (1 : ℤ) - ((F.p : ℤ) - 1) = 2 - F.p by ring, show (3 : ℤ) - (F.p : ℤ) = 1 + (2 - F.p) by ring,
      zpow_add₀ (by norm_num)]
    ring
  have hP : ((Ieee.ofInt 2 : Ieee F).mul pi).Finite ∧ ((Ieee.ofInt 2 : Ieee F).mul pi).value = 2 * pi.value := by
    have hr : F.roundQ ((Ieee.ofInt 2 : Ieee F).value * pi.value) = 2 * pi.value := by
      rw [g2]; push_cast
      rw [hn', F.roundQ_representable (rep n (by rw [← hn', abs_of_pos (by linarith)]; linarith))]
    have hf : ((Ieee.ofInt 2 : Ieee F).mul pi).Finite := (Ieee.mul_finite_iff f2 hpi).2 (by
      rw [hr, abs_of_pos (by linarith), zpow_add_one₀ (by norm_num)]; linarith)
    exact ⟨hf, by rw [(Ieee.mul_finite hf).2.2, hr]⟩
  have hE : ((Ieee.ofInt 8 : Ieee F).mul .epsilon).Finite ∧ ((Ieee.ofInt 8 : Ieee F).mul .epsilon).value = 16 * F.u := by
    have e : ((8 : ℤ) : ℚ) * (2 * F.u) = ((2 : ℤ) : ℚ) * (8 * F.u) := by push_cast; ring
    have hr : F.roundQ ((Ieee.ofInt 8 : Ieee F).value * (Ieee.epsilon : Ieee F).value) = 16 * F.u := by
      rw [g8, ge, e, F.roundQ_representable (rep 2 (by rw [abs_of_pos (by push_cast; positivity)]; push_cast; linarith))]
      push_cast; ring
    have hf : ((Ieee.ofInt 8 : Ieee F).mul .epsilon).Finite := (Ieee.mul_finite_iff f8 fe).2 (by
      rw [hr, abs_of_pos (by linarith), zpow_add_one₀ (by norm_num)]; linarith)
    exact ⟨hf, by rw [(Ieee.mul_finite hf).2.2, hr]⟩
  have near : ∀ q : ℚ, |q - 2 * pi.value| ≤ 16 * F.u → |F.roundQ q - 2 * pi.value| ≤ 16 * F.u := by
    intro q h
    obtain ⟨r1, r2⟩ := abs_le.1 h
    have b1 : F.roundQ q ≤ (n + 2 : ℤ) * (8 * F.u) := F.roundQ_le_of_representable (rep _ (by
      push_cast; rw [add_mul, ← hn', abs_of_pos (by linarith)]; linarith)) (by push_cast; rw [add_mul, ← hn']; linarith)
    have b2 : (n - 2 : ℤ) * (8 * F.u) ≤ F.roundQ q := F.le_roundQ_of_representable (rep _ (by
      push_cast; rw [sub_mul, ← hn', abs_of_pos (by linarith)]; linarith)) (by push_cast; rw [sub_mul, ← hn']; linarith)
    push_cast at b1 b2
    rw [add_mul, ← hn'] at b1
    rw [sub_mul, ← hn'] at b2
    rw [abs_le]; constructor <;> linarith
  have small : ∀ {y : Ieee F} {d : ℚ}, y.Finite → y.value = F.roundQ d → |d| ≤ 16 * F.u →
      y.abs.fle ((Ieee.ofInt 8).mul .epsilon) = true := by
    intro y d hy hyv hd
    rw [Ieee.fle_value (Ieee.abs_finite.2 hy) hE.1, Ieee.abs_value, hyv, hE.2]
    have r16 := rep 2 (by rw [abs_of_pos (by push_cast; positivity)]; push_cast; linarith)
    have e16 : ((2 : ℤ) : ℚ) * (8 * F.u) = 16 * F.u := by push_cast; ring
    rw [e16] at r16
    have := F.abs_roundQ_mono (x := d) (y := 16 * F.u) (by
      rw [abs_of_pos (show 0 < 16 * F.u by linarith)]; exact hd)
    rwa [F.roundQ_representable r16, abs_of_pos (show 0 < 16 * F.u by linarith)] at this
  constructor
  · intro h
    have h16 := near r h
    rw [← hv] at h16
    have hs : (x.sub ((Ieee.ofInt 2).mul pi)).Finite := Ieee.sub_small hx hP.1 (by rw [hP.2]; linarith)
    refine ⟨small hs (Ieee.sub_finite hs).2.2 (by rw [hP.2]; exact h16), ?_⟩
    have := (abs_le.1 h16).1
    linarith
  · intro h
    have h16 := near (-r) (by rw [← abs_neg]; rwa [show -(-r - 2 * pi.value) = r + 2 * pi.value by ring])
    rw [F.roundQ_neg, ← hv] at h16
    have h17 : |x.value + 2 * pi.value| ≤ 16 * F.u := by
      rw [← abs_neg]; rwa [show -(x.value + 2 * pi.value) = -x.value - 2 * pi.value by ring]
    have hs : (x.add ((Ieee.ofInt 2).mul pi)).Finite := Ieee.add_small hx hP.1 (by rw [hP.2]; linarith)
    refine ⟨small hs (Ieee.add_finite hs).2.2 (by rw [hP.2]; exact h17), ?_⟩
    have := (abs_le.1 h17).2
    linarith

/-- No turn. -/
theorem im_small (hp : 20 ≤ F.p) {pi x : Ieee F} {r : ℚ} (hpi : pi.Finite) (h1 : 3 ≤ pi.value) (h2 : pi.value ≤ 3.5) (hx : x.Finite)
    (hv : x.value = F.roundQ r) (h : |r| ≤ 16 * F.u) :
    x.abs.fle ((Ieee.ofInt 8).mul .epsilon) = true ∧ x.abs.fle ((Ieee.ofInt 8).mul pi) = true ∧ |x.value| ≤ 1 := by
  have hpe := F.p_le_emax
  have hu : F.u ≤ 1 / 2 ^ 20 := by
    have h : F.u ≤ 2 ^ (-20 : ℤ) := zpow_le_zpow_right₀ (by norm_num) (by omega)
    exact h.trans (by norm_num)
  have u0 := F.u_pos
  obtain ⟨f8, g8⟩ := ofInt_small (F := F) hp (n := 8) (by norm_num)
  obtain ⟨fe, ge⟩ := epsilon_value (F := F) hp
  have huz : (2 : ℚ) ^ (4 - (F.p : ℤ)) = 16 * F.u := by
    rw [Fmt.u, sub_eq_add_neg, zpow_add₀ (by norm_num)]; norm_num
  have x16 : |x.value| ≤ 16 * F.u := by
    rw [hv, ← huz]
    exact F.abs_roundQ_le (by unfold Fmt.emin; omega) (by rw [huz]; exact h)
  have big : (32 : ℚ) ≤ 2 ^ F.emax := by
    rw [show (32 : ℚ) = 2 ^ (5 : ℤ) by norm_num]
    exact zpow_le_zpow_right₀ (by norm_num) (by omega)
  have v1 : (Ieee.ofInt 8 : Ieee F).value * (Ieee.epsilon : Ieee F).value = 2 ^ (4 - (F.p : ℤ)) := by
    rw [g8, ge, huz]; push_cast; ring
  have v2 : (Ieee.ofInt 8 : Ieee F).value * pi.value = 8 * pi.value := by rw [g8]; push_cast; rfl
  have F1 : ((Ieee.ofInt 8 : Ieee F).mul .epsilon).Finite := Ieee.mul_small f8 fe (by
    rw [v1, huz, abs_of_pos (by linarith)]; linarith)
  have F2 : ((Ieee.ofInt 8 : Ieee F).mul pi).Finite := Ieee.mul_small f8 hpi (by
    rw [v2, abs_of_pos (by linarith)]; linarith)
  refine ⟨?_, ?_, by linarith⟩
  · rw [Ieee.fle_value (Ieee.abs_finite.2 hx) F1, Ieee.abs_value, (Ieee.mul_finite F1).2.2, v1]
    have h3 := F.le_abs_roundQ (x := 2 ^ (4 - (F.p : ℤ))) (e := 4 - F.p) (by unfold Fmt.emin; omega) (le_abs_self _)
    rw [abs_of_nonneg (F.roundQ_nonneg (by positivity))] at h3
    rw [← huz] at x16
    exact x16.trans h3
  · rw [Ieee.fle_value (Ieee.abs_finite.2 hx) F2, Ieee.abs_value, (Ieee.mul_finite F2).2.2, v2]
    have h3 := F.le_abs_roundQ (x := 8 * pi.value) (e := 0) (by unfold Fmt.emin; omega) (by
      rw [abs_of_pos (by linarith), zpow_zero]; linarith)
    rw [abs_of_nonneg (F.roundQ_nonneg (by linarith)), zpow_zero] at h3
    linarith

theorem log_size {k : ℕ} {z : Complex (Ieee F)} (hr : z.re.Between (-k) k) (hi : z.im.Between (-k) k) (hz : cval z ≠ 0) :
    |Real.log ‖cval z‖| ≤ 2 * (2 : ℝ) ^ (k : ℤ) := by
  obtain ⟨h1, h2⟩ := cval_size hr hi hz
  have h0 : 0 < ‖cval z‖ := norm_pos_iff.2 hz
  have h3 := one_add_abs_log_le h0
  have h4 : 1 / ‖cval z‖ ≤ (2 : ℝ) ^ (k : ℤ) := by
    rw [div_le_iff₀ h0]
    have := mul_le_mul_of_nonneg_left h1 (show 0 ≤ (2 : ℝ) ^ (k : ℤ) by positivity)
    rwa [zpow_neg, mul_inv_cancel₀ (by positivity)] at this
  have h5 : (0 : ℝ) < 2 ^ (k : ℤ) := by positivity
  rcases le_max_iff.1 h3 with h | h <;> linarith

theorem re_final {u m S lb A B x d y e : ℝ} (u0 : 0 ≤ u) (u1 : u ≤ 1 / 2 ^ 20) (hm : m ≤ 5.1 * u) (hS : 0 ≤ S)
    (hlb : lb ≤ S)
    (h1 : |A - B| ≤ 2 * m * S + 8 * u) (h2 : |A| ≤ 2 * m * S + lb + 8 * u) (hx : |x - A| ≤ u * |A|) (hd : d = x - B)
    (hy : |y - d| ≤ u * |d|) (he : 19 * u * (2 + S) ≤ e) : |y| ≤ e := by
  have k1 : m * S ≤ 5.1 * u * S := mul_le_mul_of_nonneg_right hm hS
  have uS : u * S ≤ 1 / 2 ^ 20 * S := mul_le_mul_of_nonneg_right u1 hS
  have uS0 : 0 ≤ u * S := mul_nonneg u0 hS
  have k2 : |A| ≤ 1.01 * S + 0.01 := by linarith
  have k3 : u * |A| ≤ u * (1.01 * S + 0.01) := mul_le_mul_of_nonneg_left k2 u0
  have k4 : |d| ≤ 11.3 * (u * S) + 8.1 * u := by
    have e : d = (x - A) + (A - B) := by rw [hd]; ring
    have := abs_add_le (x - A) (A - B)
    rw [← e] at this
    linarith
  have k5 : u * |d| ≤ u * 0.1 * (1 + S) := by
    rw [mul_assoc]
    refine mul_le_mul_of_nonneg_left ?_ u0
    linarith
  have := abs_add_le (y - d) d
  rw [sub_add_cancel] at this
  linarith

/-- C70: the randomized test of the logarithm passes for every pair of numbers in this range (far more than the test
samples), if the scalar logarithm has an error of at most `4u` (relative) plus `u` and `atan2` an absolute error of at most
`2.1u` (correct rounding gives `2u`), and `pi` is as near to `π` as it is in the formats `f32` and `f64`. If the two sides
agree without a full turn, the test checks `diff.im.abs() <= 8 * PI` (probably meant: `8 * EPSILON`); the stronger assertion
holds. -/
theorem C70_test [RLn (Ieee F)] [RAtan2 (Ieee F)] (hp : 20 ≤ F.p) (k : ℕ) (hk : 4 * k + 10 ≤ F.emax)
    (h : LogLib F (4 * F.u) F.u (2.1 * F.u)) (pi : Ieee F) (hpi : pi.Finite) (hpi' : |(pi.value : ℝ) - Real.pi| ≤ 1.5 * F.u)
    (a b : Complex (Ieee F)) (ha : a.re.Between (-k) k ∧ a.im.Between (-k) k)
    (hb : b.re.Between (-k) k ∧ b.im.Between (-k) k) (ha0 : cval a ≠ 0) (hb0 : cval b ≠ 0) :
    lnCheck pi a b = .ok true ∧
      ∃ diff, lnDiff a b = .ok diff ∧ (diff.im.fle one = true → (one : Ieee F).neg.fle diff.im = true →
        diff.im.abs.fle ((Ieee.ofInt 8).mul .epsilon) = true) := by
  obtain ⟨u0, u1⟩ := Fmt.u_small (F := F) hp
  have hpe := F.p_le_emax
  obtain ⟨c, la, lb, lc, e1, e2, e3, e4, f1, f2, f3, g1, ⟨n, n1, n2⟩, ⟨b1, b2, b3⟩, g2⟩ :=
    ln_mul_near hp hk h (by linarith) ha hb ha0 hb0
  obtain ⟨t, et, ft, gt⟩ := tol_near hp hk ha hb ha0 hb0
  have l1 := abs_nonneg (Real.log ‖cval a‖)
  have l2 := abs_nonneg (Real.log ‖cval b‖)
  have hbig : 256 * (2 : ℝ) ^ (k : ℤ) ≤ (2 : ℝ) ^ F.emax := by
    rw [show (256 : ℝ) = 2 ^ (8 : ℤ) by norm_num, ← zpow_add₀ (by norm_num)]
    exact zpow_le_zpow_right₀ (by norm_num) (by omega)
  have K1 : 1 ≤ (2 : ℝ) ^ (k : ℤ) := one_le_zpow₀ (by norm_num) (by positivity)
  have A2 := log_size ha.1 ha.2 ha0
  have B2 := log_size hb.1 hb.2 hb0
  generalize |Real.log ‖cval a‖| = A at *
  generalize |Real.log ‖cval b‖| = B at *
  generalize (2 : ℝ) ^ (k : ℤ) = K at *
  have hm0 : 0 ≤ (1 + (F.u : ℝ)) * (1 + 4 * F.u) - 1 := by nlinarith
  have hm : (1 + (F.u : ℝ)) * (1 + 4 * F.u) - 1 ≤ 5.1 * F.u := by nlinarith
  generalize (1 + (F.u : ℝ)) * (1 + 4 * F.u) - 1 = m at *
  have hmS : m * (A + B) ≤ 0.001 * (A + B) := mul_le_mul_of_nonneg_right (by linarith) (by linarith)
  -- the real part
  obtain ⟨x1, x2⟩ := Ieee.sub_near f3.1 f1.1 (M := 2 ^ F.emax) (by linarith) le_rfl
  have hd := le_refl ((F.u : ℝ) * |(lc.re.value : ℝ) - la.re.value|)
  have ux : F.u * |(lc.re.value : ℝ) - la.re.value| ≤ 1 * |(lc.re.value : ℝ) - la.re.value| :=
    mul_le_mul_of_nonneg_right (by linarith) (abs_nonneg _)
  have xb : |((lc.re.sub la.re).value : ℝ) - lb.re.value| ≤ 16 * K := by
    have e : ((lc.re.sub la.re).value : ℝ) - lb.re.value = ((lc.re.sub la.re).value - (lc.re.value - la.re.value)) +
      (lc.re.value - la.re.value - lb.re.value) := by ring
    have := abs_add_le (((lc.re.sub la.re).value : ℝ) - (lc.re.value - la.re.value)) (lc.re.value - la.re.value - lb.re.value)
    rw [← e] at this
    linarith
  obtain ⟨y1, y2⟩ := Ieee.sub_near x1 f2.1 (M := 2 ^ F.emax) (by linarith) le_rfl
  have re := re_final (S := A + B) (lb := B) (B := lb.re.value)
    (e := ((Ieee.ofInt 10 : Ieee F).mul t).value) u0.le u1 hm (by linarith) (by linarith) (by linarith)
    (by linarith) x2 rfl y2 (by linarith)
  have reCheck : ((lc.re.sub la.re).sub lb.re).abs.fle ((Ieee.ofInt 10).mul t) = true := by
    rw [Ieee.fle_value (Ieee.abs_finite.2 y1) ft, Ieee.abs_value]
    have : ((|((lc.re.sub la.re).sub lb.re).value| : ℚ) : ℝ) ≤ (((Ieee.ofInt 10 : Ieee F).mul t).value : ℝ) := by
      push_cast; exact re
    exact_mod_cast this
  clear re xb ux hd hmS g1 g2 x2 y2 gt
  -- the imaginary part
  have pi1 := Real.pi_gt_d2
  have pi2 := Real.pi_lt_d2
  obtain ⟨P1, P2⟩ := abs_le.1 hpi'
  obtain ⟨B1, B1'⟩ := abs_le.1 b1
  obtain ⟨B2', B2''⟩ := abs_le.1 b2
  obtain ⟨B3, B3'⟩ := abs_le.1 b3
  have big : (16 : ℝ) ≤ 2 ^ F.emax := by linarith
  have z0 : |lc.im.value - la.im.value| < 2 ^ (3 : ℤ) := by
    have : |(lc.im.value : ℝ) - la.im.value| < 8 := by rw [abs_lt]; constructor <;> linarith
    have h2 : |lc.im.value - la.im.value| < 8 := by exact_mod_cast this
    exact h2.trans_eq (by norm_num)
  have z0' : |(lc.im.value : ℝ) - la.im.value| ≤ 8 := by rw [abs_le]; constructor <;> linarith
  obtain ⟨z1, _⟩ := Ieee.sub_near f3.2 f1.2 (M := 2 ^ F.emax) (by linarith) le_rfl
  have z2 : |((lc.im.sub la.im).value : ℝ) - (lc.im.value - la.im.value)| ≤ 4 * F.u := by
    have := roundQ_err_below (F := F) (e := 3) (by unfold Fmt.emin; omega) z0
    rw [(Ieee.sub_finite z1).2.2]
    have h2 : ((|F.roundQ (lc.im.value - la.im.value) - (lc.im.value - la.im.value)| : ℚ) : ℝ) ≤ ((2 ^ ((3 : ℤ) - 1) * F.u : ℚ) : ℝ) := by
      exact_mod_cast this
    push_cast at h2
    exact h2
  have z3 : |((lc.im.sub la.im).value : ℝ) - lb.im.value - 2 * Real.pi * n| ≤ 12.75 * F.u := by
    obtain ⟨q1, q2⟩ := abs_le.1 n2
    obtain ⟨q3, q4⟩ := abs_le.1 z2
    rw [abs_le]; constructor <;> linarith
  obtain ⟨z4, z5⟩ := abs_le.1 z3
  have zn : |(n : ℝ)| ≤ 1 := by exact_mod_cast n1
  have zb : |((lc.im.sub la.im).value : ℝ) - lb.im.value| ≤ 16 := by
    obtain ⟨q1, q2⟩ := abs_le.1 zn
    have q3 := mul_le_mul_of_nonneg_left q1 (show 0 ≤ 2 * Real.pi by linarith)
    have q4 := mul_le_mul_of_nonneg_left q2 (show 0 ≤ 2 * Real.pi by linarith)
    rw [abs_le]; constructor <;> linarith
  obtain ⟨w1, _⟩ := Ieee.sub_near z1 f2.2 (M := 2 ^ F.emax) (by linarith) le_rfl
  have w2 := (Ieee.sub_finite w1).2.2
  set r : ℚ := (lc.im.sub la.im).value - lb.im.value with hr
  have rR : (r : ℝ) = ((lc.im.sub la.im).value : ℝ) - lb.im.value := by rw [hr]; push_cast; rfl
  rw [← rR] at z4 z5
  have p3 : 3 ≤ pi.value := by
    have : (3 : ℝ) ≤ pi.value := by linarith
    exact_mod_cast this
  have p4 : pi.value ≤ 3.5 := by
    have : (pi.value : ℝ) ≤ ((3.5 : ℚ) : ℝ) := by push_cast; linarith
    exact_mod_cast this
  obtain ⟨k1, k2⟩ := im_check hp hpi p3 p4 w1 w2
  have one1 : (one : Ieee F).Finite := trivial
  have onev : (one : Ieee F).value = 1 := rfl
  have negv : (one : Ieee F).neg.value = -1 := by rw [Ieee.neg_value, onev]
  have e5 : lnDiff a b = .ok ⟨(lc.re.sub la.re).sub lb.re, (lc.im.sub la.im).sub lb.im⟩ := by
    unfold lnDiff
    rw [e1, e2, e3]
    show (do (← (← c.ln).sub la).sub lb) = _
    rw [e4]; rfl
  set D := (lc.im.sub la.im).sub lb.im
  have flt1 : (one : Ieee F).flt D = true ↔ 1 < D.value := by rw [Ieee.flt_value one1 w1, onev]
  have flt2 : D.flt (one : Ieee F).neg = true ↔ D.value < -1 := by rw [Ieee.flt_value w1 (Ieee.neg_finite.2 one1), negv]
  have fle1 : D.fle one = true ↔ D.value ≤ 1 := by rw [Ieee.fle_value w1 one1, onev]
  have fle2 : (one : Ieee F).neg.fle D = true ↔ -1 ≤ D.value := by rw [Ieee.fle_value (Ieee.neg_finite.2 one1) w1, negv]
  have check : ∀ {c : Bool}, (if (one : Ieee F).flt D then (D.sub ((Ieee.ofInt 2).mul pi)).abs.fle ((Ieee.ofInt 8).mul .epsilon)
      else if D.flt (one : Ieee F).neg then (D.add ((Ieee.ofInt 2).mul pi)).abs.fle ((Ieee.ofInt 8).mul .epsilon)
      else D.abs.fle ((Ieee.ofInt 8).mul pi)) = c → c = true → lnCheck pi a b = .ok true := by
    intro c hc hc'
    unfold lnCheck
    rw [e5, et]
    show Except.ok (((lc.re.sub la.re).sub lb.re).abs.fle ((Ieee.ofInt 10).mul t) && _) = _
    rw [reCheck, hc, hc']; rfl
  have cases : n = 1 ∨ n = -1 ∨ n = 0 := by
    have := abs_le.1 n1; omega
  rcases cases with hn | hn | hn <;> subst hn
  · -- a full turn
    have := k1 (by
      have : |(r : ℝ) - 2 * pi.value| ≤ 16 * F.u := by
        push_cast at z4 z5
        rw [abs_le]; constructor <;> linarith
      exact_mod_cast this)
    refine ⟨check rfl ?_, _, e5, fun h1 _ => ?_⟩
    · rw [if_pos (flt1.2 this.2)]; exact this.1
    · exact absurd (fle1.1 h1) (not_le.2 this.2)
  · have := k2 (by
      have : |(r : ℝ) + 2 * pi.value| ≤ 16 * F.u := by
        push_cast at z4 z5
        rw [abs_le]; constructor <;> linarith
      exact_mod_cast this)
    refine ⟨check rfl ?_, _, e5, fun _ h1 => ?_⟩
    · rw [if_neg (fun h1 => by have := flt1.1 h1; linarith [this]), if_pos (flt2.2 this.2)]; exact this.1
    · exact absurd (fle2.1 h1) (not_le.2 this.2)
  · have h12 : |r| ≤ 16 * F.u := by
      have : |(r : ℝ)| ≤ 16 * F.u := by
        push_cast at z4 z5
        rw [abs_le]; constructor <;> linarith
      exact_mod_cast this
    obtain ⟨s1, s2, s3⟩ := im_small hp hpi p3 p4 w1 w2 h12
    obtain ⟨s4, s5⟩ := abs_le.1 s3
    refine ⟨check rfl ?_, _, e5, fun _ _ => s1⟩
    rw [if_neg (fun h1 => by have := flt1.1 h1; linarith [this]), if_neg (fun h1 => by have := flt2.1 h1; linarith [this])]
    exact s2

theorem Ieee.zeros_mul (s : Bool) {x : Ieee F} (hx : x.Finite) : ∃ t, (zero s : Ieee F).mul x = zero t := by
  cases x with
  | nan => exact hx.elim
  | inf => exact hx.elim
  | zero t => exact ⟨_, rfl⟩
  | fin y _ _ => exact ⟨_, rfl⟩

theorem Ieee.zeros_add (s t : Bool) : ∃ r, (zero s : Ieee F).add (zero t) = zero r := ⟨_, rfl⟩
theorem Ieee.zeros_sub (s t : Bool) : ∃ r, (zero s : Ieee F).sub (zero t) = zero r := ⟨_, rfl⟩

theorem mul_at_zero (s t : Bool) {b : Complex (Ieee F)} (hb : CFinite b) :
    ∃ s' t', (⟨.zero s, .zero t⟩ : Complex (Ieee F)).mul b = .ok ⟨.zero s', .zero t'⟩ := by
  obtain ⟨s1, e1⟩ := Ieee.zeros_mul s hb.1
  obtain ⟨s2, e2⟩ := Ieee.zeros_mul s hb.2
  obtain ⟨s3, e3⟩ := Ieee.zeros_mul t hb.1
  obtain ⟨s4, e4⟩ := Ieee.zeros_mul t hb.2
  obtain ⟨s5, e5⟩ := Ieee.zeros_sub (F := F) s1 s4
  obtain ⟨s6, e6⟩ := Ieee.zeros_add (F := F) s2 s3
  refine ⟨s5, s6, ?_⟩
  show Except.ok (Complex.mk (((Ieee.zero s).mul b.re).sub ((Ieee.zero t).mul b.im))
    (((Ieee.zero s).mul b.im).add ((Ieee.zero t).mul b.re))) = _
  rw [e1, e2, e3, e4, e5, e6]

theorem ln_at_zero [RLn (Ieee F)] [RAtan2 (Ieee F)] (hln : ∀ s, RLn.ln (.zero s : Ieee F) = .ok (.inf true))
    (hat : ∀ y x : Ieee F, ∃ c, RAtan2.atan2 y x = .ok c) (s t : Bool) :
    ∃ c, (⟨.zero s, .zero t⟩ : Complex (Ieee F)).ln = .ok ⟨.inf true, c⟩ := by
  obtain ⟨c, hc⟩ := hat (.zero t) (.zero s)
  refine ⟨c, ?_⟩
  unfold Complex.ln
  show (do let l ← RLn.ln (((Ieee.zero s).mul (Ieee.zero s)).add ((Ieee.zero t).mul (Ieee.zero t)) : Ieee F)
           let im ← RAtan2.atan2 (Ieee.zero t : Ieee F) (.zero s)
           .ok (Complex.mk (l.div ((one : Ieee F).add one)) im)) = _
  have : ((Ieee.zero s).mul (Ieee.zero s)).add ((Ieee.zero t).mul (Ieee.zero t)) = (.zero false : Ieee F) := by
    cases s <;> cases t <;> rfl
  rw [this, hln, hc, Ieee.one_add_one]
  rfl

/-- C70: the limit of use of the test: for `a = 0` the difference of the real parts is `-inf - -inf`, and the test fails. (All
four samples would have to be exactly zero, or the product underflow to zero, for this to happen.) -/
theorem C70_test_zero [RLn (Ieee F)] [RAtan2 (Ieee F)] (hln : ∀ s, RLn.ln (.zero s : Ieee F) = .ok (.inf true))
    (hat : ∀ y x : Ieee F, ∃ c, RAtan2.atan2 y x = .ok c) (pi : Ieee F) (s t : Bool) (b l : Complex (Ieee F)) (hb : CFinite b)
    (hl : b.ln = .ok l) : lnCheck pi ⟨.zero s, .zero t⟩ b = .ok false := by
  obtain ⟨s', t', e1⟩ := mul_at_zero s t hb
  obtain ⟨c, e2⟩ := ln_at_zero hln hat s t
  obtain ⟨d, e3⟩ := ln_at_zero hln hat s' t'
  have e4 : lnDiff ⟨.zero s, .zero t⟩ b = .ok ⟨.nan, (d.sub c).sub l.im⟩ := by
    unfold lnDiff
    rw [e1, e2, hl]
    show (do (← (← (⟨.zero s', .zero t'⟩ : Complex (Ieee F)).ln).sub _).sub l) = _
    rw [e3]; rfl
  unfold lnCheck
  rw [e4]
  rfl

end Magnesia
