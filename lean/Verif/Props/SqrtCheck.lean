import Verif.Props.IeeeSqrtErr
import Verif.Proof.SqrtResid
import Verif.Spec.SqrtCheck
import Verif.Proof.IntFloat
import Verif.Proof.FormFloat

/-!
# C67: the crate's randomized test of the complex square root passes for every input
-/

namespace Magnesia

variable {F : Fmt}

open RZero ROne

theorem SqrtSteps.nonneg {u x y h a b : ℝ} (hu : u ≤ 1 / 64) (hy : 0 ≤ y) (st : SqrtSteps u x y h a b) :
    0 ≤ a ∧ 0 ≤ b := by
  have key : ∀ {t w : ℝ}, 0 < t → |w - y / t| ≤ u * |y / t| → 0 ≤ w := by
    intro t w ht h
    have h0 : 0 ≤ y / t := by positivity
    rw [abs_of_nonneg h0] at h
    have := (abs_le.1 h).1
    have := mul_le_mul_of_nonneg_right hu h0
    linarith
  cases st with
  | direct s d hxy hs hd ha hb => exact ⟨ha.nonneg, hb.nonneg⟩
  | right s t hxy hx hs ha ht ht1 ht2 hb => exact ⟨ha.nonneg, key ht hb⟩
  | left s t hxy hx hs hb ht ht1 ht2 ha => exact ⟨key ht ha, hb.nonneg⟩

theorem SqrtSteps.resid {u x y h a b H p1 p4 m q η : ℝ} (hu0 : 0 < u) (hu : u ≤ 1 / 2 ^ 20) (hHp : 0 < H)
    (hH : H ^ 2 = x ^ 2 + y ^ 2) (hy : 0 ≤ y) (herr : |h - H| ≤ ((1 + u) ^ 2 - 1) * H) (st : SqrtSteps u x y h a b)
    (hp1 : |p1 - a ^ 2| ≤ u * a ^ 2 + η) (hp4 : |p4 - b ^ 2| ≤ u * b ^ 2 + η)
    (hm : |m - (p1 - p4)| ≤ u * |p1 - p4|) (hq : |q - a * b| ≤ u * (a * b) + η) (hη0 : 0 ≤ η)
    (hη : η ≤ u * (H / 2 ^ 11)) : (m - x) ^ 2 + (2 * q - y) ^ 2 ≤ 63.7 * u ^ 2 * H ^ 2 := by
  cases st with
  | direct s d hxy hs hd ha hb =>
    exact direct_resid hu0 hu hHp hH hy hxy herr hs hd ha.nonneg hb.nonneg ha.lo ha.hi hb.lo hb.hi hp1 hp4 hm hq hη0 hη
  | right s t hxy hx hs ha ht ht1 ht2 hb =>
    have e := abs_of_nonneg hx
    rw [e] at hs hxy
    exact stable_resid hu0 hu hHp hH hy hx hxy herr hs ha.nonneg ht ha.lo ha.hi ht1 ht2 hb hp1 hp4 hm
      (by rwa [mul_comm b]) hη0 hη
  | left s t hxy hx hs hb ht ht1 ht2 ha =>
    have e := abs_of_nonpos hx
    rw [e] at hs hxy
    have := stable_resid (m := -m) (R := -x) hu0 hu hHp (by rw [hH, neg_sq]) hy (by linarith) hxy herr hs hb.nonneg ht hb.lo
      hb.hi ht1 ht2 ha hp4 hp1 (by
        rw [show -m - (p4 - p1) = -(m - (p1 - p4)) by ring, abs_neg, show p4 - p1 = -(p1 - p4) by ring, abs_neg]
        exact hm) hq hη0 hη
    rwa [show (-m - -x) ^ 2 = (m - x) ^ 2 by ring] at this

theorem Ieee.double_value {q : Ieee F} (hq : q.Finite) (h : |q.value| * 2 < 2 ^ (F.emax + 1)) :
    (q.add q).Finite ∧ (q.add q).value = 2 * q.value := by
  have hrep : F.Representable (q.value * 2) := (value_representable q).double (by
    rw [abs_mul, _root_.abs_two]; exact h)
  have e : q.value + q.value = q.value * 2 := by ring
  have hf : (q.add q).Finite := (add_finite_iff hq hq).2 (by rw [e, F.roundQ_representable hrep]; exact hrep.2)
  exact ⟨hf, by rw [(add_finite hf).2.2, e, F.roundQ_representable hrep, _root_.mul_comm]⟩

theorem Ieee.mul_near {a b : Ieee F} (ha : a.Finite) (hb : b.Finite) {M : ℝ} (h : |(a.value : ℝ) * b.value| ≤ M)
    (hM : M ≤ 2 ^ F.emax) : (a.mul b).Finite ∧
    |((a.mul b).value : ℝ) - a.value * b.value| ≤ F.u * |(a.value : ℝ) * b.value| + F.η := by
  have hf := mul_small ha hb (le_of_real (x := a.value * b.value) (by push_cast; exact h.trans hM))
  exact ⟨hf, mul_errR hf⟩

theorem Ieee.sub_near {a b : Ieee F} (ha : a.Finite) (hb : b.Finite) {M : ℝ} (h : |(a.value : ℝ) - b.value| ≤ M)
    (hM : M ≤ 2 ^ F.emax) : (a.sub b).Finite ∧
    |((a.sub b).value : ℝ) - (a.value - b.value)| ≤ F.u * |(a.value : ℝ) - b.value| := by
  have hf := sub_small ha hb (le_of_real (x := a.value - b.value) (by push_cast; exact h.trans hM))
  exact ⟨hf, sub_errR hf⟩

theorem Ieee.add_near {a b : Ieee F} (ha : a.Finite) (hb : b.Finite) {M : ℝ} (h : |(a.value : ℝ) + b.value| ≤ M)
    (hM : M ≤ 2 ^ F.emax) : (a.add b).Finite ∧
    |((a.add b).value : ℝ) - (a.value + b.value)| ≤ F.u * |(a.value : ℝ) + b.value| := by
  have hf := add_small ha hb (le_of_real (x := a.value + b.value) (by push_cast; exact h.trans hM))
  exact ⟨hf, add_errR hf⟩

/-- The tolerance factor `4 * EPSILON`. -/
theorem Ieee.tol_factor (F : Fmt) (h : 2 < F.emax) : ((ofInt 4 : Ieee F).mul .epsilon).Finite ∧
    ((ofInt 4 : Ieee F).mul .epsilon).value = 8 * F.u := by
  have hp := F.two_le_p
  have hpe := F.p_le_emax
  have pow : ∀ n : ℤ, 1 - (F.p : ℤ) ≤ n → n ≤ 2 → F.Representable ((2 : ℚ) ^ n) := by
    intro n h1 h2
    have := F.representable_of (m := 1) (e := n) (by rw [abs_one]; exact one_le_pow₀ (by norm_num))
      (by unfold Fmt.emin; omega) (by
        rw [Int.cast_one, _root_.one_mul, abs_of_pos (by positivity)]
        exact zpow_lt_zpow_right₀ (by norm_num) (by omega))
    rwa [Int.cast_one, _root_.one_mul] at this
  obtain ⟨f1, f2⟩ : (ofInt 4 : Ieee F).Finite ∧ (ofInt 4 : Ieee F).value = (4 : ℤ) :=
    ofInt_representable (by
      have := pow 2 (by omega) le_rfl
      norm_num at this ⊢
      exact this)
  have hr := pow (1 - F.p) le_rfl (by omega)
  have g1 : (epsilon : Ieee F).Finite := round_finite_iff.2 (by rw [F.roundQ_representable hr]; exact hr.2)
  have g2 : (epsilon : Ieee F).value = 2 ^ (1 - (F.p : ℤ)) := by
    unfold epsilon at g1 ⊢
    rw [round_finite g1, F.roundQ_representable hr]
  have e : (ofInt 4 : Ieee F).value * (epsilon : Ieee F).value = 2 ^ (3 - (F.p : ℤ)) := by
    rw [f2, g2, show (3 - (F.p : ℤ)) = 2 + (1 - F.p) by ring, zpow_add₀ (by norm_num)]; norm_num
  have hr' := pow (3 - F.p) (by omega) (by omega)
  have hf : ((ofInt 4 : Ieee F).mul .epsilon).Finite := (mul_finite_iff f1 g1).2 (by
    rw [e, F.roundQ_representable hr']; exact hr'.2)
  refine ⟨hf, ?_⟩
  rw [(mul_finite hf).2.2, e, F.roundQ_representable hr', Fmt.u, show (3 - (F.p : ℤ)) = 3 + -F.p by ring,
    zpow_add₀ (by norm_num)]
  norm_num

/-- Everything about the square of the computed root. -/
theorem sqrt_square (hp : 20 ≤ F.p) (k : ℕ) (hk : 2 * k + F.p + 11 ≤ F.emax) (z : Complex (Ieee F))
    (hr : z.re.Between (-k) k) (hi : z.im.Between (-k) k) (hz : z.re.value ≠ 0 ∨ z.im.value ≠ 0) {H : ℝ} (hH0 : 0 ≤ H)
    (hH : H ^ 2 = (z.re.value : ℝ) ^ 2 + (z.im.value : ℝ) ^ 2)
    (hn : ‖(⟨z.re.value, z.im.value⟩ : ℂ)‖ = H) :
    ∃ (s ss : Complex (Ieee F)) (h : Ieee F), z.sqrt = .ok s ∧ s.mul s = .ok ss ∧ z.abs = .ok h ∧ h.Finite ∧
      |(h.value : ℝ) - H| ≤ ((1 + (F.u : ℝ)) ^ 2 - 1) * H ∧ s.re.Finite ∧ s.im.Finite ∧ 0 ≤ s.re.value ∧ ss.re.Finite ∧
      ss.im.Finite ∧
      ((z.re.value : ℝ) - ss.re.value) ^ 2 + ((z.im.value : ℝ) - ss.im.value) ^ 2 ≤ 63.7 * (F.u : ℝ) ^ 2 * H ^ 2 ∧
      0 < H ∧ (2 : ℝ) ^ (-(k : ℤ)) ≤ H ∧ H ≤ 2 * (2 : ℝ) ^ (k : ℤ) := by
  have hpe := F.p_le_emax
  obtain ⟨hu0, hu64⟩ := Fmt.u_real (F := F) (by omega)
  have hu : ((F.u : ℚ) : ℝ) ≤ 1 / 2 ^ 20 := by
    have h : F.u ≤ 2 ^ (-20 : ℤ) := zpow_le_zpow_right₀ (by norm_num) (by omega)
    have h2 : F.u ≤ 1 / 2 ^ 20 := h.trans (by norm_num)
    have h3 : ((F.u : ℚ) : ℝ) ≤ ((1 / 2 ^ 20 : ℚ) : ℝ) := by exact_mod_cast h2
    exact h3.trans (by norm_num)
  obtain ⟨a, b, h, e, eh, ha, hb, hf, herr, st⟩ := sqrt_trace (by omega) k (by omega) z hr hi hz hH0 hH hn
  -- sizes
  have hxH : |(z.re.value : ℝ)| ≤ H := abs_le_of_sq_le_sq (by nlinarith [sq_nonneg (z.im.value : ℝ)]) hH0
  have hyH : |(z.im.value : ℝ)| ≤ H := abs_le_of_sq_le_sq (by nlinarith [sq_nonneg (z.re.value : ℝ)]) hH0
  have hM : (2 : ℝ) ^ (-(k : ℤ)) ≤ H := by
    rcases hz with h0 | h0
    · have h1 := (hr.2.resolve_left h0).1
      have h2 : (2 : ℝ) ^ (-(k : ℤ)) ≤ |(z.re.value : ℝ)| := (two_le_cast.1 h1).trans_eq (Rat.cast_abs _)
      exact h2.trans hxH
    · have h1 := (hi.2.resolve_left h0).1
      have h2 : (2 : ℝ) ^ (-(k : ℤ)) ≤ |(z.im.value : ℝ)| := (two_le_cast.1 h1).trans_eq (Rat.cast_abs _)
      exact h2.trans hyH
  have hHp : 0 < H := lt_of_lt_of_le (by positivity) hM
  have hxk : |(z.re.value : ℝ)| ≤ (2 : ℝ) ^ (k : ℤ) := (Rat.cast_abs _).ge.trans (cast_le_two.1 (Trap.abs_le_of_between hr))
  have hyk : |(z.im.value : ℝ)| ≤ (2 : ℝ) ^ (k : ℤ) := (Rat.cast_abs _).ge.trans (cast_le_two.1 (Trap.abs_le_of_between hi))
  have hN : H ≤ 2 * (2 : ℝ) ^ (k : ℤ) := by
    refine abs_le_of_sq_le_sq' ?_ (by positivity) |>.2
    rw [hH, ← sq_abs (z.re.value : ℝ), ← sq_abs (z.im.value : ℝ)]
    have h1 := pow_le_pow_left₀ (abs_nonneg _) hxk 2
    have h2 := pow_le_pow_left₀ (abs_nonneg _) hyk 2
    nlinarith
  have hhi : 8 * H ≤ (2 : ℝ) ^ F.emax := by
    have : 16 * (2 : ℝ) ^ (k : ℤ) ≤ (2 : ℝ) ^ F.emax := by
      rw [show (16 : ℝ) = 2 ^ (4 : ℤ) by norm_num, ← zpow_add₀ (by norm_num)]
      exact zpow_le_zpow_right₀ (by norm_num) (by omega)
    linarith
  have hη0 : (0 : ℝ) ≤ F.η := by exact_mod_cast F.η_pos.le
  have hη : (F.η : ℝ) ≤ F.u * (H / 2 ^ 11) := by
    have h1 : (F.η : ℝ) ≤ F.u * (2 ^ (-(k : ℤ)) / 2 ^ (11 : ℤ)) := by
      have : F.η ≤ F.u * (2 ^ (-(k : ℤ)) / 2 ^ (11 : ℤ)) := by
        rw [← zpow_sub₀ (by norm_num), Fmt.u, ← zpow_add₀ (by norm_num)]
        exact zpow_le_zpow_right₀ (by norm_num) (by unfold Fmt.emin; omega)
      have h2 : ((F.η : ℚ) : ℝ) ≤ ((F.u * (2 ^ (-(k : ℤ)) / 2 ^ (11 : ℤ)) : ℚ) : ℝ) := by exact_mod_cast this
      norm_num at h2 ⊢
      exact h2
    refine h1.trans (mul_le_mul_of_nonneg_left ?_ hu0.le)
    rw [show (2 : ℝ) ^ (11 : ℤ) = 2 ^ 11 by norm_num]
    linarith
  -- the parts
  obtain ⟨na, nb⟩ := st.nonneg hu64 (abs_nonneg _)
  obtain ⟨ea, eb⟩ := SqrtSteps.err hu0 hu64 hHp hH herr st
  have size : ∀ {r v : ℝ}, |v| ≤ H → 0 ≤ r → |r - √((H + v) / 2)| ≤ 12 * F.u * √((H + v) / 2) → r ^ 2 ≤ 1.5 * H := by
    intro r v hv hr h
    obtain ⟨v1, v2⟩ := abs_le.1 hv
    have h0 : 0 ≤ (H + v) / 2 := by linarith
    have h1 := Real.sqrt_nonneg ((H + v) / 2)
    have h2 : r ≤ 1.2 * √((H + v) / 2) := by
      have := (abs_le.1 h).2
      have := mul_le_mul_of_nonneg_right hu64 h1
      linarith
    have h3 := pow_le_pow_left₀ hr h2 2
    rw [mul_pow, Real.sq_sqrt h0] at h3
    linarith
  have sa := size hxH na ea
  have sb := size (v := -z.re.value) (by rwa [abs_neg]) nb (by rw [← sub_eq_add_neg]; exact eb)
  have sab : (a.value : ℝ) * b.value ≤ 1.5 * H := by nlinarith [sq_nonneg ((a.value : ℝ) - b.value)]
  have nab : 0 ≤ (a.value : ℝ) * b.value := mul_nonneg na nb
  -- the products
  obtain ⟨P1, P1'⟩ := Ieee.mul_near ha ha (M := 8 * H) (by rw [← pow_two, abs_of_nonneg (sq_nonneg _)]; linarith) hhi
  obtain ⟨P4, P4'⟩ := Ieee.mul_near hb hb (M := 8 * H) (by rw [← pow_two, abs_of_nonneg (sq_nonneg _)]; linarith) hhi
  obtain ⟨Q, Q'⟩ := Ieee.mul_near ha hb (M := 8 * H) (by rw [abs_of_nonneg nab]; linarith) hhi
  rw [← pow_two, abs_of_nonneg (sq_nonneg (a.value : ℝ))] at P1'
  rw [← pow_two, abs_of_nonneg (sq_nonneg (b.value : ℝ))] at P4'
  rw [abs_of_nonneg nab] at Q'
  have near : ∀ {p c : ℝ}, |p - c| ≤ F.u * c + F.η → 0 ≤ c → c ≤ 1.5 * H → |p| ≤ 2 * H := by
    intro p c h h0 h1
    have h2 := abs_add_le (p - c) c
    rw [sub_add_cancel, abs_of_nonneg h0] at h2
    have h3 := mul_le_mul_of_nonneg_right hu64 h0
    have h4 : (F.η : ℝ) ≤ 0.1 * H := by
      have := mul_le_mul_of_nonneg_right hu64 (show 0 ≤ H / 2 ^ 11 by positivity)
      linarith
    linarith
  have n1 := near P1' (sq_nonneg _) sa
  have n4 := near P4' (sq_nonneg _) sb
  have nq := near Q' nab sab
  obtain ⟨M, M'⟩ := Ieee.sub_near P1 P4 (M := 8 * H) ((abs_sub _ _).trans (by linarith)) hhi
  have res := SqrtSteps.resid hu0 hu hHp (by rw [hH, sq_abs]) (abs_nonneg _) herr st P1' P4' M' Q' hη0 hη
  have hq2 : |(a.mul b).value| * 2 < 2 ^ (F.emax + 1) := by
    have h3 : |((a.mul b).value : ℝ)| * 2 < (2 : ℝ) ^ (F.emax + 1) := by
      rw [zpow_add_one₀ (by norm_num)]
      linarith
    exact cast_lt_two.2 (by push_cast; exact h3)
  have hlt : z.im.flt (zero : Ieee F) = true ↔ (z.im.value : ℝ) < 0 := by
    refine (Ieee.flt_value (b := .zero false) hi.1 trivial).trans ?_
    show z.im.value < 0 ↔ _
    exact_mod_cast Iff.rfl
  refine ⟨_, _, h, e, ieee_cmul _ _, eh, hf, herr, ha, ?_, by exact_mod_cast na, ?_⟩
  · show (if _ then _ else _ : Ieee F).Finite
    split
    · exact Ieee.neg_finite.2 hb
    · exact hb
  by_cases h0 : (z.im.value : ℝ) < 0
  · simp only [if_pos (hlt.2 h0)]
    rw [Ieee.neg_mul, Ieee.mul_neg, Ieee.neg_neg, Ieee.neg_mul, Ieee.mul_neg, Ieee.mul_comm b a]
    obtain ⟨D1, D2⟩ := Ieee.double_value (q := (a.mul b).neg) (Ieee.neg_finite.2 Q) (by
      rw [Ieee.neg_value, abs_neg]; exact hq2)
    refine ⟨M, D1, ?_, hHp, hM, hN⟩
    rw [D2, Ieee.neg_value]
    push_cast
    rw [abs_of_neg h0] at res
    refine le_trans (le_of_eq ?_) res
    ring
  · simp only [if_neg (fun h => h0 (hlt.1 h))]
    rw [Ieee.mul_comm b a]
    obtain ⟨D1, D2⟩ := Ieee.double_value Q hq2
    refine ⟨M, D1, ?_, hHp, hM, hN⟩
    rw [D2]
    push_cast
    rw [abs_of_nonneg (not_lt.1 h0)] at res
    refine le_trans (le_of_eq ?_) res
    ring

theorem Ieee.eq_zero {x : Ieee F} (hf : x.Finite) (h : x.value = 0) : ∃ s, x = .zero s := by
  cases x with
  | nan => exact hf.elim
  | inf => exact hf.elim
  | zero s => exact ⟨s, rfl⟩
  | fin y h0 _ => exact (h0 h).elim

theorem sqrt_zeros (s t : Bool) :
    (⟨.zero s, .zero t⟩ : Complex (Ieee F)).sqrt = .ok ⟨.zero false, .zero false⟩ := by
  rw [C55_sqrt_real (.zero s) t trivial (.inl rfl) (by
    show |F.roundQ (0 ^ 2)| < _
    rw [zero_pow two_ne_zero, F.roundQ_zero, abs_zero]; positivity), if_pos (show (0 : ℚ) ≤ (Ieee.zero s : Ieee F).value from le_rfl)]
  rfl

/-- C67: squaring the computed root gives `z` back within `8u |z|`: for every `z` whose parts are zero or of magnitude
between `2^-k` and `2^k` with `2k + p + 11 ≤ emax` (for `f32` `k = 46`, for `f64` `k = 479`), the computed square `ss` of
the computed root `s` differs from `z` by at most `8u |z|` (that is `4 * EPSILON * |z|`), and the real part of `s` is not
negative. -/
theorem C67_square (hp : 20 ≤ F.p) (k : ℕ) (hk : 2 * k + F.p + 11 ≤ F.emax) (z : Complex (Ieee F))
    (hr : z.re.Between (-k) k) (hi : z.im.Between (-k) k) :
    ∃ s ss : Complex (Ieee F), z.sqrt = .ok s ∧ s.mul s = .ok ss ∧ s.re.Finite ∧ s.im.Finite ∧ 0 ≤ s.re.value ∧
      ss.re.Finite ∧ ss.im.Finite ∧
      ‖(⟨ss.re.value, ss.im.value⟩ : ℂ) - ⟨z.re.value, z.im.value⟩‖ ≤ 8 * F.u * ‖(⟨z.re.value, z.im.value⟩ : ℂ)‖ := by
  have hn0 := norm_nonneg (⟨z.re.value, z.im.value⟩ : ℂ)
  have hu0 : (0 : ℝ) < F.u := by exact_mod_cast F.u_pos
  by_cases hz : z.re.value ≠ 0 ∨ z.im.value ≠ 0
  · have hn : ‖(⟨z.re.value, z.im.value⟩ : ℂ)‖ ^ 2 = (z.re.value : ℝ) ^ 2 + (z.im.value : ℝ) ^ 2 := by
      rw [← Complex.normSq_eq_norm_sq, Complex.normSq_mk]; ring
    obtain ⟨s, ss, h, e1, e2, _, _, _, f1, f2, f3, f4, f5, res, _⟩ := sqrt_square hp k hk z hr hi hz hn0 hn rfl
    refine ⟨s, ss, e1, e2, f1, f2, f3, f4, f5, ?_⟩
    refine abs_le_of_sq_le_sq' ?_ (by positivity) |>.2
    rw [mul_pow, ← Complex.normSq_eq_norm_sq, Complex.normSq_apply]
    show ((ss.re.value : ℝ) - z.re.value) * ((ss.re.value : ℝ) - z.re.value) +
      ((ss.im.value : ℝ) - z.im.value) * ((ss.im.value : ℝ) - z.im.value) ≤ _
    have := mul_nonneg (sq_nonneg (F.u : ℝ)) (sq_nonneg ‖(⟨z.re.value, z.im.value⟩ : ℂ)‖)
    nlinarith
  · rw [not_or, not_not, not_not] at hz
    obtain ⟨s, hs⟩ := Ieee.eq_zero hr.1 hz.1
    obtain ⟨t, ht⟩ := Ieee.eq_zero hi.1 hz.2
    have ez : z = ⟨.zero s, .zero t⟩ := by rw [← hs, ← ht]
    rw [ez]
    refine ⟨_, _, sqrt_zeros s t, ieee_cmul _ _, trivial, trivial, le_rfl, trivial, trivial, ?_⟩
    simp only [Ieee.value]
    show ‖(⟨((0 : ℚ) : ℝ), ((0 : ℚ) : ℝ)⟩ : ℂ) - _‖ ≤ _
    rw [sub_self, norm_zero]
    positivity

/-- C67: the check of the crate's own randomized test (`test_sqrt_complex_f32`) holds for every such `z`, also with the
error and the tolerance computed in floating point: for `f32` all parts that are zero or of magnitude between `2^-46` and `2^46`, which is far more
than the range `-5..5` that the test samples. -/
theorem C67_check (hp : 20 ≤ F.p) (k : ℕ) (hk : 2 * k + F.p + 11 ≤ F.emax) (z : Complex (Ieee F))
    (hr : z.re.Between (-k) k) (hi : z.im.Between (-k) k) : sqrtCheck z = .ok true := by
  have hpe := F.p_le_emax
  by_cases hz : z.re.value ≠ 0 ∨ z.im.value ≠ 0
  · have hn0 := norm_nonneg (⟨z.re.value, z.im.value⟩ : ℂ)
    have hn : ‖(⟨z.re.value, z.im.value⟩ : ℂ)‖ ^ 2 = (z.re.value : ℝ) ^ 2 + (z.im.value : ℝ) ^ 2 := by
      rw [← Complex.normSq_eq_norm_sq, Complex.normSq_mk]; ring
    obtain ⟨s, ss, h, e1, e2, e3, hf, herr, f1, f2, f3, f4, f5, res, hHp, hM, hN⟩ :=
      sqrt_square hp k hk z hr hi hz hn0 hn rfl
    generalize ‖(⟨z.re.value, z.im.value⟩ : ℂ)‖ = H at *
    obtain ⟨hu0, hu64⟩ := Fmt.u_real (F := F) (by omega)
    have hu : ((F.u : ℚ) : ℝ) ≤ 1 / 2 ^ 20 := by
      have h : F.u ≤ 2 ^ (-20 : ℤ) := zpow_le_zpow_right₀ (by norm_num) (by omega)
      have h2 : F.u ≤ 1 / 2 ^ 20 := h.trans (by norm_num)
      have h3 : ((F.u : ℚ) : ℝ) ≤ ((1 / 2 ^ 20 : ℚ) : ℝ) := by exact_mod_cast h2
      exact h3.trans (by norm_num)
    -- sizes
    have hK0 : 0 ≤ H ^ 2 := sq_nonneg H
    have big : 16 * H ^ 2 ≤ (2 : ℝ) ^ F.emax := by
      have h1 := pow_le_pow_left₀ hn0 hN 2
      have h2 : 64 * ((2 : ℝ) ^ (k : ℤ)) ^ 2 ≤ (2 : ℝ) ^ F.emax := by
        rw [show (64 : ℝ) = 2 ^ (6 : ℤ) by norm_num, ← zpow_natCast, ← zpow_mul, ← zpow_add₀ (by norm_num)]
        exact zpow_le_zpow_right₀ (by norm_num) (by push_cast; omega)
      rw [mul_pow] at h1
      linarith
    have hhi : 8 * H ≤ (2 : ℝ) ^ F.emax := by
      have : 16 * (2 : ℝ) ^ (k : ℤ) ≤ (2 : ℝ) ^ F.emax := by
        rw [show (16 : ℝ) = 2 ^ (4 : ℤ) by norm_num, ← zpow_add₀ (by norm_num)]
        exact zpow_le_zpow_right₀ (by norm_num) (by omega)
      linarith
    have hη0 : (0 : ℝ) ≤ F.η := by exact_mod_cast F.η_pos.le
    have hη : (F.η : ℝ) ≤ (F.u : ℝ) ^ 2 * H ^ 2 / 2 ^ 10 := by
      have h1 : (F.η : ℝ) ≤ (F.u : ℝ) ^ 2 * ((2 : ℝ) ^ (-(k : ℤ))) ^ 2 / 2 ^ (10 : ℤ) := by
        have : F.η ≤ F.u ^ 2 * ((2 : ℚ) ^ (-(k : ℤ))) ^ 2 / 2 ^ (10 : ℤ) := by
          rw [Fmt.u, ← zpow_natCast, ← zpow_natCast, ← zpow_mul, ← zpow_mul, ← zpow_add₀ (by norm_num),
            ← zpow_sub₀ (by norm_num)]
          exact zpow_le_zpow_right₀ (by norm_num) (by unfold Fmt.emin; push_cast; omega)
        have h2 : ((F.η : ℚ) : ℝ) ≤ ((F.u ^ 2 * ((2 : ℚ) ^ (-(k : ℤ))) ^ 2 / 2 ^ (10 : ℤ) : ℚ) : ℝ) := by
          exact_mod_cast this
        norm_num at h2 ⊢
        exact h2
      refine h1.trans ?_
      rw [show (2 : ℝ) ^ (10 : ℤ) = 2 ^ 10 by norm_num]
      have h3 := pow_le_pow_left₀ (by positivity) hM 2
      have h4 := mul_le_mul_of_nonneg_left h3 (sq_nonneg (F.u : ℝ))
      linarith
    have hu2 : (F.u : ℝ) ^ 2 ≤ 1 / 2 ^ 40 := by
      have := pow_le_pow_left₀ hu0.le hu 2
      norm_num at this ⊢
      exact this
    have hres2 : 63.7 * (F.u : ℝ) ^ 2 * H ^ 2 ≤ 0.01 * H ^ 2 := mul_le_mul_of_nonneg_right (by linarith) hK0
    have hηK : (F.η : ℝ) ≤ 0.01 * H ^ 2 := by
      have := mul_le_mul_of_nonneg_right hu2 hK0
      linarith
    -- the difference
    have small : ∀ {v w : ℝ}, v ^ 2 + w ^ 2 ≤ 63.7 * (F.u : ℝ) ^ 2 * H ^ 2 → |v| ≤ 0.1 * H := by
      intro v w hvw
      refine abs_le_of_sq_le_sq' ?_ (by positivity) |>.2
      rw [sq_abs, mul_pow]
      linarith [sq_nonneg w]
    have d1 := small res
    have d2 := small (by rwa [add_comm] at res)
    obtain ⟨E1, E1'⟩ := Ieee.sub_near hr.1 f4 (M := 8 * H) (by linarith) hhi
    obtain ⟨E2, E2'⟩ := Ieee.sub_near hi.1 f5 (M := 8 * H) (by linarith) hhi
    have size : ∀ {e d : ℝ}, |e - d| ≤ F.u * |d| → |d| ≤ 0.1 * H → e ^ 2 ≤ H ^ 2 := by
      intro e d h1 h2
      have h3 := abs_add_le (e - d) d
      rw [sub_add_cancel] at h3
      have h4 := mul_le_mul_of_nonneg_right hu64 (abs_nonneg d)
      have h5 : |e| ≤ H := by linarith
      have := pow_le_pow_left₀ (abs_nonneg e) h5 2
      rwa [sq_abs] at this
    have s1 := size E1' d1
    have s2 := size E2' d2
    obtain ⟨F1, F1'⟩ := Ieee.mul_near E1 E1 (M := 16 * H ^ 2)
      (by rw [← pow_two, abs_of_nonneg (sq_nonneg _)]; linarith) big
    obtain ⟨F2, F2'⟩ := Ieee.mul_near E2 E2 (M := 16 * H ^ 2)
      (by rw [← pow_two, abs_of_nonneg (sq_nonneg _)]; linarith) big
    have g1 := F1'
    have g2 := F2'
    rw [← pow_two, abs_of_nonneg (sq_nonneg ((z.re.sub ss.re).value : ℝ))] at g1
    rw [← pow_two, abs_of_nonneg (sq_nonneg ((z.im.sub ss.im).value : ℝ))] at g2
    have near : ∀ {p c : ℝ}, |p - c| ≤ F.u * c + F.η → 0 ≤ c → c ≤ H ^ 2 → |p| ≤ 2 * H ^ 2 := by
      intro p c h h0 h1
      have h2 := abs_add_le (p - c) c
      rw [sub_add_cancel, abs_of_nonneg h0] at h2
      have h3 := mul_le_mul_of_nonneg_right hu64 h0
      linarith
    have n1 := near g1 (sq_nonneg _) s1
    have n2 := near g2 (sq_nonneg _) s2
    obtain ⟨G, G'⟩ := Ieee.add_near F1 F2 (M := 16 * H ^ 2) ((abs_add_le _ _).trans (by linarith)) big
    -- its absolute value
    have hz1 : z.sub ss = .ok (⟨z.re.sub ss.re, z.im.sub ss.im⟩ : Complex (Ieee F)) := rfl
    obtain ⟨t1, t2⟩ := Ieee.tol_factor F (by omega)
    have hnn : (((z.re.sub ss.re).mul (z.re.sub ss.re)).add ((z.im.sub ss.im).mul (z.im.sub ss.im))).NonNeg :=
      Ieee.add_nonNeg (Ieee.sq_nonNeg (fun h => by rw [h] at E1; exact E1))
        (Ieee.sq_nonNeg (fun h => by rw [h] at E2; exact E2))
    have SF := (Ieee.sqrt_finite_iff hnn).2 G
    have hE : (((((z.re.sub ss.re).mul (z.re.sub ss.re)).add ((z.im.sub ss.im).mul (z.im.sub ss.im))).sqrt.value : ℚ) : ℝ) ^ 2
        ≤ (1 + F.u) ^ 2 *
          ((((z.re.sub ss.re).mul (z.re.sub ss.re)).add ((z.im.sub ss.im).mul (z.im.sub ss.im))).value : ℚ) := by
      rcases Ieee.sqrt_finite G SF with ⟨v1, v2⟩ | ⟨v1, v2⟩
      · rw [v1, v2]; simp
      · rw [v2]; exact_mod_cast (F.roundSqrt_err v1).2.2
    have main := resid_tol hu0 hu hHp herr res E1' E2' g1 g2 G' hη hE
    have hmain : (((z.re.sub ss.re).mul (z.re.sub ss.re)).add ((z.im.sub ss.im).mul (z.im.sub ss.im))).sqrt.value ≤
        8 * F.u * h.value := by exact_mod_cast main
    have hhH : |(h.value : ℝ)| ≤ 2 * H := by
      have h1 := abs_add_le ((h.value : ℝ) - H) H
      rw [sub_add_cancel, abs_of_pos hHp] at h1
      have h2 : ((1 + (F.u : ℝ)) ^ 2 - 1) * H ≤ 1 * H := mul_le_mul_of_nonneg_right (by nlinarith) hHp.le
      linarith
    obtain ⟨T, _⟩ := Ieee.mul_near t1 hf (M := 8 * H) (by
      rw [t2, abs_mul]
      push_cast
      have h1 : |8 * (F.u : ℝ)| ≤ 1 := by rw [abs_of_pos (by positivity)]; linarith
      have := mul_le_mul h1 hhH (abs_nonneg _) zero_le_one
      linarith) hhi
    have c1 : (zero : Ieee F).fle s.re = true := (Ieee.fle_value (a := .zero false) trivial f1).2 f3
    have c2 : (((z.re.sub ss.re).mul (z.re.sub ss.re)).add ((z.im.sub ss.im).mul (z.im.sub ss.im))).sqrt.fle
        (((Ieee.ofInt 4).mul .epsilon).mul h) = true := by
      rw [Ieee.fle_value SF T, (Ieee.mul_finite T).2.2, t2]
      exact F.le_roundQ_of_representable (Ieee.value_representable _) hmain
    unfold sqrtCheck
    rw [e1]
    show (do
      let ss ← s.mul s
      _ : Res Bool) = _
    rw [e2]
    show (do
      let a ← z.abs
      _ : Res Bool) = _
    rw [e3]
    show Except.ok (_ && _) = _
    rw [c1]
    exact congrArg Except.ok c2
  · rw [not_or, not_not, not_not] at hz
    obtain ⟨s, hs⟩ := Ieee.eq_zero hr.1 hz.1
    obtain ⟨t, ht⟩ := Ieee.eq_zero hi.1 hz.2
    have ez : z = ⟨.zero s, .zero t⟩ := by rw [← hs, ← ht]
    obtain ⟨t1, t2⟩ := Ieee.tol_factor F (by omega)
    rw [ez]
    unfold sqrtCheck
    rw [sqrt_zeros]
    have hc : ∀ e : Ieee F, e.Finite → e.value = 0 → ∀ a : Ieee F, a.Finite → a.value = 0 →
        e.fle (((Ieee.ofInt 4).mul .epsilon).mul a) = true := by
      intro e he he0 a ha ha0
      obtain ⟨m1, m2⟩ := Ieee.mul_zero_value t1 ha (.inr ha0)
      rw [Ieee.fle_value he m1, he0, m2]
    cases s <;> cases t <;>
      exact congrArg Except.ok (Bool.and_eq_true_iff.2 ⟨by rfl, hc (.zero _) trivial rfl (.zero _) trivial rfl⟩)

/-- The sizes for `f32` and `f64`, and one case evaluated: the root of `-3 + 1/3 i` squared is not exactly `z`, but passes the
check. -/
example : 20 ≤ Fmt.f32.p ∧ (2 * (46 : ℕ) + Fmt.f32.p + 11 : ℤ) ≤ Fmt.f32.emax ∧ 20 ≤ Fmt.f64.p ∧
    (2 * (479 : ℕ) + Fmt.f64.p + 11 : ℤ) ≤ Fmt.f64.emax ∧
    sqrtCheck (⟨f32 (-3), f32 (1 / 3)⟩ : Complex _) = .ok true ∧
    (do let s ← (⟨f32 (-3), f32 (1 / 3)⟩ : Complex (Ieee .f32)).sqrt; s.mul s) ≠ .ok ⟨f32 (-3), f32 (1 / 3)⟩ := by
  decide +kernel

end Magnesia
