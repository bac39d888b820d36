import Verif.Proof.IeeeSqrt
import Verif.Props.IeeeSpecial

/-!
# C55: what `abs` and `sqrt` of a complex number do in IEEE arithmetic

For a complex number of `f32` or `f64` (any IEEE format): `abs` does not see signs and the order of the parts; it is
monotone; on an axis it is exact; it is never below a part (unless its square underflows). `sqrt` of a real number is the
correctly rounded real square root, in the right part. All statements are about the bits of the result.
-/

namespace Magnesia

variable {F : Fmt}

open Ieee (nan inf)

open RZero ROne MulRefs

/-- C55: `abs` and `sqr_norm` give the same bits for `z`, its conjugate, `-z` and the number with the parts exchanged. -/
theorem C55_abs_sym (z : Complex (Ieee F)) :
    (∃ w, z.conj = .ok w ∧ w.abs = z.abs ∧ w.sqrNorm = z.sqrNorm) ∧
    (∃ w, z.neg = .ok w ∧ w.abs = z.abs ∧ w.sqrNorm = z.sqrNorm) ∧
    (⟨z.im, z.re⟩ : Complex (Ieee F)).abs = z.abs ∧ (⟨z.im, z.re⟩ : Complex (Ieee F)).sqrNorm = z.sqrNorm := by
  have hsq : ∀ a : Ieee F, a.neg.mul a.neg = a.mul a := fun a => by rw [Ieee.neg_mul, Ieee.mul_neg, Ieee.neg_neg]
  refine ⟨⟨⟨z.re, z.im.neg⟩, rfl, ?_, ?_⟩, ⟨⟨z.re.neg, z.im.neg⟩, rfl, ?_, ?_⟩, ?_, ?_⟩
  · rw [ieee_abs, ieee_abs]; simp only [hsq]
  · rw [ieee_sqrNorm, ieee_sqrNorm]; simp only [hsq]
  · rw [ieee_abs, ieee_abs]; simp only [hsq]
  · rw [ieee_sqrNorm, ieee_sqrNorm]; simp only [hsq]
  · rw [ieee_abs, ieee_abs]; simp only [Ieee.add_comm]
  · rw [ieee_sqrNorm, ieee_sqrNorm]; simp only [Ieee.add_comm]

/-- C55: `abs` is NaN exactly if a part is NaN; otherwise it is zero, positive or `+inf`. -/
theorem C55_abs_range (z : Complex (Ieee F)) :
    (z.abs = .ok nan ↔ z.re = nan ∨ z.im = nan) ∧
    (z.re ≠ nan → z.im ≠ nan → ∃ h, z.abs = .ok h ∧ Ieee.fle (zero : Ieee F) h = true) := by
  have key : z.re ≠ nan → z.im ≠ nan → ((z.re.mul z.re).add (z.im.mul z.im)).sqrt.NonNeg := fun h1 h2 =>
    Ieee.sqrt_nonNeg (Ieee.add_nonNeg (Ieee.sq_nonNeg h1) (Ieee.sq_nonNeg h2))
  refine ⟨⟨fun h => ?_, fun h => (C50_nan_abs_sqrt z h).2.1⟩, fun h1 h2 => ⟨_, ieee_abs z, ?_⟩⟩
  · by_contra hc
    rw [not_or] at hc
    rw [ieee_abs] at h
    exact (key hc.1 hc.2).ne_nan (Except.ok.inj h)
  · exact Ieee.nonneg_iff.2 (key h1 h2)

/-- C55: `abs` is monotone in the magnitudes of the parts - with overflow, underflow and infinite parts. -/
theorem C55_abs_mono (z w : Complex (Ieee F)) (a b : Ieee F) (ha : z.abs = .ok a) (hb : w.abs = .ok b)
    (h1 : Ieee.fle z.re.abs w.re.abs = true) (h2 : Ieee.fle z.im.abs w.im.abs = true) : Ieee.fle a b = true := by
  have hn : ∀ {x y : Ieee F}, Ieee.fle x.abs y.abs = true → x ≠ nan ∧ y ≠ nan := by
    intro x y h
    refine ⟨?_, ?_⟩
    · rintro rfl; cases h
    · rintro rfl
      revert h
      unfold Ieee.fle
      cases x.abs.key <;> exact fun h => by cases h
  obtain ⟨a1, a2⟩ := hn h1
  obtain ⟨b1, b2⟩ := hn h2
  rw [ieee_abs] at ha hb
  cases ha
  cases hb
  exact Ieee.sqrt_mono (Ieee.add_nonNeg (Ieee.sq_nonNeg a1) (Ieee.sq_nonNeg b1))
    (Ieee.add_nonNeg (Ieee.sq_nonNeg a2) (Ieee.sq_nonNeg b2))
    (Ieee.add_mono (Ieee.sq_nonNeg a1) (Ieee.sq_nonNeg b1) (Ieee.sq_nonNeg a2) (Ieee.sq_nonNeg b2)
      (Ieee.sq_mono a1 a2 h1) (Ieee.sq_mono b1 b2 h2))

/-- The square root of the rounded square. -/
theorem Ieee.sqrt_sq {x : Ieee F} (hx : x.Finite) (h : x.value = 0 ∨ 2 ^ F.emin ≤ x.value ^ 2)
    (hf : (x.mul x).Finite) : (x.mul x).sqrt = x.abs := by
  cases x with
  | nan => exact hx.elim
  | inf => exact hx.elim
  | zero s => cases s <;> rfl
  | fin x h0 hr =>
    have h1 : (2 : ℚ) ^ F.emin ≤ x ^ 2 := h.resolve_left h0
    have hx : 0 < |x| := abs_pos.2 h0
    have hrep := F.representable_abs hr
    have key := F.roundSqrt_roundQ_sq hx hrep (by rwa [sq_abs])
    rw [sq_abs] at key
    have hQ : 0 < F.roundQ (x ^ 2) := by
      have := F.le_abs_roundQ le_rfl (x := x ^ 2) (by rwa [abs_of_nonneg (sq_nonneg _)])
      rw [abs_of_nonneg (F.roundQ_nonneg (sq_nonneg _))] at this
      exact lt_of_lt_of_le (by positivity) this
    rw [Ieee.sq_eq_round (a := .fin x h0 hr) trivial] at hf ⊢
    have e1 := Ieee.round_finite hf
    have h2 : |F.roundQ (x ^ 2)| < 2 ^ (F.emax + 1) := Ieee.round_finite_iff.1 hf
    have e : (Ieee.round ((Ieee.fin x h0 hr : Ieee F).value ^ 2) : Ieee F) =
        .fin (F.roundQ (x ^ 2)) hQ.ne' (F.representable_roundQ _ h2) := by
      unfold Ieee.round
      exact (dif_neg hQ.ne').trans (dif_pos h2)
    have e2 : (Ieee.fin (F.roundQ (x ^ 2)) hQ.ne' (F.representable_roundQ _ h2) : Ieee F).sqrt =
        .fin (F.roundSqrt (F.roundQ (x ^ 2))) (F.roundSqrt_ne_zero hQ)
          (F.representable_roundSqrt hQ (F.representable_roundQ _ h2)) := dif_pos hQ
    rw [e, e2]
    simp only [key]
    rfl

theorem Ieee.sq_add_zero (x : Ieee F) (s : Bool) : (x.mul x).add ((Ieee.zero s).mul (Ieee.zero s)) = x.mul x ∧
    ((Ieee.zero s).mul (Ieee.zero s)).add (x.mul x) = x.mul x := by
  have h : ∀ y : Ieee F, y ≠ .zero true → y.add (.zero false) = y := by
    intro y hy
    cases y with
    | zero t => cases t
                · rfl
                · exact (hy rfl).elim
    | _ => rfl
  have h1 : x.mul x ≠ .zero true := by
    cases x with
    | nan => intro h; cases h
    | inf t => intro h; cases h
    | zero t => intro h; cases t <;> cases h
    | fin x h0 hr =>
      show Ieee.round (x * x) ≠ _
      unfold Ieee.round
      rw [decide_eq_false (not_lt.2 (mul_self_nonneg _))]
      split_ifs <;> intro h <;> cases h
  have hz : (Ieee.zero s : Ieee F).mul (Ieee.zero s) = .zero false := by cases s <;> rfl
  rw [hz, Ieee.add_comm (.zero false)]
  exact ⟨h _ h1, h _ h1⟩

/-- C55: on the axes `abs` is exact: `abs(x ± 0i) = |x| = abs(±0 + xi)`, bit for bit, for every finite `x` whose square
neither overflows nor falls below the smallest normal number (or which is zero). -/
theorem C55_abs_axis (x : Ieee F) (s : Bool) (hx : x.Finite) (h : x.value = 0 ∨ 2 ^ F.emin ≤ x.value ^ 2)
    (hf : |F.roundQ (x.value ^ 2)| < 2 ^ (F.emax + 1)) :
    (⟨x, .zero s⟩ : Complex (Ieee F)).abs = .ok x.abs ∧ (⟨.zero s, x⟩ : Complex (Ieee F)).abs = .ok x.abs := by
  have hf' : (x.mul x).Finite := by rw [Ieee.mul_finite_iff hx hx, ← pow_two]; exact hf
  rw [ieee_abs, ieee_abs]
  simp only [(Ieee.sq_add_zero x s).1, (Ieee.sq_add_zero x s).2, Ieee.sqrt_sq hx h hf', and_self]

/-- C55: `abs` is at least the magnitude of each part whose square does not fall below the smallest normal number. -/
theorem C55_abs_ge (z : Complex (Ieee F)) (a : Ieee F) (ha : z.abs = .ok a) (hr : z.re ≠ nan) (hi : z.im ≠ nan) :
    (¬ z.re.Finite ∨ z.re.value = 0 ∨ 2 ^ F.emin ≤ z.re.value ^ 2 → Ieee.fle z.re.abs a = true) ∧
    (¬ z.im.Finite ∨ z.im.value = 0 ∨ 2 ^ F.emin ≤ z.im.value ^ 2 → Ieee.fle z.im.abs a = true) := by
  have key : ∀ (z : Complex (Ieee F)) (a : Ieee F), z.abs = .ok a → z.re ≠ nan → z.im ≠ nan →
      (¬ z.re.Finite ∨ z.re.value = 0 ∨ 2 ^ F.emin ≤ z.re.value ^ 2) → Ieee.fle z.re.abs a = true := by
    intro z a ha hr hi h
    have hself : ∀ {b : Ieee F}, b.NonNeg → Ieee.fle b b = true := fun hb => by
      rw [Ieee.fle_nonneg hb hb]
      rcases hb with h | h
      · exact .inl h
      · exact .inr ⟨h.1, h.1, le_rfl⟩
    have hz : Ieee.fle (Ieee.zero false : Ieee F).abs z.im.abs = true := Ieee.nonneg_iff.2 (Ieee.abs_nonNeg hi)
    have hm := C55_abs_mono ⟨z.re, .zero false⟩ z _ a (ieee_abs _) ha (hself (Ieee.abs_nonNeg hr)) hz
    simp only [(Ieee.sq_add_zero z.re false).1] at hm
    by_cases hf : (z.re.mul z.re).Finite
    · obtain ⟨h1, _, _⟩ := Ieee.mul_finite hf
      rwa [Ieee.sqrt_sq h1 (h.resolve_left (fun h2 => h2 h1)) hf] at hm
    · have e := (Ieee.sq_nonNeg hr).inf_or hf
      rw [e, show (inf false : Ieee F).sqrt = inf false from rfl] at hm
      have ha' : a.NonNeg := by
        rw [ieee_abs] at ha
        cases ha
        exact Ieee.sqrt_nonNeg (Ieee.add_nonNeg (Ieee.sq_nonNeg hr) (Ieee.sq_nonNeg hi))
      rw [Ieee.fle_nonneg (.inl rfl) ha'] at hm
      rw [Ieee.fle_nonneg (Ieee.abs_nonNeg hr) ha']
      rcases hm with hm | hm
      · exact .inl hm
      · exact hm.1.elim
  refine ⟨key z a ha hr hi, key ⟨z.im, z.re⟩ a ?_ hi hr⟩
  rw [(C55_abs_sym z).2.2.1]; exact ha

/-! ## Square roots -/

theorem Fmt.Representable.double {x : ℚ} (h : F.Representable x) (h2 : |x * 2| < 2 ^ (F.emax + 1)) :
    F.Representable (x * 2) := by
  obtain ⟨⟨m, e, hm, h1, h3⟩, _⟩ := h
  exact ⟨⟨m, e + 1, by rw [zpow_add_one₀ (by norm_num), hm]; ring, h1, by omega⟩, h2⟩

theorem Fmt.Representable.halve {x : ℚ} (hr : F.Representable x) (hx : 2 ^ (F.emin + 1) ≤ |x|) :
    F.Representable (x / 2) := by
  refine ⟨?_, ?_⟩
  · obtain ⟨⟨m, e, hm, h1, h2⟩, _⟩ := hr
    have h3 : F.emin - (F.p - 1) < e := by
      rcases h2.lt_or_eq with h2 | h2
      · exact h2
      · exfalso
        have h4 : |(m : ℚ)| < 2 ^ F.p := by exact_mod_cast h1
        have h5 : |x| < 2 ^ (F.emin + 1) := by
          rw [hm, show F.emin + 1 = (F.p : ℤ) + e by omega, zpow_add₀ (by norm_num), zpow_natCast, abs_mul,
            abs_of_pos (show (0 : ℚ) < 2 ^ e by positivity)]
          exact mul_lt_mul_of_pos_right h4 (by positivity)
        linarith
    exact ⟨m, e - 1, by rw [hm, zpow_sub_one₀ (by norm_num)]; ring, h1, by omega⟩
  · have := hr.2
    rw [abs_div, abs_two]
    have h0 := abs_nonneg x
    linarith

/-- A number whose square does not overflow can be doubled. -/
theorem Fmt.double_lt {x : ℚ} (h : |F.roundQ (x ^ 2)| < 2 ^ (F.emax + 1)) : |x * 2| < 2 ^ (F.emax + 1) := by
  have hp := F.two_le_p
  have he := F.p_le_emax
  have hm : F.emin = 1 - F.emax := rfl
  by_contra hc
  have hc : (2 : ℚ) ^ (F.emax + 1) ≤ |x * 2| := not_lt.1 hc
  have h1 : (2 : ℚ) ^ F.emax ≤ |x| := by
    rw [abs_mul, abs_two, zpow_add_one₀ (by norm_num)] at hc
    linarith
  have h2 : (2 : ℚ) ^ (F.emax + 1) ≤ |x ^ 2| := by
    rw [abs_pow]
    calc (2 : ℚ) ^ (F.emax + 1) ≤ 2 ^ (F.emax * 2) := zpow_le_zpow_right₀ (by norm_num) (by omega)
      _ = (2 ^ F.emax) ^ 2 := by rw [zpow_mul, zpow_ofNat]
      _ ≤ |x| ^ 2 := pow_le_pow_left₀ (by positivity) h1 2
  exact absurd (F.le_abs_roundQ (by omega) h2) (not_le.2 h)

/-- A number whose square does not underflow can be halved. -/
theorem Fmt.le_half {x : ℚ} (h3 : 3 ≤ F.emax) (h : 2 ^ F.emin ≤ x ^ 2) : 2 ^ (F.emin + 1) ≤ |x| := by
  have hp := F.two_le_p
  have he := F.p_le_emax
  have hm : F.emin = 1 - F.emax := rfl
  by_contra hc
  have hc : |x| < 2 ^ (F.emin + 1) := not_le.1 hc
  have h1 : x ^ 2 < 2 ^ F.emin := by
    rw [← sq_abs]
    calc |x| ^ 2 < (2 ^ (F.emin + 1)) ^ 2 := pow_lt_pow_left₀ hc (abs_nonneg _) two_ne_zero
      _ = 2 ^ ((F.emin + 1) * 2) := by rw [zpow_mul, zpow_ofNat]
      _ ≤ 2 ^ F.emin := zpow_le_zpow_right₀ (by norm_num) (by omega)
  linarith

theorem Ieee.abs_self_add {a : Ieee F} {h0 : a.value ≠ 0} (h : |a.value * 2| < 2 ^ (F.emax + 1)) :
    ((a.abs.add a.abs).mul (.fin (1 / 2) (by norm_num) F.representable_half)) = a.abs := by
  have ha : a.abs.Finite := by
    cases a with
    | fin => trivial
    | _ => exact (h0 rfl).elim
  have hv : a.abs.value ≠ 0 := by rw [Ieee.abs_value]; exact abs_ne_zero.2 h0
  have hrep : F.Representable (a.abs.value * 2) := (Ieee.value_representable a.abs).double (by
    rw [Ieee.abs_value, abs_mul, abs_abs, ← abs_mul]; exact h)
  have h2 : a.abs.value * 2 ≠ 0 := mul_ne_zero hv two_ne_zero
  rw [Ieee.add_fin ha ha (by rw [← mul_two]; exact h2), ← mul_two, ← Ieee.fin_eq_round h2 hrep,
    Ieee.mul_fin (a := .fin _ h2 hrep) (b := .fin (1 / 2) _ _) h2 (show (1 / 2 : ℚ) ≠ 0 by norm_num)]
  show Ieee.round (a.abs.value * 2 * (1 / 2)) = _
  rw [show a.abs.value * 2 * (1 / 2) = a.abs.value by ring, ← Ieee.fin_eq_round hv (Ieee.value_representable _)]
  cases a with
  | fin => rfl
  | _ => exact (h0 rfl).elim

/-- C55: `sqrt` of a real number `x ± 0i` whose square neither overflows nor falls below the smallest normal number (or
which is zero) is the correctly rounded real square root: `√x + 0i` for `x ≥ 0` and `0 + √|x| i` for `x < 0`, both zeros
`+0`. -/
theorem C55_sqrt_real (x : Ieee F) (s : Bool) (hx : x.Finite) (h : x.value = 0 ∨ 2 ^ F.emin ≤ x.value ^ 2)
    (hf : |F.roundQ (x.value ^ 2)| < 2 ^ (F.emax + 1)) :
    (⟨x, .zero s⟩ : Complex (Ieee F)).sqrt =
      .ok (if 0 ≤ x.value then ⟨x.abs.sqrt, .zero false⟩ else ⟨.zero false, x.abs.sqrt⟩) := by
  have habs := (C55_abs_axis x s hx h hf).1
  rw [ieee_abs] at habs
  have habs := Except.ok.inj habs
  have hl : (Ieee.zero s : Ieee F).flt zero = false := by cases s <;> rfl
  rw [ieee_csqrt]
  simp only [habs, hl, Bool.false_eq_true, if_false, show (Ieee.zero s : Ieee F).abs = .zero false from rfl]
  have h2z : (Ieee.zero false : Ieee F).mul (.fin 2 two_ne_zero F.representable_two) = .zero false := by
    show Ieee.zero (xor false (decide ((2 : ℚ) < 0))) = _
    norm_num
  rw [h2z]
  by_cases h0 : x.value = 0
  · cases x with
    | nan => exact hx.elim
    | inf => exact hx.elim
    | fin x h1 hr => exact (h1 h0).elim
    | zero t =>
      have e1 : (Ieee.zero t : Ieee F).abs.fle (.zero false) = true := rfl
      have hz : (Ieee.zero false : Ieee F).mul (.fin (1 / 2) (by norm_num) F.representable_half) = .zero false := by
        show Ieee.zero (xor false (decide ((1 / 2 : ℚ) < 0))) = _
        norm_num
      have e2 : (Ieee.zero t : Ieee F).abs.add (.zero t) = .zero false := rfl
      have e3 : (Ieee.zero t : Ieee F).abs.sub (.zero t) = .zero false := rfl
      simp only [e1, e2, e3, hz, if_true]
      rw [if_pos (show (0 : ℚ) ≤ (Ieee.zero t : Ieee F).value from le_rfl)]
      rfl
  · have h1 := h.resolve_left h0
    have hv : x.abs.value = |x.value| := Ieee.abs_value x
    have hpos : 0 < x.abs.value := by rw [hv]; exact abs_pos.2 h0
    have hc : x.abs.fle (.zero false) = false := by
      rw [Bool.eq_false_iff]
      intro hc
      rw [Ieee.fle_value (b := .zero false) (Ieee.abs_finite.2 hx) trivial] at hc
      exact absurd hc (not_le.2 hpos)
    have hdiv : (Ieee.zero false : Ieee F).div ((x.abs.add x.abs).mul (.fin 2 two_ne_zero F.representable_two)).sqrt =
        .zero false := by
      have hd : (x.abs.add x.abs).NonNeg := Ieee.add_nonNeg (.inr ⟨Ieee.abs_finite.2 hx, hpos.le⟩)
        (.inr ⟨Ieee.abs_finite.2 hx, hpos.le⟩)
      have hrep : F.Representable (x.abs.value * 2) := (Ieee.value_representable x.abs).double (by
        rw [hv, abs_mul, abs_abs, ← abs_mul]; exact F.double_lt hf)
      have hxx : x.abs.value * 2 ≠ 0 := mul_ne_zero hpos.ne' two_ne_zero
      rw [Ieee.add_fin (Ieee.abs_finite.2 hx) (Ieee.abs_finite.2 hx) (by rw [← mul_two]; exact hxx), ← mul_two,
        ← Ieee.fin_eq_round hxx hrep,
        Ieee.mul_fin (a := .fin _ hxx hrep) (b := .fin 2 _ _) hxx (show (2 : ℚ) ≠ 0 by norm_num)]
      show (Ieee.zero false : Ieee F).div (Ieee.round (x.abs.value * 2 * 2)).sqrt = _
      have hnn : (Ieee.round (x.abs.value * 2 * 2) : Ieee F).sqrt.NonNeg :=
        Ieee.sqrt_nonNeg (Ieee.round_nonneg (by positivity))
      have hne : (Ieee.round (x.abs.value * 2 * 2) : Ieee F).sqrt.value ≠ 0 ∨
          (Ieee.round (x.abs.value * 2 * 2) : Ieee F).sqrt = inf false := by
        by_cases hfin : (Ieee.round (x.abs.value * 2 * 2) : Ieee F).Finite
        · left
          have hr := Ieee.round_finite hfin
          have hQ : 0 < F.roundQ (x.abs.value * 2 * 2) := by
            have := F.le_roundQ_of_representable hrep (y := x.abs.value * 2 * 2) (by linarith)
            linarith
          rcases Ieee.sqrt_finite hfin ((Ieee.sqrt_finite_iff (Ieee.round_nonneg (by positivity))).2 hfin) with h3 | h3
          · rw [hr] at h3; exact absurd h3.1 hQ.ne'
          · rw [h3.2]; exact F.roundSqrt_ne_zero h3.1
        · right
          rw [(Ieee.round_nonneg (by positivity)).inf_or hfin]; rfl
      generalize (Ieee.round (x.abs.value * 2 * 2) : Ieee F).sqrt = d at hnn hne
      rcases hnn with rfl | ⟨h3, h4⟩
      · rfl
      · cases d with
        | nan => exact h3.elim
        | inf => exact h3.elim
        | zero t => exact (hne.resolve_right (by simp)  rfl).elim
        | fin d h5 h6 =>
          show Ieee.zero (xor false (decide (d < 0))) = _
          rw [decide_eq_false (not_lt.2 (show 0 ≤ d from h4))]; rfl
    have hb := Ieee.abs_self_add (h0 := h0) (F.double_lt hf)
    simp only [hc, Bool.false_eq_true, if_false, hdiv, hb]
    have hz : (zero : Ieee F).fle x = decide (0 ≤ x.value) := by
      rw [Bool.eq_iff_iff, decide_eq_true_iff]
      exact Ieee.fle_value (a := .zero false) trivial hx
    rw [hz]
    by_cases h3 : 0 ≤ x.value
    · simp [h3]
    · simp [h3]

/-- C55: `sqrt` of `±0 + yi` (same range) is `t + t i` for `y > 0` and `t - t i` for `y < 0`, where `t` is the correctly
rounded square root of exactly `|y|/2`. (`f32` has `emax = 127`, `f64` has `emax = 1023`; the format with `emax = 2` is
too small to hold every `|y|/2`.) -/
theorem C55_sqrt_imag (h3 : 3 ≤ F.emax) (y : Ieee F) (s : Bool) (hy : y.Finite) (h : 2 ^ F.emin ≤ y.value ^ 2)
    (hf : |F.roundQ (y.value ^ 2)| < 2 ^ (F.emax + 1)) :
    ∃ m t : Ieee F, m.Finite ∧ m.value = |y.value| / 2 ∧ t = m.sqrt ∧
      (⟨.zero s, y⟩ : Complex (Ieee F)).sqrt = .ok ⟨t, if 0 < y.value then t else t.neg⟩ := by
  have h0 : y.value ≠ 0 := by
    intro h0
    rw [h0, zero_pow two_ne_zero] at h
    exact absurd h (not_le.2 (by positivity))
  have habs := (C55_abs_axis y s hy (.inr h) hf).2
  rw [ieee_abs] at habs
  have habs := Except.ok.inj habs
  have hv : y.abs.value = |y.value| := Ieee.abs_value y
  have hpos : 0 < y.abs.value := by rw [hv]; exact abs_pos.2 h0
  have hrep : F.Representable (y.abs.value / 2) := (Ieee.value_representable y.abs).halve (by
    rw [hv, abs_abs]; exact F.le_half h3 h)
  have hh0 : y.abs.value / 2 ≠ 0 := div_ne_zero hpos.ne' two_ne_zero
  refine ⟨.fin _ hh0 hrep, _, trivial, by rw [← hv]; rfl, rfl, ?_⟩
  have e1 : y.abs.add (.zero s) = y.abs := by
    cases y with
    | fin => rfl
    | _ => exact (h0 rfl).elim
  have e2 : y.abs.sub (.zero s) = y.abs := by
    cases y with
    | fin => rfl
    | _ => exact (h0 rfl).elim
  have e3 : y.abs.mul (.fin (1 / 2) (by norm_num) F.representable_half) = .fin _ hh0 hrep := by
    rw [Ieee.mul_fin (b := .fin (1 / 2) _ _) hpos.ne' (show (1 / 2 : ℚ) ≠ 0 by norm_num),
      show (Ieee.fin (1 / 2) (by norm_num) F.representable_half : Ieee F).value = 1 / 2 from rfl, mul_one_div,
      Ieee.fin_eq_round hh0 hrep]
  have e4 : (Ieee.zero s : Ieee F).abs.fle (y.abs.mul (.fin 2 two_ne_zero F.representable_two)) = true := by
    refine Ieee.nonneg_iff.2 ?_
    rw [Ieee.mul_fin (b := .fin 2 _ _) hpos.ne' (show (2 : ℚ) ≠ 0 by norm_num),
      show (Ieee.fin 2 two_ne_zero F.representable_two : Ieee F).value = 2 from rfl]
    exact Ieee.round_nonneg (mul_nonneg hpos.le zero_le_two)
  have e5 : y.flt (zero : Ieee F) = !decide (0 < y.value) := by
    have := Ieee.flt_value (a := y) (b := .zero false) hy trivial
    rw [Bool.eq_iff_iff, Bool.not_eq_true', decide_eq_false_iff_not, not_lt]
    refine this.trans ⟨le_of_lt, fun h1 => lt_of_le_of_ne h1 h0⟩
  rw [ieee_csqrt]
  simp only [habs, e1, e2, e3, e4, e5, if_true]
  by_cases h3 : 0 < y.value <;> simp [h3]

namespace Ieee

/-- NaN, zero, positive or `+inf`. -/
theorem sqrt_range (a : Ieee F) : a.sqrt = nan ∨ a.sqrt.NonNeg := by
  cases a with
  | nan => exact .inl rfl
  | inf s => cases s
             · exact .inr (.inl rfl)
             · exact .inl rfl
  | zero s => exact .inr (.inr ⟨trivial, le_rfl⟩)
  | fin x h0 hr =>
    by_cases hx : 0 < x
    · exact .inr (sqrt_nonNeg (.inr ⟨trivial, hx.le⟩))
    · exact .inl (dif_neg hx)

theorem div_range {a b : Ieee F} (ha : a = nan ∨ a.NonNeg) (hb : b = nan ∨ b.NonNeg) (hz : b ≠ .zero true) :
    a.div b = nan ∨ (a.div b).NonNeg := by
  rcases ha with rfl | ha
  · exact .inl (nan_div _)
  rcases hb with rfl | hb
  · exact .inl (div_nan _)
  rcases ha with rfl | ⟨ha, ha0⟩
  · rcases hb with rfl | ⟨hb, hb0⟩
    · exact .inl rfl
    · cases b with
      | nan => exact hb.elim
      | inf => exact hb.elim
      | zero t => cases t
                  · exact .inr (.inl rfl)
                  · exact (hz rfl).elim
      | fin y h0 hr =>
        right; left
        show inf (xor false (decide (y < 0))) = _
        rw [decide_eq_false (not_lt.2 (show 0 ≤ y from hb0))]; rfl
  · rcases hb with rfl | ⟨hb, hb0⟩
    · right; right
      cases a <;> first | exact ha.elim | exact ⟨trivial, le_rfl⟩
    · cases b with
      | nan => exact hb.elim
      | inf => exact hb.elim
      | zero t =>
        cases t
        · cases a with
          | nan => exact ha.elim
          | inf => exact ha.elim
          | zero s => exact .inl rfl
          | fin x h0 hr =>
            right; left
            show inf (xor (decide (x < 0)) false) = _
            rw [decide_eq_false (not_lt.2 (show 0 ≤ x from ha0))]; rfl
        · exact (hz rfl).elim
      | fin y h0 hr =>
        right
        cases a with
        | nan => exact ha.elim
        | inf => exact ha.elim
        | zero s => exact .inr ⟨trivial, le_rfl⟩
        | fin x h0 hr => exact round_nonneg (div_nonneg ha0 hb0)

end Ieee

/-- C55: `sqrt` returns the root in the right half plane: the real part of the result is NaN or not negative, and the
imaginary part is NaN or has the sign of the imaginary part of the argument. -/
theorem C55_sqrt_sign (z r : Complex (Ieee F)) (h : z.sqrt = .ok r) :
    (r.re = nan ∨ Ieee.fle (zero : Ieee F) r.re = true) ∧
    (r.im = nan ∨ (if Ieee.flt z.im (zero : Ieee F) then Ieee.fle r.im zero else Ieee.fle zero r.im) = true) := by
  have hneg : ∀ a : Ieee F, Ieee.fle a.neg (zero : Ieee F) = Ieee.fle (zero : Ieee F) a := by
    intro a
    cases a with
    | nan => rfl
    | inf s => cases s <;> rfl
    | zero s => cases s <;> rfl
    | fin x h0 hr =>
      have e1 := Ieee.fle_value (a := (Ieee.fin x h0 hr : Ieee F).neg) (b := .zero false) trivial trivial
      have e2 := Ieee.fle_value (a := .zero false) (b := (Ieee.fin x h0 hr : Ieee F)) trivial trivial
      rw [Bool.eq_iff_iff]
      refine e1.trans (Iff.trans ?_ e2.symm)
      rw [Ieee.neg_value]
      exact neg_nonpos
  have key : ∀ a : Ieee F, (a = nan ∨ a.NonNeg) → (a = nan ∨ Ieee.fle (zero : Ieee F) a = true) := fun a h =>
    h.imp_right Ieee.nonneg_iff.2
  have hq : ∀ y h2 : Ieee F, (y.abs.div h2.sqrt = nan ∨ (y.abs.div h2.sqrt).NonNeg) ∨ h2 = .zero true := by
    intro y h2
    by_cases hz : h2 = .zero true
    · exact .inr hz
    · refine .inl (Ieee.div_range ?_ (Ieee.sqrt_range _) ?_)
      · cases y with
        | nan => exact .inl rfl
        | _ => exact .inr (Ieee.abs_nonNeg (by simp))
      · intro h3
        cases h2 with
        | nan => cases h3
        | inf s => cases s <;> cases h3
        | zero s => exact hz h3
        | fin x h0 hr =>
          by_cases hx : 0 < x
          · rw [show (Ieee.fin x h0 hr : Ieee F).sqrt = .fin (F.roundSqrt x) (F.roundSqrt_ne_zero hx)
              (F.representable_roundSqrt hx hr) from dif_pos hx] at h3
            cases h3
          · rw [show (Ieee.fin x h0 hr : Ieee F).sqrt = nan from dif_neg hx] at h3
            cases h3
  -- the divisor `2(|z|+|re|)` is not `-0`
  have hd : ((((z.re.mul z.re).add (z.im.mul z.im)).sqrt.add z.re.abs).mul
      (.fin 2 two_ne_zero F.representable_two)) ≠ Ieee.zero true := by
    by_cases hn : z.re = nan ∨ z.im = nan
    · have e : (z.re.mul z.re).add (z.im.mul z.im) = nan := by rcases hn with h | h <;> rw [h] <;> simp
      rw [e, show (nan : Ieee F).sqrt = nan from rfl, Ieee.nan_add, Ieee.nan_mul]
      intro h; cases h
    · rw [not_or] at hn
      have hs := Ieee.sqrt_nonNeg (Ieee.add_nonNeg (Ieee.sq_nonNeg hn.1) (Ieee.sq_nonNeg hn.2))
      have ha : (((z.re.mul z.re).add (z.im.mul z.im)).sqrt.add z.re.abs) ≠ .zero true := by
        generalize ((z.re.mul z.re).add (z.im.mul z.im)).sqrt = a at hs
        have hb := Ieee.abs_nonNeg hn.1
        intro h
        generalize hbb : z.re.abs = b at hb h
        have hbz : b ≠ .zero true := by
          rw [← hbb]
          intro h
          revert h
          generalize z.re = c
          cases c <;> intro h <;> cases h
        cases a <;> cases b <;> simp only [Ieee.add] at h <;> try cases h
        · split_ifs at h
        · rename_i s t
          simp only [Ieee.zero.injEq, Bool.and_eq_true] at h
          exact hbz (by rw [h.2])
        · rename_i x _ _ y _ _
          rcases hs with hs | hs
          · cases hs
          rcases hb with hb | hb
          · cases hb
          have h1 : (0 : ℚ) ≤ x := hs.2
          have h2 : (0 : ℚ) ≤ y := hb.2
          split_ifs at h
          · cases h
          · unfold Ieee.round at h
            rw [decide_eq_false (not_lt.2 (by linarith))] at h
            split_ifs at h
            cases h
      have hnn := Ieee.add_nonNeg hs (Ieee.abs_nonNeg hn.1)
      generalize (((z.re.mul z.re).add (z.im.mul z.im)).sqrt.add z.re.abs) = a at ha hnn
      intro h
      rcases hnn with rfl | ⟨h1, h2⟩
      · cases h
      · cases a with
        | nan => exact h1
        | inf => exact h1
        | zero s =>
          cases s
          · have : Ieee.zero (xor false (decide ((2 : ℚ) < 0))) = (Ieee.zero true : Ieee F) := h
            norm_num at this
          · exact ha rfl
        | fin x h0 hr =>
          have : (Ieee.round (x * 2) : Ieee F) = .zero true := h
          unfold Ieee.round at this
          rw [decide_eq_false (not_lt.2 (mul_nonneg (show 0 ≤ x from h2) zero_le_two))] at this
          split_ifs at this
          cases this
  rw [ieee_csqrt] at h
  cases h
  simp only
  have main : ∀ a b : Ieee F, (a = nan ∨ a.NonNeg) → (b = nan ∨ b.NonNeg) →
      (a = nan ∨ Ieee.fle (zero : Ieee F) a = true) ∧
      ((if z.im.flt (zero : Ieee F) = true then b.neg else b) = nan ∨
        (if z.im.flt (zero : Ieee F) = true then (if z.im.flt (zero : Ieee F) = true then b.neg else b).fle zero
          else Ieee.fle zero (if z.im.flt (zero : Ieee F) = true then b.neg else b)) = true) := by
    intro a b ha hb
    refine ⟨key a ha, ?_⟩
    split
    · rw [hneg]
      rcases key b hb with rfl | h
      · exact .inl rfl
      · exact .inr h
    · exact key b hb
  split
  · exact main _ _ (Ieee.sqrt_range _) (Ieee.sqrt_range _)
  · split
    · exact main _ _ (Ieee.sqrt_range _) ((hq _ _).resolve_right hd)
    · exact main _ _ ((hq _ _).resolve_right hd) (Ieee.sqrt_range _)

/-! ## Concrete cases -/

/-- The hypotheses of the theorems hold of ordinary numbers; the bounds are sharp: `abs(3 + 4i) = 5`. -/
example : (⟨f64 3, f64 (-4)⟩ : Complex _).abs = .ok (f64 5) ∧ (⟨f64 (-4), f64 3⟩ : Complex _).abs = .ok (f64 5) ∧
    Ieee.fle (f64 (-4)).abs (f64 5) = true ∧ 2 ^ Fmt.f64.emin ≤ (f64 (-4)).value ^ 2 := by decide +kernel

/-- 0.1 is not exact and its square is rounded; its absolute value comes back bit for bit. -/
example : (⟨f32 (1 / 10), .zero true⟩ : Complex _).abs = .ok (f32 (1 / 10)) ∧
    2 ^ Fmt.f32.emin ≤ (f32 (1 / 10)).value ^ 2 ∧
    |Fmt.f32.roundQ ((f32 (1 / 10)).value ^ 2)| < 2 ^ (Fmt.f32.emax + 1) := by decide +kernel

/-- If the square underflows, `abs` may be below a part: the condition of `C55_abs_ge` is needed. -/
example : Ieee.fle (f32 (1 / 2 ^ 80)).abs (.zero false) = false ∧
    (⟨f32 (1 / 2 ^ 80), f32 0⟩ : Complex _).abs = .ok (.zero false) := by decide +kernel

/-- Square roots on the axes. -/
example : (⟨f32 (-2), .zero true⟩ : Complex _).sqrt = .ok ⟨.zero false, (f32 2).sqrt⟩ ∧
    (⟨f32 2, .zero true⟩ : Complex _).sqrt = .ok ⟨(f32 2).sqrt, .zero false⟩ ∧
    (⟨.zero true, f32 (-4)⟩ : Complex _).sqrt = .ok ⟨(f32 2).sqrt, (f32 2).sqrt.neg⟩ ∧
    (⟨.zero true, .zero true⟩ : Complex (Ieee .f32)).sqrt = .ok ⟨.zero false, .zero false⟩ := by decide +kernel

/-- Monotone through overflow. -/
example : Ieee.fle (f32 1).abs (f32 (2 ^ 70)).abs = true ∧
    (⟨f32 (2 ^ 70), f32 1⟩ : Complex _).abs = .ok (inf false) := by decide +kernel

end Magnesia
