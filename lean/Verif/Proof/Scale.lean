import Verif.Spec.Scale
import Verif.Proof.IeeeRange

/-!
# Changing units by powers of two (helper lemmas)
-/

namespace Magnesia

variable {F : Fmt}

namespace Fmt

theorem log_scale {x : ℚ} (h0 : x ≠ 0) (k : ℤ) : Int.log 2 |x * 2 ^ k| = Int.log 2 |x| + k := by
  have h1 := zpow_log_le h0
  have h2 := lt_zpow_log x
  have hk : (0 : ℚ) < 2 ^ k := by positivity
  rw [abs_mul, abs_of_pos hk]
  have h3 : (2 : ℚ) ^ (Int.log 2 |x| + k) ≤ |x| * 2 ^ k := by
    rw [zpow_add₀ (by norm_num)]; exact mul_le_mul_of_nonneg_right h1 hk.le
  have h4 : |x| * 2 ^ k < (2 : ℚ) ^ (Int.log 2 |x| + k + 1) := by
    rw [show Int.log 2 |x| + k + 1 = (Int.log 2 |x| + 1) + k by ring, zpow_add₀ (by norm_num)]
    exact mul_lt_mul_of_pos_right h2 hk
  have hp : 0 < |x| * 2 ^ k := mul_pos (abs_pos.2 h0) hk
  refine le_antisymm ?_ ?_
  · have := (Int.lt_zpow_iff_log_lt (b := 2) (by norm_num) hp).1 (by exact_mod_cast h4)
    omega
  · exact (Int.zpow_le_iff_le_log (b := 2) (by norm_num) hp).1 (by exact_mod_cast h3)

theorem roundQ_scale (F : Fmt) {x : ℚ} {k : ℤ} (h1 : 2 ^ F.emin ≤ |x|) (h2 : 2 ^ F.emin ≤ |x * 2 ^ k|) :
    F.roundQ (x * 2 ^ k) = F.roundQ x * 2 ^ k := by
  have h0 : x ≠ 0 := by
    rintro rfl
    rw [abs_zero] at h1
    exact absurd h1 (not_le.2 (by positivity))
  have hu : F.ulp (x * 2 ^ k) = F.ulp x * 2 ^ k := by
    unfold ulp ulpExp
    rw [max_eq_left (le_log h1), max_eq_left (le_log h2), log_scale h0, ← zpow_add₀ (by norm_num)]
    congr 1
    ring
  unfold roundQ
  rw [hu, mul_div_mul_right _ _ (by positivity : (2 : ℚ) ^ k ≠ 0), mul_assoc]

theorem roundQ_add_scale_aux (F : Fmt) {x y : ℚ} {k : ℤ} (hx : F.Representable x) (hy : F.Representable y)
    (h1 : |x + y| < 2 ^ F.emin) : F.roundQ ((x + y) * 2 ^ k) = (x + y) * 2 ^ k ∨ |(x + y) * 2 ^ k| < 2 ^ F.emin := by
  by_cases h2 : |(x + y) * 2 ^ k| < 2 ^ F.emin
  · exact .inr h2
  · refine .inl ?_
    by_cases h0 : x + y = 0
    · rw [h0, zero_mul]; exact F.roundQ_zero
    have hl : Int.log 2 |x + y| < F.emin := (Int.lt_zpow_iff_log_lt (b := 2) (by norm_num) (abs_pos.2 h0)).1 (by exact_mod_cast h1)
    obtain ⟨⟨m, e, rfl, _, he⟩, _⟩ := hx
    obtain ⟨⟨n, f, rfl, _, hf⟩, _⟩ := hy
    obtain ⟨j, hj⟩ : ∃ j : ℕ, e = F.emin - (F.p - 1) + j := ⟨(e - (F.emin - (F.p - 1))).toNat, by omega⟩
    obtain ⟨i, hi⟩ : ∃ i : ℕ, f = F.emin - (F.p - 1) + i := ⟨(f - (F.emin - (F.p - 1))).toNat, by omega⟩
    refine F.roundQ_exact (m := m * 2 ^ j + n * 2 ^ i) (e := F.emin - (F.p - 1) + k) ?_ ?_
    · rw [hj, hi, zpow_add₀ (by norm_num), zpow_add₀ (by norm_num : (2 : ℚ) ≠ 0) _ (i : ℤ),
        zpow_add₀ (by norm_num : (2 : ℚ) ≠ 0) _ k, zpow_natCast, zpow_natCast]
      push_cast; ring
    · unfold ulpExp
      rw [max_eq_left (le_log (not_lt.1 h2)), log_scale h0]
      omega

/-- Sums commute with changes of units, whatever their size. -/
theorem roundQ_add_scale (F : Fmt) {x y : ℚ} {k : ℤ} (hx : F.Representable x) (hy : F.Representable y)
    (hx' : F.Representable (x * 2 ^ k)) (hy' : F.Representable (y * 2 ^ k)) :
    F.roundQ (x * 2 ^ k + y * 2 ^ k) = F.roundQ (x + y) * 2 ^ k := by
  have e : x * 2 ^ k + y * 2 ^ k = (x + y) * 2 ^ k := by ring
  rcases lt_or_ge |x + y| (2 ^ F.emin) with h1 | h1
  · rw [F.roundQ_add_tiny hx hy h1]
    rcases F.roundQ_add_scale_aux (k := k) hx hy h1 with h | h
    · rw [e, h]
    · rw [F.roundQ_add_tiny hx' hy' (by rw [e]; exact h), e]
  · rcases lt_or_ge |(x + y) * 2 ^ k| (2 ^ F.emin) with h2 | h2
    · have ek : (2 : ℚ) ^ k * 2 ^ (-k) = 1 := by rw [← zpow_add₀ (by norm_num)]; simp
      have e2 : (x * 2 ^ k + y * 2 ^ k) * 2 ^ (-k) = x + y := by rw [e, mul_assoc, ek, mul_one]
      rw [F.roundQ_add_tiny hx' hy' (by rw [e]; exact h2)]
      rcases F.roundQ_add_scale_aux (k := -k) hx' hy' (by rw [e]; exact h2) with h | h
      · rw [e2] at h
        rw [h, e]
      · rw [e2] at h
        exact absurd h (not_lt.2 h1)
    · rw [e, F.roundQ_scale h1 h2]

theorem roundSqrt_scale (F : Fmt) {x : ℚ} (hx : 0 < x) (k : ℤ) : F.roundSqrt (x * 2 ^ (2 * k)) = F.roundSqrt x * 2 ^ k := by
  have hl : Int.log 2 (x * 2 ^ (2 * k)) = Int.log 2 x + 2 * k := by
    have := log_scale hx.ne' (2 * k)
    rwa [abs_of_pos hx, abs_of_pos (mul_pos hx (by positivity))] at this
  have hu : F.sqrtUlpExp (x * 2 ^ (2 * k)) = F.sqrtUlpExp x + k := by
    unfold sqrtUlpExp
    rw [hl]
    omega
  unfold roundSqrt
  rw [hu, zpow_add₀ (by norm_num), mul_pow, show (2 : ℚ) ^ (2 * k) = (2 ^ k) ^ 2 by rw [← zpow_natCast, ← zpow_mul]; congr 1; ring,
    mul_div_mul_right _ _ (by positivity : ((2 : ℚ) ^ k) ^ 2 ≠ 0), mul_assoc]

end Fmt

namespace Ieee

theorem scaled_neg {k : ℤ} {a a' : Ieee F} (h : a.Scaled k a') : a.neg.Scaled k a'.neg := by
  match a, a', h with
  | zero s, zero t, h => exact congrArg not h
  | fin x _ _, fin y _ _, h =>
    show -y = -x * 2 ^ k
    rw [show y = x * 2 ^ k from h]; ring

theorem scaled_abs {k : ℤ} {a a' : Ieee F} (h : a.Scaled k a') : a.abs.Scaled k a'.abs := by
  match a, a', h with
  | zero s, zero t, h => exact rfl
  | fin x _ _, fin y _ _, h =>
    show |y| = |x| * 2 ^ k
    rw [show y = x * 2 ^ k from h, abs_mul, abs_of_pos (by positivity : (0 : ℚ) < 2 ^ k)]

theorem round_scaled {k : ℤ} {x : ℚ} (h : F.roundQ (x * 2 ^ k) = F.roundQ x * 2 ^ k) (hf : (round x : Ieee F).Finite)
    (hf' : (round (x * 2 ^ k) : Ieee F).Finite) : (round x : Ieee F).Scaled k (round (x * 2 ^ k)) := by
  have hk : (0 : ℚ) < 2 ^ k := by positivity
  unfold round at hf hf' ⊢
  by_cases h0 : F.roundQ x = 0
  · have h0' : F.roundQ (x * 2 ^ k) = 0 := by rw [h, h0, zero_mul]
    rw [dif_pos h0, dif_pos h0']
    show decide (x < 0) = decide (x * 2 ^ k < 0)
    simp [mul_neg_iff, hk, hk.not_gt]
  · have h0' : ¬ F.roundQ (x * 2 ^ k) = 0 := by rw [h]; exact mul_ne_zero h0 hk.ne'
    rw [dif_neg h0] at hf ⊢
    rw [dif_neg h0'] at hf' ⊢
    by_cases h1 : |F.roundQ x| < 2 ^ (F.emax + 1)
    · rw [dif_pos h1]
      by_cases h2 : |F.roundQ (x * 2 ^ k)| < 2 ^ (F.emax + 1)
      · rw [dif_pos h2]
        exact h
      · rw [dif_neg h2] at hf'
        exact hf'.elim
    · rw [dif_neg h1] at hf
      exact hf.elim

theorem scaled_add {k : ℤ} {a a' b b' : Ieee F} (ha : a.Scaled k a') (hb : b.Scaled k b') (hf : (a.add b).Finite)
    (hf' : (a'.add b').Finite) : (a.add b).Scaled k (a'.add b') := by
  match a, a', ha, b, b', hb with
  | zero s, zero t, h, zero s', zero t', h' =>
    obtain rfl : s = t := h
    obtain rfl : s' = t' := h'
    exact rfl
  | zero s, zero t, h, fin x _ _, fin y _ _, h' => exact h'
  | fin x _ _, fin y _ _, h', zero s, zero t, h => exact h'
  | fin x _ hx, fin y _ hy, h, fin z _ hz, fin w _ hw, h' =>
    obtain rfl : y = x * 2 ^ k := h
    obtain rfl : w = z * 2 ^ k := h'
    have e : x * 2 ^ k + z * 2 ^ k = (x + z) * 2 ^ k := by ring
    unfold add at hf hf' ⊢
    simp only at hf hf' ⊢
    by_cases h0 : x + z = 0
    · have h0' : x * 2 ^ k + z * 2 ^ k = 0 := by rw [e, h0, zero_mul]
      rw [if_pos h0, if_pos h0']
      exact rfl
    · have h0' : ¬ x * 2 ^ k + z * 2 ^ k = 0 := by rw [e]; exact mul_ne_zero h0 (by positivity)
      rw [if_neg h0] at hf ⊢
      rw [if_neg h0', e] at hf' ⊢
      exact round_scaled (by rw [← e]; exact F.roundQ_add_scale hx hz hy hw) hf hf'

theorem scaled_sub {k : ℤ} {a a' b b' : Ieee F} (ha : a.Scaled k a') (hb : b.Scaled k b') (hf : (a.sub b).Finite)
    (hf' : (a'.sub b').Finite) : (a.sub b).Scaled k (a'.sub b') := scaled_add ha (scaled_neg hb) hf hf'

theorem neg_scale {x : ℚ} {k : ℤ} : decide (x * 2 ^ k < 0) = decide (x < 0) := by
  have hk : (0 : ℚ) < 2 ^ k := by positivity
  simp [mul_neg_iff, hk, hk.not_gt]

theorem scaled_mul {j k : ℤ} {a a' b b' : Ieee F} (ha : a.Scaled j a') (hb : b.Scaled k b') (hf : (a.mul b).Finite)
    (hf' : (a'.mul b').Finite) (hn : a.value * b.value = 0 ∨ 2 ^ F.emin ≤ |a.value * b.value|)
    (hn' : a'.value * b'.value = 0 ∨ 2 ^ F.emin ≤ |a'.value * b'.value|) : (a.mul b).Scaled (j + k) (a'.mul b') := by
  match a, a', ha, b, b', hb with
  | zero s, zero t, h, zero s', zero t', h' =>
    obtain rfl : s = t := h
    obtain rfl : s' = t' := h'
    exact rfl
  | zero s, zero t, h, fin x _ _, fin y _ _, h' =>
    obtain rfl : s = t := h
    obtain rfl : y = x * 2 ^ k := h'
    exact congrArg (xor s) neg_scale.symm
  | fin x _ _, fin y _ _, h', zero s, zero t, h =>
    obtain rfl : s = t := h
    obtain rfl : y = x * 2 ^ j := h'
    exact congrArg (fun b => xor b s) neg_scale.symm
  | fin x hx0 hx, fin y _ hy, h, fin z hz0 hz, fin w _ hw, h' =>
    obtain rfl : y = x * 2 ^ j := h
    obtain rfl : w = z * 2 ^ k := h'
    have e : x * 2 ^ j * (z * 2 ^ k) = x * z * 2 ^ (j + k) := by rw [zpow_add₀ (by norm_num)]; ring
    have h1 := hn.resolve_left (mul_ne_zero hx0 hz0)
    have h2 := hn'.resolve_left (by
      show x * 2 ^ j * (z * 2 ^ k) ≠ 0
      rw [e]; exact mul_ne_zero (mul_ne_zero hx0 hz0) (by positivity))
    change 2 ^ F.emin ≤ |x * 2 ^ j * (z * 2 ^ k)| at h2
    change (round (x * 2 ^ j * (z * 2 ^ k)) : Ieee F).Finite at hf'
    show (round (x * z) : Ieee F).Scaled _ (round (x * 2 ^ j * (z * 2 ^ k)))
    rw [e] at h2 hf' ⊢
    exact round_scaled (F.roundQ_scale h1 h2) hf hf'

theorem scaled_div {j k : ℤ} {a a' b b' : Ieee F} (ha : a.Scaled j a') (hb : b.Scaled k b') (hf : (a.div b).Finite)
    (hf' : (a'.div b').Finite) (hn : a.value / b.value = 0 ∨ 2 ^ F.emin ≤ |a.value / b.value|)
    (hn' : a'.value / b'.value = 0 ∨ 2 ^ F.emin ≤ |a'.value / b'.value|) : (a.div b).Scaled (j - k) (a'.div b') := by
  match a, a', ha, b, b', hb with
  | zero s, zero t, h, zero s', zero t', h' => exact hf.elim
  | zero s, zero t, h, fin x _ _, fin y _ _, h' =>
    obtain rfl : s = t := h
    obtain rfl : y = x * 2 ^ k := h'
    exact congrArg (xor s) neg_scale.symm
  | fin x _ _, fin y _ _, h', zero s, zero t, h => exact hf.elim
  | fin x hx0 hx, fin y _ hy, h, fin z hz0 hz, fin w _ hw, h' =>
    obtain rfl : y = x * 2 ^ j := h
    obtain rfl : w = z * 2 ^ k := h'
    have e : x * 2 ^ j / (z * 2 ^ k) = x / z * 2 ^ (j - k) := by rw [zpow_sub₀ (by norm_num)]; field_simp
    have h1 := hn.resolve_left (div_ne_zero hx0 hz0)
    have h2 := hn'.resolve_left (by
      show x * 2 ^ j / (z * 2 ^ k) ≠ 0
      rw [e]; exact mul_ne_zero (div_ne_zero hx0 hz0) (by positivity))
    change 2 ^ F.emin ≤ |x * 2 ^ j / (z * 2 ^ k)| at h2
    change (round (x * 2 ^ j / (z * 2 ^ k)) : Ieee F).Finite at hf'
    show (round (x / z) : Ieee F).Scaled _ (round (x * 2 ^ j / (z * 2 ^ k)))
    rw [e] at h2 hf' ⊢
    exact round_scaled (F.roundQ_scale h1 h2) hf hf'

theorem scaled_sqrt {k : ℤ} {a a' : Ieee F} (ha : a.Scaled (2 * k) a') (hf : a.sqrt.Finite) : a.sqrt.Scaled k a'.sqrt := by
  match a, a', ha with
  | zero s, zero t, h => exact h
  | fin x hx0 hx, fin y _ hy, h =>
    obtain rfl : y = x * 2 ^ (2 * k) := h
    have hk : (0 : ℚ) < 2 ^ (2 * k) := by positivity
    unfold sqrt at hf ⊢
    simp only at hf ⊢
    by_cases h0 : 0 < x
    · rw [dif_pos h0, dif_pos (mul_pos h0 hk)]
      exact F.roundSqrt_scale h0 k
    · rw [dif_neg h0] at hf
      exact hf.elim

theorem scaled_key {k : ℤ} {a a' : Ieee F} (h : a.Scaled k a') : a.key = some (0, a.value) ∧ a'.key = some (0, a.value * 2 ^ k) := by
  match a, a', h with
  | zero s, zero t, h => exact ⟨rfl, by rw [show (zero s : Ieee F).value = 0 from rfl, zero_mul]; rfl⟩
  | fin x _ _, fin y _ _, h => exact ⟨rfl, congrArg (fun q : ℚ => some ((0 : ℤ), q)) h⟩

theorem scaled_flt {k : ℤ} {a a' b b' : Ieee F} (ha : a.Scaled k a') (hb : b.Scaled k b') : a.flt b = a'.flt b' := by
  have hk : (0 : ℚ) < 2 ^ k := by positivity
  unfold flt
  rw [(scaled_key ha).1, (scaled_key ha).2, (scaled_key hb).1, (scaled_key hb).2]
  simp only [lt_irrefl, false_or, true_and]
  exact decide_eq_decide.2 (mul_lt_mul_iff_left₀ hk).symm

theorem scaled_fle {k : ℤ} {a a' b b' : Ieee F} (ha : a.Scaled k a') (hb : b.Scaled k b') : a.fle b = a'.fle b' := by
  have hk : (0 : ℚ) < 2 ^ k := by positivity
  unfold fle
  rw [(scaled_key ha).1, (scaled_key ha).2, (scaled_key hb).1, (scaled_key hb).2]
  simp only [lt_irrefl, false_or, true_and]
  exact decide_eq_decide.2 (mul_le_mul_iff_left₀ hk).symm

theorem scaled_all {a a' : Ieee F} (h : ∀ j, a.Scaled j a') : ∃ s, a = zero s ∧ a' = zero s := by
  match a, a', h with
  | zero s, zero t, h => exact ⟨s, rfl, congrArg zero (h 0).symm⟩
  | fin x hx _, fin y _ _, h =>
    have h0 : y = x * 2 ^ (0 : ℤ) := h 0
    have h1 : y = x * 2 ^ (1 : ℤ) := h 1
    rw [h0] at h1
    have : x = 0 := by norm_num at h1; linarith
    exact absurd this hx
  | nan, _, h => exact (h 0).elim
  | inf _, _, h => exact (h 0).elim
  | zero _, nan, h => exact (h 0).elim
  | zero _, inf _, h => exact (h 0).elim
  | zero _, fin _ _ _, h => exact (h 0).elim
  | fin _ _ _, nan, h => exact (h 0).elim
  | fin _ _ _, inf _, h => exact (h 0).elim
  | fin _ _ _, zero _, h => exact (h 0).elim

end Ieee

namespace Trap

theorem mul_normal {a b c : Trap F true} (h : a.mul b = .ok c) :
    a.val.value * b.val.value = 0 ∨ 2 ^ F.emin ≤ |a.val.value * b.val.value| := by
  unfold mul ret at h
  split at h
  · next h1 =>
    by_contra h2
    rw [not_or, not_le] at h2
    exact h1.2 ⟨rfl, h2⟩
  · cases h

theorem div_normal {a b c : Trap F true} (h : a.div b = .ok c) :
    a.val.value / b.val.value = 0 ∨ 2 ^ F.emin ≤ |a.val.value / b.val.value| := by
  unfold div ret at h
  split at h
  · next h1 =>
    by_contra h2
    rw [not_or, not_le] at h2
    exact h1.2 ⟨rfl, h2⟩
  · cases h

theorem mul_val {a b c : Trap F true} (h : a.mul b = .ok c) : c.val = a.val.mul b.val := (ret_ok h).2.1
theorem div_val {a b c : Trap F true} (h : a.div b = .ok c) : c.val = a.val.div b.val := (ret_ok h).2.1
theorem add_val {a b c : Trap F true} (h : a.add b = .ok c) : c.val = a.val.add b.val := (retF_ok h).2
theorem sub_val {a b c : Trap F true} (h : a.sub b = .ok c) : c.val = a.val.sub b.val := (retF_ok h).2
theorem neg_val {a c : Trap F true} (h : a.neg = .ok c) : c.val = a.val.neg := (retF_ok h).2
theorem sqrt_val {a c : Trap F true} (h : a.sqrt = .ok c) : c.val = a.val.sqrt := (retF_ok h).2

variable {j k : ℤ} {a a' b b' c c' : Trap F true}

theorem scaled_add (ha : a.val.Scaled k a'.val) (hb : b.val.Scaled k b'.val) (h : a.add b = .ok c) (h' : a'.add b' = .ok c') :
    c.val.Scaled k c'.val := by
  have f := c.finite
  have f' := c'.finite
  rw [add_val h] at f ⊢
  rw [add_val h'] at f' ⊢
  exact Ieee.scaled_add ha hb f f'

theorem scaled_sub (ha : a.val.Scaled k a'.val) (hb : b.val.Scaled k b'.val) (h : a.sub b = .ok c) (h' : a'.sub b' = .ok c') :
    c.val.Scaled k c'.val := by
  have f := c.finite
  have f' := c'.finite
  rw [sub_val h] at f ⊢
  rw [sub_val h'] at f' ⊢
  exact Ieee.scaled_sub ha hb f f'

theorem scaled_mul (ha : a.val.Scaled j a'.val) (hb : b.val.Scaled k b'.val) (h : a.mul b = .ok c) (h' : a'.mul b' = .ok c') :
    c.val.Scaled (j + k) c'.val := by
  have f := c.finite
  have f' := c'.finite
  rw [mul_val h] at f ⊢
  rw [mul_val h'] at f' ⊢
  exact Ieee.scaled_mul ha hb f f' (mul_normal h) (mul_normal h')

theorem scaled_div (ha : a.val.Scaled j a'.val) (hb : b.val.Scaled k b'.val) (h : a.div b = .ok c) (h' : a'.div b' = .ok c') :
    c.val.Scaled (j - k) c'.val := by
  have f := c.finite
  have f' := c'.finite
  rw [div_val h] at f ⊢
  rw [div_val h'] at f' ⊢
  exact Ieee.scaled_div ha hb f f' (div_normal h) (div_normal h')

theorem scaled_neg (ha : a.val.Scaled k a'.val) (h : a.neg = .ok c) (h' : a'.neg = .ok c') : c.val.Scaled k c'.val := by
  rw [neg_val h, neg_val h']
  exact Ieee.scaled_neg ha

theorem scaled_sqrt (ha : a.val.Scaled (2 * k) a'.val) (h : a.sqrt = .ok c) (h' : a'.sqrt = .ok c') : c.val.Scaled k c'.val := by
  have f := c.finite
  rw [sqrt_val h] at f ⊢
  rw [sqrt_val h']
  exact Ieee.scaled_sqrt ha f

end Trap

end Magnesia
