import Verif.Spec.Ieee
import Verif.Spec.Rounding

/-!
# Rounding of IEEE arithmetic (helper lemmas)
-/

namespace Magnesia

variable {F : Fmt}

theorem Fmt.u_pos (F : Fmt) : 0 < F.u := zpow_pos (by norm_num) _
theorem Fmt.η_pos (F : Fmt) : 0 < F.η := zpow_pos (by norm_num) _

theorem Fmt.u_le_one (F : Fmt) : F.u ≤ 1 := by
  unfold Fmt.u
  rw [zpow_neg, zpow_natCast]
  exact inv_le_one_of_one_le₀ (one_le_pow₀ (by norm_num))

namespace Fmt

theorem roundQ_err (F : Fmt) (x : ℚ) : |F.roundQ x - x| ≤ F.ulp x / 2 := by
  have h := rne_err (x / F.ulp x)
  have hp := F.ulp_pos x
  have e : F.roundQ x - x = (rne (x / F.ulp x) - x / F.ulp x) * F.ulp x := by
    unfold roundQ; rw [sub_mul, div_mul_cancel₀ _ hp.ne']
  rw [e, abs_mul, abs_of_pos hp]
  nlinarith

theorem roundQ_zero (F : Fmt) : F.roundQ 0 = 0 := by
  unfold roundQ
  rw [zero_div]
  have := rne_intCast 0
  rw [Int.cast_zero] at this
  rw [this]; simp

/-- Normal range: relative error `u`. -/
theorem roundQ_err_normal (F : Fmt) {x : ℚ} (h : 2 ^ F.emin ≤ |x|) : |F.roundQ x - x| ≤ F.u * |x| := by
  have hx : 0 < |x| := lt_of_lt_of_le (by positivity) h
  refine (F.roundQ_err x).trans ?_
  have h1 : F.emin ≤ Int.log 2 |x| := (Int.zpow_le_iff_le_log (b := 2) (by norm_num) hx).1 (by exact_mod_cast h)
  have h2 : (2 : ℚ) ^ Int.log 2 |x| ≤ |x| := Int.zpow_log_le_self (b := 2) (by norm_num) hx
  have h3 : F.ulp x / 2 = F.u * 2 ^ Int.log 2 |x| := by
    unfold ulp ulpExp Fmt.u
    rw [max_eq_left h1, ← zpow_add₀ (by norm_num), div_eq_mul_inv, ← zpow_neg_one, ← zpow_add₀ (by norm_num)]
    congr 1; ring
  rw [h3]
  exact mul_le_mul_of_nonneg_left h2 F.u_pos.le

theorem max_log_of_tiny (F : Fmt) {x : ℚ} (h0 : x ≠ 0) (h : |x| < 2 ^ F.emin) :
    max (Int.log 2 |x|) F.emin = F.emin := by
  refine max_eq_right ?_
  have := (Int.lt_zpow_iff_log_lt (b := 2) (by norm_num) (abs_pos.2 h0)).1
    (show |x| < ((2 : ℕ) : ℚ) ^ F.emin by exact_mod_cast h)
  omega

/-- Below the normal range: absolute error `η`. -/
theorem roundQ_err_tiny (F : Fmt) {x : ℚ} (h : |x| < 2 ^ F.emin) : |F.roundQ x - x| ≤ F.η := by
  by_cases h0 : x = 0
  · subst h0; rw [F.roundQ_zero]; simpa using F.η_pos.le
  refine (F.roundQ_err x).trans (le_of_eq ?_)
  unfold ulp ulpExp Fmt.η
  rw [F.max_log_of_tiny h0 h, div_eq_mul_inv, ← zpow_neg_one, ← zpow_add₀ (by norm_num)]
  congr 1; ring

theorem roundQ_err_any (F : Fmt) (x : ℚ) : |F.roundQ x - x| ≤ F.u * |x| + F.η := by
  rcases lt_or_ge |x| (2 ^ F.emin) with h | h
  · have := F.roundQ_err_tiny h
    have := mul_nonneg F.u_pos.le (abs_nonneg x)
    linarith
  · have := F.roundQ_err_normal h
    have := F.η_pos
    linarith

/-- A multiple of the unit in the last place is not changed. -/
theorem roundQ_exact (F : Fmt) {x : ℚ} {m e : ℤ} (hx : x = m * 2 ^ e) (he : F.ulpExp x ≤ e) : F.roundQ x = x := by
  obtain ⟨k, hk⟩ : ∃ k : ℕ, e = F.ulpExp x + k := ⟨(e - F.ulpExp x).toNat, by omega⟩
  have h1 : x / F.ulp x = ((m * 2 ^ k : ℤ) : ℚ) := by
    rw [div_eq_iff (F.ulp_pos x).ne', ulp]
    calc x = m * 2 ^ (F.ulpExp x + (k : ℤ)) := by rw [← hk]; exact hx
      _ = _ := by rw [zpow_add₀ (by norm_num), zpow_natCast]; push_cast; ring
  unfold roundQ
  rw [h1, rne_intCast, ← h1, div_mul_cancel₀ _ (F.ulp_pos x).ne']

theorem roundQ_representable (F : Fmt) {x : ℚ} (h : F.Representable x) : F.roundQ x = x := by
  by_cases h0 : x = 0
  · subst h0; exact F.roundQ_zero
  obtain ⟨⟨m, e, hx, hm, he⟩, _⟩ := h
  refine F.roundQ_exact hx ?_
  unfold ulpExp
  have h1 : |x| < ((2 : ℕ) : ℚ) ^ (e + F.p) := by
    rw [hx, abs_mul, abs_of_pos (by positivity : (0 : ℚ) < 2 ^ e), add_comm, Nat.cast_ofNat, zpow_add₀ (by norm_num), zpow_natCast]
    exact mul_lt_mul_of_pos_right (by exact_mod_cast hm) (by positivity)
  have h2 := (Int.lt_zpow_iff_log_lt (b := 2) (by norm_num) (abs_pos.2 h0)).1 h1
  rcases max_choice (Int.log 2 |x|) F.emin with h3 | h3 <;> rw [h3] <;> omega

/-- Sums are exact below the normal range. -/
theorem roundQ_add_tiny (F : Fmt) {x y : ℚ} (hx : F.Representable x) (hy : F.Representable y)
    (h : |x + y| < 2 ^ F.emin) : F.roundQ (x + y) = x + y := by
  by_cases h0 : x + y = 0
  · rw [h0]; exact F.roundQ_zero
  obtain ⟨⟨m, e, rfl, _, he⟩, _⟩ := hx
  obtain ⟨⟨n, f, rfl, _, hf⟩, _⟩ := hy
  obtain ⟨j, hj⟩ : ∃ j : ℕ, e = F.emin - (F.p - 1) + j := ⟨(e - (F.emin - (F.p - 1))).toNat, by omega⟩
  obtain ⟨k, hk⟩ : ∃ k : ℕ, f = F.emin - (F.p - 1) + k := ⟨(f - (F.emin - (F.p - 1))).toNat, by omega⟩
  refine F.roundQ_exact (m := m * 2 ^ j + n * 2 ^ k) (e := F.emin - (F.p - 1)) ?_ ?_
  · rw [hj, hk, zpow_add₀ (by norm_num), zpow_add₀ (by norm_num : (2 : ℚ) ≠ 0) _ (k : ℤ), zpow_natCast, zpow_natCast]
    push_cast; ring
  · unfold ulpExp
    rw [F.max_log_of_tiny h0 h]

theorem roundQ_add_err (F : Fmt) {x y : ℚ} (hx : F.Representable x) (hy : F.Representable y) :
    |F.roundQ (x + y) - (x + y)| ≤ F.u * |x + y| := by
  rcases lt_or_ge |x + y| (2 ^ F.emin) with h | h
  · rw [F.roundQ_add_tiny hx hy h, sub_self, abs_zero]
    exact mul_nonneg F.u_pos.le (abs_nonneg _)
  · exact F.roundQ_err_normal h

end Fmt

theorem rneSqrt_bounds (q : ℚ) (hq : 0 ≤ q) (hm : 1 ≤ rneSqrt q) :
    ((rneSqrt q : ℚ) - 1 / 2) ^ 2 ≤ q ∧ q ≤ ((rneSqrt q : ℚ) + 1 / 2) ^ 2 := by
  obtain ⟨h1, h2⟩ := rneSqrt_floor q hq
  revert hm
  unfold rneSqrt
  generalize Nat.sqrt ⌊q⌋.toNat = f at *
  have hf : (0 : ℚ) ≤ f := Nat.cast_nonneg f
  simp only [Int.cast_natCast]
  split_ifs with h3 h4 h5 <;> intro hm <;> push_cast
  · have : (1 : ℚ) ≤ f := by exact_mod_cast hm
    exact ⟨by nlinarith, h3.le⟩
  · exact ⟨by nlinarith, by nlinarith⟩
  · have : (1 : ℚ) ≤ f := by exact_mod_cast hm
    exact ⟨by nlinarith, not_lt.1 h4⟩
  · exact ⟨by nlinarith, by nlinarith⟩

theorem Fmt.roundSqrt_err (F : Fmt) {x : ℚ} (hx : 0 < x) :
    0 ≤ F.roundSqrt x ∧ (1 - F.u) ^ 2 * x ≤ F.roundSqrt x ^ 2 ∧ F.roundSqrt x ^ 2 ≤ (1 + F.u) ^ 2 * x := by
  obtain ⟨y, hy⟩ : ∃ y, y = x / (2 ^ F.sqrtUlpExp x) ^ 2 := ⟨_, rfl⟩
  have hs : (0 : ℚ) < 2 ^ F.sqrtUlpExp x := by positivity
  have hxy : x = y * (2 ^ F.sqrtUlpExp x) ^ 2 := by rw [hy, div_mul_cancel₀ _ (by positivity)]
  obtain ⟨P, hP⟩ : ∃ P : ℚ, P = 2 ^ ((F.p : ℤ) - 1) := ⟨_, rfl⟩
  have hP0 : 0 < P := by rw [hP]; positivity
  have huP : F.u * P = 1 / 2 := by
    rw [hP, Fmt.u, ← zpow_add₀ (by norm_num), show -(F.p : ℤ) + (F.p - 1) = -1 by ring]; norm_num
  have hyP : P ^ 2 ≤ y := by
    have h1 : (2 : ℚ) ^ Int.log 2 x ≤ x := Int.zpow_log_le_self (b := 2) (by norm_num) hx
    rw [hy, le_div_iff₀ (by positivity), hP, ← mul_pow, ← zpow_add₀ (by norm_num), ← zpow_natCast, ← zpow_mul]
    refine le_trans (zpow_le_zpow_right₀ (by norm_num) ?_) h1
    unfold Fmt.sqrtUlpExp; push_cast; omega
  have hy0 : 0 ≤ y := le_trans (by positivity) hyP
  have hm0 := F.roundSqrt_ne_zero hx
  unfold Fmt.roundSqrt at *
  rw [← hy] at *
  have hm : 1 ≤ rneSqrt y := by
    have h1 := rneSqrt_nonneg y
    have h2 : rneSqrt y ≠ 0 := by intro h; rw [h] at hm0; simp at hm0
    omega
  obtain ⟨h1, h2⟩ := rneSqrt_bounds y hy0 hm
  have hmq : (1 : ℚ) ≤ rneSqrt y := by exact_mod_cast hm
  have hPi : ∃ k : ℤ, P = k := ⟨2 ^ (F.p - 1), by
    have := F.two_le_p
    rw [hP, show (F.p : ℤ) - 1 = ((F.p - 1 : ℕ) : ℤ) by omega, zpow_natCast]; push_cast; rfl⟩
  obtain ⟨k, hk⟩ := hPi
  have hu := F.u_pos
  have hu1 := F.u_le_one
  generalize rneSqrt y = m at *
  generalize (2 : ℚ) ^ F.sqrtUlpExp x = s at *
  have key1 : (1 - F.u) ^ 2 * y ≤ (m : ℚ) ^ 2 := by
    have h3 : P ≤ m + 1 / 2 := by
      by_contra h; push Not at h
      nlinarith
    have h4 : (1 - F.u) * ((m : ℚ) + 1 / 2) ≤ m := by nlinarith
    have h5 : 0 ≤ (1 - F.u) * ((m : ℚ) + 1 / 2) := mul_nonneg (by linarith) (by linarith)
    have h6 := mul_le_mul_of_nonneg_left h2 (sq_nonneg (1 - F.u))
    calc _ ≤ _ := h6
      _ = ((1 - F.u) * ((m : ℚ) + 1 / 2)) ^ 2 := by ring
      _ ≤ _ := pow_le_pow_left₀ h5 h4 2
  have key2 : (m : ℚ) ^ 2 ≤ (1 + F.u) ^ 2 * y := by
    rcases le_or_gt P (m - 1 / 2) with h3 | h3
    · have h4 : (m : ℚ) ≤ (1 + F.u) * (m - 1 / 2) := by nlinarith
      have h6 := mul_le_mul_of_nonneg_left h1 (sq_nonneg (1 + F.u))
      calc _ ≤ ((1 + F.u) * ((m : ℚ) - 1 / 2)) ^ 2 := pow_le_pow_left₀ (by linarith) h4 2
        _ = _ := by ring
        _ ≤ _ := h6
    · have h4 : (m : ℚ) ≤ P := by
        rw [hk] at h3 ⊢
        have h5 : (m : ℚ) < k + 1 := by linarith
        have h6 : m < k + 1 := by exact_mod_cast h5
        exact_mod_cast Int.lt_add_one_iff.1 h6
      have h5 : (m : ℚ) ^ 2 ≤ P ^ 2 := pow_le_pow_left₀ (by linarith) h4 2
      nlinarith [mul_nonneg hu.le hy0, mul_nonneg (sq_nonneg F.u) hy0]
  refine ⟨by positivity, ?_, ?_⟩
  · rw [hxy, mul_pow]; nlinarith [sq_nonneg s]
  · rw [hxy, mul_pow]; nlinarith [sq_nonneg s]

namespace Ieee

theorem Fmt.representable_zero (F : Fmt) : F.Representable 0 :=
  ⟨⟨0, F.emin - (F.p - 1), by simp, by rw [abs_zero]; positivity, le_rfl⟩, by rw [abs_zero]; positivity⟩

theorem value_representable : ∀ a : Ieee F, F.Representable a.value
  | nan => Fmt.representable_zero F
  | inf _ => Fmt.representable_zero F
  | zero _ => Fmt.representable_zero F
  | fin _ _ h => h

theorem round_finite {x : ℚ} (h : (round x : Ieee F).Finite) : (round x : Ieee F).value = F.roundQ x := by
  unfold round at *
  split_ifs at h ⊢ with h0 h1
  · exact h0.symm
  · rfl
  · exact h.elim

theorem add_finite {a b : Ieee F} (h : (add a b).Finite) :
    a.Finite ∧ b.Finite ∧ (add a b).value = F.roundQ (a.value + b.value) := by
  cases a <;> cases b <;> simp only [add] at h ⊢ <;> try exact h.elim
  · split_ifs at h <;> exact h.elim
  · exact ⟨trivial, trivial, by simp [value, F.roundQ_zero]⟩
  · rename_i hr
    exact ⟨trivial, trivial, by simp [value, F.roundQ_representable hr]⟩
  · rename_i hr _
    exact ⟨trivial, trivial, by simp [value, F.roundQ_representable hr]⟩
  · refine ⟨trivial, trivial, ?_⟩
    split_ifs at h ⊢ with h0
    · simp [value, h0, F.roundQ_zero]
    · exact round_finite h

theorem neg_finite {a : Ieee F} : (neg a).Finite ↔ a.Finite := by cases a <;> simp [neg, Finite]
theorem neg_value (a : Ieee F) : (neg a).value = -a.value := by cases a <;> simp [neg, value]
theorem abs_finite {a : Ieee F} : (abs a).Finite ↔ a.Finite := by cases a <;> simp [abs, Finite]
theorem abs_value (a : Ieee F) : (abs a).value = |a.value| := by cases a <;> simp [abs, value]

theorem sub_finite {a b : Ieee F} (h : (sub a b).Finite) :
    a.Finite ∧ b.Finite ∧ (sub a b).value = F.roundQ (a.value - b.value) := by
  obtain ⟨h1, h2, h3⟩ := add_finite h
  exact ⟨h1, neg_finite.1 h2, by rw [sub_eq_add_neg, ← neg_value]; exact h3⟩

theorem mul_finite {a b : Ieee F} (h : (mul a b).Finite) :
    a.Finite ∧ b.Finite ∧ (mul a b).value = F.roundQ (a.value * b.value) := by
  cases a <;> cases b <;> simp only [mul] at h ⊢ <;> try exact h.elim
  · exact ⟨trivial, trivial, by simp [value, F.roundQ_zero]⟩
  · exact ⟨trivial, trivial, by simp [value, F.roundQ_zero]⟩
  · exact ⟨trivial, trivial, by simp [value, F.roundQ_zero]⟩
  · exact ⟨trivial, trivial, round_finite h⟩

theorem div_finite {a b : Ieee F} (ha : a.Finite) (hb : b.Finite) (h : (div a b).Finite) :
    b.value ≠ 0 ∧ (div a b).value = F.roundQ (a.value / b.value) := by
  cases a <;> cases b <;> simp only [div] at h ⊢ <;> first | exact ha.elim | exact hb.elim | exact h.elim | skip
  · rename_i h0 _
    exact ⟨h0, by simp [value, F.roundQ_zero]⟩
  · rename_i h0 _
    exact ⟨h0, round_finite h⟩

theorem sqrt_finite {a : Ieee F} (ha : a.Finite) (h : (sqrt a).Finite) :
    a.value = 0 ∧ (sqrt a).value = 0 ∨ 0 < a.value ∧ (sqrt a).value = F.roundSqrt a.value := by
  cases a with
  | nan => exact ha.elim
  | inf => exact ha.elim
  | zero => exact .inl ⟨rfl, rfl⟩
  | fin x h0 hr =>
    simp only [sqrt] at h ⊢
    split_ifs at h ⊢ with h1
    · exact .inr ⟨h1, rfl⟩
    · exact h.elim

end Ieee

namespace Trap

variable {ud : Bool}

theorem retF_ok {r : Ieee F} {c : Trap F ud} (h : retF r = .ok c) : r.Finite ∧ c.val = r := by
  unfold retF at h
  split_ifs at h with h1
  cases h; exact ⟨h1, rfl⟩

theorem ret_ok {x : ℚ} {r : Ieee F} {c : Trap F ud} (h : ret x r = .ok c) :
    r.Finite ∧ c.val = r ∧ ¬ (ud = true ∧ x ≠ 0 ∧ |x| < 2 ^ F.emin) := by
  unfold ret at h
  split_ifs at h with h1
  cases h; exact ⟨h1.1, rfl, h1.2⟩

theorem add_ok {a b c : Trap F ud} (h : add a b = .ok c) :
    c.val = a.val.add b.val ∧ c.value = F.roundQ (a.value + b.value) := by
  obtain ⟨h1, h2⟩ := retF_ok h
  exact ⟨h2, by rw [value, h2]; exact (Ieee.add_finite h1).2.2⟩

theorem sub_ok {a b c : Trap F ud} (h : sub a b = .ok c) :
    c.val = a.val.sub b.val ∧ c.value = F.roundQ (a.value - b.value) := by
  obtain ⟨h1, h2⟩ := retF_ok h
  exact ⟨h2, by rw [value, h2]; exact (Ieee.sub_finite h1).2.2⟩

theorem add_err {a b c : Trap F ud} (h : add a b = .ok c) :
    |c.value - (a.value + b.value)| ≤ F.u * |a.value + b.value| := by
  rw [(add_ok h).2]
  exact F.roundQ_add_err (Ieee.value_representable _) (Ieee.value_representable _)

theorem sub_err {a b c : Trap F ud} (h : sub a b = .ok c) :
    |c.value - (a.value - b.value)| ≤ F.u * |a.value - b.value| := by
  rw [(sub_ok h).2, sub_eq_add_neg a.value]
  exact F.roundQ_add_err (Ieee.value_representable _) (F.representable_neg (Ieee.value_representable _))

/-- The absolute error of a product or quotient: none if underflow traps. -/
def eta (F : Fmt) (ud : Bool) : ℚ := if ud then 0 else F.η

theorem eta_nonneg (F : Fmt) (ud : Bool) : 0 ≤ eta F ud := by
  unfold eta; split
  · exact le_rfl
  · exact F.η_pos.le

theorem round_err {x : ℚ} (h : ¬ (ud = true ∧ x ≠ 0 ∧ |x| < 2 ^ F.emin)) :
    |F.roundQ x - x| ≤ F.u * |x| + eta F ud := by
  cases ud with
  | false => exact F.roundQ_err_any x
  | true =>
    simp only [eta, if_true, add_zero]
    by_cases h0 : x = 0
    · subst h0; simp [F.roundQ_zero]
    · refine F.roundQ_err_normal ?_
      by_contra h1
      exact h ⟨rfl, h0, not_le.1 h1⟩

theorem mul_ok {a b c : Trap F ud} (h : mul a b = .ok c) :
    c.val = a.val.mul b.val ∧ |c.value - a.value * b.value| ≤ F.u * |a.value * b.value| + eta F ud := by
  obtain ⟨h1, h2, h3⟩ := ret_ok h
  refine ⟨h2, ?_⟩
  rw [show c.value = F.roundQ (a.value * b.value) by rw [value, h2]; exact (Ieee.mul_finite h1).2.2]
  exact round_err h3

theorem div_ok {a b c : Trap F ud} (h : div a b = .ok c) :
    c.val = a.val.div b.val ∧ b.value ≠ 0 ∧ |c.value - a.value / b.value| ≤ F.u * |a.value / b.value| + eta F ud := by
  obtain ⟨h1, h2, h3⟩ := ret_ok h
  obtain ⟨h4, h5⟩ := Ieee.div_finite a.finite b.finite h1
  refine ⟨h2, h4, ?_⟩
  rw [show c.value = F.roundQ (a.value / b.value) by rw [value, h2]; exact h5]
  exact round_err h3

theorem sqrt_ok {a c : Trap F ud} (h : sqrt a = .ok c) :
    c.val = a.val.sqrt ∧ 0 ≤ c.value ∧ (1 - F.u) ^ 2 * a.value ≤ c.value ^ 2 ∧ c.value ^ 2 ≤ (1 + F.u) ^ 2 * a.value := by
  obtain ⟨h1, h2⟩ := retF_ok h
  refine ⟨h2, ?_⟩
  rw [show c.value = a.val.sqrt.value by rw [value, h2]]
  rcases Ieee.sqrt_finite a.finite h1 with ⟨h3, h4⟩ | ⟨h3, h4⟩
  · rw [h4, value, h3]; simp
  · rw [h4]; exact F.roundSqrt_err h3

end Trap

end Magnesia
