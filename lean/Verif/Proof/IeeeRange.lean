import Verif.Proof.IeeeRun

/-!
# Ranges of IEEE numbers in which no exception occurs (helper lemmas)
-/

namespace Magnesia

variable {F : Fmt}

theorem le_rne {n : ℤ} {q : ℚ} (h : (n : ℚ) ≤ q) : n ≤ rne q := by
  have h1 : n ≤ ⌊q⌋ := Int.le_floor.2 h
  unfold rne
  split_ifs <;> omega

theorem rne_le {n : ℤ} {q : ℚ} (h : q ≤ n) : rne q ≤ n := by
  rcases h.lt_or_eq with h | rfl
  · have h1 : ⌊q⌋ < n := Int.floor_lt.2 h
    unfold rne
    split_ifs <;> omega
  · rw [rne_intCast]

namespace Fmt

theorem emin_le_emax (F : Fmt) : F.emin ≤ F.emax := by
  have := F.two_le_p; have := F.p_le_emax; unfold emin; omega

theorem zpow_log_le {x : ℚ} (h0 : x ≠ 0) : (2 : ℚ) ^ Int.log 2 |x| ≤ |x| := by
  exact_mod_cast Int.zpow_log_le_self (b := 2) (by norm_num) (abs_pos.2 h0)

theorem lt_zpow_log (x : ℚ) : |x| < (2 : ℚ) ^ (Int.log 2 |x| + 1) := by
  exact_mod_cast Int.lt_zpow_succ_log_self (b := 2) (by norm_num) |x|

theorem le_log {x : ℚ} {e : ℤ} (h : (2 : ℚ) ^ e ≤ |x|) : e ≤ Int.log 2 |x| := by
  have h0 : 0 < |x| := (zpow_pos (by norm_num) e).trans_le h
  rw [← Int.zpow_le_iff_le_log (b := 2) (by norm_num) h0]
  exact_mod_cast h

/-- Rounding does not cross a power of two (from above). -/
theorem le_abs_roundQ (F : Fmt) {x : ℚ} {e : ℤ} (he : F.emin ≤ e) (h : 2 ^ e ≤ |x|) : 2 ^ e ≤ |F.roundQ x| := by
  have hx0 : x ≠ 0 := by
    rintro rfl
    rw [abs_zero] at h
    exact absurd h (not_le.2 (zpow_pos (by norm_num) e))
  have hl := le_log h
  have hp := F.two_le_p
  have hu : F.ulp x = 2 ^ (Int.log 2 |x| - (F.p - 1)) := by rw [ulp, ulpExp, max_eq_left (he.trans hl)]
  have hm : (((2 ^ (F.p - 1) : ℕ) : ℤ) : ℚ) * F.ulp x = 2 ^ Int.log 2 |x| := by
    rw [hu]; push_cast
    rw [← zpow_natCast, ← zpow_add₀ (by norm_num)]
    congr 1; omega
  have h1 : (((2 ^ (F.p - 1) : ℕ) : ℤ) : ℚ) * F.ulp x ≤ |x| := hm ▸ zpow_log_le hx0
  have h2 : ((2 ^ (F.p - 1) : ℕ) : ℤ) ≤ |rne (x / F.ulp x)| := by
    rcases abs_choice x with h3 | h3
    · refine (le_rne ?_).trans (le_abs_self _)
      rw [le_div_iff₀ (F.ulp_pos x)]; exact h1.trans h3.le
    · have : rne (x / F.ulp x) ≤ -((2 ^ (F.p - 1) : ℕ) : ℤ) := by
        refine rne_le ?_
        rw [div_le_iff₀ (F.ulp_pos x), Int.cast_neg]
        linarith
      have := neg_le_abs (rne (x / F.ulp x))
      omega
  calc (2 : ℚ) ^ e ≤ 2 ^ Int.log 2 |x| := zpow_le_zpow_right₀ (by norm_num) hl
    _ = (((2 ^ (F.p - 1) : ℕ) : ℤ) : ℚ) * F.ulp x := hm.symm
    _ ≤ ((|rne (x / F.ulp x)| : ℤ) : ℚ) * F.ulp x :=
      mul_le_mul_of_nonneg_right (by exact_mod_cast h2) (F.ulp_pos x).le
    _ = _ := by rw [roundQ, abs_mul, abs_of_pos (F.ulp_pos x), Int.cast_abs]

/-- Rounding does not cross a power of two (from below). -/
theorem abs_roundQ_le (F : Fmt) {x : ℚ} {f : ℤ} (hf : F.emin ≤ f) (h : |x| ≤ 2 ^ f) : |F.roundQ x| ≤ 2 ^ f := by
  have hp := F.two_le_p
  by_cases hx0 : x = 0
  · subst hx0; rw [F.roundQ_zero, abs_zero]; positivity
  have hl : Int.log 2 |x| ≤ f := by
    by_contra h3
    have : (2 : ℚ) ^ (f + 1) ≤ |x| := (zpow_le_zpow_right₀ (by norm_num) (by omega)).trans (zpow_log_le hx0)
    exact absurd (this.trans h) (not_le.2 (zpow_lt_zpow_right₀ (by norm_num) (by omega)))
  have hu : F.ulpExp x ≤ f := by
    have := max_le hl hf
    unfold ulpExp; omega
  obtain ⟨n, hn⟩ : ∃ n : ℕ, f = F.ulpExp x + n := ⟨(f - F.ulpExp x).toNat, by omega⟩
  have hm : (((2 ^ n : ℕ) : ℤ) : ℚ) * F.ulp x = 2 ^ f := by
    rw [hn, ulp, zpow_add₀ (by norm_num), zpow_natCast]; push_cast; ring
  have h1 : |rne (x / F.ulp x)| ≤ ((2 ^ n : ℕ) : ℤ) := by
    have h2 := abs_le.1 (hm ▸ h)
    refine abs_le.2 ⟨le_rne ?_, rne_le ?_⟩
    · rw [le_div_iff₀ (F.ulp_pos x), Int.cast_neg]; linarith
    · rw [div_le_iff₀ (F.ulp_pos x)]; linarith
  rw [roundQ, abs_mul, abs_of_pos (F.ulp_pos x), ← Int.cast_abs, ← hm]
  exact mul_le_mul_of_nonneg_right (by exact_mod_cast h1) (F.ulp_pos x).le

/-- Numbers of magnitude at least `2^lo` are multiples of `2^(lo-(p-1))`. -/
theorem Representable.multiple {x : ℚ} (h : F.Representable x) {lo : ℤ} (hx : 2 ^ lo ≤ |x|) :
    ∃ n : ℤ, x = n * 2 ^ (lo - (F.p - 1)) := by
  obtain ⟨⟨m, e, rfl, hm, _⟩, _⟩ := h
  by_cases he : lo - (F.p - 1) ≤ e
  · obtain ⟨n, hn⟩ : ∃ n : ℕ, e = lo - (F.p - 1) + n := ⟨(e - (lo - (F.p - 1))).toNat, by omega⟩
    refine ⟨m * 2 ^ n, ?_⟩
    rw [hn, zpow_add₀ (by norm_num), zpow_natCast]; push_cast; ring
  · exfalso
    rw [abs_mul, abs_of_pos (zpow_pos (by norm_num) e : (0 : ℚ) < 2 ^ e), ← Int.cast_abs] at hx
    have h1 : ((|m| : ℤ) : ℚ) < 2 ^ F.p := by exact_mod_cast hm
    have h2 : ((|m| : ℤ) : ℚ) * 2 ^ e < 2 ^ ((F.p : ℤ) + e) := by
      rw [zpow_add₀ (by norm_num), zpow_natCast]
      exact mul_lt_mul_of_pos_right h1 (zpow_pos (by norm_num) e)
    have h3 : (2 : ℚ) ^ ((F.p : ℤ) + e) ≤ 2 ^ lo := zpow_le_zpow_right₀ (by norm_num) (by omega)
    linarith

end Fmt

namespace Ieee

/-- Exact results within the range are rounded to a number in the range. -/
theorem round_between {x : ℚ} {lo hi : ℤ} (hlo : F.emin ≤ lo) (hhi : hi ≤ F.emax) (h1 : 2 ^ lo ≤ |x|)
    (h2 : |x| ≤ 2 ^ hi) : (round x : Ieee F).Between lo hi ∧ (round x : Ieee F).value ≠ 0 := by
  have h3 := F.le_abs_roundQ hlo h1
  have h4 : lo ≤ hi := by
    have := h1.trans h2
    rwa [zpow_le_zpow_iff_right₀ (by norm_num)] at this
  have h5 := F.abs_roundQ_le (hlo.trans h4) h2
  have h6 : F.roundQ x ≠ 0 := by
    intro h; rw [h, abs_zero] at h3
    exact absurd h3 (not_le.2 (zpow_pos (by norm_num) lo))
  have h7 : |F.roundQ x| < 2 ^ (F.emax + 1) :=
    h5.trans_lt (zpow_lt_zpow_right₀ (by norm_num) (by omega))
  unfold round
  rw [dif_neg h6, dif_pos h7]
  exact ⟨⟨trivial, .inr ⟨h3, h5⟩⟩, h6⟩

theorem Between.mono {lo hi lo' hi' : ℤ} {a : Ieee F} (h : a.Between lo hi) (h1 : lo' ≤ lo) (h2 : hi ≤ hi') :
    a.Between lo' hi' :=
  ⟨h.1, h.2.imp_right fun h3 => ⟨(zpow_le_zpow_right₀ (by norm_num) h1).trans h3.1,
    h3.2.trans (zpow_le_zpow_right₀ (by norm_num) h2)⟩⟩

theorem mul_zero_value {a b : Ieee F} (ha : a.Finite) (hb : b.Finite) (h : a.value = 0 ∨ b.value = 0) :
    (a.mul b).Finite ∧ (a.mul b).value = 0 := by
  cases a <;> cases b <;> simp only [mul] <;> first | exact ha.elim | exact hb.elim | skip
  · exact ⟨trivial, rfl⟩
  · exact ⟨trivial, rfl⟩
  · exact ⟨trivial, rfl⟩
  · rename_i h1 _ _ h2 _; exact (h.elim h1 h2).elim

theorem div_zero_value {a b : Ieee F} (ha : a.Finite) (hb : b.Finite) (h : a.value = 0) (h' : b.value ≠ 0) :
    (a.div b).Finite ∧ (a.div b).value = 0 := by
  cases a <;> cases b <;> simp only [div] <;> first | exact ha.elim | exact hb.elim | exact (h' rfl).elim | skip
  · exact ⟨trivial, rfl⟩
  · rename_i h1 _ _ h2 _; exact (h1 h).elim

theorem mul_fin {a b : Ieee F} (h : a.value ≠ 0) (h' : b.value ≠ 0) : a.mul b = round (a.value * b.value) := by
  cases a <;> cases b <;> first | exact (h rfl).elim | exact (h' rfl).elim | rfl

theorem div_fin {a b : Ieee F} (h : a.value ≠ 0) (h' : b.value ≠ 0) : a.div b = round (a.value / b.value) := by
  cases a <;> cases b <;> first | exact (h rfl).elim | exact (h' rfl).elim | rfl

/-- The sum of two finite numbers. -/
theorem add_fin {a b : Ieee F} (ha : a.Finite) (hb : b.Finite) (h : a.value + b.value ≠ 0) :
    a.add b = round (a.value + b.value) := by
  have key : ∀ (x : ℚ) (h0 : x ≠ 0) (hr : F.Representable x), (fin x h0 hr : Ieee F) = round x := by
    intro x h0 hr
    unfold round
    have := F.roundQ_representable hr
    rw [dif_neg (by rwa [this]), dif_pos (by rw [this]; exact hr.2)]
    simp only [this]
  cases a <;> cases b <;> first | exact ha.elim | exact hb.elim | skip
  · exact (h (by simp [value])).elim
  · simp only [add, value, zero_add]; exact key _ _ _
  · simp only [add, value, add_zero]; exact key _ _ _
  · simp only [add, value] at h ⊢; rw [if_neg h]

theorem add_zero_value {a b : Ieee F} (ha : a.Finite) (hb : b.Finite) (h : a.value + b.value = 0) :
    (a.add b).Finite ∧ (a.add b).value = 0 := by
  cases a <;> cases b <;> first | exact ha.elim | exact hb.elim | skip
  · exact ⟨trivial, rfl⟩
  · rename_i h0 _; simp only [value, zero_add] at h; exact (h0 h).elim
  · rename_i h0 _ _; simp only [value, add_zero] at h; exact (h0 h).elim
  · simp only [add, value] at h ⊢; rw [if_pos h]; exact ⟨trivial, rfl⟩

end Ieee

namespace Trap

variable {lo hi lo1 hi1 lo2 hi2 : ℤ}

open Ieee (Between)

/-- A product in range. -/
theorem mul_between {a b : Trap F true} (ha : a.val.Between lo1 hi1) (hb : b.val.Between lo2 hi2)
    (h1 : F.emin ≤ lo1 + lo2) (h2 : hi1 + hi2 ≤ F.emax) :
    ∃ c : Trap F true, mul a b = .ok c ∧ c.val.Between (lo1 + lo2) (hi1 + hi2) ∧
      (a.value ≠ 0 → b.value ≠ 0 → c.value ≠ 0) := by
  by_cases h : a.val.value = 0 ∨ b.val.value = 0
  · obtain ⟨h3, h4⟩ := Ieee.mul_zero_value a.finite b.finite h
    refine ⟨⟨_, h3⟩, dif_pos ⟨h3, ?_⟩, ⟨h3, .inl h4⟩, fun h5 h6 => (h.elim h5 h6).elim⟩
    rintro ⟨_, h5, _⟩
    exact h5 (mul_eq_zero.2 h)
  · obtain ⟨ha0, hb0⟩ := not_or.1 h
    obtain ⟨ha1, ha2⟩ := ha.2.resolve_left ha0
    obtain ⟨hb1, hb2⟩ := hb.2.resolve_left hb0
    have h3 : (2 : ℚ) ^ (lo1 + lo2) ≤ |a.val.value * b.val.value| := by
      rw [abs_mul, zpow_add₀ (by norm_num)]
      exact mul_le_mul ha1 hb1 (by positivity) (abs_nonneg _)
    have h4 : |a.val.value * b.val.value| ≤ (2 : ℚ) ^ (hi1 + hi2) := by
      rw [abs_mul, zpow_add₀ (by norm_num)]
      exact mul_le_mul ha2 hb2 (abs_nonneg _) (by positivity)
    obtain ⟨h5, h6⟩ := Ieee.round_between (F := F) h1 h2 h3 h4
    rw [← Ieee.mul_fin ha0 hb0] at h5 h6
    refine ⟨⟨_, h5.1⟩, dif_pos ⟨h5.1, ?_⟩, h5, fun _ _ => h6⟩
    rintro ⟨_, _, h7⟩
    exact absurd (h3.trans_lt h7) (not_lt.2 (zpow_le_zpow_right₀ (by norm_num) h1))

/-- A quotient in range. -/
theorem div_between {a b : Trap F true} (ha : a.val.Between lo1 hi1) (hb : b.val.Between lo2 hi2) (hb0 : b.val.value ≠ 0)
    (h1 : F.emin ≤ lo1 - hi2) (h2 : hi1 - lo2 ≤ F.emax) :
    ∃ c : Trap F true, div a b = .ok c ∧ c.val.Between (lo1 - hi2) (hi1 - lo2) ∧ (a.value ≠ 0 → c.value ≠ 0) := by
  by_cases ha0 : a.val.value = 0
  · obtain ⟨h3, h4⟩ := Ieee.div_zero_value a.finite b.finite ha0 hb0
    refine ⟨⟨_, h3⟩, dif_pos ⟨h3, ?_⟩, ⟨h3, .inl h4⟩, fun h5 => (h5 ha0).elim⟩
    rintro ⟨_, h5, _⟩
    exact h5 (by rw [ha0, zero_div])
  · obtain ⟨ha1, ha2⟩ := ha.2.resolve_left ha0
    obtain ⟨hb1, hb2⟩ := hb.2.resolve_left hb0
    have hp : 0 < |b.val.value| := abs_pos.2 hb0
    have h3 : (2 : ℚ) ^ (lo1 - hi2) ≤ |a.val.value / b.val.value| := by
      rw [abs_div, zpow_sub₀ (by norm_num)]
      exact div_le_div₀ (abs_nonneg _) ha1 hp hb2
    have h4 : |a.val.value / b.val.value| ≤ (2 : ℚ) ^ (hi1 - lo2) := by
      rw [abs_div, zpow_sub₀ (by norm_num)]
      exact div_le_div₀ (by positivity) ha2 (by positivity) hb1
    obtain ⟨h5, h6⟩ := Ieee.round_between (F := F) h1 h2 h3 h4
    rw [← Ieee.div_fin ha0 hb0] at h5 h6
    refine ⟨⟨_, h5.1⟩, dif_pos ⟨h5.1, ?_⟩, h5, fun _ => h6⟩
    rintro ⟨_, _, h7⟩
    exact absurd (h3.trans_lt h7) (not_lt.2 (zpow_le_zpow_right₀ (by norm_num) h1))

theorem abs_le_of_between {a : Ieee F} (ha : a.Between lo hi) : |a.value| ≤ 2 ^ hi := by
  rcases ha.2 with h | h
  · rw [h, abs_zero]; positivity
  · exact h.2

theorem between_multiple {a : Ieee F} (ha : a.Between lo hi) : ∃ n : ℤ, a.value = n * 2 ^ (lo - (F.p - 1)) := by
  rcases ha.2 with h | h
  · exact ⟨0, by rw [h]; simp⟩
  · exact (Ieee.value_representable a).multiple h.1

/-- A sum in range. -/
theorem ieee_add_between {a b : Ieee F} (ha : a.Between lo hi) (hb : b.Between lo hi)
    (h1 : F.emin ≤ lo - (F.p - 1)) (h2 : hi + 1 ≤ F.emax) : (a.add b).Between (lo - (F.p - 1)) (hi + 1) := by
  by_cases h : a.value + b.value = 0
  · obtain ⟨h3, h4⟩ := Ieee.add_zero_value ha.1 hb.1 h
    exact ⟨h3, .inl h4⟩
  · rw [Ieee.add_fin ha.1 hb.1 h]
    refine (Ieee.round_between h1 h2 ?_ ?_).1
    · obtain ⟨m, hm⟩ := between_multiple ha
      obtain ⟨n, hn⟩ := between_multiple hb
      rw [hm, hn, ← add_mul] at h ⊢
      rw [abs_mul, abs_of_pos (zpow_pos (by norm_num) _ : (0 : ℚ) < 2 ^ (lo - ((F.p : ℤ) - 1)))]
      have : m + n ≠ 0 := by rintro h5; apply h; rw [← Int.cast_add, h5]; simp
      have h5 : (1 : ℚ) ≤ |(m : ℚ) + n| := by exact_mod_cast Int.one_le_abs this
      exact le_mul_of_one_le_left (by positivity) h5
    · have h3 := abs_add_le a.value b.value
      have h4 := abs_le_of_between ha
      have h5 := abs_le_of_between hb
      rw [zpow_add_one₀ (by norm_num)]
      linarith

theorem add_between {a b : Trap F true} (ha : a.val.Between lo hi) (hb : b.val.Between lo hi)
    (h1 : F.emin ≤ lo - (F.p - 1)) (h2 : hi + 1 ≤ F.emax) :
    ∃ c : Trap F true, add a b = .ok c ∧ c.val.Between (lo - (F.p - 1)) (hi + 1) :=
  have h := ieee_add_between ha hb h1 h2
  ⟨⟨_, h.1⟩, dif_pos h.1, h⟩

theorem neg_between {a : Ieee F} (h : a.Between lo hi) : a.neg.Between lo hi := by
  refine ⟨Ieee.neg_finite.2 h.1, ?_⟩
  rw [Ieee.neg_value, abs_neg, neg_eq_zero]
  exact h.2

theorem sub_between {a b : Trap F true} (ha : a.val.Between lo hi) (hb : b.val.Between lo hi)
    (h1 : F.emin ≤ lo - (F.p - 1)) (h2 : hi + 1 ≤ F.emax) :
    ∃ c : Trap F true, sub a b = .ok c ∧ c.val.Between (lo - (F.p - 1)) (hi + 1) :=
  have h := ieee_add_between ha (neg_between hb) h1 h2
  ⟨⟨_, h.1⟩, dif_pos h.1, h⟩

/-- A sum of non-negative numbers in range. -/
theorem add_between_nonneg {a b : Trap F true} (ha : a.val.Between lo hi) (hb : b.val.Between lo hi)
    (ha0 : 0 ≤ a.value) (hb0 : 0 ≤ b.value) (h1 : F.emin ≤ lo) (h2 : hi + 1 ≤ F.emax) :
    ∃ c : Trap F true, add a b = .ok c ∧ c.val.Between lo (hi + 1) ∧ (a.value ≠ 0 ∨ b.value ≠ 0 → c.value ≠ 0) := by
  by_cases h : a.val.value + b.val.value = 0
  · obtain ⟨h3, h4⟩ := Ieee.add_zero_value ha.1 hb.1 h
    refine ⟨⟨_, h3⟩, dif_pos h3, ⟨h3, .inl h4⟩, fun h5 => ?_⟩
    have : a.val.value = 0 := le_antisymm (by have : 0 ≤ b.val.value := hb0; linarith) ha0
    have : b.val.value = 0 := by linarith
    exact (h5.elim (· ‹_›) (· ‹_›)).elim
  · have h3 := abs_add_le a.val.value b.val.value
    have h4 := abs_le_of_between ha
    have h5 := abs_le_of_between hb
    have h6 : (2 : ℚ) ^ lo ≤ |a.val.value + b.val.value| := by
      rw [abs_of_nonneg (show 0 ≤ a.val.value + b.val.value from add_nonneg ha0 hb0)]
      have ha0' : 0 ≤ a.val.value := ha0
      have hb0' : 0 ≤ b.val.value := hb0
      rcases ha.2 with h7 | h7
      · rcases hb.2 with h8 | h8
        · exact (h (by rw [h7, h8, add_zero])).elim
        · rw [abs_of_nonneg hb0'] at h8; linarith [h8.1]
      · rw [abs_of_nonneg ha0'] at h7; linarith [h7.1]
    have h7 : |a.val.value + b.val.value| ≤ (2 : ℚ) ^ (hi + 1) := by
      rw [zpow_add_one₀ (by norm_num)]; linarith
    obtain ⟨h8, h9⟩ := Ieee.round_between (F := F) h1 h2 h6 h7
    rw [← Ieee.add_fin ha.1 hb.1 h] at h8 h9
    exact ⟨⟨_, h8.1⟩, dif_pos h8.1, h8, fun _ => h9⟩

end Trap

end Magnesia
