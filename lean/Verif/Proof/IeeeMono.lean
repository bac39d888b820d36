import Verif.Proof.IeeeLaws

/-!
# Rounding is monotone (helper lemmas)
-/

namespace Magnesia

theorem floor_le_rne (q : ℚ) : ⌊q⌋ ≤ rne q := by
  unfold rne; split_ifs <;> omega

theorem rne_le_floor (q : ℚ) : rne q ≤ ⌊q⌋ + 1 := by
  unfold rne; split_ifs <;> omega

theorem rne_mono {q r : ℚ} (h : q ≤ r) : rne q ≤ rne r := by
  rcases lt_or_eq_of_le (Int.floor_mono h) with h1 | h1
  · have := rne_le_floor q
    have := floor_le_rne r
    omega
  · unfold rne
    rw [h1]
    split_ifs <;> first | omega | (exfalso; linarith)

namespace Fmt

variable (F : Fmt)

/-- Rounding does not cross a multiple of the unit in the last place. -/
theorem roundQ_le_mul {x : ℚ} {m : ℤ} (h : x ≤ m * F.ulp x) : F.roundQ x ≤ m * F.ulp x := by
  have hp := F.ulp_pos x
  refine mul_le_mul_of_nonneg_right ?_ hp.le
  have h1 : x / F.ulp x ≤ m := by rwa [div_le_iff₀ hp]
  have := rne_mono h1
  rw [rne_intCast] at this
  exact_mod_cast this

theorem mul_le_roundQ {x : ℚ} {m : ℤ} (h : m * F.ulp x ≤ x) : m * F.ulp x ≤ F.roundQ x := by
  have hp := F.ulp_pos x
  refine mul_le_mul_of_nonneg_right ?_ hp.le
  have h1 : (m : ℚ) ≤ x / F.ulp x := by rwa [le_div_iff₀ hp]
  have := rne_mono h1
  rw [rne_intCast] at this
  exact_mod_cast this

theorem roundQ_nonneg {x : ℚ} (h : 0 ≤ x) : 0 ≤ F.roundQ x := by
  have := F.mul_le_roundQ (x := x) (m := 0) (by simpa using h)
  simpa using this

theorem roundQ_mono_pos {x y : ℚ} (hx : 0 < x) (h : x ≤ y) : F.roundQ x ≤ F.roundQ y := by
  have hy : 0 < y := hx.trans_le h
  have hl : Int.log 2 |x| ≤ Int.log 2 |y| := by
    rw [abs_of_pos hx, abs_of_pos hy]; exact Int.log_mono_right hx h
  by_cases he : F.ulpExp x = F.ulpExp y
  · have e : F.ulp x = F.ulp y := by unfold ulp; rw [he]
    unfold roundQ
    rw [e]
    refine mul_le_mul_of_nonneg_right ?_ (F.ulp_pos y).le
    exact_mod_cast rne_mono (div_le_div_of_nonneg_right h (F.ulp_pos y).le)
  · have h1 : F.emin < Int.log 2 |y| ∧ Int.log 2 |x| < Int.log 2 |y| := by
      unfold ulpExp at he
      constructor
      · by_contra hc
        exact he (by rw [max_eq_right (by omega), max_eq_right (by omega)])
      · rcases lt_or_eq_of_le hl with h | h
        · exact h
        · exact (he (by rw [h])).elim
    -- the power of two between them
    have hxP : x ≤ 2 ^ Int.log 2 |y| := by
      have h2 : |x| < ((2 : ℕ) : ℚ) ^ (Int.log 2 |x| + 1) := Int.lt_zpow_succ_log_self (b := 2) (by norm_num) |x|
      have h3 : (2 : ℚ) ^ (Int.log 2 |x| + 1) ≤ 2 ^ Int.log 2 |y| := zpow_le_zpow_right₀ (by norm_num) (by omega)
      have h4 := le_abs_self x
      push_cast at h2
      linarith
    have hPy : (2 : ℚ) ^ Int.log 2 |y| ≤ y := by
      have := Int.zpow_log_le_self (b := 2) (r := y) (by norm_num) hy
      rw [abs_of_pos hy]
      exact_mod_cast this
    have key : ∀ z : ℚ, F.ulpExp z ≤ Int.log 2 |y| → ∃ m : ℤ, (2 : ℚ) ^ Int.log 2 |y| = m * F.ulp z := by
      intro z hz
      obtain ⟨k, hk⟩ : ∃ k : ℕ, Int.log 2 |y| = k + F.ulpExp z := ⟨(Int.log 2 |y| - F.ulpExp z).toNat, by omega⟩
      refine ⟨2 ^ k, ?_⟩
      rw [hk, zpow_add₀ (by norm_num), ulp]
      push_cast
      rw [zpow_natCast]
    have hp := F.two_le_p
    obtain ⟨m, hm⟩ := key x (by unfold ulpExp; have := max_le (a := Int.log 2 |x|) (b := F.emin) (c := Int.log 2 |y|) (by omega) (by omega); omega)
    obtain ⟨m', hm'⟩ := key y (by unfold ulpExp; rw [max_eq_left h1.1.le]; omega)
    calc F.roundQ x ≤ m * F.ulp x := F.roundQ_le_mul (by rw [← hm]; exact hxP)
      _ = m' * F.ulp y := by rw [← hm, hm']
      _ ≤ F.roundQ y := F.mul_le_roundQ (by rw [← hm']; exact hPy)

/-- Rounding is monotone. -/
theorem roundQ_mono {x y : ℚ} (h : x ≤ y) : F.roundQ x ≤ F.roundQ y := by
  rcases lt_trichotomy x 0 with hx | hx | hx
  · rcases lt_or_ge y 0 with hy | hy
    · have := F.roundQ_mono_pos (x := -y) (y := -x) (by linarith) (by linarith)
      rw [F.roundQ_neg, F.roundQ_neg] at this
      linarith
    · have h1 := F.roundQ_nonneg hy
      have h2 := F.roundQ_nonneg (x := -x) (by linarith)
      rw [F.roundQ_neg] at h2
      linarith
  · subst hx
    rw [F.roundQ_zero]; exact F.roundQ_nonneg h
  · exact F.roundQ_mono_pos hx h

theorem roundQ_abs (x : ℚ) : F.roundQ |x| = |F.roundQ x| := by
  rcases le_total 0 x with h | h
  · rw [abs_of_nonneg h, abs_of_nonneg (F.roundQ_nonneg h)]
  · rw [abs_of_nonpos h, F.roundQ_neg, abs_of_nonpos]
    have := F.roundQ_nonneg (x := -x) (by linarith)
    rw [F.roundQ_neg] at this
    linarith

theorem abs_roundQ_mono {x y : ℚ} (h : |x| ≤ |y|) : |F.roundQ x| ≤ |F.roundQ y| := by
  rw [← F.roundQ_abs, ← F.roundQ_abs]; exact F.roundQ_mono h

/-- Representable numbers are not crossed. -/
theorem roundQ_le_of_representable {x y : ℚ} (hy : F.Representable y) (h : x ≤ y) : F.roundQ x ≤ y := by
  have := F.roundQ_mono h
  rwa [F.roundQ_representable hy] at this

theorem le_roundQ_of_representable {x y : ℚ} (hx : F.Representable x) (h : x ≤ y) : x ≤ F.roundQ y := by
  have := F.roundQ_mono h
  rwa [F.roundQ_representable hx] at this

end Fmt

namespace Ieee

variable {F : Fmt}

theorem round_finite_iff {x : ℚ} : (round x : Ieee F).Finite ↔ |F.roundQ x| < 2 ^ (F.emax + 1) := by
  unfold round
  split_ifs with h0 h
  · exact ⟨fun _ => by rw [h0, abs_zero]; positivity, fun _ => trivial⟩
  · exact ⟨fun _ => h, fun _ => trivial⟩
  · exact ⟨fun h' => h'.elim, fun h' => (h h').elim⟩

theorem add_finite_iff {a b : Ieee F} (ha : a.Finite) (hb : b.Finite) :
    (a.add b).Finite ↔ |F.roundQ (a.value + b.value)| < 2 ^ (F.emax + 1) := by
  have hrep : ∀ {x : ℚ}, F.Representable x → |F.roundQ x| < 2 ^ (F.emax + 1) := fun h => by
    rw [F.roundQ_representable h]; exact h.2
  cases a with
  | nan => exact ha.elim
  | inf => exact ha.elim
  | zero s => cases b with
    | nan => exact hb.elim
    | inf => exact hb.elim
    | zero t => simp only [add, value, _root_.add_zero]; exact ⟨fun _ => hrep (Fmt.representable_zero F), fun _ => trivial⟩
    | fin y h0 hr => simp only [add, value, _root_.zero_add]; exact ⟨fun _ => hrep hr, fun _ => trivial⟩
  | fin x h0 hr => cases b with
    | nan => exact hb.elim
    | inf => exact hb.elim
    | zero t => simp only [add, value, _root_.add_zero]; exact ⟨fun _ => hrep hr, fun _ => trivial⟩
    | fin y h0 hr =>
      simp only [add, value]
      split_ifs with h
      · rw [h]; exact ⟨fun _ => hrep (Fmt.representable_zero F), fun _ => trivial⟩
      · exact round_finite_iff

theorem sub_finite_iff {a b : Ieee F} (ha : a.Finite) (hb : b.Finite) :
    (a.sub b).Finite ↔ |F.roundQ (a.value - b.value)| < 2 ^ (F.emax + 1) := by
  unfold sub
  rw [add_finite_iff ha (neg_finite.2 hb), neg_value, ← sub_eq_add_neg]

theorem mul_finite_iff {a b : Ieee F} (ha : a.Finite) (hb : b.Finite) :
    (a.mul b).Finite ↔ |F.roundQ (a.value * b.value)| < 2 ^ (F.emax + 1) := by
  by_cases h : a.value = 0 ∨ b.value = 0
  · refine ⟨fun _ => ?_, fun _ => (mul_zero_value ha hb h).1⟩
    rw [mul_eq_zero.2 h, F.roundQ_zero, abs_zero]; positivity
  · obtain ⟨h1, h2⟩ := not_or.1 h
    rw [mul_fin h1 h2, round_finite_iff]

/-- Comparisons of finite numbers compare values. -/
theorem flt_value {a b : Ieee F} (ha : a.Finite) (hb : b.Finite) : flt a b = true ↔ a.value < b.value := by
  cases a <;> cases b <;> first | exact ha.elim | exact hb.elim | simp [flt, key, value]

theorem fle_value {a b : Ieee F} (ha : a.Finite) (hb : b.Finite) : fle a b = true ↔ a.value ≤ b.value := by
  cases a <;> cases b <;> first | exact ha.elim | exact hb.elim | simp [fle, key, value]

end Ieee

end Magnesia
