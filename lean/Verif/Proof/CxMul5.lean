import Verif.Proof.IeeeMono
import Verif.Proof.IeeeLaws
import Verif.Proof.IeeeRange
import Verif.Spec.CxRound

/-!
# Rounding errors of `a c - b d` and `a d + b c` (helper lemmas)

The sharp error bound for complex products (Brent, Percival, Zimmermann: *Error bounds on complex floating-point
multiplication*, 2007), with gradual underflow taken into account.
-/

namespace Magnesia

namespace Fmt

variable {F : Fmt}

/-- Refined relative error of one rounding. -/
def δ (F : Fmt) : ℚ := F.u / (1 + F.u)

theorem δ_pos (F : Fmt) : 0 < F.δ := div_pos F.u_pos (by linarith [F.u_pos])
theorem δ_mul (F : Fmt) : F.δ * (1 + F.u) = F.u := div_mul_cancel₀ _ (by linarith [F.u_pos])
theorem δ_le (F : Fmt) : F.δ ≤ F.u := by
  have := F.δ_mul; have := mul_pos F.δ_pos F.u_pos; linarith
/-- Two roundings, one after the other. -/
theorem δ_twice (F : Fmt) : F.δ * (1 + F.δ) ≤ F.u := by
  have h1 := F.δ_mul; have h2 := F.δ_le; have h3 := F.δ_pos
  nlinarith

/-- The integer next to `q`. -/
theorem _root_.Magnesia.rne_nearest (q : ℚ) (n : ℤ) : |(rne q : ℚ) - q| ≤ |(n : ℚ) - q| := by
  by_cases h : n = rne q
  · rw [h]
  have h1 := rne_err q
  have h2 : (1 : ℚ) ≤ |(n : ℚ) - rne q| := by
    have : 1 ≤ |n - rne q| := Int.one_le_abs (sub_ne_zero.2 h)
    exact_mod_cast this
  have h3 := abs_sub_le (n : ℚ) q (rne q)
  rw [abs_sub_comm q] at h3
  linarith

theorem ulpExp_le {x : ℚ} {e : ℤ} (he : F.emin ≤ e) (h0 : x ≠ 0) (h : |x| < 2 ^ (e + 1)) :
    F.ulpExp x ≤ e - (F.p - 1) := by
  have h1 := (Int.lt_zpow_iff_log_lt (b := 2) (by norm_num) (abs_pos.2 h0)).1
    (show |x| < ((2 : ℕ) : ℚ) ^ (e + 1) by exact_mod_cast h)
  have := max_le (show Int.log 2 |x| ≤ e by omega) he
  unfold ulpExp; omega

theorem half_ulp (F : Fmt) (e : ℤ) : (2 : ℚ) ^ (e - (F.p - 1)) / 2 = F.u * 2 ^ e := by
  rw [Fmt.u, div_eq_mul_inv, ← zpow_neg_one, ← zpow_add₀ (by norm_num), ← zpow_add₀ (by norm_num)]
  congr 1; ring

/-- Rounding error below a power of two. -/
theorem roundQ_err_lt {x : ℚ} {e : ℤ} (he : F.emin ≤ e) (h : |x| < 2 ^ (e + 1)) : |F.roundQ x - x| ≤ F.u * 2 ^ e := by
  by_cases h0 : x = 0
  · subst h0; rw [F.roundQ_zero]; simpa using (mul_pos F.u_pos (by positivity)).le
  refine (F.roundQ_err x).trans ?_
  rw [← F.half_ulp]
  refine div_le_div_of_nonneg_right ?_ (by norm_num)
  exact zpow_le_zpow_right₀ (by norm_num) (ulpExp_le he h0 h)

/-- The grid of the rounded numbers. -/
theorem roundQ_grid {x : ℚ} {e : ℤ} (h : e ≤ F.emin ∨ 2 ^ e ≤ |x|) : ∃ m : ℤ, F.roundQ x = m * 2 ^ (e - (F.p - 1)) := by
  have h1 : e - (F.p - 1) ≤ F.ulpExp x := by
    unfold ulpExp
    rcases h with h | h
    · have := le_max_right (Int.log 2 |x|) F.emin; omega
    · have := le_max_left (Int.log 2 |x|) F.emin; have := le_log h; omega
  obtain ⟨k, hk⟩ : ∃ k : ℕ, F.ulpExp x = e - (F.p - 1) + k := ⟨(F.ulpExp x - (e - (F.p - 1))).toNat, by omega⟩
  refine ⟨rne (x / F.ulp x) * 2 ^ k, ?_⟩
  unfold roundQ
  generalize rne (x / F.ulp x) = n
  rw [ulp, hk, zpow_add₀ (by norm_num), zpow_natCast]; push_cast; ring

/-- Numbers on the grid are not changed. -/
theorem roundQ_of_grid {x : ℚ} {e m : ℤ} (he : F.emin ≤ e) (hx : x = m * 2 ^ (e - (F.p - 1))) (h : |x| ≤ 2 ^ (e + 1)) :
    F.roundQ x = x := by
  by_cases h0 : x = 0
  · subst h0; exact F.roundQ_zero
  rcases lt_or_eq_of_le h with h | h
  · exact F.roundQ_exact hx (ulpExp_le he h0 h)
  · have hp := F.two_le_p
    have h1 : F.ulpExp x ≤ e + 1 := by
      have := ulpExp_le (F := F) (x := x) (e := e + 1) (by omega) h0 (by rw [h]; exact zpow_lt_zpow_right₀ (by norm_num) (by omega))
      omega
    rcases abs_choice x with h2 | h2
    · exact F.roundQ_exact (m := 1) (e := e + 1) (by rw [← h, h2]; simp) h1
    · exact F.roundQ_exact (m := -1) (e := e + 1) (by rw [← h, h2]; simp) h1

/-- Refined relative error in the normal range. -/
theorem roundQ_err_δ {x : ℚ} (h : 2 ^ F.emin ≤ |x|) : |F.roundQ x - x| ≤ F.δ * |x| := by
  have hx : 0 < |x| := lt_of_lt_of_le (by positivity) h
  have hx0 : x ≠ 0 := abs_pos.1 hx
  have hl : F.emin ≤ Int.log 2 |x| := le_log h
  have h2 := zpow_log_le hx0
  have h1 := roundQ_err_lt hl (lt_zpow_log x)
  set e := Int.log 2 |x| with he
  have hu := F.u_pos
  have hd := F.δ_pos
  have hm := F.δ_mul
  rcases le_or_gt ((1 + F.u) * 2 ^ e) |x| with h3 | h3
  · have := mul_le_mul_of_nonneg_left h3 hd.le
    nlinarith
  · -- the power of two is a better approximation
    have h4 : |F.roundQ x - x| ≤ |x| - 2 ^ e := by
      have hup := F.ulp_pos x
      have hul : F.ulp x = 2 ^ (e - (F.p - 1)) := by rw [ulp, ulpExp, max_eq_left hl]
      have hp := F.two_le_p
      have hn : ∃ n : ℤ, (n : ℚ) * F.ulp x - x = (if 0 ≤ x then 1 else -1) * (2 ^ e - |x|) := by
        have h5 : (2 : ℚ) ^ e = 2 ^ (F.p - 1) * F.ulp x := by
          rw [hul, ← zpow_natCast, ← zpow_add₀ (by norm_num)]
          congr 1; omega
        split_ifs with h6
        · exact ⟨2 ^ (F.p - 1), by rw [abs_of_nonneg h6, h5]; push_cast; ring⟩
        · exact ⟨-2 ^ (F.p - 1), by rw [abs_of_neg (not_le.1 h6), h5]; push_cast; ring⟩
      obtain ⟨n, hn⟩ := hn
      have h5 := rne_nearest (x / F.ulp x) n
      have h6 := mul_le_mul_of_nonneg_right h5 hup.le
      rw [← abs_of_pos hup, ← abs_mul, ← abs_mul, abs_of_pos hup, sub_mul, sub_mul, div_mul_cancel₀ _ hup.ne', hn] at h6
      refine h6.trans (le_of_eq ?_)
      rw [abs_mul, abs_of_nonpos (by linarith : (2 : ℚ) ^ e - |x| ≤ 0)]
      split_ifs <;> simp
    refine h4.trans ?_
    have h5 : |x| * F.δ * (1 + F.u) = |x| * F.u := by rw [mul_assoc, hm]
    by_contra hc
    push Not at hc
    have := mul_lt_mul_of_pos_right hc (by linarith : 0 < 1 + F.u)
    nlinarith

/-- Sums and differences of numbers are never inexact below the normal range. -/
theorem roundQ_err_grid {x : ℚ} {m : ℤ} (hx : x = m * 2 ^ (F.emin - (F.p - 1))) : |F.roundQ x - x| ≤ F.δ * |x| := by
  rcases le_or_gt (2 ^ F.emin) |x| with h | h
  · exact roundQ_err_δ h
  · rw [roundQ_of_grid le_rfl hx (h.le.trans (zpow_le_zpow_right₀ (by norm_num) (by omega))), sub_self, abs_zero]
    exact mul_nonneg F.δ_pos.le (abs_nonneg _)

theorem η_eq (F : Fmt) : F.η = F.u * 2 ^ F.emin := by
  unfold Fmt.η Fmt.u; rw [← zpow_add₀ (by norm_num)]; congr 1; ring

/-- Zero or normal. -/
def Normal (F : Fmt) (x : ℚ) : Prop := x = 0 ∨ 2 ^ F.emin ≤ |x|

theorem roundQ_err_Normal {x : ℚ} (h : F.Normal x) : |F.roundQ x - x| ≤ F.δ * |x| := by
  rcases h with rfl | h
  · simp [F.roundQ_zero]
  · exact roundQ_err_δ h

theorem grid_add {x y : ℚ} : ∃ m : ℤ, F.roundQ x + F.roundQ y = m * 2 ^ (F.emin - (F.p - 1)) := by
  obtain ⟨m, hm⟩ := roundQ_grid (F := F) (x := x) (.inl le_rfl)
  obtain ⟨n, hn⟩ := roundQ_grid (F := F) (x := y) (.inl le_rfl)
  exact ⟨m + n, by rw [hm, hn]; push_cast; ring⟩

theorem grid_sub {x y : ℚ} {e : ℤ} (hx : e ≤ F.emin ∨ 2 ^ e ≤ |x|) (hy : e ≤ F.emin ∨ 2 ^ e ≤ |y|) :
    ∃ m : ℤ, F.roundQ x - F.roundQ y = m * 2 ^ (e - (F.p - 1)) := by
  obtain ⟨m, hm⟩ := roundQ_grid (F := F) (x := x) hx
  obtain ⟨n, hn⟩ := roundQ_grid (F := F) (x := y) hy
  exact ⟨m - n, by rw [hm, hn]; push_cast; ring⟩

/-! ## The part without cancellation -/

/-- Any rounding error of the products. -/
theorem add_parts {C D c d : ℚ} (hC : 0 ≤ C) (hD : 0 ≤ D) (h1 : |F.roundQ C - C| ≤ F.δ * C + c)
    (h2 : |F.roundQ D - D| ≤ F.δ * D + d) :
    |F.roundQ (F.roundQ C + F.roundQ D) - (C + D)| ≤ 2 * F.u * (C + D) + (1 + F.δ) * (c + d) := by
  obtain ⟨m, hm⟩ := grid_add (F := F) (x := C) (y := D)
  have h3 := roundQ_err_grid hm
  have h4 : |F.roundQ C + F.roundQ D| = F.roundQ C + F.roundQ D :=
    abs_of_nonneg (add_nonneg (F.roundQ_nonneg hC) (F.roundQ_nonneg hD))
  rw [h4] at h3
  have hd := F.δ_pos
  have ht := mul_le_mul_of_nonneg_right F.δ_twice (add_nonneg hC hD)
  have hl := mul_le_mul_of_nonneg_right F.δ_le (add_nonneg hC hD)
  rw [abs_le] at *
  have h5 : F.roundQ C + F.roundQ D ≤ (1 + F.δ) * (C + D) + (c + d) := by linarith [h1.2, h2.2]
  have h6 := mul_le_mul_of_nonneg_left h5 hd.le
  constructor <;> nlinarith [h1.1, h1.2, h2.1, h2.2, h3.1, h3.2]

theorem add_normal {C D : ℚ} (hC : 0 ≤ C) (hD : 0 ≤ D) (h1 : F.Normal C) (h2 : F.Normal D) :
    |F.roundQ (F.roundQ C + F.roundQ D) - (C + D)| ≤ 2 * F.u * (C + D) := by
  have e1 := roundQ_err_Normal h1
  have e2 := roundQ_err_Normal h2
  rw [abs_of_nonneg hC] at e1
  rw [abs_of_nonneg hD] at e2
  simpa using add_parts (c := 0) (d := 0) hC hD (by simpa using e1) (by simpa using e2)

theorem δ_le_one (F : Fmt) : F.δ ≤ 1 := F.δ_le.trans F.u_le_one

theorem add_any {C D : ℚ} (hC : 0 ≤ C) (hD : 0 ≤ D) :
    |F.roundQ (F.roundQ C + F.roundQ D) - (C + D)| ≤ 2 * F.u * (C + D) + 2 * F.η := by
  have hη := F.η_pos
  have hd := F.δ_le_one
  have hd0 := F.δ_pos
  rcases le_or_gt (2 ^ F.emin) C with c | c
  · have e1 := roundQ_err_δ (F := F) (x := C) (by rwa [abs_of_nonneg hC])
    rw [abs_of_nonneg hC] at e1
    rcases le_or_gt (2 ^ F.emin) D with d | d
    · have := add_normal hC hD (.inr (by rwa [abs_of_nonneg hC])) (.inr (by rwa [abs_of_nonneg hD]))
      linarith
    · have e2 := F.roundQ_err_tiny (x := D) (by rwa [abs_of_nonneg hD])
      have := add_parts (c := 0) (d := F.η) hC hD (by simpa using e1) (by nlinarith)
      nlinarith
  · have e1 := F.roundQ_err_tiny (x := C) (by rwa [abs_of_nonneg hC])
    rcases le_or_gt (2 ^ F.emin) D with d | d
    · have e2 := roundQ_err_δ (F := F) (x := D) (by rwa [abs_of_nonneg hD])
      rw [abs_of_nonneg hD] at e2
      have := add_parts (c := F.η) (d := 0) hC hD (by nlinarith) (by simpa using e2)
      nlinarith
    · have e2 := F.roundQ_err_tiny (x := D) (by rwa [abs_of_nonneg hD])
      obtain ⟨m, hm⟩ := grid_add (F := F) (x := C) (y := D)
      have hc := abs_roundQ_le F (x := C) le_rfl (by rw [abs_of_nonneg hC]; exact c.le)
      have hd := abs_roundQ_le F (x := D) le_rfl (by rw [abs_of_nonneg hD]; exact d.le)
      rw [roundQ_of_grid le_rfl hm]
      · have : 0 ≤ 2 * F.u * (C + D) := by have := F.u_pos; positivity
        have := abs_add_le (F.roundQ C - C) (F.roundQ D - D)
        rw [show F.roundQ C - C + (F.roundQ D - D) = F.roundQ C + F.roundQ D - (C + D) by ring] at this
        linarith
      · rw [zpow_add_one₀ (by norm_num)]
        have := abs_add_le (F.roundQ C) (F.roundQ D)
        linarith

/-! ## The part with cancellation -/

/-- The error in terms of the errors of the products and the error of the difference. -/
theorem sub_parts {A B a b s : ℚ} (h1 : |F.roundQ A - A| ≤ a) (h2 : |F.roundQ B - B| ≤ b)
    (h3 : |F.roundQ (F.roundQ A - F.roundQ B) - (F.roundQ A - F.roundQ B)| ≤ s) :
    |F.roundQ (F.roundQ A - F.roundQ B) - (A - B)| ≤ a + b + s := by
  rw [abs_le] at *
  constructor <;> linarith [h1.1, h1.2, h2.1, h2.2, h3.1, h3.2]

/-- The larger product is at least five times the smaller one (or not). -/
theorem sub_far {A B b : ℚ} (hB : 0 ≤ B) (hAB : B ≤ A) (h1 : |F.roundQ A - A| ≤ F.δ * A)
    (h2 : |F.roundQ B - B| ≤ F.δ * B + b) :
    |F.roundQ (F.roundQ A - F.roundQ B) - (A - B)| ≤ 2 * F.u * A + (1 + F.δ) * b := by
  obtain ⟨m, hm⟩ := grid_sub (F := F) (x := A) (y := B) (.inl le_rfl) (.inl le_rfl)
  have h3 := roundQ_err_grid hm
  rw [abs_of_nonneg (sub_nonneg.2 (F.roundQ_mono hAB))] at h3
  have hd := F.δ_pos
  have hA := hB.trans hAB
  have ht := mul_le_mul_of_nonneg_right F.δ_twice hA
  have h4 := (abs_le.1 h1).2
  have h5 := (abs_le.1 h2).1
  have h6 : F.roundQ A - F.roundQ B ≤ (1 + F.δ) * A - (1 - F.δ) * B + b := by linarith
  have h7 := mul_le_mul_of_nonneg_left h6 hd.le
  have h8 := mul_le_mul_of_nonneg_left hAB (mul_nonneg hd.le hd.le)
  have := sub_parts h1 h2 h3
  nlinarith

/-- The products are of similar size. -/
theorem sub_near (hp : 4 ≤ F.p) {A B : ℚ} {e : ℤ} (he : F.emin ≤ e) (hA1 : 2 ^ e ≤ A) (hA2 : A < 2 ^ (e + 1))
    (hB0 : 2 ^ F.emin ≤ B) (hAB : B ≤ A) (h5 : A ≤ 5 * B) :
    ∃ d, 0 ≤ d ∧ d ^ 2 ≤ F.u ^ 2 * (5 * (A - B) ^ 2 + 4 * (A * B)) ∧
      |F.roundQ (F.roundQ A - F.roundQ B) - (A - B)| ≤ d := by
  have hu := F.u_pos
  have hu16 : F.u ≤ 1 / 16 := by
    have h : F.u ≤ 2 ^ (-4 : ℤ) := zpow_le_zpow_right₀ (by norm_num) (by omega)
    norm_num at h ⊢; exact h
  have ht : (0 : ℚ) < 2 ^ e := by positivity
  have hB : 0 < B := lt_of_lt_of_le (by positivity) hB0
  have hA : 0 < A := ht.trans_le hA1
  have eA := roundQ_err_lt he (x := A) (by rwa [abs_of_pos hA])
  have m1 := F.roundQ_mono hAB
  have hfA : F.roundQ A ≤ 2 ^ (e + 1) := (le_abs_self _).trans (abs_roundQ_le F (by omega) (by rw [abs_of_pos hA]; exact hA2.le))
  have hfA1 : 2 ^ e ≤ F.roundQ A := by
    have := le_abs_roundQ F he (x := A) (by rwa [abs_of_pos hA])
    rwa [abs_of_nonneg (F.roundQ_nonneg hA.le)] at this
  have hfB0 : 0 ≤ F.roundQ B := F.roundQ_nonneg hB.le
  have hd0 : |F.roundQ A - F.roundQ B| = F.roundQ A - F.roundQ B := abs_of_nonneg (sub_nonneg.2 m1)
  -- the binade of the smaller product
  obtain ⟨f, hf1, hf2⟩ : ∃ f : ℤ, (2 : ℚ) ^ f ≤ B ∧ B < 2 ^ (f + 1) := by
    have h1 := zpow_log_le hB.ne'
    have h2 := lt_zpow_log B
    rw [abs_of_pos hB] at h1 h2
    exact ⟨_, h1, h2⟩
  have hf : F.emin ≤ f := by
    by_contra h
    have : (2 : ℚ) ^ (f + 1) ≤ 2 ^ F.emin := zpow_le_zpow_right₀ (by norm_num) (by omega)
    linarith
  have eB := roundQ_err_lt hf (x := B) (by rwa [abs_of_pos hB])
  have hfB1 : 2 ^ f ≤ F.roundQ B := by
    have := le_abs_roundQ F hf (x := B) (by rwa [abs_of_pos hB])
    rwa [abs_of_nonneg hfB0] at this
  have hfe : f ≤ e := by
    by_contra h
    have : (2 : ℚ) ^ (e + 1) ≤ 2 ^ f := zpow_le_zpow_right₀ (by norm_num) (by omega)
    linarith
  have hef : e ≤ f + 3 := by
    by_contra h
    have h1 : (2 : ℚ) ^ (f + 1 + 3) ≤ 2 ^ e := zpow_le_zpow_right₀ (by norm_num) (by omega)
    rw [zpow_add₀ (by norm_num) (f + 1)] at h1
    norm_num at h1
    linarith
  have e1 : (2 : ℚ) ^ (e + 1) = 2 * 2 ^ e := by rw [zpow_add_one₀ (by norm_num)]; ring
  -- the error of the difference
  have gr : ∀ g : ℤ, g ≤ f → ∃ m : ℤ, F.roundQ A - F.roundQ B = m * 2 ^ (g - (F.p - 1)) := by
    intro g hg
    have h1 : (2 : ℚ) ^ g ≤ 2 ^ f := zpow_le_zpow_right₀ (by norm_num) hg
    exact grid_sub (.inr (by rw [abs_of_pos hA]; linarith)) (.inr (by rw [abs_of_pos hB]; linarith))
  have s1 : |F.roundQ (F.roundQ A - F.roundQ B) - (F.roundQ A - F.roundQ B)| ≤ F.u * 2 ^ e := by
    refine roundQ_err_lt he ?_
    have : (0 : ℚ) < 2 ^ f := by positivity
    rw [hd0]; linarith
  -- a bound for moderate errors
  have q1 : ∀ k : ℚ, 0 ≤ k → k ^ 2 ≤ 16 / 5 → (k * F.u * 2 ^ e) ^ 2 ≤ F.u ^ 2 * (5 * (A - B) ^ 2 + 4 * (A * B)) := by
    intro k _ hk
    have h1 : (2 ^ e) ^ 2 ≤ A ^ 2 := pow_le_pow_left₀ ht.le hA1 2
    have h2 : 16 / 5 * A ^ 2 ≤ 5 * (A - B) ^ 2 + 4 * (A * B) := by nlinarith [sq_nonneg (5 * B - 3 * A)]
    have h3 : k ^ 2 * (2 ^ e) ^ 2 ≤ 16 / 5 * A ^ 2 := mul_le_mul hk h1 (by positivity) (by norm_num)
    calc (k * F.u * 2 ^ e) ^ 2 = F.u ^ 2 * (k ^ 2 * (2 ^ e) ^ 2) := by ring
      _ ≤ _ := mul_le_mul_of_nonneg_left (h3.trans h2) (by positivity)
  -- a bound for differences of at least `2^e`
  have q2 : ∀ k c : ℚ, 0 ≤ k → 0 ≤ c → 1 ≤ k → c * 2 ^ e ≤ B → 2 ^ e < F.roundQ A - F.roundQ B →
      F.roundQ A - F.roundQ B ≤ (A - B) + (k - 1) * F.u * 2 ^ e →
      k ^ 2 ≤ 5 * (1 - (k - 1) / 16) ^ 2 + 4 * ((1 - (k - 1) / 16 + c) * c) → k ≤ 17 →
      (k * F.u * 2 ^ e) ^ 2 ≤ F.u ^ 2 * (5 * (A - B) ^ 2 + 4 * (A * B)) := by
    intro k c hk0 hc0 hk1 hB hR hd hq hk17
    have h1 : (1 - (k - 1) / 16) * 2 ^ e ≤ A - B := by
      have := mul_le_mul_of_nonneg_left hu16 (sub_nonneg.2 hk1)
      have := mul_le_mul_of_nonneg_right this ht.le
      linarith
    have h0 : 0 ≤ (1 - (k - 1) / 16) * 2 ^ e := mul_nonneg (by linarith) ht.le
    have h2 : (1 - (k - 1) / 16 + c) * 2 ^ e ≤ A := by linarith
    have h3 := pow_le_pow_left₀ h0 h1 2
    have h4 : (1 - (k - 1) / 16 + c) * 2 ^ e * (c * 2 ^ e) ≤ A * B :=
      mul_le_mul h2 hB (by positivity) hA.le
    have h5 := mul_le_mul_of_nonneg_right hq (sq_nonneg ((2 : ℚ) ^ e))
    calc (k * F.u * 2 ^ e) ^ 2 = F.u ^ 2 * (k ^ 2 * (2 ^ e) ^ 2) := by ring
      _ ≤ _ := mul_le_mul_of_nonneg_left (by linarith) (by positivity)
  have dd : F.roundQ A - F.roundQ B ≤ (A - B) + (F.u * 2 ^ e + F.u * 2 ^ f) := by
    linarith [(abs_le.1 eA).2, (abs_le.1 eB).1]
  have hut := mul_pos hu ht
  rcases (show f = e ∨ f = e - 1 ∨ f = e - 2 ∨ f = e - 3 by omega) with rfl | hfe | hfe | hfe
  · obtain ⟨m, hm⟩ := gr f le_rfl
    have s0 := roundQ_of_grid he hm (by rw [hd0]; linarith)
    refine ⟨2 * F.u * 2 ^ f, by positivity, ?_, ?_⟩
    · have h1 : (2 : ℚ) ^ f * 2 ^ f ≤ A * B := mul_le_mul hA1 hf1 ht.le hA.le
      calc (2 * F.u * 2 ^ f) ^ 2 = F.u ^ 2 * (4 * (2 ^ f * 2 ^ f)) := by ring
        _ ≤ _ := mul_le_mul_of_nonneg_left (by nlinarith [sq_nonneg (A - B)]) (by positivity)
    · have := sub_parts eA eB (s := 0) (by rw [s0, sub_self, abs_zero])
      linarith
  all_goals
    obtain ⟨m, hm⟩ := gr f le_rfl
  · have e2 : (2 : ℚ) ^ f = 1 / 2 * 2 ^ e := by rw [hfe, zpow_sub₀ (by norm_num)]; norm_num; ring
    rw [e2] at eB hf1 dd
    rcases le_or_gt (F.roundQ A - F.roundQ B) (2 ^ e) with hR | hR
    · have s0 := roundQ_of_grid hf hm (by rw [hd0, hfe, sub_add_cancel]; exact hR)
      refine ⟨3 / 2 * F.u * 2 ^ e, by positivity, q1 _ (by norm_num) (by norm_num), ?_⟩
      have := sub_parts eA eB (s := 0) (by rw [s0, sub_self, abs_zero])
      linarith
    · refine ⟨5 / 2 * F.u * 2 ^ e, by positivity, q2 _ (1 / 2) (by norm_num) (by norm_num) (by norm_num) hf1 hR
        (by linarith) (by norm_num) (by norm_num), ?_⟩
      have := sub_parts eA eB s1
      linarith
  · have e2 : (2 : ℚ) ^ f = 1 / 4 * 2 ^ e := by rw [hfe, zpow_sub₀ (by norm_num)]; norm_num; ring
    have e3 : (2 : ℚ) ^ (e - 1) = 1 / 2 * 2 ^ e := by rw [zpow_sub₀ (by norm_num)]; norm_num; ring
    rw [e2] at eB hf1 dd
    rcases lt_or_ge (F.roundQ A - F.roundQ B) (2 ^ e) with hR | hR
    · have s0 := roundQ_err_lt (F := F) (e := e - 1) (x := F.roundQ A - F.roundQ B) (by omega) (by rwa [hd0, sub_add_cancel])
      rw [e3] at s0
      refine ⟨7 / 4 * F.u * 2 ^ e, by positivity, q1 _ (by norm_num) (by norm_num), ?_⟩
      have := sub_parts eA eB s0
      linarith
    · rcases eq_or_lt_of_le hR with hR | hR
      · have s0 := roundQ_of_grid (F := F) (x := F.roundQ A - F.roundQ B) (e := e) (m := 2 ^ (F.p - 1)) he
          (by rw [← hR]; push_cast; rw [← zpow_natCast, ← zpow_add₀ (by norm_num)]; congr 1; omega) (by rw [hd0]; linarith)
        refine ⟨7 / 4 * F.u * 2 ^ e, by positivity, q1 _ (by norm_num) (by norm_num), ?_⟩
        have := sub_parts eA eB (s := 0) (by rw [s0, sub_self, abs_zero])
        linarith
      · refine ⟨9 / 4 * F.u * 2 ^ e, by positivity, q2 _ (1 / 4) (by norm_num) (by norm_num) (by norm_num) hf1 hR
          (by linarith) (by norm_num) (by norm_num), ?_⟩
        have := sub_parts eA eB s1
        linarith
  · have e2 : (2 : ℚ) ^ f = 1 / 8 * 2 ^ e := by rw [hfe, zpow_sub₀ (by norm_num)]; norm_num; ring
    have e3 : (2 : ℚ) ^ (e - 1) = 1 / 2 * 2 ^ e := by rw [zpow_sub₀ (by norm_num)]; norm_num; ring
    rw [e2] at eB hf1 dd
    rcases lt_or_ge (F.roundQ A - F.roundQ B) (2 ^ e) with hR | hR
    · have s0 := roundQ_err_lt (F := F) (e := e - 1) (x := F.roundQ A - F.roundQ B) (by omega) (by rwa [hd0, sub_add_cancel])
      rw [e3] at s0
      refine ⟨7 / 4 * F.u * 2 ^ e, by positivity, q1 _ (by norm_num) (by norm_num), ?_⟩
      have := sub_parts eA eB s0
      linarith
    · rcases eq_or_lt_of_le hR with hR | hR
      · have s0 := roundQ_of_grid (F := F) (x := F.roundQ A - F.roundQ B) (e := e) (m := 2 ^ (F.p - 1)) he
          (by rw [← hR]; push_cast; rw [← zpow_natCast, ← zpow_add₀ (by norm_num)]; congr 1; omega) (by rw [hd0]; linarith)
        refine ⟨7 / 4 * F.u * 2 ^ e, by positivity, q1 _ (by norm_num) (by norm_num), ?_⟩
        have := sub_parts eA eB (s := 0) (by rw [s0, sub_self, abs_zero])
        linarith
      · refine ⟨17 / 8 * F.u * 2 ^ e, by positivity, q2 _ (1 / 8) (by norm_num) (by norm_num) (by norm_num) hf1 hR
          (by linarith) (by norm_num) (by norm_num), ?_⟩
        have := sub_parts eA eB s1
        linarith

/-- Far apart: the bound `2 u A` is good enough. -/
theorem far_sq {A B : ℚ} (hAB : B ≤ A) (h5 : 5 * B ≤ A) :
    (2 * F.u * A) ^ 2 ≤ F.u ^ 2 * (5 * (A - B) ^ 2 + 4 * (A * B)) := by
  have : 4 * A ^ 2 ≤ 5 * (A - B) ^ 2 + 4 * (A * B) := by nlinarith [mul_nonneg (sub_nonneg.2 hAB) (sub_nonneg.2 h5)]
  calc (2 * F.u * A) ^ 2 = F.u ^ 2 * (4 * A ^ 2) := by ring
    _ ≤ _ := mul_le_mul_of_nonneg_left this (by positivity)

theorem binade {A : ℚ} (hA : 2 ^ F.emin ≤ A) : ∃ e : ℤ, F.emin ≤ e ∧ 2 ^ e ≤ A ∧ A < 2 ^ (e + 1) := by
  have h0 : 0 < A := lt_of_lt_of_le (by positivity) hA
  have h1 := zpow_log_le h0.ne'
  have h2 := lt_zpow_log A
  have h3 := le_log (x := A) (by rwa [abs_of_pos h0])
  rw [abs_of_pos h0] at h1 h2 h3
  exact ⟨_, h3, h1, h2⟩

theorem sub_normal (hp : 4 ≤ F.p) {A B : ℚ} (hB : 0 ≤ B) (hAB : B ≤ A) (h1 : F.Normal A) (h2 : F.Normal B) :
    ∃ d, 0 ≤ d ∧ d ^ 2 ≤ F.u ^ 2 * (5 * (A - B) ^ 2 + 4 * (A * B)) ∧
      |F.roundQ (F.roundQ A - F.roundQ B) - (A - B)| ≤ d := by
  have hA := hB.trans hAB
  rcases le_total (5 * B) A with h5 | h5
  · have e1 := roundQ_err_Normal h1
    have e2 := roundQ_err_Normal h2
    rw [abs_of_nonneg hA] at e1
    rw [abs_of_nonneg hB] at e2
    refine ⟨2 * F.u * A, by have := F.u_pos; positivity, far_sq hAB h5, ?_⟩
    simpa using sub_far (b := 0) hB hAB e1 (by simpa using e2)
  · rcases h2 with rfl | h2
    · obtain rfl : A = 0 := by linarith
      exact ⟨0, le_rfl, by simp, by simp [F.roundQ_zero]⟩
    · rw [abs_of_nonneg hB] at h2
      obtain ⟨e, he, ha, ha'⟩ := binade (h2.trans hAB)
      exact sub_near hp he ha ha' h2 hAB h5

theorem sub_any (hp : 4 ≤ F.p) {A B : ℚ} (hB : 0 ≤ B) (hAB : B ≤ A) :
    ∃ d, 0 ≤ d ∧ d ^ 2 ≤ F.u ^ 2 * (5 * (A - B) ^ 2 + 4 * (A * B)) ∧
      |F.roundQ (F.roundQ A - F.roundQ B) - (A - B)| ≤ d + 2 * F.η := by
  have hA := hB.trans hAB
  have hη := F.η_pos
  have hu := F.u_pos
  rcases le_or_gt (2 ^ F.emin) B with b | b
  · obtain ⟨d, h1, h2, h3⟩ := sub_normal hp hB hAB (.inr (by rw [abs_of_nonneg hA]; linarith)) (.inr (by rwa [abs_of_nonneg hB]))
    exact ⟨d, h1, h2, by linarith⟩
  have eB := F.roundQ_err_tiny (x := B) (by rwa [abs_of_nonneg hB])
  have hfB := F.roundQ_nonneg hB
  have m1 := F.roundQ_mono hAB
  have hd0 : |F.roundQ A - F.roundQ B| = F.roundQ A - F.roundQ B := abs_of_nonneg (sub_nonneg.2 m1)
  obtain ⟨m, hm⟩ := grid_sub (F := F) (x := A) (y := B) (.inl le_rfl) (.inl le_rfl)
  rcases le_or_gt (2 ^ F.emin) A with a | a
  · have e1 := roundQ_err_δ (F := F) (x := A) (by rwa [abs_of_nonneg hA])
    rw [abs_of_nonneg hA] at e1
    have hd := F.δ_le_one
    have hd1 := F.δ_pos
    rcases le_total (5 * B) A with h5 | h5
    · refine ⟨2 * F.u * A, by positivity, far_sq hAB h5, ?_⟩
      have := sub_far (b := F.η) hB hAB e1 (by nlinarith)
      nlinarith
    · obtain ⟨e, he, ha, ha'⟩ := binade a
      have ht : (0 : ℚ) < 2 ^ e := by positivity
      have eA := roundQ_err_lt he (x := A) (by rwa [abs_of_nonneg hA])
      have hfA : F.roundQ A ≤ 2 ^ (e + 1) :=
        (le_abs_self _).trans (abs_roundQ_le F (by omega) (by rw [abs_of_nonneg hA]; exact ha'.le))
      have s1 : |F.roundQ (F.roundQ A - F.roundQ B) - (F.roundQ A - F.roundQ B)| ≤ F.u * 2 ^ e := by
        rcases le_or_gt (2 ^ (e + 1)) (F.roundQ A - F.roundQ B) with h | h
        · have h6 : F.roundQ A - F.roundQ B = 2 ^ (e + 1) := by linarith
          have hpp := F.two_le_p
          have s0 := roundQ_of_grid (F := F) (x := F.roundQ A - F.roundQ B) (e := e) (m := 2 ^ F.p) he
            (by rw [h6]; push_cast; rw [← zpow_natCast, ← zpow_add₀ (by norm_num)]; congr 1; omega) (by rw [hd0, h6])
          rw [s0, sub_self, abs_zero]; positivity
        · exact roundQ_err_lt he (by rwa [hd0])
      have h7 := sub_parts eA eB s1
      -- the exponent of the larger product is small
      have h8 : F.u * 2 ^ e ≤ 5 * F.η := by
        rw [F.η_eq]
        have : (2 : ℚ) ^ e ≤ 5 * 2 ^ F.emin := by linarith
        nlinarith
      refine ⟨9 / 5 * F.u * 2 ^ e - 1 / 50 * F.u * 2 ^ e, ?_, ?_, ?_⟩
      · have := mul_pos hu ht; linarith
      · have h1 : (2 ^ e) ^ 2 ≤ A ^ 2 := pow_le_pow_left₀ ht.le ha 2
        have h2 : 16 / 5 * A ^ 2 ≤ 5 * (A - B) ^ 2 + 4 * (A * B) := by nlinarith [sq_nonneg (5 * B - 3 * A)]
        calc (9 / 5 * F.u * 2 ^ e - 1 / 50 * F.u * 2 ^ e) ^ 2 = F.u ^ 2 * ((89 / 50) ^ 2 * (2 ^ e) ^ 2) := by ring
          _ ≤ _ := mul_le_mul_of_nonneg_left (by nlinarith) (by positivity)
      · have h9 : F.u * 2 ^ e ≤ 4 * F.η := by
          have : e ≤ F.emin + 2 := by
            by_contra hc
            have h1 : (2 : ℚ) ^ (F.emin + 3) ≤ 2 ^ e := zpow_le_zpow_right₀ (by norm_num) (by omega)
            rw [zpow_add₀ (by norm_num)] at h1
            norm_num at h1
            linarith
          rw [F.η_eq]
          have h1 : (2 : ℚ) ^ e ≤ 2 ^ (F.emin + 2) := zpow_le_zpow_right₀ (by norm_num) this
          rw [zpow_add₀ (by norm_num)] at h1
          norm_num at h1
          nlinarith
        linarith
  · have eA := F.roundQ_err_tiny (x := A) (by rwa [abs_of_nonneg hA])
    have hfA := abs_roundQ_le F (x := A) le_rfl (by rw [abs_of_nonneg hA]; exact a.le)
    have s0 := roundQ_of_grid le_rfl hm (by
      rw [hd0, zpow_add_one₀ (by norm_num)]
      have := le_abs_self (F.roundQ A)
      have : (0 : ℚ) < 2 ^ F.emin := by positivity
      linarith)
    refine ⟨0, le_rfl, ?_, ?_⟩
    · rw [zero_pow (by norm_num)]; positivity
    · have := sub_parts eA eB (s := 0) (by rw [s0, sub_self, abs_zero])
      linarith

/-! ## Arbitrary signs -/

theorem sub_any_pos (hp : 4 ≤ F.p) {x y : ℚ} (hx : 0 ≤ x) (hy : 0 ≤ y) :
    ∃ d, 0 ≤ d ∧ d ^ 2 ≤ F.u ^ 2 * (5 * (x - y) ^ 2 + 4 * (x * y)) ∧
      |F.roundQ (F.roundQ x - F.roundQ y) - (x - y)| ≤ d + 2 * F.η ∧
      (F.Normal x → F.Normal y → |F.roundQ (F.roundQ x - F.roundQ y) - (x - y)| ≤ d) := by
  suffices h : ∀ {A B : ℚ}, 0 ≤ B → B ≤ A → ∃ d, 0 ≤ d ∧ d ^ 2 ≤ F.u ^ 2 * (5 * (A - B) ^ 2 + 4 * (A * B)) ∧
      |F.roundQ (F.roundQ A - F.roundQ B) - (A - B)| ≤ d + 2 * F.η ∧
      (F.Normal A → F.Normal B → |F.roundQ (F.roundQ A - F.roundQ B) - (A - B)| ≤ d) by
    rcases le_total y x with h0 | h0
    · exact h hy h0
    · obtain ⟨d, h1, h2, h3, h4⟩ := h hx h0
      have e : F.roundQ (F.roundQ x - F.roundQ y) - (x - y) = -(F.roundQ (F.roundQ y - F.roundQ x) - (y - x)) := by
        rw [show F.roundQ x - F.roundQ y = -(F.roundQ y - F.roundQ x) by ring, F.roundQ_neg]; ring
      refine ⟨d, h1, h2.trans (le_of_eq (by ring)), ?_, fun a b => ?_⟩
      · rw [e, abs_neg]; exact h3
      · rw [e, abs_neg]; exact h4 b a
  intro A B hB hAB
  by_cases hn : F.Normal A ∧ F.Normal B
  · obtain ⟨d, h1, h2, h3⟩ := sub_normal hp hB hAB hn.1 hn.2
    exact ⟨d, h1, h2, by linarith [F.η_pos], fun _ _ => h3⟩
  · obtain ⟨d, h1, h2, h3⟩ := sub_any hp hB hAB
    exact ⟨d, h1, h2, h3, fun a b => (hn ⟨a, b⟩).elim⟩

theorem Normal.neg {x : ℚ} (h : F.Normal x) : F.Normal (-x) := by
  unfold Normal at *; rwa [abs_neg, neg_eq_zero]

/-- A difference of products of the same sign. -/
theorem sub_same (hp : 4 ≤ F.p) {x y : ℚ} (h : 0 ≤ x * y) :
    ∃ d, 0 ≤ d ∧ d ^ 2 ≤ F.u ^ 2 * (5 * (x - y) ^ 2 + 4 * (x * y)) ∧
      |F.roundQ (F.roundQ x - F.roundQ y) - (x - y)| ≤ d + 2 * F.η ∧
      (F.Normal x → F.Normal y → |F.roundQ (F.roundQ x - F.roundQ y) - (x - y)| ≤ d) := by
  rcases mul_nonneg_iff.1 h with ⟨hx, hy⟩ | ⟨hx, hy⟩
  · exact sub_any_pos hp hx hy
  · obtain ⟨d, h1, h2, h3, h4⟩ := sub_any_pos (F := F) hp (neg_nonneg.2 hx) (neg_nonneg.2 hy)
    have e : F.roundQ (F.roundQ (-x) - F.roundQ (-y)) - (-x - -y) = -(F.roundQ (F.roundQ x - F.roundQ y) - (x - y)) := by
      rw [F.roundQ_neg, F.roundQ_neg, show -F.roundQ x - -F.roundQ y = -(F.roundQ x - F.roundQ y) by ring, F.roundQ_neg]; ring
    rw [e, abs_neg] at h3 h4
    exact ⟨d, h1, h2.trans (le_of_eq (by ring)), h3, fun a b => h4 a.neg b.neg⟩

/-- A difference of products of different signs. -/
theorem sub_diff {x y : ℚ} (h : x * y ≤ 0) :
    |F.roundQ (F.roundQ x - F.roundQ y) - (x - y)| ≤ 2 * F.u * |x - y| + 2 * F.η ∧
      (F.Normal x → F.Normal y → |F.roundQ (F.roundQ x - F.roundQ y) - (x - y)| ≤ 2 * F.u * |x - y|) := by
  rcases mul_nonpos_iff.1 h with ⟨hx, hy⟩ | ⟨hx, hy⟩
  · have e : F.roundQ x - F.roundQ y = F.roundQ x + F.roundQ (-y) := by rw [F.roundQ_neg]; ring
    rw [e, show x - y = x + -y by ring, abs_of_nonneg (add_nonneg hx (neg_nonneg.2 hy))]
    exact ⟨add_any hx (neg_nonneg.2 hy), fun a b => add_normal hx (neg_nonneg.2 hy) a b.neg⟩
  · have e : F.roundQ (F.roundQ x - F.roundQ y) - (x - y) = -(F.roundQ (F.roundQ (-x) + F.roundQ y) - (-x + y)) := by
      rw [F.roundQ_neg, show -F.roundQ x + F.roundQ y = -(F.roundQ x - F.roundQ y) by ring, F.roundQ_neg]; ring
    rw [e, abs_neg, abs_sub_comm x, show y - x = -x + y by ring, abs_of_nonneg (add_nonneg (neg_nonneg.2 hx) hy)]
    exact ⟨add_any (neg_nonneg.2 hx) hy, fun a b => add_normal (neg_nonneg.2 hx) hy a.neg b⟩

/-- Both parts of a complex product with the partial products `x`, `y`, `s`, `t`. -/
theorem parts5 (hp : 4 ≤ F.p) {x y s t : ℚ} (h : x * y = s * t) :
    ∃ d e, 0 ≤ d ∧ 0 ≤ e ∧ d ^ 2 + e ^ 2 ≤ 5 * F.u ^ 2 * ((x - y) ^ 2 + (s + t) ^ 2) ∧
      |F.roundQ (F.roundQ x - F.roundQ y) - (x - y)| ≤ d + 2 * F.η ∧
      |F.roundQ (F.roundQ s + F.roundQ t) - (s + t)| ≤ e + 2 * F.η ∧
      (F.Normal x → F.Normal y → F.Normal s → F.Normal t → |F.roundQ (F.roundQ x - F.roundQ y) - (x - y)| ≤ d ∧
        |F.roundQ (F.roundQ s + F.roundQ t) - (s + t)| ≤ e) := by
  have hu := F.u_pos
  have ea : F.roundQ s + F.roundQ t = F.roundQ s - F.roundQ (-t) := by rw [F.roundQ_neg]; ring
  have eb : s + t = s - -t := by ring
  rcases le_total 0 (x * y) with h0 | h0
  · obtain ⟨d, h1, h2, h3, h4⟩ := sub_same (F := F) hp h0
    obtain ⟨h5, h6⟩ := sub_diff (F := F) (x := s) (y := -t) (by linarith)
    rw [← ea, ← eb] at h5 h6
    refine ⟨d, 2 * F.u * |s + t|, h1, by positivity, ?_, h3, h5, fun a b c e => ⟨h4 a b, h6 c e.neg⟩⟩
    rw [mul_pow, sq_abs]
    have : 4 * (x * y) ≤ (s + t) ^ 2 := by nlinarith [sq_nonneg (s - t)]
    have := mul_le_mul_of_nonneg_left this (sq_nonneg F.u)
    linarith
  · obtain ⟨h5, h6⟩ := sub_diff (F := F) h0
    obtain ⟨d, h1, h2, h3, h4⟩ := sub_same (F := F) (x := s) (y := -t) hp (by linarith)
    rw [← ea, ← eb] at h3 h4
    rw [← eb] at h2
    refine ⟨2 * F.u * |x - y|, d, by positivity, h1, ?_, h5, h3, fun a b c e => ⟨h6 a b, h4 c e.neg⟩⟩
    rw [mul_pow, sq_abs]
    have : 4 * (s * -t) ≤ (x - y) ^ 2 := by nlinarith [sq_nonneg (x + y)]
    have := mul_le_mul_of_nonneg_left this (sq_nonneg F.u)
    linarith

end Fmt

end Magnesia
