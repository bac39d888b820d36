import Verif.Proof.CxMul5
import Verif.Proof.IeeeRun
import Verif.Spec.Tree
import Mathlib.Analysis.Normed.Field.Basic

/-!
# Rounding errors of sums that grow linearly (helper lemmas)

After Jeannerod and Rump, *Improved error bounds for inner products in floating-point arithmetic* (2013).
-/

namespace Magnesia

namespace Fmt

variable {F : Fmt}

/-- No floating point number is closer to `x` than the rounded one. -/
theorem roundQ_nearest {x y : ℚ} (hy : F.Representable y) : |F.roundQ x - x| ≤ |y - x| := by
  obtain ⟨⟨m, e, rfl, hm, he⟩, _⟩ := hy
  have hup := F.ulp_pos x
  -- multiples of the unit in the last place
  have key : ∀ n : ℤ, |F.roundQ x - x| ≤ |(n : ℚ) * F.ulp x - x| := by
    intro n
    have h6 := mul_le_mul_of_nonneg_right (rne_nearest (x / F.ulp x) n) hup.le
    rwa [← abs_of_pos hup, ← abs_mul, ← abs_mul, abs_of_pos hup, sub_mul, sub_mul, div_mul_cancel₀ _ hup.ne'] at h6
  by_cases h0 : x = 0
  · subst h0; rw [F.roundQ_zero, sub_self, abs_zero]; exact abs_nonneg _
  rcases le_or_gt (F.ulpExp x) e with h | h
  · obtain ⟨k, hk⟩ : ∃ k : ℕ, e = F.ulpExp x + k := ⟨(e - F.ulpExp x).toNat, by omega⟩
    have := key (m * 2 ^ k)
    rwa [show ((m * 2 ^ k : ℤ) : ℚ) * F.ulp x = m * 2 ^ e by
      rw [hk, ulp, zpow_add₀ (by norm_num), zpow_natCast]; push_cast; ring] at this
  · have hl : F.ulpExp x = Int.log 2 |x| - (F.p - 1) := by
      unfold ulpExp at h ⊢
      rcases max_choice (Int.log 2 |x|) F.emin with h1 | h1 <;> rw [h1] at h ⊢
      omega
    have h1 := zpow_log_le h0
    have h2 : |(m : ℚ) * 2 ^ e| ≤ 2 ^ Int.log 2 |x| := by
      rw [abs_mul, abs_of_pos (by positivity : (0 : ℚ) < 2 ^ e), ← Int.cast_abs]
      have h3 : ((|m| : ℤ) : ℚ) ≤ 2 ^ F.p := by exact_mod_cast hm.le
      calc ((|m| : ℤ) : ℚ) * 2 ^ e ≤ 2 ^ F.p * 2 ^ e := mul_le_mul_of_nonneg_right h3 (by positivity)
        _ = 2 ^ ((F.p : ℤ) + e) := by rw [zpow_add₀ (by norm_num), zpow_natCast]
        _ ≤ _ := zpow_le_zpow_right₀ (by norm_num) (by omega)
    have hp := F.two_le_p
    have h5 : (2 : ℚ) ^ Int.log 2 |x| = 2 ^ (F.p - 1) * F.ulp x := by
      rw [ulp, hl, ← zpow_natCast, ← zpow_add₀ (by norm_num)]
      congr 1; omega
    have h6 : |F.roundQ x - x| ≤ |x| - 2 ^ Int.log 2 |x| := by
      rcases le_total 0 x with h7 | h7
      · have := key (2 ^ (F.p - 1))
        rw [show ((2 ^ (F.p - 1) : ℤ) : ℚ) * F.ulp x = 2 ^ Int.log 2 |x| by rw [h5]; push_cast; ring] at this
        have h8 : |x| = x := abs_of_nonneg h7
        have h9 : |(2 : ℚ) ^ Int.log 2 |x| - x| = -(2 ^ Int.log 2 |x| - x) := abs_of_nonpos (by linarith)
        rw [h9] at this
        linarith
      · have := key (-2 ^ (F.p - 1))
        rw [show ((-2 ^ (F.p - 1) : ℤ) : ℚ) * F.ulp x = -2 ^ Int.log 2 |x| by rw [h5]; push_cast; ring] at this
        have h8 : |x| = -x := abs_of_nonpos h7
        have h9 : |-(2 : ℚ) ^ Int.log 2 |x| - x| = -2 ^ Int.log 2 |x| - x := abs_of_nonneg (by linarith)
        rw [h9] at this
        linarith
    have h7 := abs_sub_abs_le_abs_sub x (m * 2 ^ e)
    rw [abs_sub_comm x] at h7
    linarith

theorem Representable.on_grid {x : ℚ} (h : F.Representable x) : ∃ m : ℤ, x = m * 2 ^ (F.emin - (F.p - 1)) := by
  obtain ⟨⟨m, e, rfl, _, he⟩, _⟩ := h
  obtain ⟨j, hj⟩ : ∃ j : ℕ, e = F.emin - (F.p - 1) + j := ⟨(e - (F.emin - (F.p - 1))).toNat, by omega⟩
  exact ⟨m * 2 ^ j, by rw [hj, zpow_add₀ (by norm_num), zpow_natCast]; push_cast; ring⟩

/-- The two bounds for the error of a sum. -/
theorem add_err_δ {s x : ℚ} (hs : F.Representable s) (hx : F.Representable x) :
    |F.roundQ (s + x) - (s + x)| ≤ F.δ * |s + x| ∧ |F.roundQ (s + x) - (s + x)| ≤ |x| := by
  constructor
  · obtain ⟨m, hm⟩ := hs.on_grid
    obtain ⟨n, hn⟩ := hx.on_grid
    exact roundQ_err_grid (m := m + n) (by rw [hm, hn]; push_cast; ring)
  · refine (roundQ_nearest hs).trans (le_of_eq ?_)
    rw [show s - (s + x) = -x by ring, abs_neg]

end Fmt

/-- `r` approximates `y`, a sum of `n` terms of magnitude at most `Y` in total. -/
structure LinApprox (F : Fmt) (n : ℕ) (Y y r : ℚ) : Prop where
  abs_le : |y| ≤ Y
  err : |r - y| ≤ n * F.u * Y

namespace LinApprox

variable {F : Fmt} {n : ℕ} {Y Z y s x t : ℚ}

theorem mono (h : LinApprox F n Y y s) (hY : Y ≤ Z) : LinApprox F n Z y s :=
  ⟨h.abs_le.trans hY, h.err.trans (mul_le_mul_of_nonneg_left hY (by have := F.u_pos; positivity))⟩

/-- Another term, itself rounded. -/
theorem step (hn : 1 ≤ n) (h : LinApprox F n Y y s) (hs : F.Representable s) (ht : F.Representable t)
    (hx : |t - x| ≤ F.δ * |x|) : LinApprox F (n + 1) (Y + |x|) (y + x) (F.roundQ (s + t)) := by
  have hu := F.u_pos
  have hd := F.δ_pos
  have hm := F.δ_mul
  have hle := F.δ_le
  have htw := F.δ_twice
  refine ⟨(abs_add_le _ _).trans (add_le_add h.abs_le le_rfl), ?_⟩
  obtain ⟨h1, h2⟩ := Fmt.add_err_δ hs ht
  have hY : 0 ≤ Y := (abs_nonneg _).trans h.abs_le
  have hX := abs_nonneg x
  have h3 : |F.roundQ (s + t) - (y + x)| ≤ |F.roundQ (s + t) - (s + t)| + |s - y| + |t - x| := by
    rw [show F.roundQ (s + t) - (y + x) = (F.roundQ (s + t) - (s + t)) + (s - y) + (t - x) by ring]
    exact (abs_add_le _ _).trans (add_le_add (abs_add_le _ _) le_rfl)
  have h4 : |t| ≤ (1 + F.δ) * |x| := by
    have := abs_add_le (t - x) x
    rw [sub_add_cancel] at this
    linarith
  have hn' : (1 : ℚ) ≤ n := by exact_mod_cast hn
  have h5 := h.err
  push_cast
  suffices hτ : |F.roundQ (s + t) - (s + t)| + F.δ * |x| ≤ F.u * Y + (n + 1) * F.u * |x| by nlinarith
  rcases le_or_gt (F.u * Y) ((1 + F.u) * |x|) with hc | hc
  · -- the new term is not small
    have h6 : |s + t| ≤ (1 + n * F.u) * Y + (1 + F.δ) * |x| := by
      have h7 := abs_add_le s t
      have h8 := abs_add_le (s - y) y
      rw [sub_add_cancel] at h8
      linarith [h.abs_le]
    have h7 := mul_le_mul_of_nonneg_left h6 hd.le
    have h8 : F.δ * ((1 + n * F.u) * Y) ≤ F.u * Y + (n - 1) * F.u * |x| := by
      have e : F.δ * ((1 + n * F.u) * Y) = F.δ * (1 + F.u) * Y + (n - 1) * F.δ * (F.u * Y) := by ring
      have h9 := mul_le_mul_of_nonneg_left hc (mul_nonneg (sub_nonneg.2 hn') hd.le)
      have e2 : (n - 1) * F.δ * ((1 + F.u) * |x|) = (n - 1) * (F.δ * (1 + F.u)) * |x| := by ring
      rw [e2, hm] at h9
      rw [e, hm]
      linarith
    have h9 := mul_le_mul_of_nonneg_right htw hX
    have h10 := mul_le_mul_of_nonneg_right hle hX
    nlinarith
  · -- the new term is small
    have h6 := mul_le_mul_of_nonneg_right hle hX
    have h7 : F.u * |x| ≤ n * (F.u * |x|) := le_mul_of_one_le_left (by positivity) hn'
    nlinarith

end LinApprox

/-- The same with absolute errors of at most `D` in total. -/
def LinU (F : Fmt) (n : ℕ) (D Y y r : ℚ) : Prop := ∃ y', |y' - y| ≤ D ∧ LinApprox F n (Y + D) y' r

namespace LinU

variable {F : Fmt} {n : ℕ} {D Y y s x : ℚ}

theorem err (h : LinU F n D Y y s) : |s - y| ≤ n * F.u * Y + (1 + n * F.u) * D := by
  obtain ⟨y', h1, h2⟩ := h
  have h3 := abs_add_le (s - y') (y' - y)
  rw [sub_add_sub_cancel] at h3
  have := h2.err
  linarith

theorem D_nonneg (h : LinU F n D Y y s) : 0 ≤ D := by
  obtain ⟨y', h1, _⟩ := h
  exact (abs_nonneg _).trans h1

/-- The rounded term is a rounding, without underflow, of some number near the exact one. -/
theorem term (F : Fmt) (x : ℚ) :
    ∃ x', |x' - x| ≤ F.η ∧ |F.roundQ x - x'| ≤ F.δ * |x'| := by
  rcases le_or_gt (2 ^ F.emin) |x| with h | h
  · exact ⟨x, by simpa using F.η_pos.le, Fmt.roundQ_err_δ h⟩
  · exact ⟨F.roundQ x, F.roundQ_err_tiny h, by simpa using mul_nonneg F.δ_pos.le (abs_nonneg _)⟩

theorem first (F : Fmt) (x : ℚ) : LinU F 1 F.η |x| x (F.roundQ x) := by
  obtain ⟨x', h1, h2⟩ := term F x
  have h3 : |x'| ≤ |x| + F.η := by
    have := abs_add_le (x' - x) x
    rw [sub_add_cancel] at this
    linarith
  refine ⟨x', h1, h3, h2.trans ?_⟩
  rw [Nat.cast_one, one_mul]
  exact mul_le_mul F.δ_le h3 (abs_nonneg _) F.u_pos.le

theorem step (hn : 1 ≤ n) (h : LinU F n D Y y s) (hs : F.Representable s) (hr : F.Representable (F.roundQ x)) :
    LinU F (n + 1) (D + F.η) (Y + |x|) (y + x) (F.roundQ (s + F.roundQ x)) := by
  obtain ⟨y', h1, h2⟩ := h
  obtain ⟨x', h3, h4⟩ := term F x
  have h5 : |x'| ≤ |x| + F.η := by
    have := abs_add_le (x' - x) x
    rw [sub_add_cancel] at this
    linarith
  refine ⟨y' + x', ?_, (h2.step hn hs hr h4).mono (by linarith)⟩
  have := abs_add_le (y' - y) (x' - x)
  rw [show y' - y + (x' - x) = y' + x' - (y + x) by ring] at this
  linarith

end LinU

variable {F : Fmt}

open RZero ROne MulRefs

/-- A sum of products, from some point on. -/
theorem lin_dot {ι : Type} (f g : ι → Ieee F) : ∀ (l : List ι) (s r : Ieee F) (n : ℕ) (D Y y : ℚ),
    l.foldlM (fun sum i => do
      let prod ← mulRefs (f i) (g i)
      (AddAssignRef.addAssign sum prod).toRes) s = .ok r → r.Finite → 1 ≤ n → LinU F n D Y y s.value →
    LinU F (n + l.length) (D + l.length * F.η) (Y + (l.map fun i => |(f i).value * (g i).value|).sum)
      (y + (l.map fun i => (f i).value * (g i).value).sum) r.value := by
  intro l
  induction l with
  | nil => intro s r n D Y y h _ _ hl; cases pure_ok h; simpa using hl
  | cons a l ih =>
    intro s r n D Y y h hr hn hl
    rw [List.foldlM_cons, dot_step] at h
    obtain ⟨hf, _⟩ := dot_finite f g l _ r h hr
    obtain ⟨h1, h2, h3⟩ := Ieee.add_finite hf
    obtain ⟨_, _, h4⟩ := Ieee.mul_finite h2
    have h5 := hl.step hn (Ieee.value_representable s) (x := (f a).value * (g a).value)
      (by rw [← h4]; exact Ieee.value_representable _)
    rw [← h4, ← h3] at h5
    have := ih _ r (n + 1) _ _ _ h hr (by omega) h5
    rw [List.map_cons, List.map_cons, List.sum_cons, List.sum_cons, List.length_cons, ← add_assoc Y, ← add_assoc y,
      show n + (l.length + 1) = n + 1 + l.length by ring,
      show D + ((l.length + 1 : ℕ) : ℚ) * F.η = D + F.η + l.length * F.η by push_cast; ring]
    exact this

/-- A sum of products, from zero. -/
theorem lin_dot_zero {ι : Type} (f g : ι → Ieee F) (l : List ι) (r : Ieee F)
    (h : l.foldlM (fun sum i => do
      let prod ← mulRefs (f i) (g i)
      (AddAssignRef.addAssign sum prod).toRes) zero = .ok r) (hr : r.Finite) :
    |r.value - (l.map fun i => (f i).value * (g i).value).sum| ≤
      l.length * F.u * (l.map fun i => |(f i).value * (g i).value|).sum + (1 + l.length * F.u) * (l.length * F.η) := by
  cases l with
  | nil => cases pure_ok h; simp [Ieee.value, zero]
  | cons a l =>
    rw [List.foldlM_cons, dot_step] at h
    obtain ⟨hf, _⟩ := dot_finite f g l _ r h hr
    obtain ⟨h1, h2, h3⟩ := Ieee.add_finite hf
    obtain ⟨_, _, h4⟩ := Ieee.mul_finite h2
    have h5 : F.Representable (F.roundQ ((f a).value * (g a).value)) := by rw [← h4]; exact Ieee.value_representable _
    have h6 := LinU.first F ((f a).value * (g a).value)
    rw [show (zero : Ieee F).value = 0 from rfl, zero_add, h4, F.roundQ_representable h5] at h3
    rw [← h3] at h6
    have := (lin_dot f g l _ r 1 _ _ _ h hr le_rfl h6).err
    rw [List.map_cons, List.map_cons, List.sum_cons, List.sum_cons, List.length_cons, add_comm l.length 1]
    rwa [show ((1 + l.length : ℕ) : ℚ) * F.η = F.η + l.length * F.η by push_cast; ring]

/-- The same, starting from the first product. -/
theorem lin_sumTerms {t : ℕ → Res (Ieee F)} {a b : ℕ → Ieee F} : ∀ {n : ℕ} {x : Ieee F},
    (∀ k < n + 1, t k = .ok ((a k).mul (b k))) → Tree.sumTerms t (n + 1) = .ok x → x.Finite →
    LinU F (n + 1) ((n + 1 : ℕ) * F.η) (∑ k ∈ Finset.range (n + 1), |(a k).value * (b k).value|)
      (∑ k ∈ Finset.range (n + 1), (a k).value * (b k).value) x.value := by
  intro n
  induction n with
  | zero =>
    intro x h hx hf
    have hx' : t 0 = .ok x := hx
    rw [h 0 (by omega)] at hx'
    cases hx'
    obtain ⟨_, _, h4⟩ := Ieee.mul_finite hf
    simpa [h4] using LinU.first F ((a 0).value * (b 0).value)
  | succ n ih =>
    intro x h hx hf
    obtain ⟨s, h1, hx⟩ := bind_ok hx
    obtain ⟨y, h2, hx⟩ := bind_ok hx
    rw [h (n + 1) (by omega)] at h2
    cases h2
    rw [show (RAddAssign.addAssign s ((a (n + 1)).mul (b (n + 1)))).toRes =
      (.ok (s.add ((a (n + 1)).mul (b (n + 1)))) : Res (Ieee F)) from rfl] at hx
    cases hx
    obtain ⟨hs, hm, h3⟩ := Ieee.add_finite hf
    obtain ⟨_, _, h4⟩ := Ieee.mul_finite hm
    have h5 := (ih (fun k hk => h k (by omega)) h1 hs).step (by omega) (Ieee.value_representable s)
      (x := (a (n + 1)).value * (b (n + 1)).value) (by rw [← h4]; exact Ieee.value_representable _)
    rw [← h4, ← h3, ← Finset.sum_range_succ (fun k => |(a k).value * (b k).value|),
      ← Finset.sum_range_succ (fun k => (a k).value * (b k).value),
      show ((n + 1 : ℕ) : ℚ) * F.η + F.η = ((n + 1 + 1 : ℕ) : ℚ) * F.η by push_cast; ring] at h5
    exact h5

/-! ## Complex numbers -/

/-- `r` approximates `y`, a sum of `n + 1` terms of norm at most `Y` in total. -/
structure LinN (n : ℕ) (u : ℝ) {K : Type} [NormedAddCommGroup K] (Y : ℝ) (y r : K) : Prop where
  norm_le : ‖y‖ ≤ Y
  err : ‖r - y‖ ≤ n * u * Y

theorem LinN.step {K : Type} [NormedAddCommGroup K] {n : ℕ} {u Y : ℝ} {y s x t : K} (hu : 0 ≤ u) (h : LinN n u Y y s)
    (h1 : ‖t - (s + x)‖ ≤ u * ‖s + x‖) (h2 : ‖t - (s + x)‖ ≤ ‖x‖) : LinN (n + 1) u (Y + ‖x‖) (y + x) t := by
  refine ⟨(norm_add_le _ _).trans (add_le_add h.norm_le le_rfl), ?_⟩
  have h3 : ‖t - (y + x)‖ ≤ ‖t - (s + x)‖ + ‖s - y‖ := by
    rw [show t - (y + x) = (t - (s + x)) + (s - y) by abel]; exact norm_add_le _ _
  have h4 : ‖s + x‖ ≤ ‖s - y‖ + Y + ‖x‖ := by
    rw [show s + x = (s - y) + y + x by abel]
    exact (norm_add_le _ _).trans (add_le_add ((norm_add_le _ _).trans (add_le_add le_rfl h.norm_le)) le_rfl)
  have hY : 0 ≤ Y := (norm_nonneg _).trans h.norm_le
  have hX := norm_nonneg x
  have h5 := h.err
  push_cast
  rcases le_or_gt (u * Y) ‖x‖ with hc | hc
  · have h6 := mul_le_mul_of_nonneg_left (h4.trans (add_le_add (add_le_add h5 le_rfl) le_rfl)) hu
    have h7 := mul_le_mul_of_nonneg_left hc (mul_nonneg (Nat.cast_nonneg n : (0 : ℝ) ≤ n) hu)
    nlinarith
  · have h6 : 0 ≤ (n + 1) * u * ‖x‖ := by positivity
    nlinarith

end Magnesia
