import Verif.Spec.Ackley
import Verif.Model.SReal
import Verif.Props.Libm
import Verif.Props.IeeeSpecial
import Mathlib.Analysis.Real.Pi.Bounds
import Mathlib.Analysis.Complex.ExponentialBounds

/-!
# Property C60: the Ackley function in single precision
-/

namespace Magnesia

open RZero ROne AckleyLib

/-! ### Rounded operations on numbers of moderate size -/

namespace Ieee

variable {F : Fmt}

theorem mul_moderate {a b : Ieee F} {k : ℤ} (ha : a.Finite) (hb : b.Finite) (hk : F.emin ≤ k) (hk' : k ≤ F.emax)
    (h : |a.value * b.value| ≤ 2 ^ k) : (a.mul b).Finite ∧ (a.mul b).value = F.roundQ (a.value * b.value) := by
  have hf : (a.mul b).Finite := (mul_finite_iff ha hb).2
    ((F.abs_roundQ_le hk h).trans_lt (zpow_lt_zpow_right₀ (by norm_num) (by omega)))
  exact ⟨hf, (mul_finite hf).2.2⟩

theorem add_moderate {a b : Ieee F} {k : ℤ} (ha : a.Finite) (hb : b.Finite) (hk : F.emin ≤ k) (hk' : k ≤ F.emax)
    (h : |a.value + b.value| ≤ 2 ^ k) : (a.add b).Finite ∧ (a.add b).value = F.roundQ (a.value + b.value) := by
  have hf : (a.add b).Finite := (add_finite_iff ha hb).2
    ((F.abs_roundQ_le hk h).trans_lt (zpow_lt_zpow_right₀ (by norm_num) (by omega)))
  exact ⟨hf, (add_finite hf).2.2⟩

theorem sub_moderate {a b : Ieee F} {k : ℤ} (ha : a.Finite) (hb : b.Finite) (hk : F.emin ≤ k) (hk' : k ≤ F.emax)
    (h : |a.value - b.value| ≤ 2 ^ k) : (a.sub b).Finite ∧ (a.sub b).value = F.roundQ (a.value - b.value) := by
  have hf : (a.sub b).Finite := (sub_finite_iff ha hb).2
    ((F.abs_roundQ_le hk h).trans_lt (zpow_lt_zpow_right₀ (by norm_num) (by omega)))
  exact ⟨hf, (sub_finite hf).2.2⟩

theorem pos_mul_nonNeg {a b : Ieee F} (ha : a.Finite) (h : 0 < a.value) (hb : b.NonNeg) : (a.mul b).NonNeg := by
  rcases hb with rfl | ⟨hb, hb0⟩
  · cases a with
    | fin x h0 hr => left; show inf (xor (decide (x < 0)) false) = _; rw [decide_eq_false (show ¬ x < 0 from not_lt.2 h.le)]; rfl
    | _ => first | exact ha.elim | exact absurd h (lt_irrefl _)
  · by_cases hf : (a.mul b).Finite
    · exact .inr ⟨hf, by rw [(mul_finite hf).2.2]; exact F.roundQ_nonneg (by positivity)⟩
    · by_cases h0 : b.value = 0
      · exact (hf (mul_zero_value ha hb (.inr h0)).1).elim
      · rw [mul_fin h.ne' h0]; exact round_nonneg (by positivity)

theorem neg_mul_le {a b : Ieee F} (ha : a.Finite) (h : a.value < 0) (hb : b.NonNeg) : fle (a.mul b) (.zero false) = true := by
  have h1 : (a.neg.mul b).NonNeg := pos_mul_nonNeg (neg_finite.2 ha) (by rw [neg_value]; linarith) hb
  rw [neg_mul] at h1
  have h2 := nonneg_iff.2 h1
  generalize a.mul b = c at h2
  cases c with
  | nan => simp [fle, key, neg] at h2
  | inf s => cases s <;> simp [fle, key, neg] at h2 ⊢
  | zero s => simp [fle, key]
  | fin x h0 hr => simp [fle, key, neg] at h2 ⊢; exact h2

end Ieee

namespace AckleyLib

theorem lit_half : (lit (5 / 10)).Finite ∧ (lit (5 / 10)).value = 1 / 2 := by decide +kernel
theorem lit_two : (lit 2).Finite ∧ (lit 2).value = 2 := by decide +kernel
theorem lit_m20 : (lit (-20)).Finite ∧ (lit (-20)).value = -20 := by decide +kernel
theorem lit_m02 : (lit (-2 / 10)).Finite ∧ (lit (-2 / 10)).value = -13421773 / 67108864 := by decide +kernel
theorem E_value : E.Finite ∧ E.value = 2850325 / 1048576 := by decide +kernel
theorem two_pi_value : ((lit 2).mul PI).Finite ∧ ((lit 2).mul PI).value = 13176795 / 2097152 := by decide +kernel

end AckleyLib

variable (L : AckleyLib)

/-! ### Symmetries and the origin -/

/-- C60: the arguments can be exchanged, with the same result to the last bit, whatever the library. -/
theorem C60_swap (x y : Ieee .f32) : ackley L x y = ackley L y x := by
  unfold ackley
  rw [Ieee.add_comm (x.mul x), Ieee.add_comm (L.cos _)]

/-- C60: the sign of each argument does not matter, to the last bit. -/
theorem C60_neg (h : L.Sane) (x y : Ieee .f32) :
    ackley L x.neg y = ackley L x y ∧ ackley L x y.neg = ackley L x y := by
  have hs : ∀ a : Ieee .f32, a.neg.mul a.neg = a.mul a := fun a => by rw [Ieee.neg_mul, Ieee.mul_neg, Ieee.neg_neg]
  unfold ackley
  constructor <;> rw [hs, Ieee.mul_neg, h.cos_even]

/-- C60: the value at the origin is `+0`, for all signs of the zeros. -/
theorem C60_origin (h : L.Sane) (s t : Bool) : ackley L (.zero s) (.zero t) = .zero false := by
  have h1 : ∀ b : Bool, ((lit 2).mul PI).mul (.zero b) = .zero b := by decide +kernel
  have h2 : (lit (5 / 10)).mul ((one : Ieee .f32).add one) = one := by decide +kernel
  have h3 : ∀ s t : Bool, (lit (-2 / 10)).mul ((lit (5 / 10)).mul
      (((Ieee.zero s : Ieee .f32).mul (.zero s)).add ((Ieee.zero t).mul (.zero t)))).sqrt = .zero true := by decide +kernel
  unfold ackley
  rw [h1, h1, h.cos_zero, h.cos_zero, h2, h.exp_one, h3, h.expM1_zero]
  decide +kernel

/-- C60 (finding): the minimum is not unique in `f32`. Where the squares of the coordinates underflow and the cosines
round to one, the value is `+0` as well. -/
theorem C60_flat (h : L.Sane) (x y : Ieee .f32) (hx : x.Finite) (hy : y.Finite) (hx' : |x.value| ≤ 2 ^ (-76 : ℤ))
    (hy' : |y.value| ≤ 2 ^ (-76 : ℤ)) (hc : L.cos (((lit 2).mul PI).mul x) = one)
    (hd : L.cos (((lit 2).mul PI).mul y) = one) : ackley L x y = .zero false := by
  have hsq : ∀ a : Ieee .f32, a.Finite → |a.value| ≤ 2 ^ (-76 : ℤ) → a.mul a = .zero false := by
    intro a ha ha'
    rw [Ieee.sq_eq_round ha]
    have h1 : a.value ^ 2 ≤ (2 : ℚ) ^ (-152 : ℤ) := by
      rw [← sq_abs, show (2 : ℚ) ^ (-152 : ℤ) = (2 ^ (-76 : ℤ)) ^ 2 by rw [← zpow_natCast, ← zpow_mul]; norm_num]
      exact pow_le_pow_left₀ (abs_nonneg _) ha' 2
    have h2 : Fmt.f32.roundQ ((2 : ℚ) ^ (-152 : ℤ)) = 0 := by decide +kernel
    have h3 : Fmt.f32.roundQ (a.value ^ 2) = 0 := le_antisymm (by rw [← h2]; exact Fmt.f32.roundQ_mono h1)
      (Fmt.f32.roundQ_nonneg (sq_nonneg _))
    unfold Ieee.round
    rw [dif_pos h3, decide_eq_false (not_lt.2 (sq_nonneg _))]
  have h2 : (lit (5 / 10)).mul ((one : Ieee .f32).add one) = one := by decide +kernel
  have h3 : (lit (-2 / 10)).mul ((lit (5 / 10)).mul ((Ieee.zero false : Ieee .f32).add (.zero false))).sqrt = .zero true := by
    decide +kernel
  unfold ackley
  rw [hc, hd, hsq x hx hx', hsq y hy hy', h2, h.exp_one, h3, h.expM1_zero]
  decide +kernel

/-! ### Range -/

/-- The two terms of the function. -/
theorem ackley_terms (h : L.Sane) (x y : Ieee .f32) (hx : (((lit 2).mul PI).mul x).Finite)
    (hy : (((lit 2).mul PI).mul y).Finite) : ∃ t f : Ieee .f32, ackley L x y = t.sub f ∧ t.Finite ∧ 0 ≤ t.value ∧ t.value ≤ 20 ∧
      f.Finite ∧ -E.value ≤ f.value ∧ f.value ≤ 0 := by
  refine ⟨_, _, rfl, ?_⟩
  have fx := (Ieee.mul_finite hx).2.1
  have fy := (Ieee.mul_finite hy).2.1
  have nx : x ≠ .nan := by rintro rfl; exact fx
  have ny : y ≠ .nan := by rintro rfl; exact fy
  have hr := Ieee.sqrt_nonNeg (Ieee.pos_mul_nonNeg lit_half.1 (by rw [lit_half.2]; norm_num)
    (Ieee.add_nonNeg (Ieee.sq_nonNeg nx) (Ieee.sq_nonNeg ny)))
  obtain ⟨m1, m2, m3⟩ := h.expM1_range _ (Ieee.neg_mul_le lit_m02.1 (by rw [lit_m02.2]; norm_num) hr)
  generalize L.expM1 _ = m at m1 m2 m3
  obtain ⟨t1, t2⟩ := Ieee.mul_moderate (k := 5) lit_m20.1 m1 (by decide) (by decide)
    (by rw [lit_m20.2, abs_le]; constructor <;> norm_num <;> linarith)
  rw [lit_m20.2] at t2
  have r20 : Fmt.f32.Representable 20 := ⟨⟨20, 0, by norm_num, by decide, by decide⟩, by norm_num [Fmt.f32]⟩
  obtain ⟨c1, c2⟩ := h.cos_range _ hx
  obtain ⟨d1, d2⟩ := h.cos_range _ hy
  generalize L.cos (((lit 2).mul PI).mul x) = c at c1 c2
  generalize L.cos (((lit 2).mul PI).mul y) = d at d1 d2
  obtain ⟨c3, c4⟩ := abs_le.1 c2
  obtain ⟨d3, d4⟩ := abs_le.1 d2
  have hs : |c.value + d.value| ≤ 2 ^ (1 : ℤ) := by rw [abs_le]; constructor <;> norm_num <;> linarith
  obtain ⟨s1, s2⟩ := Ieee.add_moderate (k := 1) c1 d1 (by decide) (by decide) hs
  have s3 := Fmt.f32.abs_roundQ_le (f := 1) (by decide) hs
  rw [← s2] at s3
  generalize c.add d = s at s1 s2 s3
  have hg : |(lit (5 / 10)).value * s.value| ≤ 2 ^ (0 : ℤ) := by
    rw [lit_half.2, abs_mul]; norm_num at s3 ⊢; linarith
  obtain ⟨g1, g2⟩ := Ieee.mul_moderate (k := 0) lit_half.1 s1 (by decide) (by decide) hg
  have g3 := Fmt.f32.abs_roundQ_le (f := 0) (by decide) hg
  rw [← g2, zpow_zero] at g3
  obtain ⟨e1, e2, e3⟩ := h.exp_range _ g1 g3
  generalize L.exp _ = e at e1 e2 e3
  have hE := E_value
  obtain ⟨f1, f2⟩ := Ieee.sub_moderate (k := 2) e1 hE.1 (by decide) (by decide)
    (by have := hE.2; rw [abs_le]; constructor <;> norm_num <;> linarith)
  refine ⟨t1, ?_, ?_, f1, ?_, ?_⟩
  · rw [t2]; exact Fmt.f32.roundQ_nonneg (by linarith)
  · rw [t2]; exact Fmt.f32.roundQ_le_of_representable r20 (by linarith)
  · rw [f2]; exact Fmt.f32.le_roundQ_of_representable (Fmt.f32.representable_neg (Ieee.value_representable E)) (by linarith)
  · rw [f2]; exact Fmt.f32.roundQ_le_of_representable (Ieee.Fmt.representable_zero Fmt.f32) (by linarith)

/-- C60: whenever `2π x` and `2π y` do not overflow, the result is a number between zero and `20 + e` rounded to `f32` (even
if `x * x` overflows). -/
theorem C60_range (h : L.Sane) (x y : Ieee .f32) (hx : (((lit 2).mul PI).mul x).Finite)
    (hy : (((lit 2).mul PI).mul y).Finite) :
    (ackley L x y).Finite ∧ 0 ≤ (ackley L x y).value ∧ (ackley L x y).value ≤ ((lit 20).add E).value := by
  obtain ⟨t, f, e, t1, t2, t3, f1, f2, f3⟩ := ackley_terms L h x y hx hy
  rw [e]
  have hE := E_value
  obtain ⟨r1, r2⟩ := Ieee.sub_moderate (k := 5) t1 f1 (by decide) (by decide)
    (by have := hE.2; rw [abs_le]; constructor <;> norm_num <;> linarith)
  have h20 : (lit 20).Finite ∧ (lit 20).value = 20 := by decide +kernel
  have hm : ((lit 20).add E).value = Fmt.f32.roundQ (20 + E.value) := by decide +kernel
  refine ⟨r1, ?_, ?_⟩
  · rw [r2]; exact Fmt.f32.roundQ_nonneg (by linarith)
  · rw [r2, hm]; exact Fmt.f32.roundQ_mono (by linarith)

/-- C60: the bound in numbers. -/
theorem C60_max : ((lit 20).add E).value = 5955461 / 262144 ∧ (5955461 / 262144 : ℚ) < 22.71829 := by
  constructor
  · decide +kernel
  · norm_num

/-- C60: if `2π x` or `2π y` overflows, or an argument is infinite or NaN, the result is NaN. -/
theorem C60_nan (h : L.Sane) (x y : Ieee .f32)
    (hxy : ¬ (((lit 2).mul PI).mul x).Finite ∨ ¬ (((lit 2).mul PI).mul y).Finite) : ackley L x y = .nan := by
  unfold ackley
  rcases hxy with hx | hy
  · rw [h.cos_undefined _ hx, Ieee.nan_add, Ieee.mul_nan, h.exp_nan, Ieee.nan_sub, Ieee.sub_nan]
  · rw [h.cos_undefined _ hy, Ieee.add_nan, Ieee.mul_nan, h.exp_nan, Ieee.nan_sub, Ieee.sub_nan]

/-- C60: the origin is a global minimum also in `f32`: no point has a smaller value. -/
theorem C60_minimum (h : L.Sane) (x y : Ieee .f32) (s t : Bool) :
    Ieee.flt (ackley L x y) (ackley L (.zero s) (.zero t)) = false := by
  rw [C60_origin L h]
  by_cases hxy : (((lit 2).mul PI).mul x).Finite ∧ (((lit 2).mul PI).mul y).Finite
  · obtain ⟨h1, h2, _⟩ := C60_range L h x y hxy.1 hxy.2
    rw [Bool.eq_false_iff, Ne, Ieee.flt_value h1 (show (Ieee.zero false : Ieee .f32).Finite from trivial)]
    exact not_lt.2 h2
  · rw [C60_nan L h x y (by tauto)]; rfl

/-! ### Accuracy -/

/-- Rounding error of a number of moderate size, in reals. -/
theorem rnd_err {x : ℚ} {y B : ℝ} {M : ℝ} (h : |(x : ℝ) - y| ≤ B) (hM : |(x : ℝ)| ≤ M) :
    |((Fmt.f32.roundQ x : ℚ) : ℝ) - y| ≤ B + M / 2 ^ 24 + 1 / 2 ^ 100 := by
  have h1 := Fmt.f32.roundQ_err_any x
  have h2 : |((Fmt.f32.roundQ x : ℚ) : ℝ) - x| ≤ (Fmt.f32.u : ℚ) * |(x : ℝ)| + (Fmt.f32.η : ℚ) := by exact_mod_cast h1
  have h3 : ((Fmt.f32.u : ℚ) : ℝ) = 1 / 2 ^ 24 := by norm_num [Fmt.u, Fmt.f32]
  have h4 : ((Fmt.f32.η : ℚ) : ℝ) ≤ 1 / 2 ^ 100 := by norm_num [Fmt.η, Fmt.emin, Fmt.f32]
  have h5 := abs_add_le (((Fmt.f32.roundQ x : ℚ) : ℝ) - x) ((x : ℝ) - y)
  rw [sub_add_sub_cancel] at h5
  rw [h3] at h2
  have : 1 / 2 ^ 24 * |(x : ℝ)| ≤ M / 2 ^ 24 := by rw [one_div_mul_eq_div]; gcongr
  linarith

theorem exp_sub_le {a b : ℝ} (ha : a ≤ 0) (hb : b ≤ 0) : |Real.exp a - Real.exp b| ≤ |a - b| := by
  wlog h : b ≤ a generalizing a b
  · rw [abs_sub_comm, abs_sub_comm a]; exact this hb ha (le_of_not_ge h)
  rw [abs_of_nonneg (sub_nonneg.2 (Real.exp_le_exp.2 h)), abs_of_nonneg (sub_nonneg.2 h)]
  have h1 : Real.exp b = Real.exp a * Real.exp (b - a) := by rw [← Real.exp_add]; congr 1; ring
  have h2 := Real.add_one_le_exp (b - a)
  have h3 : Real.exp a ≤ 1 := Real.exp_le_one_iff.2 ha
  have h4 := Real.exp_pos a
  rw [h1]
  nlinarith

theorem exp_sub_le_of_le {a b c : ℝ} (ha : a ≤ c) (hb : b ≤ c) : |Real.exp a - Real.exp b| ≤ Real.exp c * |a - b| := by
  have h := exp_sub_le (a := a - c) (b := b - c) (by linarith) (by linarith)
  have h1 : ∀ t : ℝ, Real.exp t = Real.exp c * Real.exp (t - c) := fun t => by rw [← Real.exp_add]; congr 1; ring
  rw [h1 a, h1 b, ← mul_sub, abs_mul, abs_of_pos (Real.exp_pos c)]
  rw [show a - c - (b - c) = a - b by ring] at h
  exact mul_le_mul_of_nonneg_left h (Real.exp_pos c).le

theorem cos_sub_le (a b : ℝ) : |Real.cos a - Real.cos b| ≤ |a - b| := by
  rw [Real.cos_sub_cos, abs_mul, abs_mul]
  have h1 : |Real.sin ((a + b) / 2)| ≤ 1 := Real.abs_sin_le_one _
  have h2 : |Real.sin ((a - b) / 2)| ≤ |(a - b) / 2| := Real.abs_sin_le_abs
  rw [abs_div] at h2
  norm_num at h2 ⊢
  nlinarith [abs_nonneg (Real.sin ((a + b) / 2)), abs_nonneg (Real.sin ((a - b) / 2))]

/-- The cosine terms. -/
theorem ackley_cos {ε θ B : ℝ} (hε : 0 ≤ ε) (h : L.Accurate ε θ) (x : Ieee .f32) (hx : x.Finite) (hB : 5 ≤ B) (hB' : B ≤ 64)
    (hxB : |(x.value : ℝ)| ≤ B) :
    (((lit 2).mul PI).mul x).Finite ∧ (L.cos (((lit 2).mul PI).mul x)).Finite ∧
    |((L.cos (((lit 2).mul PI).mul x)).value : ℝ) - Real.cos (2 * Real.pi * x.value)| ≤ 9.5 * B / 2 ^ 24 + ε + θ := by
  have hp := two_pi_value
  have hm : |((((lit 2).mul PI).value * x.value : ℚ) : ℝ)| ≤ 6.284 * B := by
    rw [hp.2]; push_cast; rw [abs_mul, abs_of_pos (by norm_num)]
    have := abs_nonneg (x.value : ℝ)
    norm_num
    linarith
  obtain ⟨q1, q2⟩ := Ieee.mul_moderate (k := 9) hp.1 hx (by decide) (by decide) (by
    have : |((((lit 2).mul PI).value * x.value : ℚ) : ℝ)| ≤ ((2 ^ (9 : ℤ) : ℚ) : ℝ) := hm.trans (by norm_num; linarith)
    exact_mod_cast this)
  obtain ⟨c1, c2⟩ := h.cos _ q1
  refine ⟨q1, c1, ?_⟩
  have e1 : |(((((lit 2).mul PI).value * x.value : ℚ)) : ℝ) - 2 * Real.pi * x.value| ≤ 3 / 2 ^ 24 * B := by
    rw [hp.2]
    push_cast
    rw [← sub_mul, abs_mul]
    have a1 := Real.pi_gt_d20
    have a2 := Real.pi_lt_d20
    have a3 : |(13176795 : ℝ) / 2097152 - 2 * Real.pi| ≤ 3 / 2 ^ 24 := by
      rw [abs_le]; constructor <;> norm_num at a1 a2 ⊢ <;> linarith
    exact mul_le_mul a3 hxB (abs_nonneg _) (by positivity)
  have e2 := rnd_err e1 hm
  rw [← q2] at e2
  have e3 := (cos_sub_le _ _).trans e2
  have e4 := abs_add_le (((L.cos (((lit 2).mul PI).mul x)).value : ℝ) - Real.cos (((lit 2).mul PI).mul x).value)
    (Real.cos (((lit 2).mul PI).mul x).value - Real.cos (2 * Real.pi * x.value))
  rw [sub_add_sub_cancel] at e4
  have e5 : ε * |Real.cos (((lit 2).mul PI).mul x).value| ≤ ε * 1 := mul_le_mul_of_nonneg_left (Real.abs_cos_le_one _) hε
  norm_num at e3 ⊢
  linarith

theorem cast_abs_le {q : ℚ} {k : ℤ} {M : ℝ} (h : |(q : ℝ)| ≤ M) (hM : M ≤ 2 ^ k) : |q| ≤ 2 ^ k := by
  have : ((|q| : ℚ) : ℝ) ≤ ((2 ^ k : ℚ) : ℝ) := by push_cast; exact h.trans hM
  exact_mod_cast this

theorem abs_le_of_near {a b M e : ℝ} (h : |a - b| ≤ e) (hb : |b| ≤ M) : |a| ≤ M + e := by
  have := abs_add_le (a - b) b
  rw [sub_add_cancel] at this
  linarith

/-- The second term. -/
theorem ackley_second {ε θ B : ℝ} (hε : 0 ≤ ε) (hθ : 0 ≤ θ) (hs : ε + θ ≤ 1 / 2 ^ 10) (h : L.Accurate ε θ) (x y : Ieee .f32)
    (hx : x.Finite) (hy : y.Finite) (hB : 5 ≤ B) (hB' : B ≤ 64) (hx5 : |(x.value : ℝ)| ≤ B) (hy5 : |(y.value : ℝ)| ≤ B) :
    let f := (L.exp ((lit (5 / 10)).mul ((L.cos (((lit 2).mul PI).mul x)).add (L.cos (((lit 2).mul PI).mul y))))).sub E
    f.Finite ∧ |(f.value : ℝ) - (Real.exp (0.5 * (Real.cos (2 * Real.pi * x.value) + Real.cos (2 * Real.pi * y.value)))
      - Real.exp 1)| ≤ (26.3 * B + 11) / 2 ^ 24 + 6 * (ε + θ) := by
  intro f
  obtain ⟨_, c1, c2⟩ := ackley_cos L hε h x hx hB hB' hx5
  obtain ⟨_, d1, d2⟩ := ackley_cos L hε h y hy hB hB' hy5
  have bc := Real.abs_cos_le_one (2 * Real.pi * x.value)
  have bd := Real.abs_cos_le_one (2 * Real.pi * y.value)
  revert f
  generalize L.cos (((lit 2).mul PI).mul x) = c at c1 c2
  generalize L.cos (((lit 2).mul PI).mul y) = d at d1 d2
  generalize Real.cos (2 * Real.pi * x.value) = C at *
  generalize Real.cos (2 * Real.pi * y.value) = D at *
  intro f
  -- the sum
  have s0 : |((c.value + d.value : ℚ) : ℝ) - (C + D)| ≤ 19 * B / 2 ^ 24 + 2 * (ε + θ) := by
    push_cast
    have := abs_add_le ((c.value : ℝ) - C) ((d.value : ℝ) - D)
    rw [show (c.value : ℝ) - C + (d.value - D) = c.value + d.value - (C + D) by ring] at this
    norm_num at c2 d2 ⊢
    linarith
  have bCD : |C + D| ≤ 2 := (abs_add_le _ _).trans (by linarith)
  have s1 : |((c.value + d.value : ℚ) : ℝ)| ≤ 2.01 := (abs_le_of_near s0 bCD).trans (by norm_num at hs ⊢; linarith)
  obtain ⟨s2, s3⟩ := Ieee.add_moderate (k := 2) c1 d1 (by decide) (by decide) (cast_abs_le s1 (by norm_num))
  have s4 := rnd_err s0 s1
  rw [← s3] at s4
  revert f
  generalize c.add d = s at s2 s3 s4
  intro f
  -- half of it
  have g0 : |(((lit (5 / 10)).value * s.value : ℚ) : ℝ) - 0.5 * (C + D)| ≤ (9.5 * B + 1.01) / 2 ^ 24 + (ε + θ) := by
    rw [lit_half.2]
    push_cast
    rw [show (1 : ℝ) / 2 * s.value - 0.5 * (C + D) = (s.value - (C + D)) / 2 by norm_num; ring, abs_div]
    norm_num at s4 ⊢
    linarith
  have bh : |0.5 * (C + D)| ≤ 1 := by rw [abs_mul]; norm_num; linarith
  have g1 : |(((lit (5 / 10)).value * s.value : ℚ) : ℝ)| ≤ 1.01 := (abs_le_of_near g0 bh).trans (by norm_num at hs ⊢; linarith)
  obtain ⟨g2, g3⟩ := Ieee.mul_moderate (k := 1) lit_half.1 s2 (by decide) (by decide) (cast_abs_le g1 (by norm_num))
  have g4 := rnd_err g0 g1
  rw [← g3] at g4
  revert f
  generalize (lit (5 / 10)).mul s = g at g2 g3 g4
  intro f
  -- the exponential
  have g5 : |(g.value : ℝ)| ≤ 1.01 := (abs_le_of_near g4 bh).trans (by norm_num at hs ⊢; linarith)
  obtain ⟨e1, e2⟩ := h.exp g g2 (by
    have : ((|g.value| : ℚ) : ℝ) ≤ ((2 : ℚ) : ℝ) := by push_cast; linarith
    exact_mod_cast this)
  have hexp : Real.exp 1.01 ≤ 2.76 := by
    have h1 : Real.exp 1.01 = Real.exp 1 * Real.exp 0.01 := by rw [← Real.exp_add]; norm_num
    have h2 : Real.exp 0.01 ≤ 1 / (1 - 0.01) := by
      have h3 := Real.add_one_le_exp (-0.01 : ℝ)
      rw [Real.exp_neg] at h3
      have h4 := Real.exp_pos (0.01 : ℝ)
      rw [le_div_iff₀ (by norm_num)]
      have h5 : Real.exp 0.01 * (Real.exp 0.01)⁻¹ = 1 := mul_inv_cancel₀ h4.ne'
      nlinarith
    rw [h1]
    have h3 := Real.exp_one_lt_d9
    have h4 := Real.exp_pos (0.01 : ℝ)
    norm_num at h2 h3 ⊢
    nlinarith
  have e3 := exp_sub_le_of_le (a := g.value) (b := 0.5 * (C + D)) (c := 1.01) (le_of_abs_le g5) ((le_of_abs_le bh).trans (by norm_num))
  have e4 : Real.exp g.value ≤ 2.76 := (Real.exp_le_exp.2 (le_of_abs_le g5)).trans hexp
  rw [abs_of_pos (Real.exp_pos _)] at e2
  have e5 : Real.exp (1.01 : ℝ) * |(g.value : ℝ) - 0.5 * (C + D)| ≤ 2.76 * ((9.5 * B + 2.03) / 2 ^ 24 + (ε + θ)) :=
    mul_le_mul hexp (by norm_num at g4 ⊢; linarith) (abs_nonneg _) (by norm_num)
  have e6 : ε * Real.exp g.value ≤ ε * 2.76 := mul_le_mul_of_nonneg_left e4 hε
  have e7 : |((L.exp g).value : ℝ) - Real.exp (0.5 * (C + D))| ≤ (26.3 * B + 5.7) / 2 ^ 24 + 5.6 * (ε + θ) := by
    have := abs_add_le (((L.exp g).value : ℝ) - Real.exp g.value) (Real.exp g.value - Real.exp (0.5 * (C + D)))
    rw [sub_add_sub_cancel] at this
    norm_num at e5 ⊢
    linarith
  have e8 : Real.exp (0.5 * (C + D)) ≤ 2.72 := by
    have := Real.exp_le_exp.2 (show 0.5 * (C + D) ≤ 1 from le_of_abs_le bh)
    have h3 := Real.exp_one_lt_d9
    norm_num at h3 ⊢; linarith
  have e9 := Real.exp_pos (0.5 * (C + D))
  -- minus e
  have hE := E_value
  have k0 : |(((L.exp g).value - E.value : ℚ) : ℝ) - (Real.exp (0.5 * (C + D)) - Real.exp 1)| ≤ (26.3 * B + 7.7) / 2 ^ 24 + 5.6 * (ε + θ) := by
    have a1 := Real.exp_one_gt_d9
    have a2 := Real.exp_one_lt_d9
    have a3 : |Real.exp 1 - E.value| ≤ 2 / 2 ^ 24 := by
      rw [hE.2, abs_le]; push_cast; constructor <;> norm_num at a1 a2 ⊢ <;> linarith
    have := abs_add_le (((L.exp g).value : ℝ) - Real.exp (0.5 * (C + D))) (Real.exp 1 - E.value)
    rw [show ((L.exp g).value : ℝ) - Real.exp (0.5 * (C + D)) + (Real.exp 1 - E.value) =
      (L.exp g).value - E.value - (Real.exp (0.5 * (C + D)) - Real.exp 1) by ring] at this
    push_cast
    norm_num at e7 a3 ⊢
    linarith
  have bk : |Real.exp (0.5 * (C + D)) - Real.exp 1| ≤ 2.72 := by
    have a1 := Real.exp_one_gt_d9
    have a2 := Real.exp_one_lt_d9
    rw [abs_le]; constructor <;> norm_num at a1 a2 e8 ⊢ <;> linarith
  have k1 : |(((L.exp g).value - E.value : ℚ) : ℝ)| ≤ 2.73 := (abs_le_of_near k0 bk).trans (by norm_num at hs ⊢; linarith)
  obtain ⟨k2, k3⟩ := Ieee.sub_moderate (k := 2) e1 hE.1 (by decide) (by decide) (cast_abs_le k1 (by norm_num))
  have k4 := rnd_err k0 k1
  rw [← k3] at k4
  refine ⟨k2, k4.trans ?_⟩
  norm_num
  linarith

theorem f32_err (x : ℚ) : |((Fmt.f32.roundQ x : ℚ) : ℝ) - x| ≤ 1 / 2 ^ 24 * |(x : ℝ)| + 1 / 2 ^ 142 := by
  have h1 := Fmt.f32.roundQ_err_any x
  have h2 : |((Fmt.f32.roundQ x : ℚ) : ℝ) - x| ≤ (Fmt.f32.u : ℚ) * |(x : ℝ)| + (Fmt.f32.η : ℚ) := by exact_mod_cast h1
  have h3 : ((Fmt.f32.u : ℚ) : ℝ) = 1 / 2 ^ 24 := by norm_num [Fmt.u, Fmt.f32]
  have h4 : ((Fmt.f32.η : ℚ) : ℝ) ≤ 1 / 2 ^ 142 := by norm_num [Fmt.η, Fmt.emin, Fmt.f32]
  rw [h3] at h2
  linarith

/-- The rounded half of the rounded sum of the rounded squares. -/
theorem half_sum_err {A B P Q S H u η : ℝ} (hu : 0 ≤ u) (hu1 : u ≤ 1 / 100) (hη : 0 ≤ η)
    (hP : |P - A| ≤ u * A + η) (hQ : |Q - B| ≤ u * B + η)
    (hS : |S - (P + Q)| ≤ u * (P + Q) + η) (hH : |H - S / 2| ≤ u * (S / 2) + η) :
    H ≤ (1 + u) ^ 3 * ((A + B) / 2) + 3 * η ∧ (1 - u) ^ 3 * ((A + B) / 2) - 3 * η ≤ H := by
  obtain ⟨p1, p2⟩ := abs_le.1 hP
  obtain ⟨q1, q2⟩ := abs_le.1 hQ
  obtain ⟨s1, s2⟩ := abs_le.1 hS
  obtain ⟨h1, h2⟩ := abs_le.1 hH
  have a1 : P + Q ≤ (1 + u) * (A + B) + 2 * η := by linarith
  have a2 : (1 - u) * (A + B) - 2 * η ≤ P + Q := by linarith
  have b1 : S ≤ (1 + u) * ((1 + u) * (A + B) + 2 * η) + η := by nlinarith
  have b2 : (1 - u) * ((1 - u) * (A + B) - 2 * η) - η ≤ S := by nlinarith
  constructor
  · have : H ≤ (1 + u) * (((1 + u) * ((1 + u) * (A + B) + 2 * η) + η) / 2) + η := by nlinarith
    have e : (1 + u) * (((1 + u) * ((1 + u) * (A + B) + 2 * η) + η) / 2) + η =
      (1 + u) ^ 3 * ((A + B) / 2) + ((1 + u) ^ 2 + (1 + u) / 2 + 1) * η := by ring
    rw [e] at this
    have : ((1 + u) ^ 2 + (1 + u) / 2 + 1) * η ≤ 3 * η := mul_le_mul_of_nonneg_right (by nlinarith) hη
    linarith
  · have : (1 - u) * (((1 - u) * ((1 - u) * (A + B) - 2 * η) - η) / 2) - η ≤ H := by nlinarith
    have e : (1 - u) * (((1 - u) * ((1 - u) * (A + B) - 2 * η) - η) / 2) - η =
      (1 - u) ^ 3 * ((A + B) / 2) - ((1 - u) ^ 2 + (1 - u) / 2 + 1) * η := by ring
    rw [e] at this
    have : ((1 - u) ^ 2 + (1 - u) / 2 + 1) * η ≤ 3 * η := mul_le_mul_of_nonneg_right (by nlinarith) hη
    linarith

/-- Its rounded square root. -/
theorem root_err {N H r u η κ : ℝ} (hu : 0 ≤ u) (hu1 : u ≤ 1 / 100) (hη : 0 ≤ η) (hκ : 0 ≤ κ) (hκ2 : 4 * η ≤ κ ^ 2) (hN : 0 ≤ N)
    (hr : 0 ≤ r) (h1 : H ≤ (1 + u) ^ 3 * N + 3 * η) (h2 : (1 - u) ^ 3 * N - 3 * η ≤ H) (h3 : (1 - u) ^ 2 * H ≤ r ^ 2)
    (h4 : r ^ 2 ≤ (1 + u) ^ 2 * H) : |r - √N| ≤ 3 * u * √N + κ := by
  have hT := Real.sqrt_nonneg N
  have hT2 := Real.sq_sqrt hN
  generalize √N = T at *
  subst hT2
  have w1 : (1 + u) ^ 2 * H ≤ (1 + u) ^ 2 * ((1 + u) ^ 3 * T ^ 2 + 3 * η) := mul_le_mul_of_nonneg_left h1 (by positivity)
  have w2 : (1 - u) ^ 2 * ((1 - u) ^ 3 * T ^ 2 - 3 * η) ≤ (1 - u) ^ 2 * H := mul_le_mul_of_nonneg_left h2 (by positivity)
  have v1 : (1 + u) ^ 5 ≤ (1 + 3 * u) ^ 2 := by
    have e : (1 + 3 * u) ^ 2 - (1 + u) ^ 5 = u * (1 - u * (1 + 10 * u + 5 * u ^ 2 + u ^ 3)) := by ring
    have : u * (1 + 10 * u + 5 * u ^ 2 + u ^ 3) ≤ 1 := by
      have : 1 + 10 * u + 5 * u ^ 2 + u ^ 3 ≤ 17 := by nlinarith [pow_le_one₀ hu (by linarith : u ≤ 1) (n := 2), pow_le_one₀ hu (by linarith : u ≤ 1) (n := 3)]
      nlinarith
    nlinarith
  have v2 : (1 - 3 * u) ^ 2 ≤ (1 - u) ^ 5 := by
    have e : (1 - u) ^ 5 - (1 - 3 * u) ^ 2 = u * (1 + u - 10 * u ^ 2 + 5 * u ^ 3 - u ^ 4) := by ring
    have : 0 ≤ 1 + u - 10 * u ^ 2 + 5 * u ^ 3 - u ^ 4 := by
      have a := pow_le_one₀ hu (by linarith : u ≤ 1) (n := 4)
      have b : u ^ 2 ≤ 1 / 100 * (1 / 100) := by nlinarith
      have c : u ^ 4 ≤ (1 / 100 * (1 / 100)) ^ 2 := by rw [show u ^ 4 = (u ^ 2) ^ 2 by ring]; exact pow_le_pow_left₀ (sq_nonneg u) b 2
      have d : 0 ≤ u ^ 3 := by positivity
      norm_num at c
      linarith
    nlinarith
  have v3 : (1 + u) ^ 2 * (3 * η) ≤ 4 * η := by
    have : (1 + u) ^ 2 ≤ 4 / 3 := by nlinarith
    nlinarith
  have v4 : (1 - u) ^ 2 * (3 * η) ≤ 4 * η := by
    have : (1 - u) ^ 2 ≤ 4 / 3 := by nlinarith
    nlinarith
  have hT20 := sq_nonneg T
  rw [abs_le]
  constructor
  · have : (1 - 3 * u) * T ≤ r + κ := by
      refine le_of_sq_le_sq ?_ (by linarith)
      have := mul_le_mul_of_nonneg_right v2 hT20
      nlinarith
    linarith
  · have : r ≤ (1 + 3 * u) * T + κ := by
      refine le_of_sq_le_sq ?_ (by positivity)
      have := mul_le_mul_of_nonneg_right v1 hT20
      have : 0 ≤ (1 + 3 * u) * T * κ := by positivity
      nlinarith
    linarith

/-- The first term. -/
theorem ackley_first {ε θ W : ℝ} (hε : 0 ≤ ε) (hs : ε + θ ≤ 1 / 2 ^ 10) (h : L.Accurate ε θ) (x y : Ieee .f32)
    (hx : x.Finite) (hy : y.Finite) (hW : 5 ≤ W) (hW' : W ≤ 64) (hx5 : |(x.value : ℝ)| ≤ W) (hy5 : |(y.value : ℝ)| ≤ W) :
    let t := (lit (-20)).mul (L.expM1 ((lit (-2 / 10)).mul ((lit (5 / 10)).mul ((x.mul x).add (y.mul y))).sqrt))
    t.Finite ∧ |(t.value : ℝ) - (-20) * (Real.exp (-0.2 * √(0.5 * ((x.value : ℝ) * x.value + y.value * y.value))) - 1)| ≤
      (18.5 * W + 21) / 2 ^ 24 + 20 * (ε + θ) := by
  intro t
  have sq : ∀ a : Ieee .f32, a.Finite → |(a.value : ℝ)| ≤ W → (a.mul a).Finite ∧ 0 ≤ (a.mul a).value ∧
      (a.value : ℝ) * a.value ≤ W ^ 2 ∧
      |((a.mul a).value : ℝ) - a.value * a.value| ≤ 1 / 2 ^ 24 * (a.value * a.value) + 1 / 2 ^ 142 := by
    intro a ha h5
    have h25 : (a.value : ℝ) * a.value ≤ W ^ 2 := by rw [← abs_mul_abs_self]; nlinarith [abs_nonneg (a.value : ℝ)]
    obtain ⟨m1, m2⟩ := Ieee.mul_moderate (k := 12) ha ha (by decide) (by decide) (by
      have : ((|a.value * a.value| : ℚ) : ℝ) ≤ ((2 ^ (12 : ℤ) : ℚ) : ℝ) := by
        rw [abs_of_nonneg (mul_self_nonneg _)]; push_cast; nlinarith
      exact_mod_cast this)
    refine ⟨m1, by rw [m2]; exact Fmt.f32.roundQ_nonneg (mul_self_nonneg _), h25, ?_⟩
    have := f32_err (a.value * a.value)
    rw [← m2] at this
    push_cast at this
    rwa [abs_of_nonneg (mul_self_nonneg (a.value : ℝ))] at this
  obtain ⟨x1, x2, x3, x4⟩ := sq x hx hx5
  obtain ⟨y1, y2, y3, y4⟩ := sq y hy hy5
  have xA := mul_self_nonneg (x.value : ℝ)
  have yA := mul_self_nonneg (y.value : ℝ)
  revert t
  generalize x.mul x = P at *
  generalize y.mul y = Q at *
  generalize (x.value : ℝ) * x.value = A at *
  generalize (y.value : ℝ) * y.value = B at *
  intro t
  have x2' : (0 : ℝ) ≤ P.value := by exact_mod_cast x2
  have y2' : (0 : ℝ) ≤ Q.value := by exact_mod_cast y2
  have hW2 : W ^ 2 ≤ 4096 := by nlinarith
  have pq : |((P.value + Q.value : ℚ) : ℝ)| ≤ 8193 := by
    obtain ⟨_, a⟩ := abs_le.1 x4
    obtain ⟨_, b⟩ := abs_le.1 y4
    push_cast
    rw [abs_of_nonneg (by linarith)]
    norm_num at a b
    linarith
  obtain ⟨s1, s2⟩ := Ieee.add_moderate (k := 14) x1 y1 (by decide) (by decide) (cast_abs_le pq (by norm_num))
  have s3 := f32_err (P.value + Q.value)
  have s4 : 0 ≤ Fmt.f32.roundQ (P.value + Q.value) := Fmt.f32.roundQ_nonneg (by linarith)
  have s5 := Fmt.f32.abs_roundQ_le (f := 14) (by decide) (cast_abs_le pq (by norm_num))
  rw [← s2] at s3 s4 s5
  rw [abs_of_nonneg (a := ((P.value + Q.value : ℚ) : ℝ)) (by push_cast; linarith)] at s3
  revert t
  generalize P.add Q = S at *
  intro t
  have s4' : (0 : ℝ) ≤ S.value := by exact_mod_cast s4
  obtain ⟨h1, h2⟩ := Ieee.mul_moderate (k := 14) lit_half.1 s1 (by decide) (by decide)
    (by rw [lit_half.2, abs_mul]; norm_num at s5 ⊢; linarith)
  rw [lit_half.2] at h2
  have h3 := f32_err (1 / 2 * S.value)
  have h4 : 0 ≤ Fmt.f32.roundQ (1 / 2 * S.value) := Fmt.f32.roundQ_nonneg (by linarith)
  rw [← h2] at h3 h4
  rw [abs_of_nonneg (a := ((1 / 2 * S.value : ℚ) : ℝ)) (by push_cast; positivity)] at h3
  revert t
  generalize (lit (5 / 10)).mul S = H at *
  intro t
  obtain ⟨n1, n2⟩ := half_sum_err (u := 1 / 2 ^ 24) (η := 1 / 2 ^ 142) (by positivity) (by norm_num) (by positivity) x4 y4 (by push_cast at s3; exact s3) (H := H.value) (by
      push_cast at h3
      rw [show (S.value : ℝ) / 2 = 1 / 2 * S.value by ring]; exact h3)
  have rNN : H.NonNeg := .inr ⟨h1, h4⟩
  have rf := (Ieee.sqrt_finite_iff rNN).2 h1
  have r1 : (0 : ℝ) ≤ H.sqrt.value ∧ (1 - 1 / 2 ^ 24) ^ 2 * (H.value : ℝ) ≤ (H.sqrt.value : ℝ) ^ 2 ∧
      (H.sqrt.value : ℝ) ^ 2 ≤ (1 + 1 / 2 ^ 24) ^ 2 * (H.value : ℝ) := by
    rcases Ieee.sqrt_finite h1 rf with ⟨a, b⟩ | ⟨a, b⟩
    · rw [a, b]; norm_num
    · have := Fmt.f32.roundSqrt_err a
      rw [← b, show Fmt.f32.u = 1 / 2 ^ 24 by norm_num [Fmt.u, Fmt.f32]] at this
      obtain ⟨w1, w2, w3⟩ := this
      have v1 := (Rat.cast_le (K := ℝ)).2 w1
      have v2 := (Rat.cast_le (K := ℝ)).2 w2
      have v3 := (Rat.cast_le (K := ℝ)).2 w3
      push_cast at v1 v2 v3
      exact ⟨v1, v2, v3⟩
  have r2 := root_err (u := 1 / 2 ^ 24) (η := 1 / 2 ^ 142) (κ := 1 / 2 ^ 70) (by positivity) (by norm_num) (by positivity) (by positivity)
    (by norm_num) (by linarith) r1.1 n1 n2 r1.2.1 r1.2.2
  rw [show (A + B) / 2 = 0.5 * (A + B) by norm_num; ring] at r2
  have hT : √(0.5 * (A + B)) ≤ W := by
    rw [Real.sqrt_le_left (by linarith)]
    norm_num; linarith
  have hT0 := Real.sqrt_nonneg (0.5 * (A + B))
  revert t
  generalize H.sqrt = r at *
  generalize √(0.5 * (A + B)) = T at *
  intro t
  have r3 : |(r.value : ℝ) - T| ≤ 3.01 * W / 2 ^ 24 := by norm_num at r2 ⊢; linarith
  have r4 : (r.value : ℝ) ≤ 1.001 * W := by have := le_of_abs_le r3; norm_num at this ⊢; linarith
  have hc := lit_m02
  have a0 : |((((lit (-2 / 10)).value * r.value : ℚ)) : ℝ) - (-0.2) * T| ≤ 0.7 * W / 2 ^ 24 := by
    rw [hc.2]
    push_cast
    obtain ⟨w1, w2⟩ := abs_le.1 r3
    rw [abs_le]
    constructor <;> norm_num at w1 w2 r4 ⊢ <;> linarith [r1.1]
  have a1 : |((((lit (-2 / 10)).value * r.value : ℚ)) : ℝ)| ≤ 0.201 * W := by
    refine (abs_le_of_near a0 (M := 0.2 * W) ?_).trans (by norm_num; linarith)
    rw [abs_mul, abs_of_nonneg hT0]; norm_num; linarith
  obtain ⟨a2, a3⟩ := Ieee.mul_moderate (k := 4) hc.1 rf (by decide) (by decide) (cast_abs_le a1 (by norm_num; linarith))
  have a4 := rnd_err a0 a1
  rw [← a3] at a4
  have a5 : ((lit (-2 / 10)).mul r).value ≤ 0 := by
    rw [a3]
    have hr0 : (0 : ℚ) ≤ r.value := by exact_mod_cast r1.1
    exact Fmt.f32.roundQ_le_of_representable (Ieee.Fmt.representable_zero Fmt.f32) (by rw [hc.2]; linarith)
  revert t
  generalize (lit (-2 / 10)).mul r = a at *
  intro t
  obtain ⟨m1, m2⟩ := h.expM1 a a2 a5
  have a5' : (a.value : ℝ) ≤ 0 := by exact_mod_cast a5
  have m3 := (exp_sub_le a5' (show -0.2 * T ≤ 0 by norm_num; linarith)).trans a4
  have m4 : |Real.exp a.value - 1| ≤ 1 := by
    have b1 := Real.exp_pos a.value
    have b2 := Real.exp_le_one_iff.2 a5'
    rw [abs_le]; constructor <;> linarith
  have m5 : ε * |Real.exp a.value - 1| ≤ ε * 1 := mul_le_mul_of_nonneg_left m4 hε
  have m6 : |((L.expM1 a).value : ℝ) - (Real.exp (-0.2 * T) - 1)| ≤ 0.92 * W / 2 ^ 24 + (ε + θ) := by
    have := abs_add_le (((L.expM1 a).value : ℝ) - (Real.exp a.value - 1)) (Real.exp a.value - Real.exp (-0.2 * T))
    rw [show ((L.expM1 a).value : ℝ) - (Real.exp a.value - 1) + (Real.exp a.value - Real.exp (-0.2 * T)) =
      (L.expM1 a).value - (Real.exp (-0.2 * T) - 1) by ring] at this
    norm_num at m3 this ⊢
    linarith
  have m7 : |Real.exp (-0.2 * T) - 1| ≤ 1 := by
    have b1 := Real.exp_pos (-0.2 * T)
    have b2 := Real.exp_le_one_iff.2 (show -0.2 * T ≤ 0 by norm_num; linarith)
    rw [abs_le]; constructor <;> linarith
  revert t
  generalize L.expM1 a = m at *
  generalize Real.exp (-0.2 * T) - 1 = M at *
  intro t
  have t0 : |(((lit (-20)).value * m.value : ℚ) : ℝ) - (-20) * M| ≤ 18.4 * W / 2 ^ 24 + 20 * (ε + θ) := by
    rw [lit_m20.2]
    push_cast
    rw [← mul_sub, abs_mul]
    norm_num at m6 ⊢
    linarith
  have t1 : |(((lit (-20)).value * m.value : ℚ) : ℝ)| ≤ 20.1 := by
    refine (abs_le_of_near t0 (M := 20) ?_).trans (by norm_num at hs ⊢; linarith)
    rw [abs_mul]; norm_num; linarith
  obtain ⟨t2, t3⟩ := Ieee.mul_moderate (k := 5) lit_m20.1 m1 (by decide) (by decide) (cast_abs_le t1 (by norm_num))
  have t4 := rnd_err t0 t1
  rw [← t3] at t4
  refine ⟨t2, t4.trans ?_⟩
  norm_num
  linarith

/-- C60: on the square `-B ≤ x, y ≤ B`, the computed value is within `(45 B + 56) · 2^-24` of the Ackley function, plus 26
times the error of the library (for `5 ≤ B ≤ 64`). -/
theorem C60_accuracy_wide {ε θ B : ℝ} (hε : 0 ≤ ε) (hθ : 0 ≤ θ) (hs : ε + θ ≤ 1 / 2 ^ 10) (h : L.Accurate ε θ) (x y : Ieee .f32)
    (hx : x.Finite) (hy : y.Finite) (hB : 5 ≤ B) (hB' : B ≤ 64) (hx5 : |(x.value : ℝ)| ≤ B) (hy5 : |(y.value : ℝ)| ≤ B) :
    (ackley L x y).Finite ∧
      |((ackley L x y).value : ℝ) - SReal.ackley x.value y.value| ≤ (45 * B + 56) / 2 ^ 24 + 26 * (ε + θ) := by
  obtain ⟨t1, t2⟩ := ackley_first L hε hs h x y hx hy hB hB' hx5 hy5
  obtain ⟨f1, f2⟩ := ackley_second L hε hθ hs h x y hx hy hB hB' hx5 hy5
  unfold ackley SReal.ackley
  have hr := Real.exp_pos (-0.2 * √(0.5 * ((x.value : ℝ) * x.value + y.value * y.value)))
  have hr' := Real.exp_le_one_iff.2 (show -0.2 * √(0.5 * ((x.value : ℝ) * x.value + y.value * y.value)) ≤ 0 by
    have := Real.sqrt_nonneg (0.5 * ((x.value : ℝ) * x.value + y.value * y.value)); linarith)
  have hq := Real.exp_pos (0.5 * (Real.cos (2 * Real.pi * x.value) + Real.cos (2 * Real.pi * y.value)))
  have hq' := Real.exp_le_exp.2 (show 0.5 * (Real.cos (2 * Real.pi * x.value) + Real.cos (2 * Real.pi * y.value)) ≤ 1 by
    have a := Real.cos_le_one (2 * Real.pi * x.value)
    have b := Real.cos_le_one (2 * Real.pi * y.value)
    norm_num; linarith)
  have he := Real.exp_one_lt_d9
  generalize Ieee.mul (lit (-20)) _ = t at *
  generalize Ieee.sub _ E = f at *
  generalize Real.exp (-0.2 * √(0.5 * ((x.value : ℝ) * x.value + y.value * y.value))) = M at *
  generalize Real.exp (0.5 * (Real.cos (2 * Real.pi * x.value) + Real.cos (2 * Real.pi * y.value))) = D at *
  have k0 : |((t.value - f.value : ℚ) : ℝ) - (-20 * (M - 1) - (D - Real.exp 1))| ≤ (44.8 * B + 32) / 2 ^ 24 + 26 * (ε + θ) := by
    have := abs_sub ((t.value : ℝ) - -20 * (M - 1)) ((f.value : ℝ) - (D - Real.exp 1))
    rw [show (t.value : ℝ) - -20 * (M - 1) - (f.value - (D - Real.exp 1)) =
      t.value - f.value - (-20 * (M - 1) - (D - Real.exp 1)) by ring] at this
    push_cast
    norm_num at t2 f2 this ⊢
    linarith
  have k1 : |((t.value - f.value : ℚ) : ℝ)| ≤ 23 := by
    refine (abs_le_of_near k0 (M := 22.8) ?_).trans (by norm_num at hs ⊢; linarith)
    rw [abs_le]; constructor <;> norm_num at he ⊢ <;> linarith
  obtain ⟨k2, k3⟩ := Ieee.sub_moderate (k := 5) t1 f1 (by decide) (by decide) (cast_abs_le k1 (by norm_num))
  have k4 := rnd_err k0 k1
  rw [← k3] at k4
  refine ⟨k2, k4.trans ?_⟩
  norm_num
  linarith

/-- C60: on the domain recommended for tests, `-5 ≤ x, y ≤ 5`, the computed value is within `300 · 2^-24 < 2·10^-5` of the
Ackley function, plus 26 times the error of the library. -/
theorem C60_accuracy {ε θ : ℝ} (hε : 0 ≤ ε) (hθ : 0 ≤ θ) (hs : ε + θ ≤ 1 / 2 ^ 10) (h : L.Accurate ε θ) (x y : Ieee .f32)
    (hx : x.Finite) (hy : y.Finite) (hx5 : |x.value| ≤ 5) (hy5 : |y.value| ≤ 5) :
    (ackley L x y).Finite ∧ |((ackley L x y).value : ℝ) - SReal.ackley x.value y.value| ≤ 300 / 2 ^ 24 + 26 * (ε + θ) := by
  obtain ⟨h1, h2⟩ := C60_accuracy_wide L (B := 5) hε hθ hs h x y hx hy (by norm_num) (by norm_num) (by exact_mod_cast hx5)
    (by exact_mod_cast hy5)
  exact ⟨h1, h2.trans (by norm_num)⟩

/-! ### The hypotheses can be met -/

/-- A rational approximation of `y`, clamped to `[lo, hi]` and rounded. -/
noncomputable def clampRound (lo hi : ℚ) (y : ℝ) : Ieee .f32 :=
  .round (max lo (min hi (Classical.choose (exists_rat_btwn (show y < y + 1 / 2 ^ 100 by linarith [show (0 : ℝ) < 1 / 2 ^ 100 by positivity])))))

theorem clampRound_spec {lo hi : ℚ} {y : ℝ} (hlo : Fmt.f32.Representable lo) (hhi : Fmt.f32.Representable hi) (hl : lo ≤ hi)
    (hlo4 : -4 ≤ lo) (hhi4 : hi ≤ 4) (hy : (lo : ℝ) ≤ y) (hy' : y ≤ hi + 2 / 2 ^ 24) :
    (clampRound lo hi y).Finite ∧ lo ≤ (clampRound lo hi y).value ∧ (clampRound lo hi y).value ≤ hi ∧
      |((clampRound lo hi y).value : ℝ) - y| ≤ 1 / 2 ^ 21 := by
  unfold clampRound
  have hq := Classical.choose_spec (exists_rat_btwn (show y < y + 1 / 2 ^ 100 by linarith [show (0 : ℝ) < 1 / 2 ^ 100 by positivity]))
  generalize Classical.choose _ = q at hq
  have c1 : lo ≤ max lo (min hi q) := le_max_left _ _
  have c2 : max lo (min hi q) ≤ hi := max_le hl (min_le_left _ _)
  have c3 : |((max lo (min hi q) : ℚ) : ℝ) - y| ≤ 2 / 2 ^ 24 := by
    have d1 : (q : ℝ) - y ≤ 1 / 2 ^ 100 := by linarith
    have d2 : (0 : ℝ) ≤ q - y := by linarith
    rw [abs_le]
    rcases le_total hi q with h1 | h1
    · rw [min_eq_left h1, max_eq_right hl]
      have h1' : (hi : ℝ) ≤ q := by exact_mod_cast h1
      constructor <;> norm_num at d1 hy' ⊢ <;> linarith
    · rw [min_eq_right h1]
      have : lo ≤ q := by
        have : (lo : ℝ) ≤ q := by linarith
        exact_mod_cast this
      rw [max_eq_right this]
      constructor <;> norm_num at d1 ⊢ <;> linarith
  generalize max lo (min hi q) = v at *
  have c4 : |v| ≤ 2 ^ (2 : ℤ) := by rw [abs_le]; constructor <;> norm_num <;> linarith
  have hf : (Ieee.round v : Ieee .f32).Finite := Ieee.round_finite_iff.2
    ((Fmt.f32.abs_roundQ_le (by decide) c4).trans_lt (zpow_lt_zpow_right₀ (by norm_num) (by decide)))
  rw [Ieee.round_finite hf]
  refine ⟨hf, Fmt.f32.le_roundQ_of_representable hlo c1, Fmt.f32.roundQ_le_of_representable hhi c2, ?_⟩
  have c5 : |(v : ℝ)| ≤ 4 := by
    have : ((|v| : ℚ) : ℝ) ≤ ((4 : ℚ) : ℝ) := by exact_mod_cast (by norm_num at c4; exact c4)
    push_cast at this; exact this
  refine (rnd_err c3 c5).trans ?_
  norm_num

/-- A library as in `Sane` and `Accurate`. -/
noncomputable def exampleLib : AckleyLib where
  cos
    | .zero _ => one
    | .fin x _ _ => clampRound (-1) 1 (Real.cos |(x : ℝ)|)
    | _ => .nan
  expM1
    | .zero s => .zero s
    | .fin x _ _ => clampRound (-1) 0 (Real.exp x - 1)
    | .inf true => (one : Ieee .f32).neg
    | _ => .nan
  exp
    | .zero _ => one
    | .fin x _ _ => if x = 1 then E else if |x| ≤ 1 then clampRound 0 E.value (Real.exp x) else roundReal .f32 (Real.exp x)
    | _ => .nan

theorem exampleLib_ok : exampleLib.Sane ∧ exampleLib.Accurate (1 / 2 ^ 21) (1 / 2 ^ 21) := by
  have r1 : Fmt.f32.Representable 1 := Fmt.f32.representable_one
  have rm : Fmt.f32.Representable (-1) := Fmt.f32.representable_neg r1
  have r0 : Fmt.f32.Representable 0 := Ieee.Fmt.representable_zero Fmt.f32
  have hE := E_value
  have hlt := Real.exp_one_lt_d9
  have hgt := Real.exp_one_gt_d9
  have E1 : (one : Ieee .f32).value = 1 := rfl
  have kcos : ∀ x : ℚ, _ := fun x => clampRound_spec (y := Real.cos |(x : ℝ)|) rm r1 (by norm_num) (by norm_num) (by norm_num)
    (by push_cast; exact Real.neg_one_le_cos _) (by push_cast; have := Real.cos_le_one |(x : ℝ)|; linarith [show (0 : ℝ) ≤ 2 / 2 ^ 24 by positivity])
  have kexpM1 : ∀ x : ℚ, x ≤ 0 → _ := fun x hx => clampRound_spec (y := Real.exp x - 1) rm r0 (by norm_num) (by norm_num) (by norm_num)
    (by push_cast; linarith [Real.exp_pos x]) (by
      have hx' : (x : ℝ) ≤ 0 := by exact_mod_cast hx
      have := Real.exp_le_one_iff.2 hx'
      norm_num; linarith)
  have kexp : ∀ x : ℚ, |x| ≤ 1 → _ := fun x hx => clampRound_spec (y := Real.exp x) r0 (Ieee.value_representable E)
    (by rw [hE.2]; norm_num) (by norm_num) (by rw [hE.2]; norm_num) (by push_cast; exact (Real.exp_pos x).le) (by
      have hx' : (x : ℝ) ≤ 1 := by exact_mod_cast (le_of_abs_le hx)
      have := Real.exp_le_exp.2 hx'
      rw [hE.2]; push_cast; norm_num at hlt ⊢; linarith)
  constructor
  · constructor
    · intro a
      cases a with
      | fin x h0 hr =>
        show clampRound (-1) 1 (Real.cos |((-x : ℚ) : ℝ)|) = clampRound (-1) 1 (Real.cos |(x : ℝ)|)
        rw [Rat.cast_neg, abs_neg]
      | _ => rfl
    · intro s; rfl
    · intro a ha
      cases a with
      | nan => exact ha.elim
      | inf => exact ha.elim
      | zero s => exact ⟨trivial, by show |(1 : ℚ)| ≤ 1; norm_num⟩
      | fin x h0 hr => exact ⟨(kcos x).1, abs_le.2 ⟨(kcos x).2.1, (kcos x).2.2.1⟩⟩
    · intro a ha
      cases a with
      | nan => rfl
      | inf => rfl
      | zero s => exact (ha trivial).elim
      | fin => exact (ha trivial).elim
    · intro s; rfl
    · intro a ha
      cases a with
      | nan => simp [Ieee.fle, Ieee.key] at ha
      | inf s =>
        cases s
        · simp [Ieee.fle, Ieee.key, RZero.zero] at ha
        · exact ⟨trivial, by show (-1 : ℚ) ≤ -1; norm_num, by show (-1 : ℚ) ≤ 0; norm_num⟩
      | zero s => exact ⟨trivial, by show (-1 : ℚ) ≤ 0; norm_num, by show (0 : ℚ) ≤ 0; norm_num⟩
      | fin x h0 hr =>
        have hx : x ≤ 0 := (Ieee.fle_value (a := .fin x h0 hr) (b := zero) trivial trivial).1 ha
        exact ⟨(kexpM1 x hx).1, (kexpM1 x hx).2.1, (kexpM1 x hx).2.2.1⟩
    · show (if (1 : ℚ) = 1 then E else if |(1 : ℚ)| ≤ 1 then clampRound 0 E.value (Real.exp ((1 : ℚ) : ℝ)) else
        roundReal .f32 (Real.exp ((1 : ℚ) : ℝ))) = E
      exact if_pos rfl
    · intro a ha h
      cases a with
      | nan => exact ha.elim
      | inf => exact ha.elim
      | zero s =>
        refine ⟨trivial, by show (0 : ℚ) ≤ 1; norm_num, ?_⟩
        show (1 : ℚ) ≤ E.value
        rw [hE.2]; norm_num
      | fin x h0 hr =>
        have h : |x| ≤ 1 := h
        show (ite _ _ _ : Ieee .f32).Finite ∧ 0 ≤ (ite _ _ _ : Ieee .f32).value ∧ (ite _ _ _ : Ieee .f32).value ≤ E.value
        rw [if_pos h]
        split_ifs
        · exact ⟨hE.1, by rw [hE.2]; norm_num, le_rfl⟩
        · exact ⟨(kexp x h).1, (kexp x h).2.1, (kexp x h).2.2.1⟩
    · rfl
  · constructor
    · intro a ha
      cases a with
      | nan => exact ha.elim
      | inf => exact ha.elim
      | zero s =>
        refine ⟨trivial, ?_⟩
        show |((1 : ℚ) : ℝ) - Real.cos ((0 : ℚ) : ℝ)| ≤ _
        simp only [Rat.cast_one, Rat.cast_zero, Real.cos_zero, sub_self, abs_zero]; positivity
      | fin x h0 hr =>
        refine ⟨(kcos x).1, (?_ : |((clampRound (-1) 1 (Real.cos |(x : ℝ)|)).value : ℝ) - Real.cos x| ≤ _)⟩
        have := (kcos x).2.2.2
        rw [Real.cos_abs] at this ⊢
        have : 0 ≤ 1 / 2 ^ 21 * |Real.cos x| := by positivity
        show _ ≤ 1 / 2 ^ 21 * |Real.cos x| + 1 / 2 ^ 21
        linarith
    · intro a ha h
      cases a with
      | nan => exact ha.elim
      | inf => exact ha.elim
      | zero s =>
        refine ⟨trivial, ?_⟩
        show |((0 : ℚ) : ℝ) - (Real.exp ((0 : ℚ) : ℝ) - 1)| ≤ _
        simp only [Rat.cast_zero, Real.exp_zero, sub_self, abs_zero]; positivity
      | fin x h0 hr =>
        refine ⟨(kexpM1 x h).1, (?_ : |((clampRound (-1) 0 (Real.exp x - 1)).value : ℝ) - (Real.exp x - 1)| ≤
          1 / 2 ^ 21 * |Real.exp x - 1| + 1 / 2 ^ 21)⟩
        have := (kexpM1 x h).2.2.2
        have : 0 ≤ 1 / 2 ^ 21 * |Real.exp x - 1| := by positivity
        linarith
    · intro a ha h
      cases a with
      | nan => exact ha.elim
      | inf => exact ha.elim
      | zero s =>
        refine ⟨trivial, ?_⟩
        show |((1 : ℚ) : ℝ) - Real.exp ((0 : ℚ) : ℝ)| ≤ _
        simp only [Rat.cast_one, Rat.cast_zero, Real.exp_zero, sub_self, abs_zero]; positivity
      | fin x h0 hr =>
        have h : |x| ≤ 2 := h
        have hp : 0 ≤ 1 / 2 ^ 21 * |Real.exp x| := by positivity
        show (ite _ _ _ : Ieee .f32).Finite ∧ |((ite _ _ _ : Ieee .f32).value : ℝ) - Real.exp x| ≤
          1 / 2 ^ 21 * |Real.exp x| + 1 / 2 ^ 21
        split_ifs with h1 h2
        · subst h1
          refine ⟨hE.1, ?_⟩
          have : |(E.value : ℝ) - Real.exp ((1 : ℚ) : ℝ)| ≤ 1 / 2 ^ 21 := by
            rw [hE.2, abs_le, Rat.cast_one]; push_cast
            constructor <;> norm_num at hlt hgt ⊢ <;> linarith
          linarith
        · exact ⟨(kexp x h2).1, by linarith [(kexp x h2).2.2.2]⟩
        · have hx2 : (x : ℝ) ≤ 2 := by exact_mod_cast le_of_abs_le h
          have b1 : Real.exp x ≤ 8 := by
            refine (Real.exp_le_exp.2 hx2).trans ?_
            rw [show (2 : ℝ) = 1 + 1 by norm_num, Real.exp_add]
            norm_num at hlt ⊢
            nlinarith
          have hf := (roundReal_le (F := .f32) (y := Real.exp x) (k := 4) (by decide) (by decide)
            (by rw [abs_of_pos (Real.exp_pos _)]; norm_num; linarith)).1
          refine ⟨hf, (roundReal_err hf).trans ?_⟩
          have h3 : ((Fmt.f32.u : ℚ) : ℝ) ≤ 1 / 2 ^ 21 := by norm_num [Fmt.u, Fmt.f32]
          have h4 : 3 * ((Fmt.f32.η : ℚ) : ℝ) ≤ 1 / 2 ^ 21 := by norm_num [Fmt.η, Fmt.emin, Fmt.f32]
          have := mul_le_mul_of_nonneg_right h3 (abs_nonneg (Real.exp x))
          linarith

/-- The accuracy theorem applies to this library at `(0.1, 4.9)`. -/
example : (ackley exampleLib (lit (1 / 10)) (lit (49 / 10))).Finite ∧
    |((ackley exampleLib (lit (1 / 10)) (lit (49 / 10))).value : ℝ) - SReal.ackley (lit (1 / 10)).value (lit (49 / 10)).value| ≤
      300 / 2 ^ 24 + 26 * (1 / 2 ^ 21 + 1 / 2 ^ 21) :=
  C60_accuracy _ (by positivity) (by positivity) (by norm_num) exampleLib_ok.2 _ _ (by decide +kernel) (by decide +kernel)
    (by decide +kernel) (by decide +kernel)

/-- The range theorem applies to `(10^30, -3)`, where `x * x` overflows. -/
example : (ackley exampleLib (lit (10 ^ 30)) (lit (-3))).Finite ∧ ((lit (10 ^ 30)).mul (lit (10 ^ 30))) = .inf false :=
  ⟨(C60_range _ exampleLib_ok.1 _ _ (by decide +kernel) (by decide +kernel)).1, by decide +kernel⟩

/-- `2π x` overflows for `x = 10^38`. -/
example : ackley exampleLib (lit (10 ^ 38)) (lit 0) = .nan :=
  C60_nan _ exampleLib_ok.1 _ _ (.inl (by decide +kernel))

end Magnesia
