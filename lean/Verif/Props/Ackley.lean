import Verif.Model.SReal

/-!
# Property C46: the Ackley function, in exact real arithmetic
-/

namespace Magnesia

open Real

/-- C46: the textbook formula. -/
theorem C46_textbook (x y : ℝ) : SReal.ackley x y =
    -20 * exp (-(1 / 5) * √((x ^ 2 + y ^ 2) / 2)) - exp ((cos (2 * π * x) + cos (2 * π * y)) / 2) + exp 1 + 20 := by
  unfold SReal.ackley
  rw [show (-0.2 : ℝ) = -(1 / 5) by norm_num, show 0.5 * (x * x + y * y) = (x ^ 2 + y ^ 2) / 2 by norm_num; ring,
    show 0.5 * (cos (2 * π * x) + cos (2 * π * y)) = (cos (2 * π * x) + cos (2 * π * y)) / 2 by norm_num; ring]
  ring

/-- C46: symmetric in `x` and `y`. -/
theorem C46_swap (x y : ℝ) : SReal.ackley x y = SReal.ackley y x := by
  rw [C46_textbook, C46_textbook, add_comm (x ^ 2), add_comm (cos (2 * π * x))]

/-- C46: symmetric in both signs. -/
theorem C46_neg (x y : ℝ) : SReal.ackley (-x) y = SReal.ackley x y ∧ SReal.ackley x (-y) = SReal.ackley x y := by
  simp only [C46_textbook, mul_neg, cos_neg, neg_sq, and_self]

theorem ackley_parts (x y : ℝ) : 0 ≤ 1 - exp (-(1 / 5) * √((x ^ 2 + y ^ 2) / 2)) ∧
    0 ≤ exp 1 - exp ((cos (2 * π * x) + cos (2 * π * y)) / 2) := by
  constructor
  · rw [sub_nonneg, exp_le_one_iff]
    have := sqrt_nonneg ((x ^ 2 + y ^ 2) / 2)
    linarith
  · rw [sub_nonneg, exp_le_exp]
    linarith [cos_le_one (2 * π * x), cos_le_one (2 * π * y)]

/-- C46: non-negative. -/
theorem C46_nonneg (x y : ℝ) : 0 ≤ SReal.ackley x y := by
  rw [C46_textbook]
  linarith [(ackley_parts x y).1, (ackley_parts x y).2]

/-- C46: zero exactly at the origin: the global minimum over the whole plane. -/
theorem C46_zero_iff (x y : ℝ) : SReal.ackley x y = 0 ↔ x = 0 ∧ y = 0 := by
  constructor
  · intro h
    rw [C46_textbook] at h
    have h1 : exp (-(1 / 5) * √((x ^ 2 + y ^ 2) / 2)) = 1 := by linarith [(ackley_parts x y).1, (ackley_parts x y).2]
    rw [exp_eq_one_iff] at h1
    have h2 : √((x ^ 2 + y ^ 2) / 2) = 0 := by linarith
    rw [sqrt_eq_zero (by positivity)] at h2
    have hx : x ^ 2 = 0 := by nlinarith [sq_nonneg x, sq_nonneg y]
    have hy : y ^ 2 = 0 := by nlinarith [sq_nonneg x, sq_nonneg y]
    exact ⟨by simpa using hx, by simpa using hy⟩
  · rintro ⟨rfl, rfl⟩
    rw [C46_textbook]
    simp

/-- C46: below `20 + e`. -/
theorem C46_lt (x y : ℝ) : SReal.ackley x y < 20 + exp 1 := by
  rw [C46_textbook]
  linarith [exp_pos (-(1 / 5) * √((x ^ 2 + y ^ 2) / 2)), exp_pos ((cos (2 * π * x) + cos (2 * π * y)) / 2)]

/-- C46: at integer points the value is `20 (1 - exp(-√((x²+y²)/2) / 5))`. -/
theorem C46_integer_points (m n : ℤ) : SReal.ackley m n = 20 * (1 - exp (-(1 / 5) * √(((m : ℝ) ^ 2 + (n : ℝ) ^ 2) / 2))) := by
  have h : ∀ k : ℤ, cos (2 * π * k) = 1 := fun k => by rw [mul_comm]; exact cos_int_mul_two_pi k
  rw [C46_textbook, h, h]
  norm_num
  ring

end Magnesia
