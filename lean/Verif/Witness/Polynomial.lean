import Verif.Props.Polynomial

/-!
# Concrete cases of the theorems about polynomials

Every theorem of `Verif/Props/Polynomial.lean` that has hypotheses is applied to concrete, non-trivial values (mostly
polynomials over `i32` with overflow checks, or `i8` in a release build where a theorem is about elements that never
panic), with all hypotheses discharged.
-/

namespace Magnesia.Witness

open RZero ROne

/-- `1 + 2x` -/
def p : Poly I32 := ⟨[.lit 1, .lit 2]⟩
/-- `10 + 20x + 30x²` -/
def q : Poly I32 := ⟨[.lit 10, .lit 20, .lit 30]⟩
/-- `-3 + x³` -/
def r : Poly I32 := ⟨[.lit (-3), .lit 0, .lit 0, .lit 1]⟩

theorem i32 : Implements (MInt.toInt : I32 → ℤ) := implements_checked (by decide)
theorem w8 : Implements (MInt.bv : W8 → BitVec 8) := implements_wrapping

theorem p_add_q : p.add q = .ok ⟨[.lit 11, .lit 22, .lit 30]⟩ := by rw [Poly.add_eq]; rfl
theorem q_add_p : q.add p = .ok ⟨[.lit 11, .lit 22, .lit 30]⟩ := by rw [Poly.add_eq]; rfl
theorem q_add_r : q.add r = .ok ⟨[.lit 7, .lit 20, .lit 30, .lit 1]⟩ := by rw [Poly.add_eq]; rfl
theorem p_sub_q : p.sub q = .ok ⟨[.lit (-9), .lit (-18), .lit (-30)]⟩ := by
  show p.add ⟨[.lit (-10), .lit (-20), .lit (-30)]⟩ = _
  rw [Poly.add_eq]; rfl

-- C01
example := C01_eval_power_sum i32 [.lit 1, .lit (-2), .lit 3] (.lit 5) (.lit 66) rfl
example := C01_eval_panics_only_from_elements (T := I8) [.lit 100, .lit 100] (.lit 5) .overflow rfl
example := C01_eval_returns neverPanics_wrapping ([.lit 100, .lit 100] : List W8) (.lit 5)

-- C02
example := C02_add i32 p q _ p_add_q
example := C02_add_assign i32 p q rfl
example := C02_add_assign_ref i32 p q rfl
example := C02_operators_agree i32 toInt_injective p q _ _ p_add_q q_add_p rfl rfl
example := C02_add_returns neverPanics_wrapping (⟨[.lit 100, .lit 100]⟩ : Poly W8) ⟨[.lit 100]⟩
example := C02_add_panics_only_from_elements (⟨[.lit 1, .lit 100]⟩ : Poly I8) ⟨[.lit 1, .lit 100]⟩ .overflow (.inr (.inr rfl))
example := C02_eval_add i32 p q _ (.lit 3) (.lit 347) (.lit 7) (.lit 340) p_add_q rfl rfl rfl

-- C03
example := C03_sub i32 p q _ p_sub_q
example := C03_sub_assign i32 p q rfl
example := C03_sub_assign_ref i32 p q rfl
example := C03_neg i32 q ⟨[.lit (-10), .lit (-20), .lit (-30)]⟩ rfl
example := C03_operators_agree i32 toInt_injective p q _ p_sub_q rfl rfl
example := C03_sub_returns neverPanics_wrapping (⟨[.lit 100, .lit 100]⟩ : Poly W8) ⟨[.lit (-100)]⟩
example := C03_eval_sub i32 p q _ (.lit 3) (.lit (-333)) (.lit 7) (.lit 340) p_sub_q rfl rfl rfl
example := C03_eval_neg i32 q ⟨[.lit (-10), .lit (-20), .lit (-30)]⟩ (.lit 3) (.lit (-340)) (.lit 340) rfl rfl rfl

-- C04
example := C04_mul i32 p q ⟨[.lit 10, .lit 40, .lit 70, .lit 60]⟩ rfl
example := C04_mul_panics_only_from_elements (⟨[.lit 1, .lit 100]⟩ : Poly I8) ⟨[.lit 1, .lit 100]⟩ .overflow rfl
example := C04_mul_returns neverPanics_wrapping (⟨[.lit 100, .lit 100]⟩ : Poly W8) ⟨[.lit 1, .lit 100]⟩

-- C05; the second case is over 2×2 matrices, where the coefficients of the second factor commute with the argument
example := C05_eval_mul i32 p q ⟨[.lit 10, .lit 40, .lit 70, .lit 60]⟩ (.lit 3) (.lit 2380) (.lit 7) (.lit 340)
  (fun _ _ => mul_comm _ _) rfl rfl rfl rfl
example := C05_eval_mul_comm i32 p q ⟨[.lit 10, .lit 40, .lit 70, .lit 60]⟩ (.lit 3) (.lit 2380) (.lit 7) (.lit 340)
  rfl rfl rfl rfl
/-- A polynomial with matrix coefficients. -/
def mp : Poly (SMatrix I32 2 2) := ⟨[mat2 1 2 3 4, mat2 0 1 0 0]⟩
/-- A polynomial with scalar matrices as coefficients. -/
def mq : Poly (SMatrix I32 2 2) := ⟨[mat2 5 0 0 5, mat2 2 0 0 2]⟩
/-- The argument. -/
def mx : SMatrix I32 2 2 := mat2 1 2 3 4
example := C05_eval_mul (i32.matrix (N := 2)) mp mq ((mp.mulRef mq).getD ⟨[]⟩) mx
  ((((mp.mulRef mq).getD ⟨[]⟩).eval mx).getD mx) ((mp.eval mx).getD mx) ((mq.eval mx).getD mx)
  (by
    intro c hc
    simp only [mq, List.mem_cons, List.not_mem_nil, or_false] at hc
    rcases hc with rfl | rfl <;> (ext i j; rw [Matrix.mul_apply, Matrix.mul_apply, Fin.sum_univ_two, Fin.sum_univ_two]; revert i j; decide +kernel))
  (Res.eq_ok (by decide +kernel)) (Res.eq_ok (by decide +kernel)) (Res.eq_ok (by decide +kernel))
  (Res.eq_ok (by decide +kernel))

-- C06
example := C06_eq_iff (T := I32) (fun _ _ => by simp [RPartialEq.eq]) p q
example := C06_add_assoc i32 toInt_injective (p := p) (q := q) (r := r) (t := ⟨[.lit 8, .lit 22, .lit 30, .lit 1]⟩)
  (t' := ⟨[.lit 8, .lit 22, .lit 30, .lit 1]⟩) p_add_q (by rw [Poly.add_eq]; rfl) q_add_r (by rw [Poly.add_eq]; rfl)
example := C06_add_comm i32 toInt_injective p_add_q q_add_p
example := C06_mul_assoc i32 toInt_injective (p := p) (q := q) (r := r) rfl rfl rfl rfl
example := C06_left_distrib i32 toInt_injective (p := p) (q := q) (r := r)
  (u := ⟨[.lit 7, .lit 34, .lit 70, .lit 61, .lit 2]⟩) q_add_r rfl rfl rfl (by rw [Poly.add_eq]; rfl)
example := C06_right_distrib i32 toInt_injective (p := p) (q := q) (r := r)
  (u := ⟨[.lit 7, .lit 34, .lit 70, .lit 61, .lit 2]⟩) q_add_r rfl rfl rfl (by rw [Poly.add_eq]; rfl)
example : (⟨[.lit 10, .lit 20, .lit 30]⟩ : Poly I32) = q :=
  (C06_mul_one (p := q) (t := q) i32 toInt_injective).1 rfl
example := C06_mul_comm (p := p) (q := q) i32 toInt_injective rfl rfl
example := C06_semiring w8 bv_injective neverPanics_wrapping (⟨[.lit 100, .lit 100]⟩ : Poly W8) ⟨[.lit 1, .lit 100]⟩
  ⟨[.lit 7, .lit (-128), .lit 2]⟩

-- C07
example := C07_add_neg i32 q ⟨[.lit (-10), .lit (-20), .lit (-30)]⟩ ⟨[.lit 0, .lit 0, .lit 0]⟩ rfl (by rw [Poly.add_eq]; rfl)
example := C07_add_neg_eq_zero_iff i32 q ⟨[.lit (-10), .lit (-20), .lit (-30)]⟩ ⟨[.lit 0, .lit 0, .lit 0]⟩ rfl
  (by rw [Poly.add_eq]; rfl)
example := C07_sub_self_eq_zero_iff i32 q ⟨[.lit 0, .lit 0, .lit 0]⟩ (by
  show q.add ⟨[.lit (-10), .lit (-20), .lit (-30)]⟩ = _
  rw [Poly.add_eq]; rfl)

end Magnesia.Witness
