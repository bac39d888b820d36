import Verif.Props.LnCheck
import Verif.Props.AckleyIeee
import Verif.Witness.Libm

/-!
# Concrete cases of property C70
-/

namespace Magnesia.Witness

open RZero ROne AckleyLib

section Accurate

variable {F : Fmt}

noncomputable local instance lnC70 : RLn (Ieee F) := ⟨fun a => .ok (roundReal F (Real.log a.value))⟩
noncomputable local instance atanC70 : RAtan2 (Ieee F) := ⟨fun y x => .ok (roundReal F (_root_.Complex.arg ⟨x.value, y.value⟩))⟩

theorem f32_u : (Fmt.f32.u : ℝ) = 1 / 2 ^ 24 := by
  have : Fmt.f32.u = 1 / 2 ^ 24 := by decide +kernel
  rw [this]; norm_num

theorem f32_η : (Fmt.f32.η : ℝ) ≤ 1 / 2 ^ 100 := by
  have : Fmt.f32.η ≤ 1 / 2 ^ 100 := by decide +kernel
  have h : (Fmt.f32.η : ℝ) ≤ ((1 / 2 ^ 100 : ℚ) : ℝ) := by exact_mod_cast this
  push_cast at h
  exact h

theorem log_bound {a : Ieee .f32} (h : 0 < a.value) : |Real.log a.value| ≤ 149 := by
  have h0 : (0 : ℝ) < a.value := by exact_mod_cast h
  have hr := Ieee.value_representable a
  have h1 := hr.log_ge h.ne'
  have h2 := hr.log_le h.ne'
  have l := Fmt.zpow_log_le h.ne'
  have l' := Int.lt_zpow_succ_log_self (b := 2) (by norm_num) |a.value|
  rw [abs_of_pos h] at *
  have e1 : Fmt.f32.emin - ((Fmt.f32.p : ℤ) - 1) = -149 := by decide
  have e2 : Fmt.f32.emax = 127 := rfl
  have l1 : ((2 : ℝ) ^ (-149 : ℤ)) ≤ a.value := by
    have : (2 : ℚ) ^ (-149 : ℤ) ≤ a.value := (zpow_le_zpow_right₀ (by norm_num) (by omega)).trans l
    have h : (((2 : ℚ) ^ (-149 : ℤ) : ℚ) : ℝ) ≤ a.value := Rat.cast_le.2 this
    rwa [Rat.cast_zpow, Rat.cast_ofNat] at h
  have l2 : (a.value : ℝ) ≤ (2 : ℝ) ^ (128 : ℤ) := by
    have : a.value ≤ (2 : ℚ) ^ (128 : ℤ) := l'.le.trans
      (zpow_le_zpow_right₀ (a := ((2 : ℕ) : ℚ)) (by norm_num) (by omega))
    have h : (a.value : ℝ) ≤ (((2 : ℚ) ^ (128 : ℤ) : ℚ) : ℝ) := Rat.cast_le.2 this
    rwa [Rat.cast_zpow, Rat.cast_ofNat] at h
  have m1 := Real.log_le_log (by positivity) l1
  have m2 := Real.log_le_log h0 l2
  rw [Real.log_zpow] at m1 m2
  have := Real.log_two_lt_d9
  have := Real.log_two_gt_d9
  push_cast at m1 m2
  rw [abs_le]; constructor <;> linarith

theorem isArg_arg (z : ℂ) : IsArg (_root_.Complex.arg z) z :=
  ⟨_root_.Complex.abs_arg_le_pi z, (_root_.Complex.norm_mul_exp_arg_mul_I z).symm⟩

/-- The library that rounds correctly, as good as exactly. -/
theorem logLib : LogLib .f32 (4 * Fmt.f32.u) Fmt.f32.u (2.1 * Fmt.f32.u) where
  ε_nonneg := by rw [f32_u]; norm_num
  θ_nonneg := by rw [f32_u]; norm_num
  ln a _ h := by
    have h1 := log_bound h
    have h2 := (roundReal_le (F := .f32) (y := Real.log a.value) (k := 8) (by decide) (by decide) (by norm_num; linarith)).1
    refine ⟨_, rfl, h2, (roundReal_err h2).trans ?_⟩
    have h3 := f32_η
    have h4 := abs_nonneg (Real.log (a.value : ℝ))
    generalize |Real.log (a.value : ℝ)| = l at *
    rw [f32_u]
    norm_num at *
    linarith
  atan2 y x _ _ _ := by
    have h0 := _root_.Complex.abs_arg_le_pi ⟨x.value, y.value⟩
    have pi := Real.pi_lt_d2
    have h2 := (roundReal_le (F := .f32) (y := _root_.Complex.arg ⟨x.value, y.value⟩) (k := 3) (by decide) (by decide)
      (by norm_num; linarith)).1
    refine ⟨_, rfl, h2, _, isArg_arg _, ?_⟩
    obtain ⟨q, q1, q2, q3⟩ := roundReal_spec (F := .f32) (_root_.Complex.arg ⟨x.value, y.value⟩)
    have h3 := f32_η
    obtain ⟨p1, p2⟩ := abs_le.1 h0
    rw [q1] at h2 ⊢
    have h4 : |q| < 2 ^ (2 : ℤ) := by
      have : |(q : ℝ)| < 4 := by rw [abs_lt]; norm_num at h3; constructor <;> linarith
      have h5 : |q| < 4 := by exact_mod_cast this
      exact h5.trans_eq (by norm_num)
    have h5 := roundQ_err_below (F := .f32) (by decide) h4
    rw [← Ieee.round_finite h2] at h5
    have h6 : |((Ieee.round q : Ieee .f32).value : ℝ) - q| ≤ 2 * Fmt.f32.u := by
      have : ((|(Ieee.round q : Ieee .f32).value - q| : ℚ) : ℝ) ≤ ((2 ^ ((2 : ℤ) - 1) * Fmt.f32.u : ℚ) : ℝ) := Rat.cast_le.2 h5
      push_cast at this
      exact this
    obtain ⟨h7, h8⟩ := abs_le.1 h6
    rw [f32_u] at *
    norm_num at h3
    rw [abs_le]; constructor <;> linarith

/-- The constant of the test, and how far it is from `π`. -/
theorem PI_finite : PI.Finite := by decide +kernel
theorem PI_near : |(PI.value : ℝ) - Real.pi| ≤ 1.5 * Fmt.f32.u := by
  have h : PI.value = 13176795 / 4194304 := by decide +kernel
  have h1 := Real.pi_gt_d20
  have h2 := Real.pi_lt_d20
  rw [h, f32_u, abs_le]
  push_cast
  norm_num at *
  constructor <;> linarith

instance betweenDecC70 (lo hi : ℤ) (a : Ieee F) : Decidable (a.Between lo hi) := by unfold Ieee.Between; infer_instance

/-- `1 + 2i` and `3 - i`. -/
def lnA : Complex (Ieee .f32) := ⟨lit 1, lit 2⟩
def lnB : Complex (Ieee .f32) := ⟨lit 3, lit (-1)⟩
theorem lnA_range : lnA.re.Between (-29) 29 ∧ lnA.im.Between (-29) 29 := by decide +kernel
theorem lnB_range : lnB.re.Between (-29) 29 ∧ lnB.im.Between (-29) 29 := by decide +kernel
theorem lnA_ne : cval lnA ≠ 0 := by
  intro h
  have h1 : lnA.re.value = 1 := by decide +kernel
  have := congrArg _root_.Complex.re h
  simp [cval, h1] at this
theorem lnB_ne : cval lnB ≠ 0 := by
  intro h
  have h1 : lnB.re.value = 3 := by decide +kernel
  have := congrArg _root_.Complex.re h
  simp [cval, h1] at this

example := C70_ln_mul (F := .f32) (by decide) 29 (by decide) logLib (by rw [f32_u]; norm_num) lnA lnB lnA_range lnB_range lnA_ne lnB_ne
example := C70_test (F := .f32) (by decide) 29 (by decide) logLib PI PI_finite PI_near lnA lnB lnA_range lnB_range lnA_ne lnB_ne

end Accurate

section Zero

local instance lnC70z : RLn (Ieee .f32) := ⟨fun a => .ok (if a.value = 0 then .inf true else lit 1)⟩
local instance atanC70z : RAtan2 (Ieee .f32) := ⟨fun _ _ => .ok (.zero false)⟩

example := C70_test_zero (F := .f32) (fun _ => rfl) (fun _ _ => ⟨_, rfl⟩) PI false true lnB _ (by decide +kernel) rfl

end Zero

end Magnesia.Witness
