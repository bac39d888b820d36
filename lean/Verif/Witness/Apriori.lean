import Verif.Props.Apriori
import Verif.Witness.Euler
import Verif.Proof.TanAdd
import Verif.Props.AckleyIeee

/-!
# Concrete cases of property C87
-/

namespace Magnesia.Witness

open RZero ROne AckleyLib Filter Topology

section

variable {F : Fmt}

noncomputable local instance expC87 : RExp (Ieee F) := ⟨fun a => .ok (roundReal F (Real.exp a.value))⟩
noncomputable local instance sinC87 : RSin (Ieee F) := ⟨fun a => .ok (roundReal F (Real.sin a.value))⟩
noncomputable local instance cosC87 : RCos (Ieee F) := ⟨fun a => .ok (roundReal F (Real.cos a.value))⟩
noncomputable local instance sinhC87 : RSinh (Ieee F) := ⟨fun a => .ok (roundReal F (Real.sinh a.value))⟩
noncomputable local instance coshC87 : RCosh (Ieee F) := ⟨fun a => .ok (roundReal F (Real.cosh a.value))⟩
noncomputable local instance lnC87 : RLn (Ieee F) := ⟨fun a => .ok (roundReal F (Real.log a.value))⟩
noncomputable local instance atanC87 : RAtan2 (Ieee F) := ⟨fun y x => .ok (roundReal F (_root_.Complex.arg ⟨x.value, y.value⟩))⟩

theorem two_mul_le_pow {m : ℕ} (h : 3 ≤ m) : 2 * (m : ℝ) + 1 ≤ 2 ^ m := by
  induction m, h using Nat.le_induction with
  | base => norm_num
  | succ n hn ih =>
    have : (3 : ℝ) ≤ n := by exact_mod_cast hn
    push_cast
    rw [pow_succ]
    linarith

theorem log_bound_any (h3 : 3 ≤ F.emax) {a : Ieee F} (h : 0 < a.value) : |Real.log a.value| + 1 ≤ 2 ^ F.emax := by
  have h0 : (0 : ℝ) < a.value := by exact_mod_cast h
  have hr := Ieee.value_representable a
  have h1 := hr.log_ge h.ne'
  have h2 := hr.log_le h.ne'
  have l := Fmt.zpow_log_le h.ne'
  have l' := Int.lt_zpow_succ_log_self (b := 2) (by norm_num) |a.value|
  rw [abs_of_pos h] at *
  have hp := F.p_le_emax
  obtain ⟨m, hm⟩ : ∃ m : ℕ, F.emax = m := ⟨F.emax.toNat, by omega⟩
  have e1 : -(2 * (m : ℤ)) ≤ Int.log 2 a.value := by unfold Fmt.emin at h1; omega
  have l1 : ((2 : ℝ) ^ (-(2 * (m : ℤ)))) ≤ a.value := by
    have : (2 : ℚ) ^ (-(2 * (m : ℤ))) ≤ a.value := (zpow_le_zpow_right₀ (by norm_num) e1).trans l
    have h : (((2 : ℚ) ^ (-(2 * (m : ℤ))) : ℚ) : ℝ) ≤ a.value := Rat.cast_le.2 this
    rwa [Rat.cast_zpow, Rat.cast_ofNat] at h
  have l2 : (a.value : ℝ) ≤ (2 : ℝ) ^ (2 * (m : ℤ)) := by
    have : a.value ≤ (2 : ℚ) ^ (2 * (m : ℤ)) := l'.le.trans
      (zpow_le_zpow_right₀ (a := ((2 : ℕ) : ℚ)) (by norm_num) (by omega))
    have h : (a.value : ℝ) ≤ (((2 : ℚ) ^ (2 * (m : ℤ)) : ℚ) : ℝ) := Rat.cast_le.2 this
    rwa [Rat.cast_zpow, Rat.cast_ofNat] at h
  have m1 := Real.log_le_log (by positivity) l1
  have m2 := Real.log_le_log h0 l2
  rw [Real.log_zpow] at m1 m2
  have g1 := Real.log_two_lt_d9
  have g2 := Real.log_two_gt_d9
  push_cast at m1 m2
  have m0 : (0 : ℝ) ≤ m := by positivity
  have k : 2 * (m : ℝ) * Real.log 2 ≤ 2 * m * 1 := mul_le_mul_of_nonneg_left (by linarith) (by linarith)
  rw [hm, zpow_natCast]
  have := two_mul_le_pow (m := m) (by omega)
  have : |Real.log (a.value : ℝ)| ≤ 2 * m := by rw [abs_le]; constructor <;> linarith
  linarith

/-- The library that rounds correctly, in every format that is not too small. -/
theorem logLib_any (h3 : 3 ≤ F.emax) : LogLib F F.u (3 * F.η) (4 * F.u + 3 * F.η) where
  ε_nonneg := by exact_mod_cast F.u_pos.le
  θ_nonneg := by have := (η_le_one F).1
                 linarith
  ln a _ h := by
    have h2 := (roundReal_le (F := F) (y := Real.log a.value) (k := F.emax) F.emin_le_emax le_rfl (log_bound_any h3 h)).1
    exact ⟨_, rfl, h2, roundReal_err h2⟩
  atan2 y x _ _ _ := by
    have h0 := _root_.Complex.abs_arg_le_pi ⟨x.value, y.value⟩
    have pi := Real.pi_lt_d2
    have h2 := (roundReal_le (F := F) (y := _root_.Complex.arg ⟨x.value, y.value⟩) (k := 3)
      (by have := F.emin_le_emax; unfold Fmt.emin; omega) h3 (by norm_num; linarith)).1
    refine ⟨_, rfl, h2, _, isArg_arg _, (roundReal_err h2).trans ?_⟩
    have hu : (0 : ℝ) ≤ F.u := by exact_mod_cast F.u_pos.le
    have := mul_le_mul_of_nonneg_left h0 hu
    have := mul_le_mul_of_nonneg_left pi.le hu
    linarith

/-! `e ^ x / (1 + x)` at `x = 1 / 3`, which is not a floating point number, known with an uncertainty of `2 ^ -20`. -/

noncomputable def third (F : Fmt) : Complex (Ieee F) := ⟨roundReal F (1 / 3), zero⟩

theorem third_finite (h3 : 3 ≤ F.emax) : CFinite (third F) :=
  ⟨(roundReal_le (k := 3) (by unfold Fmt.emin; omega) h3 (by norm_num)).1, trivial⟩

theorem third_near (h3 : 3 ≤ F.emax) : ‖cval (third F) - (1 / 3 : ℝ)‖ ≤ F.u / 3 + 3 * F.η := by
  have h := roundReal_err (third_finite h3).1
  have e : cval (third F) - (1 / 3 : ℝ) = (((roundReal F (1 / 3)).value - 1 / 3 : ℝ) : ℂ) := by
    apply _root_.Complex.ext
    · simp [cval, third]
    · simp [cval, third, RZero.zero, Ieee.value]
  rw [e, _root_.Complex.norm_real, Real.norm_eq_abs]
  rw [abs_of_pos (show (0 : ℝ) < 1 / 3 by norm_num)] at h
  linarith

def formC87 : CForm := .div (.exp (.var 0)) (.add .one (.var 0))

theorem u32 : (Fmt.f32.u : ℝ) = 1 / 2 ^ 24 := f32_u

theorem expThird : ‖_root_.Complex.exp ((1 / 3 : ℝ) : ℂ)‖ ≤ 2 := by
  rw [_root_.Complex.norm_exp, _root_.Complex.ofReal_re]
  have h1 := Real.exp_one_lt_d9
  have h2 : Real.exp (1 / 3) ^ 3 = Real.exp 1 := by rw [← Real.exp_nat_mul]; norm_num
  by_contra h
  have := pow_le_pow_left₀ (by norm_num) (not_le.1 h).le 3
  linarith

theorem exp_step_size : (CForm.exp (.var 0)).apriori .f32 4 Fmt.f32.u (3 * Fmt.f32.η) (4 * Fmt.f32.u + 3 * Fmt.f32.η)
    (fun _ => ((1 / 3 : ℝ) : ℂ)) (fun _ => 1 / 2 ^ 20) ≤ 1 := by
  show fnStep _ _ _ (Real.exp (((1 / 3 : ℝ) : ℂ).re + 1 / 2 ^ 20) + 1) ‖_root_.Complex.exp ((1 / 3 : ℝ) : ℂ)‖
    (‖_root_.Complex.exp ((1 / 3 : ℝ) : ℂ)‖ * (Real.exp (1 / 2 ^ 20) - 1)) ≤ 1
  have W := expThird
  have W0 := norm_nonneg (_root_.Complex.exp ((1 / 3 : ℝ) : ℂ))
  have e : Real.exp (1 / 2 ^ 20) - 1 ≤ 0.1 := by
    have := Real.exp_bound_div_one_sub_of_interval (x := 1 / 2 ^ 20) (by norm_num) (by norm_num)
    norm_num at this ⊢; linarith
  have e0 : 0 ≤ Real.exp (1 / 2 ^ 20) - 1 := by have := Real.add_one_le_exp ((1 : ℝ) / 2 ^ 20); norm_num at this ⊢
  have M : Real.exp (((1 / 3 : ℝ) : ℂ).re + 1 / 2 ^ 20) ≤ 3 := by
    rw [_root_.Complex.ofReal_re]
    have : Real.exp (1 / 3 + 1 / 2 ^ 20) ≤ Real.exp 1 := Real.exp_le_exp.2 (by norm_num)
    linarith [Real.exp_one_lt_d9]
  have M0 : 0 < Real.exp (((1 / 3 : ℝ) : ℂ).re + 1 / 2 ^ 20) := Real.exp_pos _
  have hP : ‖_root_.Complex.exp ((1 / 3 : ℝ) : ℂ)‖ * (Real.exp (1 / 2 ^ 20) - 1) ≤ 2 * 0.1 := mul_le_mul W e e0 (by norm_num)
  have hP0 : 0 ≤ ‖_root_.Complex.exp ((1 / 3 : ℝ) : ℂ)‖ * (Real.exp (1 / 2 ^ 20) - 1) := mul_nonneg W0 e0
  generalize ‖_root_.Complex.exp ((1 / 3 : ℝ) : ℂ)‖ * (Real.exp (1 / 2 ^ 20) - 1) = P at *
  generalize Real.exp (((1 / 3 : ℝ) : ℂ).re + 1 / 2 ^ 20) = M' at *
  generalize ‖_root_.Complex.exp ((1 / 3 : ℝ) : ℂ)‖ = W' at *
  unfold fnStep
  have h := f32_η
  have h0 := (η_le_one .f32).1
  rw [u32]
  generalize (Fmt.f32.η : ℝ) = η at *
  have q2 := sqrt_two_bounds
  have k1 : M' * (3 * η) ≤ 3 * (3 * η) := mul_le_mul_of_nonneg_right M (by linarith)
  have k2 : (3 * η) ^ 2 ≤ 9 * η := by nlinarith
  norm_num at h
  have k3 : (1 + (1 : ℝ) / 2 ^ 24) ^ 2 * (1 + 1 / 2 ^ 24) * ((3 * η) ^ 2 + (M' + 1) * (3 * η) + η) ≤
    (1 + (1 : ℝ) / 2 ^ 24) ^ 2 * (1 + 1 / 2 ^ 24) * (25 * η) := mul_le_mul_of_nonneg_left (by linarith) (by positivity)
  have k4 := mul_le_mul q2.1 k3 (by positivity) (by norm_num)
  norm_num at k4 ⊢
  linarith

theorem exp128 : 8 * Real.exp 40 ≤ (2 : ℝ) ^ Fmt.f32.emax := by
  have := exp40; have := Real.exp_pos 40; linarith

theorem add_part : ‖(1 : ℂ) + ((1 / 3 : ℝ) : ℂ)‖ = 4 / 3 := by
  rw [← _root_.Complex.ofReal_one, ← _root_.Complex.ofReal_add, _root_.Complex.norm_real, Real.norm_eq_abs]
  norm_num

theorem tameC87 : formC87.Tame .f32 4 40 Fmt.f32.u (3 * Fmt.f32.η) (4 * Fmt.f32.u + 3 * Fmt.f32.η)
    (fun _ => ((1 / 3 : ℝ) : ℂ)) (fun _ => 1 / 2 ^ 20) := by
  have big : (100 : ℝ) ≤ 2 ^ Fmt.f32.emax := by show (100 : ℝ) ≤ 2 ^ (127 : ℤ); norm_num
  refine ⟨⟨trivial, ?_, ?_⟩, ⟨trivial, trivial, ?_⟩, ?_, ?_, ?_⟩
  · show |((1 / 3 : ℝ) : ℂ).re| + 1 / 2 ^ 20 ≤ 40
    rw [_root_.Complex.ofReal_re]; norm_num [abs_of_pos]
  · show |((1 / 3 : ℝ) : ℂ).im| + 1 / 2 ^ 20 ≤ 40
    rw [_root_.Complex.ofReal_im]; norm_num
  · show ‖(1 : ℂ) + ((1 / 3 : ℝ) : ℂ)‖ + (0 + 1 / 2 ^ 20) ≤ 2 ^ Fmt.f32.emax
    rw [add_part]; norm_num at big ⊢; linarith
  · refine (add_le_add expThird exp_step_size).trans ?_
    norm_num
  · show _ ≤ ‖(1 : ℂ) + ((1 / 3 : ℝ) : ℂ)‖ - (Fmt.f32.u * (‖(1 : ℂ) + ((1 / 3 : ℝ) : ℂ)‖ + (0 + 1 / 2 ^ 20)) + (0 + 1 / 2 ^ 20))
    rw [add_part, u32]; norm_num
  · show ‖(1 : ℂ) + ((1 / 3 : ℝ) : ℂ)‖ + (Fmt.f32.u * (‖(1 : ℂ) + ((1 / 3 : ℝ) : ℂ)‖ + (0 + 1 / 2 ^ 20)) + (0 + 1 / 2 ^ 20)) ≤ _
    rw [add_part, u32]; norm_num

theorem near32 : ‖cval (third .f32) - ((1 / 3 : ℝ) : ℂ)‖ ≤ 1 / 2 ^ 20 := by
  refine (third_near (by decide)).trans ?_
  have := f32_η
  rw [u32]
  norm_num at this ⊢
  linarith

example := C87_apriori (F := .f32) (by decide) (k := 4) (by decide) lib40 (logLib_any (by decide)) small32.1 small32.2.1 exp128
  (fun _ => third .f32) _ _ (fun _ => third_finite (by decide)) (fun _ => near32) formC87 tameC87
example := C87_two_ways (F := .f32) (by decide) (k := 4) (by decide) lib40 (logLib_any (by decide)) small32.1 small32.2.1 exp128
  (fun _ => third .f32) _ _ (fun _ => third_finite (by decide)) (fun _ => near32) formC87 _ tameC87 tameC87 rfl

/-! A quotient and a root of numbers with a subnormal part: `(1 + 2^-140 i) / (2^-149 + i)` and `√(-1 + 2^-140 i)`. -/

def subA : Complex (Ieee .f32) := ⟨lit (-1), lit (1 / 2 ^ 140)⟩
def subB : Complex (Ieee .f32) := ⟨lit (1 / 2 ^ 149), lit 1⟩
theorem subA_finite : CFinite subA := by decide +kernel
theorem subB_finite : CFinite subB := by decide +kernel
theorem part_size {z : ℂ} (h1 : |z.re| ≤ 1) (h2 : |z.im| ≤ 1) (h : |z.re| = 1 ∨ |z.im| = 1) :
    (2 : ℝ) ^ (-((4 : ℕ) : ℤ)) ≤ ‖z‖ ∧ ‖z‖ ≤ 2 ^ ((4 : ℕ) : ℤ) := by
  have h3 := _root_.Complex.norm_le_abs_re_add_abs_im z
  have h4 := _root_.Complex.abs_re_le_norm z
  have h5 := _root_.Complex.abs_im_le_norm z
  norm_num
  rcases h with h | h <;> constructor <;> linarith
theorem subA_size : (2 : ℝ) ^ (-((4 : ℕ) : ℤ)) ≤ ‖cval subA‖ ∧ ‖cval subA‖ ≤ 2 ^ ((4 : ℕ) : ℤ) := by
  have h1 : subA.re.value = -1 := by decide +kernel
  have h2 : subA.im.value = 1 / 2 ^ 140 := by decide +kernel
  refine part_size ?_ ?_ (.inl ?_) <;> simp only [cval, h1, h2] <;> push_cast <;> norm_num [abs_of_pos]
theorem subB_size : (2 : ℝ) ^ (-((4 : ℕ) : ℤ)) ≤ ‖cval subB‖ ∧ ‖cval subB‖ ≤ 2 ^ ((4 : ℕ) : ℤ) := by
  have h1 : subB.re.value = 1 / 2 ^ 149 := by decide +kernel
  have h2 : subB.im.value = 1 := by decide +kernel
  refine part_size ?_ ?_ (.inr ?_) <;> simp only [cval, h1, h2] <;> push_cast <;> norm_num [abs_of_pos]
example := C87_div (F := .f32) (by decide) (k := 4) (by decide) subA_finite subB_finite subB_size.1 subB_size.2 subA_size.2
example := C87_sqrt (F := .f32) (by decide) (k := 4) (by decide) subA_finite subA_size.1 subA_size.2

/-! `√ln(1 + e ^ x)` at `x = 1 / 3`, in formats of precision `n + 3`. -/

def grow (n : ℕ) : Fmt := ⟨n + 3, n + 3, by omega, by push_cast; omega⟩
def formC87' : CForm := .sqrt (.ln (.add .one (.exp (.var 0))))

theorem regularC87 : formC87'.Regular 1 (fun _ => ((1 / 3 : ℝ) : ℂ)) := by
  have e : (CForm.add .one (.exp (.var 0))).exact (fun _ => ((1 / 3 : ℝ) : ℂ)) = ((1 + Real.exp (1 / 3) : ℝ) : ℂ) := by
    simp only [CForm.exact]; push_cast; rfl
  have h0 := Real.exp_pos (1 / 3)
  refine ⟨⟨⟨trivial, trivial, ?_, ?_⟩, ?_⟩, ?_⟩
  · show |((1 / 3 : ℝ) : ℂ).re| < 1
    rw [_root_.Complex.ofReal_re]; norm_num [abs_of_pos]
  · show |((1 / 3 : ℝ) : ℂ).im| < 1
    rw [_root_.Complex.ofReal_im]; norm_num
  · rw [e, _root_.Complex.mem_slitPlane_iff, _root_.Complex.ofReal_re]
    left; linarith
  · show _root_.Complex.log ((CForm.add .one (.exp (.var 0))).exact (fun _ => ((1 / 3 : ℝ) : ℂ))) ∈ _
    rw [e, ← _root_.Complex.ofReal_log (by linarith), _root_.Complex.mem_slitPlane_iff, _root_.Complex.ofReal_re]
    left; exact Real.log_pos (by linarith)

theorem grow_p : Tendsto (fun n => (grow n).p) atTop atTop := tendsto_add_atTop_nat 3
theorem grow_u : Tendsto (fun n => ((grow n).u : ℝ)) atTop (𝓝 0) := tendsto_u grow_p
theorem grow_η : Tendsto (fun n => 3 * ((grow n).η : ℝ)) atTop (𝓝 0) := by
  simpa using (tendsto_const_nhds (x := (3 : ℝ))).mul (tendsto_η grow_p)
theorem grow_δ : Tendsto (fun n => 4 * ((grow n).u : ℝ) + 3 * ((grow n).η : ℝ)) atTop (𝓝 0) := by
  simpa using ((tendsto_const_nhds (x := (4 : ℝ))).mul grow_u).add grow_η
theorem grow_three (n : ℕ) : 3 ≤ (grow n).emax := by show (3 : ℤ) ≤ (n : ℤ) + 3; omega
theorem grow_lib (n : ℕ) : FnLib (grow n) 1 (grow n).u (3 * (grow n).η) := fnLib_example (by
  have h1 : (2 : ℝ) ^ (3 : ℤ) ≤ 2 ^ (grow n).emax := zpow_le_zpow_right₀ (by norm_num) (grow_three n)
  have := Real.exp_one_lt_d9
  norm_num at h1
  linarith)
theorem grow_input : Tendsto (fun n => cval (third (grow n))) atTop (𝓝 ((1 / 3 : ℝ) : ℂ)) := by
  rw [tendsto_iff_norm_sub_tendsto_zero]
  refine squeeze_zero (fun _ => norm_nonneg _) (fun n => third_near (grow_three n)) ?_
  simpa using (grow_u.div_const 3).add grow_η

example := C87_converges (l := atTop) (F := grow) grow_p grow_u grow_η grow_δ (.of_forall grow_lib)
  (.of_forall fun n => logLib_any (grow_three n)) _ (fun n _ => third (grow n))
  (fun _ => ⟨.of_forall fun n => third_finite (grow_three n), grow_input⟩) formC87' regularC87
example := C87_precision regularC87 (τ := 1 / 1000) (by norm_num)

end

end Magnesia.Witness
