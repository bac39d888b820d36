import Verif.Props.TanCheck
import Verif.Witness.Euler

/-!
# Concrete cases of property C86
-/

namespace Magnesia.Witness

open RZero ROne

section

variable {F : Fmt}

/-- The values of the finite floating point numbers are finitely many. -/
theorem values_finite (F : Fmt) : {v : ℚ | ∃ y : Ieee F, y.Finite ∧ y.value = v}.Finite := by
  set E : ℤ := F.emin - (F.p - 1) with hE
  have h2 : (0 : ℚ) < 2 ^ E := by positivity
  obtain ⟨N, hN⟩ := exists_nat_gt ((2 : ℚ) ^ (F.emax + 1) / 2 ^ E)
  refine ((Set.finite_Icc (-(N : ℤ)) N).image (fun k : ℤ => (k : ℚ) * 2 ^ E)).subset ?_
  rintro v ⟨y, _, rfl⟩
  obtain ⟨⟨m, e, he, _, h3⟩, h4⟩ := Ieee.value_representable y
  obtain ⟨n, hn⟩ := Int.eq_ofNat_of_zero_le (sub_nonneg.2 h3)
  have e1 : y.value = ((m * 2 ^ n : ℤ) : ℚ) * 2 ^ E := by
    rw [he, show e = (n : ℤ) + E by omega, zpow_add₀ (by norm_num), zpow_natCast]
    push_cast; ring
  refine ⟨m * 2 ^ n, ?_, e1.symm⟩
  rw [e1, abs_mul, abs_of_pos h2] at h4
  have h5 : |((m * 2 ^ n : ℤ) : ℚ)| < N := ((lt_div_iff₀ h2).2 h4).trans hN
  have h6 : |m * 2 ^ n| < (N : ℤ) := by exact_mod_cast h5
  exact ⟨(abs_lt.1 h6).1.le, (abs_lt.1 h6).2.le⟩

/-- Every real number has a nearest floating point number. -/
theorem exists_nearest (F : Fmt) (r : ℝ) : ∃ c : Ieee F, Nearest c r := by
  obtain ⟨v, ⟨c, fc, rfl⟩, hv⟩ := Set.exists_min_image _ (fun v : ℚ => |(v : ℝ) - r|) (values_finite F)
    ⟨0, .zero false, trivial, rfl⟩
  exact ⟨c, fc, fun y fy => hv _ ⟨y, fy, rfl⟩⟩

/-- The nearest floating point number. -/
noncomputable def nearest (F : Fmt) (r : ℝ) : Ieee F := Classical.choose (exists_nearest F r)

theorem nearest_spec (F : Fmt) (r : ℝ) : Nearest (nearest F r) r := Classical.choose_spec (exists_nearest F r)

end

section

variable {F : Fmt}

noncomputable local instance sinC86 : RSin (Ieee F) := ⟨fun a => .ok (nearest F (Real.sin a.value))⟩
noncomputable local instance cosC86 : RCos (Ieee F) := ⟨fun a => .ok (nearest F (Real.cos a.value))⟩
noncomputable local instance sinhC86 : RSinh (Ieee F) := ⟨fun a => .ok (nearest F (Real.sinh a.value))⟩
noncomputable local instance coshC86 : RCosh (Ieee F) := ⟨fun a => .ok (nearest F (Real.cosh a.value))⟩

/-- The library that rounds correctly. -/
theorem correctlyRounded (R : ℝ) : CorrectlyRounded F R where
  sin := fun _ _ _ => ⟨_, rfl, nearest_spec F _⟩
  cos := fun _ _ _ => ⟨_, rfl, nearest_spec F _⟩
  sinh := fun _ _ _ => ⟨_, rfl, nearest_spec F _⟩
  cosh := fun _ _ _ => ⟨_, rfl, nearest_spec F _⟩

example := C86_test_fails (correctlyRounded 2)

end

/-! ### A denominator that vanishes: a library that returns 1 -/

section

variable {F : Fmt}

local instance sinZ86 : RSin (Ieee F) := ⟨fun _ => .ok one⟩
local instance cosZ86 : RCos (Ieee F) := ⟨fun _ => .ok one⟩
local instance sinhZ86 : RSinh (Ieee F) := ⟨fun _ => .ok zero⟩
local instance coshZ86 : RCosh (Ieee F) := ⟨fun _ => .ok one⟩

example := C86_test_zero (⟨one, zero⟩ : Complex (Ieee .f32)) ⟨one, zero⟩ ⟨(one : Ieee .f32).add one, zero⟩ ⟨one, zero⟩ ⟨zero, zero⟩ rfl
  (by decide +kernel) (by decide +kernel) ⟨trivial, trivial⟩ (by
    apply _root_.Complex.ext <;> show (((0 : ℚ)) : ℝ) = 0 <;> norm_num)

end

section

variable {F : Fmt}

noncomputable local instance expD86 : RExp (Ieee F) := ⟨fun a => .ok (roundReal F (Real.exp a.value))⟩
noncomputable local instance sinD86 : RSin (Ieee F) := ⟨fun a => .ok (roundReal F (Real.sin a.value))⟩
noncomputable local instance cosD86 : RCos (Ieee F) := ⟨fun a => .ok (roundReal F (Real.cos a.value))⟩
noncomputable local instance sinhD86 : RSinh (Ieee F) := ⟨fun a => .ok (roundReal F (Real.sinh a.value))⟩
noncomputable local instance coshD86 : RCosh (Ieee F) := ⟨fun a => .ok (roundReal F (Real.cosh a.value))⟩

/-- `1/8 + i/8` -/
def zC86 : Complex (Ieee .f32) := ⟨.round (1 / 8), .round (1 / 8)⟩

theorem zC86_val : CFinite zC86 ∧ cval zC86 = ⟨1 / 8, 1 / 8⟩ := by
  have h : (Ieee.round (1 / 8) : Ieee .f32).Finite ∧ (Ieee.round (1 / 8) : Ieee .f32).value = 1 / 8 := by
    constructor <;> decide +kernel
  refine ⟨⟨h.1, h.1⟩, ?_⟩
  apply _root_.Complex.ext
  · show (((Ieee.round (1 / 8) : Ieee .f32).value : ℚ) : ℝ) = 1 / 8
    rw [h.2]; norm_num
  · show (((Ieee.round (1 / 8) : Ieee .f32).value : ℚ) : ℝ) = 1 / 8
    rw [h.2]; norm_num

theorem zC86_norm : ‖cval zC86‖ ≤ 3 / 16 := by
  have h : ‖cval zC86‖ ^ 2 = 1 / 32 := by
    rw [zC86_val.2, _root_.Complex.sq_norm, _root_.Complex.normSq_mk]; norm_num
  have h0 := norm_nonneg (cval zC86)
  nlinarith

theorem libD86 : FnLib .f32 40 Fmt.f32.u (3 * Fmt.f32.η) := fnLib_example (by
  have h := exp40
  have : (1 : ℝ) ≤ Real.exp 40 := Real.one_le_exp (by norm_num)
  linarith)

theorem smallD86 : (Fmt.f32.u : ℝ) ≤ 1.001 * Fmt.f32.u ∧ 3 * (Fmt.f32.η : ℝ) ≤ Fmt.f32.u / 1024 ∧
    8 * Real.exp 40 ≤ (2 : ℝ) ^ Fmt.f32.emax := by
  have h := f32_η
  refine ⟨by rw [f32_u]; norm_num, ?_, by linarith [exp40, Real.exp_pos 40]⟩
  rw [f32_u]
  norm_num at h ⊢
  linarith

example := C86_tan_add (F := .f32) (by decide) (by decide) libD86 smallD86.1 smallD86.2.1 (by norm_num) smallD86.2.2 zC86 zC86
  zC86_val.1 zC86_val.1 zC86_norm zC86_norm
example := C86_test (F := .f32) (by decide) (by decide) libD86 smallD86.1 smallD86.2.1 (by norm_num) smallD86.2.2 zC86 zC86
  zC86_val.1 zC86_val.1 zC86_norm zC86_norm

/-- `f32`, correctly rounded functions: the test passes for all finite `a`, `b` of absolute value up to `3/16`. -/
example (a b : Complex (Ieee .f32)) (ha : CFinite a) (hb : CFinite b) (hna : ‖cval a‖ ≤ 3 / 16) (hnb : ‖cval b‖ ≤ 3 / 16) :
    tanCheck a b = .ok true :=
  C86_test (by decide) (by decide) libD86 smallD86.1 smallD86.2.1 (by norm_num) smallD86.2.2 a b ha hb hna hnb

end

end Magnesia.Witness
