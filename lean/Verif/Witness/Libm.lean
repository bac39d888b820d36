import Verif.Props.Libm
import Verif.Props.LibmSym
import Verif.Props.AckleyIeee
import Verif.Witness.Ieee

/-!
# Concrete cases of the theorems about complex functions and the Ackley function over floating point numbers

Every theorem of `Verif/Props/Libm.lean`, `LibmSym.lean` and `AckleyIeee.lean` that has hypotheses is applied with all
hypotheses discharged. The libraries are those that meet the hypotheses in these files; for results that depend on the
digits, a library that knows a few values.
-/

namespace Magnesia.Witness

open RZero ROne AckleyLib
open Ieee (nan inf)

/-! ## Accuracy -/

section Accurate

variable {F : Fmt}

noncomputable local instance : RExp (Ieee F) := ⟨fun a => .ok (roundReal F (Real.exp a.value))⟩
noncomputable local instance : RSin (Ieee F) := ⟨fun a => .ok (roundReal F (Real.sin a.value))⟩
noncomputable local instance : RCos (Ieee F) := ⟨fun a => .ok (roundReal F (Real.cos a.value))⟩
noncomputable local instance : RSinh (Ieee F) := ⟨fun a => .ok (roundReal F (Real.sinh a.value))⟩
noncomputable local instance : RCosh (Ieee F) := ⟨fun a => .ok (roundReal F (Real.cosh a.value))⟩
noncomputable local instance : RLn (Ieee F) := ⟨fun a => .ok (roundReal F (Real.log a.value))⟩
noncomputable local instance : RAtan2 (Ieee F) := ⟨fun y x => .ok (roundReal F (_root_.Complex.arg ⟨x.value, y.value⟩))⟩

/-- `1 + i` -/
def z1 : Complex (Ieee .f64) := ⟨f64 1, f64 1⟩
theorem z1_finite : CFinite z1 := by decide +kernel
theorem accurate : AccurateFns Fmt.f64 Fmt.f64.u (3 * Fmt.f64.η) := accurateFns_example

theorem prod_finite {x y : ℝ} (hx : |x| + 1 ≤ 4) (hy : |y| + 1 ≤ 4) :
    ((roundReal .f64 x).mul (roundReal .f64 y)).Finite := by
  refine mul_finite_of_le (k := 2) (l := 2) (roundReal_le ?_ ?_ ?_) (roundReal_le ?_ ?_ ?_) ?_ ?_
  all_goals first | (norm_num [Fmt.emin, Fmt.f64]; done) | (norm_num at *; linarith)

theorem values : |Real.exp (z1.re.value : ℝ)| + 1 ≤ 4 ∧ |Real.sinh (z1.re.value : ℝ)| + 1 ≤ 4 ∧
    |Real.cosh (z1.re.value : ℝ)| + 1 ≤ 4 ∧ |Real.sin (z1.re.value : ℝ)| + 1 ≤ 4 ∧ |Real.cos (z1.re.value : ℝ)| + 1 ≤ 4 := by
  have h1 : z1.re.value = 1 := by decide +kernel
  have e1 := Real.exp_one_lt_d9
  have e0 := Real.exp_pos 1
  have c1 := Real.abs_cos_le_one 1
  have s1 := Real.abs_sin_le_one 1
  have ch1 : (1 : ℝ) ≤ Real.cosh 1 := Real.one_le_cosh 1
  have sh1 : (1 : ℝ) ≤ Real.sinh 1 := Real.self_le_sinh_iff.2 (by norm_num)
  have ch2 := Real.cosh_add_sinh 1
  rw [h1, Rat.cast_one, abs_of_pos e0, abs_of_nonneg (by linarith : (0 : ℝ) ≤ Real.sinh 1),
    abs_of_nonneg (by linarith : (0 : ℝ) ≤ Real.cosh 1)]
  norm_num at e1
  refine ⟨?_, ?_, ?_, ?_, ?_⟩ <;> linarith

-- C58
example := C58_exp accurate z1 z1_finite
example := C58_sin accurate z1 z1_finite
example := C58_cos accurate z1 z1_finite
example := C58_sinh accurate z1 z1_finite
example := C58_cosh accurate z1 z1_finite
example := C58_exp_norm accurate z1 _ z1_finite rfl
  ⟨prod_finite values.1 values.2.2.2.2, prod_finite values.1 values.2.2.2.1⟩
example := C58_sin_norm accurate z1 _ z1_finite rfl
  ⟨prod_finite values.2.2.2.1 values.2.2.1, prod_finite values.2.2.2.2 values.2.1⟩
example := C58_cos_norm accurate z1 _ z1_finite rfl
  ⟨prod_finite values.2.2.2.2 values.2.2.1, Ieee.neg_finite.2 (prod_finite values.2.2.2.1 values.2.1)⟩
example := C58_sinh_norm accurate z1 _ z1_finite rfl
  ⟨prod_finite values.2.1 values.2.2.2.2, prod_finite values.2.2.1 values.2.2.2.1⟩
example := C58_cosh_norm accurate z1 _ z1_finite rfl
  ⟨prod_finite values.2.2.1 values.2.2.2.2, prod_finite values.2.1 values.2.2.2.1⟩
example := C58_tan accurate 4 (by decide) z1 tan_example.choose tan_example.choose_spec.choose z1_finite
  tan_example.choose_spec.choose_spec.1 tan_example.choose_spec.choose_spec.2.1
  tan_example.choose_spec.choose_spec.2.2.1 tan_example.choose_spec.choose_spec.2.2.2.1
  tan_example.choose_spec.choose_spec.2.2.2.2.1 tan_example.choose_spec.choose_spec.2.2.2.2.2.1
  tan_example.choose_spec.choose_spec.2.2.2.2.2.2
example := C58_ln (F := .f64) accurateLog_example ⟨f64 1, f64 2⟩ (f64 5) ln_example.2.1 ln_example.1 ln_example.2.2.1
  ln_example.2.2.2.1 ln_example.2.2.2.2
example := C58_sqrNormErr_normal (F := .f64) 3 (by
  have : (2 : ℝ) ^ Fmt.f64.emin ≤ 1 := zpow_le_one_of_nonpos₀ (by norm_num) (by norm_num [Fmt.emin, Fmt.f64])
  norm_num
  linarith)

end Accurate

/-! ## Symmetries -/

section Sym

variable {F : Fmt}

noncomputable local instance : RExp (Ieee F) := ⟨expFn⟩
noncomputable local instance : RSin (Ieee F) := ⟨oddFn Real.sin⟩
noncomputable local instance : RCos (Ieee F) := ⟨evenFn Real.cos⟩
noncomputable local instance : RSinh (Ieee F) := ⟨oddFn Real.sinh⟩
noncomputable local instance : RCosh (Ieee F) := ⟨evenFn Real.cosh⟩

theorem sym : SymFns Fmt.f64 := library_example.1
theorem atZero : AtZero Fmt.f64 := library_example.2.1
/-- `-3 + 0.1 i` -/
def z2 : Complex (Ieee .f64) := ⟨f64 (-3), f64 (1 / 10)⟩

theorem total (a : Ieee .f64) : Returns (expFn a) ∧ Returns (oddFn Real.sin a) ∧ Returns (evenFn Real.cos a) ∧
    Returns (oddFn Real.sinh a) ∧ Returns (evenFn Real.cosh a) := by
  cases a <;> exact ⟨⟨_, rfl⟩, ⟨_, rfl⟩, ⟨_, rfl⟩, ⟨_, rfl⟩, ⟨_, rfl⟩⟩

theorem bounded_finite {x : ℝ} (h : |x| ≤ 1) : (roundReal .f64 x).Finite := by
  refine (roundReal_le (k := 1) ?_ ?_ ?_).1
  all_goals first | (norm_num [Fmt.emin, Fmt.f64]; done) | (norm_num at *; linarith)

theorem sin_finite (a c : Ieee .f64) (ha : a.Finite) (h : oddFn Real.sin a = .ok c) : c.Finite := by
  cases a with
  | nan => exact ha.elim
  | inf s => exact ha.elim
  | zero s => cases h; trivial
  | fin x h0 hr =>
    cases h
    split
    · exact Ieee.neg_finite.2 (bounded_finite (Real.abs_sin_le_one _))
    · exact bounded_finite (Real.abs_sin_le_one _)
theorem cos_finite (a c : Ieee .f64) (ha : a.Finite) (h : evenFn Real.cos a = .ok c) : c.Finite := by
  cases a with
  | nan => exact ha.elim
  | inf s => exact ha.elim
  | zero s => cases h; trivial
  | fin x h0 hr =>
    cases h
    split <;> exact bounded_finite (Real.abs_cos_le_one _)

-- C59
example := C59_exp_conj sym z2
example := C59_sin_conj sym z2
example := C59_cos_conj sym z2
example := C59_sinh_conj sym z2
example := C59_cosh_conj sym z2
example := C59_sin_neg sym z2
example := C59_cos_neg sym z2
example := C59_sinh_neg sym z2
example := C59_cosh_neg sym z2
example := C59_sin_rot sym z2
example := C59_cos_rot sym z2
example := C59_sinh_rot sym z2
example := C59_cosh_rot sym z2
example := C59_tan_sym sym z2
example := C59_exp_real atZero (f64 3) _ true (total _).1.choose_spec
example := C59_exp_imag atZero (f64 3) _ _ true (total _).2.2.1.choose_spec (total _).2.1.choose_spec
example := C59_sin_real atZero (f64 3) _ _ true (total _).2.2.1.choose_spec (total _).2.1.choose_spec
  (cos_finite _ _ (by decide +kernel) (total _).2.2.1.choose_spec)
example := C59_cos_real atZero (f64 3) _ _ true (total _).2.2.1.choose_spec (total _).2.1.choose_spec
  (sin_finite _ _ (by decide +kernel) (total _).2.1.choose_spec)
example := C59_sinh_real atZero (f64 3) _ _ true (total _).2.2.2.2.choose_spec (total _).2.2.2.1.choose_spec
example := C59_cosh_real atZero (f64 3) _ _ true (total _).2.2.2.2.choose_spec (total _).2.2.2.1.choose_spec

end Sym

section Ln

/-- The logarithm with its special values. -/
noncomputable local instance : RLn (Ieee .f64) := ⟨fun
  | .zero _ => .ok (inf true)
  | .inf false => .ok (inf false)
  | .fin x _ _ => .ok (if x = 1 then zero else roundReal .f64 (Real.log x))
  | _ => .ok nan⟩
/-- `atan2`, odd in its first argument. -/
noncomputable local instance : RAtan2 (Ieee .f64) := ⟨fun y x => oddFn (fun t => _root_.Complex.arg ⟨x.value, t⟩) y⟩

theorem ln_total (a : Ieee .f64) : ∃ c, RLn.ln a = .ok c := by
  cases a with
  | inf s => cases s <;> exact ⟨_, rfl⟩
  | _ => exact ⟨_, rfl⟩
theorem atan2_total (y x : Ieee .f64) : ∃ c, RAtan2.atan2 y x = .ok c := by
  cases y <;> exact ⟨_, rfl⟩

example := C59_ln_conj (F := .f64) ln_total (fun x => oddFn_odd (fun t => _root_.Complex.arg ⟨x.value, t⟩)) ⟨f64 (-3), f64 (1 / 10)⟩
example := C59_ln_neg (F := .f64) ln_total atan2_total ⟨f64 (-3), f64 (1 / 10)⟩
/-- `10^200 + i`: the norm overflows. -/
def huge : Complex (Ieee .f64) := ⟨f64 (10 ^ 200), f64 1⟩
/-- `10^-200`: the norm underflows. -/
def mini : Complex (Ieee .f64) := ⟨f64 (1 / 10 ^ 200), f64 0⟩
/-- `1 + 2^-60 i`: the norm is rounded to one. -/
def unit : Complex (Ieee .f64) := ⟨f64 1, f64 (1 / 2 ^ 60)⟩
theorem norms : huge.sqrNorm = .ok (inf false) ∧ mini.sqrNorm = .ok (.zero false) ∧ unit.sqrNorm = .ok one := by
  decide +kernel
example := (C59_ln_overflow huge (inf false) _ norms.1
  (atan2_total _ _).choose_spec).1 rfl rfl
example := (C59_ln_overflow mini (.zero false) _ norms.2.1
  (atan2_total _ _).choose_spec).2 false rfl rfl
example := C59_ln_unit unit _ norms.2.2 (atan2_total _ _).choose_spec
  (by show Except.ok (if (1 : ℚ) = 1 then _ else _) = _; rw [if_pos rfl])

end Ln

section Table

/-- A library that knows `cos 1`, `sin 1`, `cosh 80` and `sinh 80`. -/
local instance : RExp (Ieee .f32) := ⟨fun _ => .ok nan⟩
local instance : RCos (Ieee .f32) := ⟨fun _ => .ok (f32 0.5403023)⟩
local instance : RSin (Ieee .f32) := ⟨fun _ => .ok (f32 0.84147098)⟩
local instance : RCosh (Ieee .f32) := ⟨fun _ => .ok (f32 (277031192 * 10 ^ 26))⟩
local instance : RSinh (Ieee .f32) := ⟨fun _ => .ok (f32 (277031192 * 10 ^ 26))⟩

example := C59_tan_overflow (F := .f32) ⟨f32 1, f32 80⟩ _ _ false (Res.eq_ok (d := Complex.mk zero zero) (by decide +kernel))
  (by decide +kernel) (Res.eq_ok (d := Complex.mk zero zero) (by decide +kernel))

end Table

example := C59_sqrt_conj (F := .f64) ⟨f64 (-3), f64 (1 / 10)⟩ (by decide +kernel)

/-! ## The Ackley function -/

/-- The library of `exampleLib_ok` with `cos` equal to one near zero, as it is when correctly rounded. -/
noncomputable def flatLib : AckleyLib :=
  { exampleLib with cos := fun a => if a.Finite ∧ |a.value| ≤ 2 ^ (-60 : ℤ) then one else exampleLib.cos a }
theorem flatLib_sane : flatLib.Sane := by
  have h := exampleLib_ok.1
  refine ⟨fun a => ?_, fun s => ?_, fun a ha => ?_, fun a ha => ?_, h.expM1_zero, h.expM1_range, h.exp_one, h.exp_range, h.exp_nan⟩
  · show ite _ _ _ = ite _ _ _
    simp only [Ieee.neg_value, abs_neg, h.cos_even, Ieee.neg_finite]
  · show ite _ _ _ = _
    rw [h.cos_zero, ite_self]
  · show (ite _ _ _ : Ieee .f32).Finite ∧ |(ite _ _ _ : Ieee .f32).value| ≤ 1
    split
    · exact ⟨trivial, by show |(1 : ℚ)| ≤ 1; norm_num⟩
    · exact h.cos_range a ha
  · show ite _ _ _ = _
    rw [if_neg (fun h => ha h.1), h.cos_undefined a ha]

-- C60
example := C60_neg _ exampleLib_ok.1 (lit (1 / 10)) (lit 3)
example := C60_origin _ exampleLib_ok.1 true false
example := C60_flat _ flatLib_sane (lit (1 / 2 ^ 80)) (lit (-1 / 2 ^ 77)) (by decide +kernel) (by decide +kernel)
  (by decide +kernel) (by decide +kernel) (if_pos (by decide +kernel)) (if_pos (by decide +kernel))
example := C60_range _ exampleLib_ok.1 (lit (10 ^ 30)) (lit (-3)) (by decide +kernel) (by decide +kernel)
example := C60_nan _ exampleLib_ok.1 (lit (10 ^ 38)) (lit 0) (.inl (by decide +kernel))
example := C60_minimum _ exampleLib_ok.1 (lit (1 / 10)) (lit 3) true false
example := C60_accuracy _ (by positivity) (by positivity) (by norm_num) exampleLib_ok.2 (lit (1 / 10)) (lit (49 / 10))
  (by decide +kernel) (by decide +kernel) (by decide +kernel) (by decide +kernel)

end Magnesia.Witness
