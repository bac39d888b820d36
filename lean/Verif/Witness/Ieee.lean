import Verif.Props.Rounding
import Verif.Props.Ieee
import Verif.Props.CxRound
import Verif.Props.IeeeSpecial
import Verif.Props.IeeeSqrt
import Verif.Props.IeeeSqrtErr
import Verif.Props.SqrtCheck
import Verif.Props.IeeeLaws
import Verif.Witness.Dyn

/-!
# Concrete cases of the theorems about floating point arithmetic

Every theorem of `Verif/Props/Rounding.lean`, `Ieee.lean`, `CxRound.lean`, `IeeeSpecial.lean`, `IeeeSqrt.lean`,
`IeeeSqrtErr.lean` and `IeeeLaws.lean` that has hypotheses is applied to concrete numbers, with all hypotheses discharged.
The theorems about the standard model are applied to `f32` with trapped exceptions, where `0.1`, `0.3` and so on are
rounded.
-/

namespace Magnesia.Witness

open RZero ROne
open Ieee (nan inf)

/-! ## The standard model -/

/-- The `f32` next to `x`; exceptions (including underflow) are trapped. -/
def t32 (x : ℚ) (h : (f32 x).Finite := by decide +kernel) : Trap .f32 true := ⟨f32 x, h⟩
/-- The same, underflow not trapped. -/
def s32 (x : ℚ) (h : (f32 x).Finite := by decide +kernel) : Trap .f32 false := ⟨f32 x, h⟩

theorem t32_rounds : RoundsField (Trap.value : Trap .f32 true → ℚ) Fmt.f32.u 0 := trap_roundsField
theorem s32_rounds : RoundsField (Trap.value : Trap .f32 false → ℚ) Fmt.f32.u Fmt.f32.η := trap_roundsField

/-- `0.1 + 0.2 x + 0.3 x²` -/
def tcoef : List (Trap .f32 true) := [t32 (1 / 10), t32 (2 / 10), t32 (3 / 10)]
/-- `0.1 - 0.2 x + 0.3 x²` -/
def scoef : List (Trap .f32 false) := [s32 (1 / 10), s32 (-2 / 10), s32 (3 / 10)]

-- C47
example := C47_horner_error s32_rounds.toRoundsRing scoef (s32 (7 / 10)) _ (Res.eq_ok (d := zero) (by decide +kernel))
example := C47_horner_relative_error t32_rounds.toRoundsRing tcoef (t32 (7 / 10)) _ (by decide +kernel) (by decide +kernel)
  (Res.eq_ok (d := zero) (by decide +kernel))

-- C48
/-- A vector. -/
def va : SVector (Trap .f32 false) 2 := ⟨![s32 (1 / 10), s32 (-2 / 10)]⟩
/-- Another. -/
def vb : SVector (Trap .f32 false) 2 := ⟨![s32 (3 / 10), s32 (7 / 10)]⟩
/-- A matrix. -/
def fma : Fin 2 → Fin 2 → Trap .f32 false := ![![s32 (1 / 10), s32 (-2 / 10)], ![s32 3, s32 (1 / 3)]]
/-- Another. -/
def fmb : Fin 2 → Fin 2 → Trap .f32 false := ![![s32 (7 / 10), s32 0], ![s32 (1 / 7), s32 (-5)]]
example := C48_dot_error s32_rounds.toRoundsRing va vb _ (Res.eq_ok (d := zero) (by decide +kernel))
example := C48_smatrix_mul_error s32_rounds.toRoundsRing ⟨fma⟩ ⟨fmb⟩ _ (Res.eq_ok (d := zero) (by decide +kernel)) 1 0
example := C48_mul_vec_error s32_rounds.toRoundsRing ⟨fma⟩ vb _ (Res.eq_ok (d := zero) (by decide +kernel)) 1
example := C48_dmatrix_mul_error (p := x64) trap_roundsV fits fits fma fmb _ (Res.eq_ok (d := DMatrix.mk [] 0 0) (by decide +kernel))
example := C48_dvector_dot_error trap_valueOpsAgree (fun _ => rfl) s32_rounds.toRoundsRing va.val vb.val _
  (Res.eq_ok (d := zero) (by decide +kernel))

-- C49
/-- `0.1 + 3i` -/
def cz : Complex (Trap .f32 true) := ⟨t32 (1 / 10), t32 3⟩
/-- `-0.7 + 0.3i` -/
def cw : Complex (Trap .f32 true) := ⟨t32 (-7 / 10), t32 (3 / 10)⟩
example := C49_mul_error t32_rounds.toRoundsRing cz cw _ (Res.eq_ok (d := Complex.mk zero zero) (by decide +kernel))
example := C49_sqr_norm_error t32_rounds.toRoundsRing cz _ (Res.eq_ok (d := zero) (by decide +kernel))
example := C49_abs_error t32_rounds.toRoundsRing trap_roundsSqrt cz _ (Res.eq_ok (d := zero) (by decide +kernel))
  (by decide +kernel)
example := C49_div_nonzero t32_rounds cz cw _ (Res.eq_ok (d := Complex.mk zero zero) (by decide +kernel))
example := C49_div_error t32_rounds (by decide +kernel) cz cw _ (Res.eq_ok (d := Complex.mk zero zero) (by decide +kernel))
example := C49_mul_norm_error t32_rounds.toRoundsRing cz cw _ (Res.eq_ok (d := Complex.mk zero zero) (by decide +kernel))
example := C49_div_norm_error t32_rounds (by decide +kernel) cz cw _ (Res.eq_ok (d := Complex.mk zero zero) (by decide +kernel))

/-! ## IEEE numbers -/

/-- A vector. -/
def ia : SVector (Ieee .f64) 2 := ⟨![f64 (1 / 10), f64 (2 / 10)]⟩
/-- Another. -/
def ib : SVector (Ieee .f64) 2 := ⟨![f64 (3 / 10), f64 (-7 / 10)]⟩
/-- A matrix. -/
def ima : Fin 2 → Fin 2 → Ieee .f64 := ![![f64 (1 / 10), f64 (-2 / 10)], ![f64 3, f64 (1 / 3)]]
/-- Another. -/
def imb : Fin 2 → Fin 2 → Ieee .f64 := ![![f64 (7 / 10), f64 0], ![f64 (1 / 7), f64 (-5)]]

-- C47
example := C47_ieee_horner_error [f32 1, f32 2, f32 (-3)] (f32 (1 / 10)) (f32 (117 / 100)) (by decide +kernel)
  (by decide +kernel)

-- C48
example := C48_ieee_dot_error ia ib _ (Res.eq_ok (d := zero) (by decide +kernel)) (by decide +kernel)
example := C48_ieee_smatrix_mul_error (SMatrix.mk ima) (SMatrix.mk imb) _ (Res.eq_ok (d := zero) (by decide +kernel)) 1 0
  (by decide +kernel)
example := C48_ieee_mul_vec_error (SMatrix.mk ima) ib _ (Res.eq_ok (d := zero) (by decide +kernel)) 1 (by decide +kernel)
example := C48_ieee_dmatrix_mul_error (p := x64) fits fits ima imb _ (Res.eq_ok (d := DMatrix.mk [] 0 0) (by decide +kernel))
example := C48_ieee_dmatrix_mul_returns (p := x64) fits fits (by omega) ima imb
example := C48_ieee_dvector_dot_error ia.val ib.val _ (Res.eq_ok (d := zero) (by decide +kernel)) (by decide +kernel)

-- C49
/-- `0.1 + 3i` -/
def iz : Complex (Ieee .f32) := ⟨f32 (1 / 10), f32 3⟩
/-- `-0.7 + 0.3i` -/
def iw : Complex (Ieee .f32) := ⟨f32 (-7 / 10), f32 (3 / 10)⟩
theorem between25 {x : ℚ} (h : (f32 x).Finite ∧ ((f32 x).value = 0 ∨ 2 ^ (-(25 : ℕ) : ℤ) ≤ |(f32 x).value| ∧
    |(f32 x).value| ≤ 2 ^ ((25 : ℕ) : ℤ)) := by decide +kernel) : (f32 x).Between (-(25 : ℕ)) (25 : ℕ) := h
theorem between59 {x : ℚ} (h : (f32 x).Finite ∧ ((f32 x).value = 0 ∨ 2 ^ (-(59 : ℕ) : ℤ) ≤ |(f32 x).value| ∧
    |(f32 x).value| ≤ 2 ^ ((59 : ℕ) : ℤ)) := by decide +kernel) : (f32 x).Between (-(59 : ℕ)) (59 : ℕ) := h
example := C49_ieee_mul_error iz iw _ (Res.eq_ok (d := Complex.mk zero zero) (by decide +kernel))
example := C49_ieee_sqr_norm_error iz _ (Res.eq_ok (d := zero) (by decide +kernel)) (by decide +kernel)
example := C49_ieee_div_error 25 (by decide) iz iw between25 between25 between25 between25 (.inl (by decide +kernel))
example := C49_ieee_abs_error 25 (by decide) iz between25 between25

-- C50
/-- `2^70 + i`: the norm overflows. -/
def big : Complex (Ieee .f32) := ⟨f32 (2 ^ 70), f32 1⟩
/-- `2^-80 (1 + i)`: the norm underflows. -/
def tiny : Complex (Ieee .f32) := ⟨f32 (1 / 2 ^ 80), f32 (1 / 2 ^ 80)⟩
example := C50_div_infinite iz ⟨inf false, f32 1⟩ (.inl ⟨false, rfl⟩)
example := C50_div_norm_overflow iz big _ false (by decide +kernel) (Res.eq_ok (d := Complex.mk zero zero) (by decide +kernel))
example := C50_div_norm_underflow iz tiny _ false (by decide +kernel) (Res.eq_ok (d := Complex.mk zero zero) (by decide +kernel))
example := C50_nan_mul_div iz ⟨f32 1, nan⟩ (.inr (.inr (.inr rfl)))
example := C50_nan_abs_sqrt (⟨f32 1, nan⟩ : Complex (Ieee .f32)) (.inr rfl)
example := C50_eval_nan [f32 1, nan, f32 2] (f32 0) (by decide +kernel)
example := C50_eval_at_infinity [f32 1, f32 2] (inf true) (by simp) (by decide +kernel)
example := C50_mul_infinite (⟨inf false, f32 1⟩ : Complex (Ieee .f32)) ⟨f32 2, .zero true⟩ _ (.inl ⟨_, rfl⟩) (.inr ⟨_, rfl⟩)
  (Res.eq_ok (d := Complex.mk zero zero) (by decide +kernel))
example := C50_abs_overflow big (by decide +kernel) (by decide +kernel) (.inl (by decide +kernel))
example := C50_abs_underflow tiny (by decide +kernel) (by decide +kernel) (by decide +kernel) (by decide +kernel)
example := C50_sqrt_overflow big (by decide +kernel) (by decide +kernel) (.inl (by decide +kernel))
example := C50_sqrt_nan tiny (by decide +kernel) (by decide +kernel) (by decide +kernel) (by decide +kernel)
  (by decide +kernel) (by decide +kernel)
example := C50_sqrt_half (F := .f32) (1 / 2 ^ 80) (by norm_num)
  (show Fmt.f32.Representable (1 / 2 ^ 80) from ⟨⟨1, -80, by norm_num, by decide, by decide⟩, by decide +kernel⟩) (by decide +kernel) (by decide +kernel) true

-- C52
example := C52_dmatrix_mul_t (p := x64) fits fits ima imb
example := C52_smatrix_one_mul (le_refl 2) (SMatrix.mk ima)

-- C55
example := C55_abs_mono iw big _ _ (Res.eq_ok (d := zero) (by decide +kernel)) (Res.eq_ok (d := zero) (by decide +kernel))
  (by decide +kernel) (by decide +kernel)
example := C55_abs_axis (f32 (1 / 10)) true (by decide +kernel) (.inr (by decide +kernel)) (by decide +kernel)
example := C55_abs_ge iz _ (Res.eq_ok (d := zero) (by decide +kernel)) (by decide +kernel) (by decide +kernel)
example := C55_sqrt_real (f32 (-7 / 10)) true (by decide +kernel) (.inr (by decide +kernel)) (by decide +kernel)
example := C55_sqrt_imag (by decide) (f32 (-7 / 10)) true (by decide +kernel) (by decide +kernel) (by decide +kernel)
example := C55_sqrt_sign iz _ (Res.eq_ok (d := Complex.mk zero zero) (by decide +kernel))

-- C56
example := C56_sqrt_error (F := .f32) (by decide) 59 (by decide) iz between59 between59
example := C56_sqrt_norm_error (F := .f32) (by decide) 59 (by decide) iw between59 between59

-- C67
theorem between46 {x : ℚ} (h : (f32 x).Finite ∧ ((f32 x).value = 0 ∨ 2 ^ (-(46 : ℕ) : ℤ) ≤ |(f32 x).value| ∧
    |(f32 x).value| ≤ 2 ^ ((46 : ℕ) : ℤ)) := by decide +kernel) : (f32 x).Between (-(46 : ℕ)) (46 : ℕ) := h
example := C67_square (F := .f32) (by decide) 46 (by decide) iz between46 between46
example := C67_check (F := .f32) (by decide) 46 (by decide) iw between46 between46

-- C57
theorem iw_ne_zero : cval iw ≠ 0 := by
  intro h
  have h1 := congrArg _root_.Complex.im h
  have h2 : iw.im.value ≠ 0 := by decide +kernel
  exact h2 (by simpa [cval] using h1)
/-- A matrix. -/
def cma : Fin 2 → Fin 2 → Complex (Ieee .f32) := ![![iz, iw], ![⟨f32 1, f32 2⟩, ⟨f32 0, f32 (1 / 3)⟩]]
example := C57_cu_le (F := .f32) (by decide)
example := C57_div_error 25 (by decide) iz iw between25 between25 between25 between25 iw_ne_zero
example := C57_horner_error [iz, iw, iz] iw _ (Res.eq_ok (d := Complex.mk zero zero) (by decide +kernel)) (by decide +kernel)
example := C57_dmatrix_mul_error (p := x64) (m := 1) fits fits cma cma

end Magnesia.Witness
