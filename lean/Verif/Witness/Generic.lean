import Verif.Props.Generic
import Verif.Props.GenericCount
import Verif.Props.Dual
import Verif.Props.IntFloat

/-!
# Concrete cases meeting the hypotheses of C78 and C79
-/

namespace Magnesia.Witness

open RZero ROne

theorem ieee_neverPanics {F : Fmt} : NeverPanics (Ieee F) :=
  ⟨fun _ _ => rfl, fun _ _ => rfl, fun _ _ => ⟨_, rfl⟩, fun _ => ⟨_, rfl⟩⟩

/-- `x * y - x` with `x` and `y` in intervals. -/
example := C78_generic (respects_encloses (K := ℚ)) ⟨64, true⟩ (fun _ => .ring .scalar) (fun _ => trivial) (.ring .scalar) trivial
  intFloatExample fun i => if i = 0 then ⟨(⟨1, 2⟩, ⟨3 / 2⟩), by constructor <;> decide +kernel⟩ else ⟨(⟨-1, 1⟩, ⟨1 / 3⟩), by constructor <;> decide +kernel⟩

example := C78_intervals (K := ℚ) ⟨64, true⟩ (fun _ => .ring .scalar) (fun _ => trivial) (.ring .scalar) trivial
  intFloatExample fun i => if i = 0 then ⟨(⟨1, 2⟩, ⟨3 / 2⟩), by constructor <;> decide +kernel⟩ else ⟨(⟨-1, 1⟩, ⟨1 / 3⟩), by constructor <;> decide +kernel⟩

/-- The enclosure that the interval run returns. -/
example : Prog.run (T := Itv ℚ) (Γ := fun _ => .ring .scalar) ⟨64, true⟩
    (fun i => show Itv ℚ from if i = 0 then ⟨1, 2⟩ else ⟨-1, 1⟩) intFloatExample = .ok (show Itv ℚ from ⟨-4, 1⟩) :=
  congrArg Except.ok (by
    show Itv.sub (Itv.mul ⟨1, 2⟩ ⟨-1, 1⟩) ⟨1, 2⟩ = (⟨-4, 1⟩ : Itv ℚ)
    decide +kernel)

example := C78_oblivious (T := Ieee .f64) ieee_neverPanics Ieee.valueOpsAgree (fun a => ⟨a, rfl⟩) ⟨64, true⟩ (fun _ => .ring .scalar)
  (fun _ => trivial) (.ring .scalar) trivial intFloatExample (fun i => i) fun i => .ofInt i

/-- The term. -/
example : Prog.run (T := Term) (Γ := fun _ => .ring .scalar) ⟨64, true⟩ (fun i => show Term from .var i) intFloatExample =
    .ok (show Term from .sub (.mul (.var 0) (.var 1)) (.var 0)) := rfl

example := C78_panics (T := Ieee .f64) (T' := Exact ℚ) ieee_neverPanics Ieee.valueOpsAgree (fun a => ⟨a, rfl⟩) neverPanics_exact
  valueOpsAgree_exact (fun a => ⟨a, rfl⟩) ⟨64, true⟩ (fun _ => .ring .scalar) (fun _ => trivial) (.ring .scalar) trivial
  intFloatExample (fun i => i) (fun i => .ofInt i) fun i => ⟨i⟩

theorem leaf_var (i : ℕ) : (Term.var i).Leaf := ⟨rfl, rfl⟩

example := C78_count_complex ⟨.var 0, .var 1⟩ ⟨.var 2, .var 3⟩ ⟨leaf_var 0, leaf_var 1⟩ ⟨leaf_var 2, leaf_var 3⟩
example := C78_count_eval ⟨[.var 0, .var 1, .var 2]⟩ (.var 3)
  (by intro c hc; fin_cases hc <;> exact leaf_var _) (leaf_var 3)
example := C78_count_poly_mul ⟨[.var 0, .var 1, .var 2]⟩ ⟨[.var 3, .var 4]⟩
  (by intro c hc; fin_cases hc <;> exact leaf_var _) (by intro c hc; fin_cases hc <;> exact leaf_var _)
example := C78_count_dot (n := 3) ⟨fun i => .var i⟩ ⟨fun i => .var (i + 3)⟩ (fun _ => leaf_var _) (fun _ => leaf_var _)
example := C78_count_smatrix_mul (l := 2) (m := 3) (n := 4) ⟨fun i j => .var (i * 3 + j)⟩ ⟨fun i j => .var (i * 4 + j)⟩
  (fun _ _ => leaf_var _) (fun _ _ => leaf_var _)
example := C78_count_mul_vec (m := 2) (n := 3) ⟨fun i j => .var (i * 3 + j)⟩ ⟨fun i => .var i⟩ (fun _ _ => leaf_var _)
  (fun _ => leaf_var _)
example := C78_count_dvector_dot ⟨[.var 0, .var 1, .var 2]⟩ ⟨[.var 3, .var 4]⟩
  (by intro c hc; fin_cases hc <;> exact leaf_var _) (by intro c hc; fin_cases hc <;> exact leaf_var _)
example := C78_count_dmatrix_mul (l := 2) (m := 3) (n := 4) ⟨64, true⟩ (show 2 * 3 ≤ 2 ^ 64 by decide) (show 3 * 4 ≤ 2 ^ 64 by decide) (by decide) (fun i j => .var (i * 3 + j))
  (fun i j => .var (i * 4 + j)) (fun _ _ => leaf_var _) (fun _ _ => leaf_var _)

/-- `x * y - x` along `x = t`, `y = t * t` at `t = 2`. -/
example := C79_dual ⟨64, true⟩ (fun _ => .ring .scalar) (fun _ => trivial) (.ring .scalar) trivial intFloatExample 2
  fun i => if i = 0 then ⟨fun t => t, differentiableAt_id⟩ else ⟨fun t => t * t, differentiableAt_id.mul differentiableAt_id⟩

/-- `3 + 5 x + 7 x ^ 2` at 10: value 753 and derivative 145. -/
example : (Poly.fromCoefficients ([3, 5, 7].map fun c => (⟨c, 0⟩ : Dual ℤ))).eval ⟨10, 1⟩ = .ok ⟨753, 145⟩ := by decide +kernel

end Magnesia.Witness
