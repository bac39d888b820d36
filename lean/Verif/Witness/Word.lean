import Verif.Props.Word
import Verif.Props.IntFloat

/-!
# Witnesses for C85
-/

namespace Magnesia.Witness

open RZero ROne

/-- `z · 2 ^ k` in `f32`. -/
def fx (k z : ℤ) : Ieee .f32 := if z = 0 then .zero false else .round (z * 2 ^ k)

/-- 2.75, a multiple of 1/4 up to 16 quarters. -/
def sigA : Signal .f32 := ⟨fx (-2) 11, ⟨-2, 16⟩, by decide +kernel, 11, by decide +kernel, by decide⟩
/-- -10, a multiple of 2 up to 10. -/
def sigB : Signal .f32 := ⟨fx 1 (-5), ⟨1, 5⟩, by decide +kernel, -5, by decide +kernel, by decide⟩

/-- `a * b - a`: a multiple of 1/4, up to 176 quarters. -/
example := C85_programs (F := .f32) ⟨64, true⟩ (fun _ => .ring .scalar) (fun _ => trivial)
  (.ring .scalar) trivial intFloatExample (fun i => show Signal .f32 from if i = 0 then sigA else sigB)
  (show Word .f32 from ⟨-2, 176⟩) (by
    have : (do let p ← MulRefs.mulRefs sigA.word sigB.word; (SubAssignRef.subAssign p sigA.word).toRes : Res (Word .f32)) = .ok ⟨-2, 176⟩ := by decide +kernel
    exact this)

def csig : Complex (Signal .f32) := ⟨sigA, sigB⟩

example := C85_complex (F := .f32) ⟨64, true⟩ (fun _ => .ring .scalar) (fun _ => trivial)
  (.ring .scalar) trivial intFloatExample (fun _ => csig)
  (show Complex (Word .f32) from ⟨⟨-4, 1920⟩, ⟨-1, 180⟩⟩) (by
    have : (do
        let p ← MulRefs.mulRefs (csig.map Signal.word) (csig.map Signal.word)
        (SubAssignRef.subAssign p (csig.map Signal.word)).toRes : Res (Complex (Word .f32))) = .ok ⟨⟨-4, 1920⟩, ⟨-1, 180⟩⟩ := by decide +kernel
    exact this)

example := C85_numbers (F := .f32) (a := -2) (b := -2) (x := fx (-2) 11) (y := fx (-2) (-3)) (m := 11) (n := -3)
  (by decide +kernel) (by decide +kernel)

def fxm : Fin 2 → ℤ := ![4000, -77]
def fxn : Fin 2 → ℤ := ![4000, 1001]

/-- Quarters times eighths. -/
example := C85_dot (F := .f32) (a := -2) (b := -3) ⟨fun i => fx (-2) (fxm i)⟩ ⟨fun i => fx (-3) (fxn i)⟩ fxm fxn
  (by decide +kernel) (by decide +kernel) (C85_sizes.2.1 _ _ (by decide) (by decide) (by decide))
example := C85_smatrix_mul (F := .f32) (a := -2) (b := -3) (L := 1) (N := 1) ⟨fun _ i => fx (-2) (fxm i)⟩
  ⟨fun i _ => fx (-3) (fxn i)⟩ (fun _ => fxm) (fun i _ => fxn i)
  (by decide +kernel) (by decide +kernel) (fun _ _ => C85_sizes.2.1 _ _ (by decide) (by decide) (by decide))
example := C85_mul_vec (F := .f32) (a := -2) (b := -3) (M := 1) ⟨fun _ i => fx (-2) (fxm i)⟩
  ⟨fun i => fx (-3) (fxn i)⟩ (fun _ => fxm) fxn
  (by decide +kernel) (by decide +kernel) (fun _ => C85_sizes.2.1 _ _ (by decide) (by decide) (by decide))
example := C85_dvector_dot (F := .f32) (a := -2) (b := -3) (fun i => fx (-2) (fxm i)) (fun i => fx (-3) (fxn i)) fxm fxn
  (by decide +kernel) (by decide +kernel) (C85_sizes.2.1 _ _ (by decide) (by decide) (by decide))
example := C85_dmatrix_mul (F := .f32) (a := -2) (b := -3) (p := ⟨64, true⟩) (L := 1) (M := 1) (N := 1)
  (by unfold Profile.Fits; norm_num) (by unfold Profile.Fits; norm_num) (fun _ i => fx (-2) (fxm i))
  (fun i _ => fx (-3) (fxn i)) (fun _ => fxm) (fun i _ => fxn i)
  (by decide +kernel) (by decide +kernel) (fun _ _ => C85_sizes.2.1 _ _ (by decide) (by decide) (by decide))

def fxp : ℕ → ℤ
  | 0 => 3
  | 1 => -5
  | 2 => 7
  | _ => 0

theorem fxp_zero : ∀ i, 3 ≤ i → fxp i = 0
  | 0, h | 1, h | 2, h => by omega
  | _ + 3, _ => rfl

theorem fxp_coef (k : ℤ) (s : ℤ) (h : ∀ i : Fin 3, (fx (k - i * s) (fxp i)).IsFixed (k - i * s) (fxp i)) (i : ℕ) (y : Ieee .f32)
    (hy : [fx k (fxp 0), fx (k - 1 * s) (fxp 1), fx (k - 2 * s) (fxp 2)][i]? = some y) : y.IsFixed (k - i * s) (fxp i) := by
  rcases i with _ | _ | _ | i
  · cases hy; simpa using h 0
  · cases hy; simpa using h 1
  · cases hy; simpa using h 2
  · cases hy

/-- `3 - 5 · 1/2 x + 7 · 1/4 x²` at `x = 9 · 2`. -/
example := C85_eval (F := .f32) (b := 1) (k := 0) [fx 0 (fxp 0), fx (0 - 1 * 1) (fxp 1), fx (0 - 2 * 1) (fxp 2)] (fx 1 9) fxp 9
  (by decide +kernel) (fxp_coef 0 1 (by decide +kernel)) (by decide +kernel)

example := C85_eval_integer (F := .f32) (k := -1) [fx (-1) (fxp 0), fx (-1 - 1 * 0) (fxp 1), fx (-1 - 2 * 0) (fxp 2)] (fx 0 9) fxp 9
  (by decide +kernel) (fun i y h => by simpa using fxp_coef (-1) 0 (by decide +kernel) i y h) (by decide +kernel)

theorem fxp_sum (k : ℕ) : ∑ ij ∈ Finset.antidiagonal k, (fxp ij.1).natAbs * (fxp ij.2).natAbs ≤ 2 ^ 24 := by
  have h0 := fxp_zero
  by_cases hk : k < 6
  · have : ∀ k : Fin 6, ∑ ij ∈ Finset.antidiagonal (k : ℕ), (fxp ij.1).natAbs * (fxp ij.2).natAbs ≤ 2 ^ 24 := by decide +kernel
    exact this ⟨k, hk⟩
  · rw [Finset.sum_eq_zero]
    · omega
    · intro ij h
      have := Finset.mem_antidiagonal.1 h
      rcases Nat.lt_or_ge ij.1 3 with h1 | h1
      · rw [h0 ij.2 (by omega)]; simp
      · rw [h0 ij.1 h1]; simp

example := C85_poly_mul (F := .f32) (a := -1) (b := -1) ⟨[fx (-1) (fxp 0), fx (-1 - 1 * 0) (fxp 1), fx (-1 - 2 * 0) (fxp 2)]⟩
  ⟨[fx (-1) (fxp 0), fx (-1 - 1 * 0) (fxp 1), fx (-1 - 2 * 0) (fxp 2)]⟩ fxp fxp
  (fun i y h => by simpa using fxp_coef (-1) 0 (by decide +kernel) i y h)
  (fun i y h => by simpa using fxp_coef (-1) 0 (by decide +kernel) i y h)
  fxp_zero
  fxp_zero
  (fun k => C85_sizes.2.1 _ _ (by decide) (by decide) (fxp_sum k))

example := C85_complex_mul (F := .f32) (a := -2) (b := 1) ⟨fx (-2) 11, fx (-2) (-3)⟩ ⟨fx 1 5, fx 1 7⟩ 11 (-3) 5 7
  (by decide +kernel) (by decide +kernel) (by decide +kernel) (by decide +kernel) (by decide +kernel) (by decide +kernel)

end Magnesia.Witness
