import Verif.Props.Rings
import Verif.Witness.SLinalg

/-!
# Concrete cases of the theorems about integers and nestings
-/

namespace Magnesia.Witness

open RZero ROne

/-- All inputs are dynamic matrices. -/
abbrev Γ : ℕ → Ty := fun _ => .dmat
/-- The program `(a * b) * a - a` on evaluated dynamic matrices, evaluated again at each step. -/
def prog : Prog Γ .dmat :=
  .dmSubAssign (.meEval (.dmMul (.meEval (.dmMul (.input 0) (.input 1))) (.input 0))) (.mref (.input 0))
/-- Its inputs: `[[1, 2], [3, 4]]`, and `[[k, 0], [1, k]]`. -/
def env {T : Type} (f : ℤ → T) (k : ℤ) (i : ℕ) : (Γ i).type T :=
  show DMatrix T from
    if i = 0 then DMatrix.ofFn ![![f 1, f 2], ![f 3, f 4]] else DMatrix.ofFn ![![f k, f 0], ![f 1, f k]]
/-- Run it. -/
def runProg {T : Type} [RRing T] [RAdd T T T] [RSub T T T] [RMul T T T] [RAddAssign T T] [RSubAssign T T] [RConj T]
    (pr : Profile) (f : ℤ → T) (k : ℤ) : Res (DMatrix T) :=
  prog.run (Γ := Γ) (T := T) pr (env f k)

-- C08: an `i8` run that returns, and the corresponding run over the unbounded integers
theorem run_i8 : runProg ⟨64, true⟩ (MInt.lit : ℤ → I8) 2 =
    .ok (DMatrix.ofFn ![![.lit 15, .lit 22], ![.lit 31, .lit 48]] : DMatrix I8) := by decide +kernel
example := C08_checked_exact_or_panic 8 (by decide) ⟨64, true⟩ Γ (fun _ => trivial) .dmat trivial prog (env MInt.lit 2) _ run_i8
/-- With `k = 15` the same program overflows. -/
example : runProg ⟨64, true⟩ (MInt.lit : ℤ → I8) 15 = .error .overflow := by decide +kernel
theorem run_cx : runProg ⟨64, true⟩ (fun x => (⟨.lit x, .lit 1⟩ : Complex I8)) 2 =
    .ok ((runProg ⟨64, true⟩ (fun x => (⟨.lit x, .lit 1⟩ : Complex I8)) 2).getD ⟨[], 0, 0⟩) :=
  Res.eq_ok (by decide +kernel)
example := C08_checked_exact_or_panic_complex 8 (by decide) ⟨64, true⟩ Γ (fun _ => trivial) .dmat trivial prog
  (env (fun x => ⟨.lit x, .lit 1⟩) 2) _ run_cx

-- C09: `k = 55` wraps around
example := C09_wrapping_is_reduction 8 ⟨64, false⟩ Γ (fun _ => trivial) .dmat trivial prog (env (fun x => ⟨x⟩) 55)
example : runProg ⟨64, false⟩ (MInt.lit : ℤ → W8) 55 =
    .ok (DMatrix.ofFn ![![.lit (-126), .lit 40], ![.lit 58, .lit (-66)]] : DMatrix W8) := by decide +kernel
/-- Reading an entry of the result in a row that does not exist. -/
def prog' : Prog Γ (.ring .scalar) := .dmIndex prog 2 0
/-- Run it. -/
def runProg' : Res W8 := prog'.run (Γ := Γ) (T := W8) ⟨64, false⟩ (env MInt.lit 55)
theorem run_w8 : runProg' = .error .indexOutOfBounds := by decide +kernel
example := C09_wrapping_no_arithmetic_panic 8 ⟨64, false⟩ rfl Γ (fun _ => trivial) _ prog' (env MInt.lit 55)
  .indexOutOfBounds run_w8

-- C10
example := C10_complex_implements i32
example := C10_polynomial_implements i32
example := C10_matrix_implements i32 3
example := C10_containers_never_panic (T := W8) neverPanics_wrapping 3
example := C10_ring_laws w8 bv_injective neverPanics_wrapping 3
example := C10_any_nesting i32 (.poly (.complex (.matrix 3 (.poly .scalar))))

end Magnesia.Witness
