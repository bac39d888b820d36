import Verif.Props.Convert
import Verif.Witness.Rings

/-!
# Concrete cases of property C101
-/

namespace Magnesia.Witness

/-- From a debug build for 64 bits to a release build for 64 bits, and from a debug build for 32 bits. -/
theorem ports64 : Profile.Ports ⟨64, true⟩ ⟨64, false⟩ := ⟨rfl, by decide⟩
example : Profile.Ports ⟨32, true⟩ ⟨64, false⟩ := ⟨rfl, by decide⟩
/-- A release build is no reference for other machines: an index computation that wraps around on one machine does not on another. -/
example : (⟨3, false⟩ : Profile).usize 9 = .ok 1 ∧ (⟨4, true⟩ : Profile).usize 9 = .ok 9 := ⟨rfl, rfl⟩

example := C101_machines ports64 Γ (fun _ => trivial) .dmat trivial prog (env MInt.lit 2) _ run_i8
example := C101_release ports64 Γ (fun _ => trivial) .dmat trivial prog (env MInt.lit 2) _ run_i8
example := C101_release_complex ports64 Γ (fun _ => trivial) .dmat trivial prog (env (fun x => ⟨.lit x, .lit 1⟩) 2) _ run_cx
example := C101_wider (w' := 16) (by decide) (by decide) ports64 Γ (fun _ => trivial) .dmat trivial prog (env MInt.lit 2) _ run_i8
example := C101_wider_complex (w' := 16) (by decide) (by decide) ports64 Γ (fun _ => trivial) .dmat trivial prog
  (env (fun x => ⟨.lit x, .lit 1⟩) 2) _ run_cx
example := C101_cast (w := 8) (w' := 32) (chk := true) (by decide) (.lit (-5))

/-- Programs that panic because an entry does not exist. -/
def index {T : Type} [RRing T] [RAdd T T T] [RSub T T T] [RMul T T T] [RAddAssign T T] [RSubAssign T T] [RConj T]
    (f : ℤ → T) : Res T := prog'.run (Γ := Γ) (T := T) ⟨64, true⟩ (env f 2)
theorem run_i8_index : index (MInt.lit : ℤ → I8) = .error .indexOutOfBounds := by decide +kernel
theorem run_cx_index : index (fun x => (⟨.lit x, .lit 1⟩ : Complex I8)) = .error .indexOutOfBounds := by decide +kernel
example := C101_machines_panics ports64 Γ (fun _ => trivial) (.ring .scalar) trivial prog' (env MInt.lit 2) _ (by decide) run_i8_index
example := C101_release_panics ports64 Γ (fun _ => trivial) (.ring .scalar) trivial prog' (env MInt.lit 2) _ (by decide) run_i8_index
example := C101_release_complex_panics ports64 Γ (fun _ => trivial) (.ring .scalar) trivial prog' (env (fun x => ⟨.lit x, .lit 1⟩) 2) _ (by decide) run_cx_index
example := C101_wider_panics (w' := 16) (by decide) (by decide) ports64 Γ (fun _ => trivial) (.ring .scalar) trivial prog' (env MInt.lit 2) _ (by decide) run_i8_index
example := C101_wider_complex_panics (w' := 16) (by decide) (by decide) ports64 Γ (fun _ => trivial) (.ring .scalar) trivial prog'
  (env (fun x => ⟨.lit x, .lit 1⟩) 2) _ (by decide) run_cx_index

/-- The conclusion, on numbers: without checks, and with 16 bits. -/
example : runProg ⟨64, false⟩ (MInt.lit : ℤ → W8) 2 =
    .ok (DMatrix.ofFn ![![.lit 15, .lit 22], ![.lit 31, .lit 48]] : DMatrix W8) := by decide +kernel
example : runProg ⟨64, false⟩ (MInt.lit : ℤ → MInt 16 true) 2 =
    .ok (DMatrix.ofFn ![![.lit 15, .lit 22], ![.lit 31, .lit 48]] : DMatrix (MInt 16 true)) := by decide +kernel
/-- That the program returns matters: with `k = 55` it panics with checks, and without checks `i8` and `i16` differ. -/
example : runProg ⟨64, true⟩ (MInt.lit : ℤ → I8) 55 = .error .overflow ∧
    ((runProg ⟨64, false⟩ (MInt.lit : ℤ → W8) 55).map fun m => m.data.map MInt.toInt) ≠
      ((runProg ⟨64, false⟩ (MInt.lit : ℤ → MInt 16 false) 55).map fun m => m.data.map MInt.toInt) := by decide +kernel

/-- Narrowing from 16 to 8 bits, for inputs that do not fit in 8 bits. -/
example := C101_narrower (w := 16) (w' := 8) (by decide) ⟨64, false⟩ Γ (fun _ => trivial) .dmat trivial prog (env MInt.lit 300)
example : (MInt.lit 300 : MInt 16 false).cast 8 = .lit 44 := by decide +kernel
/-- With overflow checks narrowing does not commute with programs. -/
example : runProg ⟨64, true⟩ (fun x => (MInt.lit x : MInt 16 true).cast 8) 55 ≠
    ((runProg ⟨64, true⟩ (MInt.lit : ℤ → MInt 16 true) 55).map fun m => ⟨m.data.map (MInt.cast 8), m.numRows, m.numCols⟩) := by decide +kernel

end Magnesia.Witness
