import Verif.Props.Track
import Verif.Props.IntFloat
import Verif.Witness.Rings
import Verif.Witness.Ieee

/-!
# Concrete cases of properties C65 and C66
-/

namespace Magnesia.Witness

/-- The entry `(1, 1)` of `(a * b) * a - a`. -/
def progE : Prog Γ (.ring .scalar) := .dmIndex prog 1 1
/-- Run it. -/
def runE {T : Type} [RRing T] [RAdd T T T] [RSub T T T] [RMul T T T] [RAddAssign T T] [RSubAssign T T] [RConj T]
    (f : ℤ → T) (k : ℤ) : Res T := progE.run (Γ := Γ) (T := T) x64 (env f k)

/-- Entries `0.1 * x` in single precision. -/
def tenth (x : ℤ) : Ieee .f32 := if x = 0 then .zero false else f32 (x / 10)

/-- The matrix of outcomes for inputs that are off by up to `1 / 1000`. -/
def off (x : ℤ) : Outcome .f32 :=
  ⟨tenth x, ⟨(tenth x).value + 1 / 2000, 1 / 1000, decide (tenth x).Finite⟩, by norm_num,
    fun _ => by rw [sub_add_cancel_left, abs_neg]; norm_num, fun h => of_decide_eq_true h⟩

example := C65_programs x64 Γ (fun _ => trivial) .dmat trivial prog (env off 7)
example := C65_given x64 Γ (fun _ => trivial) .dmat trivial prog (env tenth 7)
theorem runE_tenth : runE tenth 7 = .ok ((runE tenth 7).getD (.zero false)) := Res.eq_ok (by decide +kernel)
example := C65_scalar x64 Γ (fun _ => trivial) progE (env tenth 7) _ runE_tenth
/-- In this run something is rounded, and the result is finite: the error is not zero, the bound holds and is small. -/
example : (match runE tenth 7, runE (fun x => Tracked.ofFloat (tenth x)) 7 with
    | .ok x, .ok t => decide (x.Finite ∧ t.safe = true ∧ 0 < |x.value - t.val| ∧ |x.value - t.val| ≤ t.err ∧ t.err < 1 / 10 ^ 6)
    | _, _ => false) = true := by decide +kernel

/-- Integer entries. -/
def ieeeInt (x : ℤ) : Ieee .f32 := .ofInt x
/-- The values of the tracked run. -/
def tres : Tracked .f32 := (runE (fun x => Tracked.ofFloat (ieeeInt x)) 7).getD ⟨0, 0, false⟩
theorem runE_int : progE.run (Γ := Γ) (T := Tracked .f32) x64 (fun i => (Γ i).map Tracked.ofFloat trivial (env ieeeInt 7 i)) =
    .ok tres := by
  have e : (fun i => (Γ i).map Tracked.ofFloat trivial (env ieeeInt 7 i)) = env (fun x => Tracked.ofFloat (ieeeInt x)) 7 := by
    funext i
    by_cases h : i = 0
    · subst h; rfl
    · simp only [env, h, if_false]; rfl
  rw [e]
  exact Res.eq_ok (by decide +kernel)
example := C65_exact x64 Γ (fun _ => trivial) progE (env ieeeInt 7) _ runE_int (by decide +kernel) (by decide +kernel)
/-- The result is not trivial: the exact value is 158. -/
example : tres.val = 158 := by decide +kernel

/-- `(x + y) * (x - y)` and `x * x - y * y`. -/
def factored : Prog (fun _ => .ring .scalar) (.ring .scalar) :=
  .mulRefs (.addAssign (.input 0) (.input 1)) (.subAssign (.input 0) (.input 1))
def expanded : Prog (fun _ => .ring .scalar) (.ring .scalar) :=
  .subAssign (.mulRefs (.input 0) (.input 0)) (.mulRefs (.input 1) (.input 1))
/-- Their inputs. -/
def xy {T : Type} (f : ℤ → T) (i : ℕ) : (Ty.ring Nest.scalar).type T := if i = 0 then f 8 else f 3
/-- They have the same exact value, and different floating point values. -/
example := C65_two_ways (F := .f32) x64 (fun _ => .ring .scalar) (fun _ => trivial) factored expanded (xy tenth)
  ⟨((tenth 8).value + (tenth 3).value) * ((tenth 8).value - (tenth 3).value)⟩ rfl
  (congrArg Except.ok (Exact.ext (show _ = _ from by
    show (tenth 8).value * (tenth 8).value - (tenth 3).value * (tenth 3).value = _; ring)))
example : (((tenth 8).add (tenth 3)).mul ((tenth 8).sub (tenth 3))).value ≠
    (((tenth 8).mul (tenth 8)).sub ((tenth 3).mul (tenth 3))).value := by decide +kernel

example := C65_complex x64 Γ (fun _ => trivial) .dmat trivial prog (env (fun x => (⟨tenth x, tenth 1⟩ : Complex (Ieee .f32))) 7)

-- C66
example := C66_integers (F := .f32) (by decide) C66_formats.2.2.2.1 x64 Γ (fun _ => trivial) .dmat trivial prog
  (env MInt.lit 2) _ run_i8
example := C66_complex (F := .f64) (by decide) C66_formats.1 x64 Γ (fun _ => trivial) .dmat trivial prog
  (env (fun x => ⟨.lit x, .lit 1⟩) 2) _ run_cx

end Magnesia.Witness
