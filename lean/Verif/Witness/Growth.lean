import Verif.Props.Growth
import Verif.Witness.Track

/-!
# Concrete cases meeting the hypotheses of C99
-/

namespace Magnesia.Witness

open RZero

/-- An input `x / 10`, of which only is known that its magnitude is at most 5. -/
def atMost5 (x : ℤ) : BoundedInput .f32 :=
  if h : (tenth x).Finite ∧ |(tenth x).value| ≤ (f32 5).value then ⟨f32 5, tenth x, h.1, h.2⟩
  else ⟨f32 5, f32 5, by decide +kernel, by decide +kernel⟩

example := C99_no_overflow x64 Γ (fun _ => trivial) .dmat trivial prog (env atMost5 7)
example := C99_depth (F := .f32) x64 Γ (fun _ => trivial) .dmat trivial prog (env (fun x => (tenth x, f32 3)) 7)

theorem map_env {T T' : Type} (g : ℤ → T) (f : T → T') : (fun i => (Γ i).map f trivial (env g 7 i)) = env (f ∘ g) 7 := by
  funext i
  by_cases h : i = 0
  · subst h; rfl
  · simp only [env, h, if_false]; rfl

/-- The results of the runs. -/
def ares : Ieee .f32 := (runE (BoundedInput.input ∘ atMost5) 7).getD (.zero false)
def mres : MaxMag .f32 := (runE ((fun a => (⟨a.bound⟩ : MaxMag .f32)) ∘ atMost5) 7).getD zero
def gres : Growth .f32 := (runE ((fun a => Growth.ofBound a.bound) ∘ atMost5) 7).getD zero

/-- Equality of two outcomes of runs with `Growth`, to be decided part by part. -/
instance : DecidableEq (Growth .f32) := fun a b => decidable_of_iff (a.depth = b.depth ∧ a.size = b.size ∧ a.under = b.under)
  ⟨fun h => by cases a; cases b; obtain ⟨h1, h2, h3⟩ := h; congr, fun h => by rw [h]; exact ⟨rfl, rfl, rfl⟩⟩

theorem runE_input : progE.run (Γ := Γ) (T := Ieee .f32) x64 (fun i => (Γ i).map BoundedInput.input trivial (env atMost5 7 i)) = .ok ares := by
  rw [map_env]; exact Res.eq_ok (d := (.zero false : Ieee .f32)) (by decide +kernel)
theorem runE_mag : progE.run (Γ := Γ) (T := MaxMag .f32) x64 (fun i => (Γ i).map (fun a => (⟨a.bound⟩ : MaxMag .f32)) trivial (env atMost5 7 i)) =
    .ok ⟨mres.val⟩ := by
  rw [map_env]; exact Res.eq_ok (d := (zero : MaxMag .f32)) (by decide +kernel)
theorem runE_growth : progE.run (Γ := Γ) (T := Growth .f32) x64 (fun i => (Γ i).map (fun a => Growth.ofBound a.bound) trivial (env atMost5 7 i)) =
    .ok gres := by
  rw [map_env]; exact Res.eq_ok (d := (zero : Growth .f32)) (by decide +kernel)

example := C99_errors x64 Γ (fun _ => trivial) (.ring .scalar) trivial progE (env atMost5 7) _ runE_input
example := C99_scalar x64 Γ (fun _ => trivial) progE (env atMost5 7) mres.val gres runE_mag (by decide +kernel) runE_growth


/-- Five roundings at most are piled up in this entry of `(a * b) * a - a`; no input of at most 5 can make it larger than 505 or, in
single precision, wrong by more than a thousandth. -/
example : gres.depth = 5 ∧ mres.val.value = 505 ∧ 0 < gres.bound ∧ gres.bound < 1 / 1000 := by decide +kernel

end Magnesia.Witness
