import Verif.Props.DEScale
import Verif.Witness.Scale
import Verif.Witness.DE

/-!
# Concrete cases meeting the hypotheses of C80 and C54 for the optimizer
-/

namespace Magnesia.Witness

open RZero ROne

/-- Five numbers in `0..1`. -/
def utab : Fin 5 → Ieee .f32 := ![f32 (1 / 10), f32 (7 / 10), f32 (1 / 3), f32 (9 / 10), f32 (4 / 7)]

theorem mod5 (g : ℕ) : g % 5 < 5 := Nat.mod_lt _ (by omega)

/-- A generator that counts; coordinates are drawn as `hi * u` with `u` from the table. The comparator prefers small first
coordinates. -/
def uenv : DEnv (Ieee .f32) (Ieee .f32) 2 ℕ Unit where
  genIndex n g := (if n = 0 then .error .emptyRange else .ok ((g + g / 3) % n), g + 1)
  genUniform _ hi g := (.ok (hi.mul (utab ⟨g % 5, mod5 g⟩)), g + 1)
  genUnit g := (utab ⟨g % 5, mod5 g⟩, g + 1)
  compare a b s := (.ok (Ieee.flt (a 0) (b 0)), s)

def ub : Fin 2 → Trap .f32 true × Trap .f32 true := fun _ => (zero, t32 3)
/-- The first coordinate in other units. -/
def ub' : Fin 2 → Trap .f32 true × Trap .f32 true := ![(zero, t32 12), (zero, t32 3)]
def uk : Fin 2 → ℤ := ![2, 0]

theorem ucorr : uenv.Corresponds (fun c => Ieee.Scaled (uk c)) (fun a b => a = b) (fun _ _ => True) uenv
    (fun c => ((ub c).1.val, (ub c).2.val)) (fun c => ((ub' c).1.val, (ub' c).2.val)) where
  index := by rintro n g _ rfl; exact ⟨rfl, rfl⟩
  unit := by rintro g _ rfl; exact ⟨rfl, rfl⟩
  uniform := by
    rintro c g _ rfl
    refine ⟨?_, rfl⟩
    have : ∀ (c : Fin 2) (i : Fin 5), Ieee.Scaled (uk c) ((ub c).2.val.mul (utab i)) ((ub' c).2.val.mul (utab i)) := by decide +kernel
    exact this c _
  compare := by
    intro a b a' b' s s' ha hb _
    exact ⟨congrArg Except.ok (Ieee.scaled_flt (ha 0) (hb 0)), trivial⟩

theorem urun : ∃ r, uenv.trapped.optimize 20 ub 5 (f32 (1 / 2)) (t32 (7 / 10)) 6 ⟨1, (), []⟩ =
    (.ok r, (uenv.trapped.optimize 20 ub 5 (f32 (1 / 2)) (t32 (7 / 10)) 6 ⟨1, (), []⟩).2) := ran (by decide +kernel)
theorem urun' : ∃ r, uenv.trapped.optimize 20 ub' 5 (f32 (1 / 2)) (t32 (7 / 10)) 6 ⟨1, (), []⟩ =
    (.ok r, (uenv.trapped.optimize 20 ub' 5 (f32 (1 / 2)) (t32 (7 / 10)) 6 ⟨1, (), []⟩).2) := ran (by decide +kernel)

example := C80_optimize uk ucorr rfl (c := ()) (c' := ()) trivial urun.choose_spec urun'.choose_spec

/-- The mirrored generator and comparator. -/
def uenvM : DEnv (Ieee .f32) (Ieee .f32) 2 ℕ Unit where
  genIndex := uenv.genIndex
  genUniform lo _ g := (.ok (lo.mul (utab ⟨g % 5, mod5 g⟩)), g + 1)
  genUnit := uenv.genUnit
  compare a b s := (.ok (Ieee.flt (b 0) (a 0)), s)

def um : Fin 2 → Bool := ![true, true]

theorem mcorr : uenv.Corresponds (fun c => Ieee.Mirrored (um c)) (fun a b => a = b) (fun _ _ => True) uenvM
    (fun _ => (.zero false, f32 3)) (fun _ => (f32 (-3), .zero true)) where
  index := by rintro n g _ rfl; exact ⟨rfl, rfl⟩
  unit := by rintro g _ rfl; exact ⟨rfl, rfl⟩
  uniform := by
    rintro c g _ rfl
    refine ⟨Or.inl ?_, rfl⟩
    have : ∀ (c : Fin 2) (i : Fin 5), (f32 (-3)).mul (utab i) = if um c then ((f32 3).mul (utab i)).neg else (f32 3).mul (utab i) := by decide +kernel
    exact this c _
  compare := by
    intro a b a' b' s s' ha hb _
    refine ⟨congrArg Except.ok ?_, trivial⟩
    have h1 : (a' 0).Same (a 0).neg := ha 0
    have h2 : (b' 0).Same (b 0).neg := hb 0
    have key : ∀ x y : Ieee .f32, x.Same y → x.key = y.key := by
      rintro x y (rfl | ⟨s, t, rfl, rfl⟩) <;> rfl
    have kn : ∀ x : Ieee .f32, x.neg.key = x.key.map fun k => (-k.1, -k.2) := by
      intro x
      match x with
      | .nan => rfl
      | .inf true => rfl
      | .inf false => rfl
      | .zero _ => rfl
      | .fin _ _ _ => rfl
    show Ieee.flt (a 0) (b 0) = Ieee.flt (b' 0) (a' 0)
    unfold Ieee.flt
    rw [key _ _ h1, key _ _ h2, kn, kn]
    cases (a 0).key with
    | none => cases (b 0).key <;> rfl
    | some k =>
      cases (b 0).key with
      | none => rfl
      | some l =>
        simp only [Option.map_some]
        refine decide_eq_decide.2 ?_
        simp only [neg_lt_neg_iff, neg_inj]
        exact or_congr Iff.rfl (and_congr eq_comm Iff.rfl)

example := C54_mirror (n := 5) (cp := f32 (1 / 2)) (w := f32 (7 / 10)) (fuel := 20) (iters := 6) um mcorr (g := 1) (g' := 1) rfl (c := ())
  (c' := ()) trivial

end Magnesia.Witness
