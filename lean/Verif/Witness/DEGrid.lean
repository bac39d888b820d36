import Verif.Props.DEGrid
import Verif.Witness.DE

/-!
# Concrete cases of C83: the counting generator draws the integers 0, 1, 2, as integers and as `f32`s
-/

namespace Magnesia.Witness

/-- Maximise `x₀` in the box `-100..100`, in integers. -/
def gridZ : DEnv (Exact ℤ) (Exact ℤ) 2 ℕ Unit :=
  { demo with compare := fun a b s => (.ok (decide ((∀ c, |(a c).val| ≤ 100) ∧ (b 0).val < (a 0).val)), s) }
/-- The same in `f32`. -/
def gridF : DEnv (Ieee .f32) (Exact ℤ) 2 ℕ Unit where
  genIndex := demo.genIndex
  genUniform _ _ g := (.ok (Ieee.ofInt (g % 3 : ℕ)), g + 1)
  genUnit := demo.genUnit
  compare a b s := (.ok (decide ((∀ c, |(a c).value| ≤ 100) ∧ (b 0).value < (a 0).value)), s)
/-- The bounds `0..3` in `f32`. -/
def b3F : Fin 2 → Ieee .f32 × Ieee .f32 := fun _ => (Ieee.ofInt 0, Ieee.ofInt 3)

theorem grid100 : Fmt.f32.Grid 0 100 := by
  refine ⟨?_, ?_, ?_⟩ <;> simp only [Fmt.f32, Fmt.emin] <;> norm_num

theorem onGrid_ofInt {z : ℤ} (hz : |z| ≤ 100) : (Ieee.ofInt z : Ieee .f32).OnGrid 0 100 z := by
  have := grid100.representable (z := z) (by push_cast; omega)
  rw [zpow_zero, mul_one] at this
  obtain ⟨h1, h2⟩ := Ieee.ofInt_representable this
  exact ⟨h1, by rw [h2, zpow_zero, mul_one], hz⟩

theorem mod3_le (g : ℕ) : |((g % 3 : ℕ) : ℤ)| ≤ 100 := by
  have := Nat.mod_lt g (show 3 > 0 by omega)
  rw [abs_of_nonneg (by positivity)]
  omega

theorem grid_same : gridF.SameSearch (fun _ => 0) 100 gridZ b3F b3 where
  index _ _ := rfl
  unit _ := rfl
  uniform c g := by
    refine ⟨?_, rfl⟩
    show Ieee.OnGrid 0 100 (Ieee.ofInt (g % 3 : ℕ)) (0 + g % (3 - 0))
    have e : (0 + (g : ℤ) % (3 - 0)) = ((g % 3 : ℕ) : ℤ) := by push_cast; ring_nf
    rw [e]
    exact onGrid_ofInt (mod3_le g)
  compare a b a' b' s ha hb := by
    have h1 : ∀ c, (a c).value = ((a' c).val : ℚ) := fun c => by rw [(ha c).2.1, zpow_zero, mul_one]
    have h2 : ∀ c, (b c).value = ((b' c).val : ℚ) := fun c => by rw [(hb c).2.1, zpow_zero, mul_one]
    show (Except.ok (decide _), s) = (Except.ok (decide _), s)
    congr 3
    refine propext ?_
    simp only [h1, h2]
    constructor
    · rintro ⟨u, v⟩
      exact ⟨fun c => by exact_mod_cast u c, by exact_mod_cast v⟩
    · rintro ⟨u, v⟩
      exact ⟨fun c => by exact_mod_cast u c, by exact_mod_cast v⟩
  inside a b s hb h := by
    have : decide ((∀ c, |(a c).val| ≤ 100) ∧ (b 0).val < (a 0).val) = true := by injection h
    exact (of_decide_eq_true this).1

/-- Forty iterations in integers return. -/
theorem gridZ_run : ∃ r, gridZ.optimize 10 b3 5 ⟨1⟩ ⟨1⟩ 40 (at_ 1) =
    (.ok r, (gridZ.optimize 10 b3 5 ⟨1⟩ ⟨1⟩ 40 (at_ 1)).2) := ran (by decide +kernel)

-- C83
example := C83_exact (fuel := 10) (n := 5) (cp := ⟨1⟩) (iters := 40) (fun _ => grid100) grid_same (w := Ieee.ofInt 1) (v := 1)
  (by decide +kernel) (by decide +kernel) (by omega) (by omega) 1 ()
example := C83_alike_within (fuel := 10) (n := 5) (cp := (⟨1⟩ : Exact ℤ)) (iters := 6) (env := demo) (env' := demo)
  (bounds := b3) (bounds' := b3) (w := ⟨1⟩) (w' := ⟨1⟩) (R := fun _ a b => a = b) (Q := fun _ a b => a = b)
  (RG := fun g g' => g = g') (RS := fun _ _ => True)
  ⟨rfl, fun _ _ _ h => by subst h; exact ⟨rfl, rfl⟩, fun _ _ h => by subst h; exact ⟨rfl, rfl⟩,
    fun _ _ _ h => by subst h; exact ⟨rfl, rfl⟩, fun _ _ _ h => h,
    fun _ x y z x' y' z' h1 h2 h3 => by subst h1 h2 h3; rfl,
    fun a b a' b' s s' ha hb _ => by
      obtain rfl : a = a' := funext ha
      obtain rfl : b = b' := funext hb
      exact ⟨rfl, trivial, fun _ _ => rfl⟩⟩ 1 1 rfl () () trivial
example := C83_stays_on_grid (fuel := 10) (n := 5) (cp := (⟨1⟩ : Exact ℤ)) (iters := 40) (env := gridF) (bounds := b3F)
  (k := fun _ => 0) (B := 100) (fun _ => grid100)
  (fun c g x h => ⟨(g % 3 : ℕ), by cases h; exact onGrid_ofInt (mod3_le g)⟩)
  (fun a b s _ h c => by
    have : decide ((∀ c, |(a c).value| ≤ 100) ∧ (b 0).value < (a 0).value) = true := by injection h
    have := (of_decide_eq_true this).1 c
    simpa using this)
  (w := Ieee.ofInt 1) (v := 1) (by decide +kernel) (by decide +kernel) (by omega) (by omega) 1 ()

end Magnesia.Witness
