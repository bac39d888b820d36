import Verif.Props.DE
import Verif.Props.DERel
import Verif.Props.DEIeee
import Verif.Witness.Dyn

/-!
# Concrete cases of the theorems about differential evolution

Every theorem of `Verif/Props/DE.lean`, `DERel.lean` and `DEIeee.lean` that has hypotheses is applied to a run of one of
the example generators, with all hypotheses discharged. The runs are evaluated by the kernel, or known to return by
`C42_returns`.
-/

namespace Magnesia.Witness

open RZero ROne

/-- A procedure that does not panic returns something. -/
theorem ran {W α : Type} {x : Res α × W} (h : x.1.panic? = none) : ∃ r, x = (.ok r, x.2) := by
  rcases x with ⟨e | a, s⟩
  · cases h
  · exact ⟨a, rfl⟩

theorem ok_of_some {α : Type} {x : Res α} {a : α} (h : x.toOption = some a) : x = .ok a := by
  cases x with
  | ok b => cases h; rfl
  | error e => cases h

/-! ## The generator that counts, integers -/

/-- The world of a generator in state `g`. -/
def at_ (g : ℕ) : DEWorld (Exact ℤ) 2 ℕ Unit := ⟨g, (), []⟩
/-- The bounds `0..3`. -/
def b3 : Fin 2 → Exact ℤ × Exact ℤ := fun _ => (⟨0⟩, ⟨3⟩)

theorem draws3 (c : Fin 2) (g : ℕ) : Returns (demo.genUniform (b3 c).1 (b3 c).2 g).1 := ⟨⟨0 + g % (3 - 0)⟩, rfl⟩
theorem valid5 : ValidParams 5 (⟨1⟩ : Exact ℤ) (⟨1⟩ : Exact ℤ) := by constructor <;> decide
theorem arithZ : DEnv.Arith (Exact ℤ) := fun _ _ _ _ => ⟨_, rfl⟩
theorem totalZ : demo.CmpTotal := fun _ _ _ => ⟨_, rfl⟩

/-- Six iterations with five points: it returns. -/
theorem run6 : ∃ r, demo.optimize 10 b3 5 ⟨1⟩ ⟨1⟩ 6 (at_ 1) = (.ok r, (demo.optimize 10 b3 5 ⟨1⟩ ⟨1⟩ 6 (at_ 1)).2) :=
  ran (by decide +kernel)
/-- Nine iterations. -/
theorem run9 : ∃ r, demo.optimize 10 b3 5 ⟨1⟩ ⟨1⟩ 9 (at_ 1) = (.ok r, (demo.optimize 10 b3 5 ⟨1⟩ ⟨1⟩ 9 (at_ 1)).2) :=
  ran (by decide +kernel)
/-- With crossover probability zero. -/
theorem runCp0 : ∃ r, demo.optimize 10 b3 5 (zero : Exact ℤ) ⟨1⟩ 6 (at_ 1) =
    (.ok r, (demo.optimize 10 b3 5 (zero : Exact ℤ) ⟨1⟩ 6 (at_ 1)).2) := ran (by decide +kernel)
/-- With crossover probability one. -/
theorem runCp1 : ∃ r, demo.optimize 10 b3 5 (one : Exact ℤ) ⟨1⟩ 6 (at_ 1) =
    (.ok r, (demo.optimize 10 b3 5 (one : Exact ℤ) ⟨1⟩ 6 (at_ 1)).2) := ran (by decide +kernel)
/-- With weight zero. -/
theorem runW0 : ∃ r, demo.optimize 10 b3 5 (⟨1⟩ : Exact ℤ) ⟨0⟩ 6 (at_ 1) =
    (.ok r, (demo.optimize 10 b3 5 (⟨1⟩ : Exact ℤ) ⟨0⟩ 6 (at_ 1)).2) := ran (by decide +kernel)
/-- Comparator: larger first coordinate is better, that is, minimise `-x₀`. -/
theorem demo_compares : demo.Compares (fun a b => decide (-(a 0).val < -(b 0).val)) := fun a b s => by simp [demo]
theorem demo_strict : StrictWeak (fun a b : Pt (Exact ℤ) 2 => decide (-(a 0).val < -(b 0).val)) :=
  strictWeak_objective (fun a : Pt (Exact ℤ) 2 => -(a 0).val)

-- C37
example := C37_invalid_parameters (env := demo) (fuel := 10) (bounds := b3) (n := 3) (cp := ⟨1⟩) (w := ⟨1⟩) (iters := 6)
  (s := at_ 1) (fun h => absurd h.size (by omega))
example := C37_invalid_parameters (env := demo) (fuel := 10) (bounds := b3) (n := 5) (cp := ⟨1⟩) (w := ⟨3⟩) (iters := 6)
  (s := at_ 1) (fun h => absurd h.weight_le_two (by decide))
example := C37_valid_of_returns run6.choose_spec
example := C37_empty_bound (env := demo) (fuel := 10) (bounds := fun c => if c = 0 then (⟨0⟩, ⟨3⟩) else (⟨1⟩, ⟨1⟩)) (n := 5)
  (cp := ⟨1⟩) (w := ⟨1⟩) (iters := 6) (s := at_ 1) demo_contract valid5 1 rfl
  (fun _ h _ => ⟨_, if_pos (by simpa [RPartialOrd.lt] using h)⟩)
/-- The counting generator without coordinates. -/
def demo0 : DEnv (Exact ℤ) (Exact ℤ) 0 ℕ Unit where
  genIndex := demo.genIndex
  genUniform := demo.genUniform
  genUnit := demo.genUnit
  compare _ _ s := (.ok true, s)
theorem demo0_contract : demo0.RandContract :=
  ⟨demo_contract.index_empty, demo_contract.index_returns, demo_contract.index_range, demo_contract.uniform_empty,
    demo_contract.uniform_range, demo_contract.unit_range⟩
example := C37_no_coordinates (env := demo0) (fuel := 10) (bounds := fun c => c.elim0) (n := 5) (cp := ⟨1⟩) (w := ⟨1⟩)
  (iters := 6) (s := ⟨0, (), []⟩) demo0_contract valid5 (by omega)
example := C37_no_panic (env := demo) (fuel := 10) (bounds := b3) (n := 5) (cp := ⟨1⟩) (w := ⟨1⟩) (iters := 6) (s := at_ 1)
  demo_contract arithZ totalZ valid5 draws3 (.inl (by omega))

-- C42
example := C42_terminates demo_contract demo_fair demo_genuine b3 5 ⟨1⟩ ⟨1⟩ 6 (at_ 1)
example := C42_returns (bounds := b3) (n := 5) (cp := ⟨1⟩) (w := ⟨1⟩) (iters := 6) demo_contract demo_fair demo_genuine
  arithZ totalZ valid5 draws3 (.inl (by omega)) (at_ 1)
example := C42_fuel_irrelevant (show 10 ≤ 25 by omega) run6.choose_spec
example := C42_partners demo_contract run6.choose_spec
example := C42_needs_four (env := demo) (fuel := 10) (cp := ⟨1⟩) (w := ⟨1⟩) (s := at_ 1) (s' := at_ 40) demo_contract
  (le_refl 3) [fun _ => ⟨0⟩, fun _ => ⟨1⟩, fun _ => ⟨2⟩] 1 (by omega) [fun _ => ⟨0⟩, fun _ => ⟨1⟩, fun _ => ⟨1⟩]
/-- A generator that always draws index 0. -/
def unlucky : DEnv (Exact ℤ) (Exact ℤ) 2 ℕ Unit :=
  { demo with genIndex := fun n g => (if n = 0 then .error .emptyRange else .ok 0, g + 1) }
example := C42_unlucky (env := unlucky) (fuel := 1000) (bounds := b3) (n := 5) (cp := ⟨1⟩) (w := ⟨1⟩) (iters := 6) (s := at_ 1)
  (s' := at_ 9) (result := fun _ => ⟨0⟩) (fun n g hn => if_neg (by omega)) (by omega)

-- C38 – C40
example := C40_number_of_calls demo_contract run6.choose_spec
example := C38_result demo_contract run6.choose_spec
example := C39_best demo_contract demo_compares demo_strict run6.choose_spec
example := C39_minimum (fun a : Pt (Exact ℤ) 2 => -(a 0).val) demo_contract demo_compares run6.choose_spec

-- C41
example := C41_within_bounds demo_contract runW0.choose_spec
  (.inr (fun a b c x h => by cases h; ext; simp)) 1
example := C41_one_iteration demoQ_contract
  ((demoQ_returns 7 ⟨3, (), []⟩).choose_spec.choose_spec.choose_spec _ (le_refl _))
example := C41_escape_bound demoQ_contract
  ((demoQ_returns 7 ⟨3, (), []⟩).choose_spec.choose_spec.choose_spec _ (le_refl _)) 1

-- C43, C44
example := C43_slots demo_contract run6.choose_spec
example := C43_monotone demo_contract demo_compares demo_strict run6.choose_spec
example := C44_sources demo_contract run6.choose_spec
example := C44_zero demo_contract runCp0.choose_spec
example := C44_one demo_contract runCp1.choose_spec

-- C45: the objective is NaN at the points with `x₀ = 0`; the first point drawn is such a point
/-- Objective values with a NaN (`none`). -/
local instance orderNaN : RPartialOrd (Option ℤ) where
  lt a b := match a, b with | some a, some b => decide (a < b) | _, _ => false
  le a b := match a, b with | some a, some b => decide (a ≤ b) | _, _ => false
/-- The objective. -/
def fNaN (a : Pt (Exact ℤ) 2) : Option ℤ := if (a 0).val = 0 then none else some (a 0).val
/-- The generator that counts with this objective. -/
def demoN : DEnv (Exact ℤ) (Exact ℤ) 2 ℕ Unit :=
  { demo with compare := fun a b s => (.ok (RPartialOrd.lt (fNaN a) (fNaN b)), s) }
theorem demoN_contract : demoN.RandContract :=
  ⟨demo_contract.index_empty, demo_contract.index_returns, demo_contract.index_range, demo_contract.uniform_empty,
    demo_contract.uniform_range, demo_contract.unit_range⟩
theorem runN : ∃ r, demoN.optimize 10 b3 5 ⟨1⟩ ⟨1⟩ 6 (at_ 0) = (.ok r, (demoN.optimize 10 b3 5 ⟨1⟩ ⟨1⟩ 6 (at_ 0)).2) :=
  ran (by decide +kernel)
/-- The initial points: a generator in state `g` draws `g mod 3`. -/
def initialN : Fin 5 → Pt (Exact ℤ) 2 := fun i c => ⟨(2 * i + c) % 3⟩
theorem drawnN : demoN.Drawn b3 (at_ 0).rng initialN := by
  intro i c
  refine ok_of_some ?_
  revert i c
  decide +kernel
example := C45_nan_first fNaN demoN_contract (fun _ _ _ => rfl) initialN drawnN (by omega)
  (fun v => by cases v <;> rfl) runN.choose_spec

/-! ## Comparing runs -/

-- C54
/-- The same points with 1 added to every coordinate, compared in the same way. -/
def demoShift : DEnv (Exact ℤ) (Exact ℤ) 2 ℕ Unit :=
  { demo with compare := fun a b s => (.ok (decide ((b 0).val - 1 < (a 0).val - 1)), s) }
theorem demo_alike : demo.Alike (fun _ a b => b.val = a.val + 1) (fun g g' => g = g') (fun _ _ => True) demoShift
    b3 (fun _ => (⟨1⟩, ⟨4⟩)) ⟨1⟩ ⟨1⟩ where
  weight := rfl
  index := by rintro n g _ rfl; exact ⟨rfl, rfl⟩
  unit := by rintro g _ rfl; exact ⟨rfl, rfl⟩
  uniform := by
    rintro c g _ rfl
    refine ⟨?_, rfl⟩
    show ((1 : ℤ) + g % (4 - 1)) = 0 + g % (3 - 0) + 1
    omega
  arith := by
    intro c x y z x' y' z' hx hy hz
    show x'.val + (y'.val - z'.val) * 1 = x.val + (y.val - z.val) * 1 + 1
    omega
  compare := by
    intro a b a' b' s s' h1 h2 _
    refine ⟨?_, trivial⟩
    have e1 := h1 0
    have e2 := h2 0
    simp only [demo, demoShift, Except.ok.injEq, decide_eq_decide]
    omega
example := C54_alike (fuel := 10) (n := 5) (cp := ⟨1⟩) (iters := 6) demo_alike 1 1 rfl () () trivial
example := C54_comparator_state (env := demo) (fuel := 10) (n := 5) (cp := ⟨1⟩) (w := ⟨1⟩) (iters := 6) (bounds := b3)
  (compare' := fun a b (calls : ℕ) => (.ok (decide (-(a 0).val < -(b 0).val)), calls + 1))
  demo_compares (fun _ _ _ => rfl) 1 () 0
example := C54_order_only (env := demo) (fuel := 10) (n := 5) (cp := ⟨1⟩) (w := ⟨1⟩) (iters := 6) (bounds := b3)
  (fun a => (a 0).val) (fun a => ((a 0).val : ℚ) * 2 + 1) (fun a b => by
    constructor
    · intro h
      have : ((a 0).val : ℚ) < (b 0).val := by exact_mod_cast h
      linarith
    · intro h
      have : ((a 0).val : ℚ) < (b 0).val := by linarith
      exact_mod_cast this) (at_ 1)
/-- A comparator that differs from that of `demo` at points outside `-100..100`. -/
def compare' (a b : Pt (Exact ℤ) 2) (s : Unit) : Res Bool × Unit :=
  if (a 0).val < 100 ∧ -100 < (a 0).val then demo.compare a b s else (.ok true, s)
example := C54_local (compare' := compare') run6.choose_spec (calls := (demo.optimize 10 b3 5 ⟨1⟩ ⟨1⟩ 6 (at_ 1)).2.log) (List.nil_append _).symm
  (fun call hc st => if_pos ((show ∀ call ∈ (demo.optimize 10 b3 5 ⟨1⟩ ⟨1⟩ 6 (at_ 1)).2.log,
      (call.a 0).val < 100 ∧ -100 < (call.a 0).val by
    have h : (demo.optimize 10 b3 5 ⟨1⟩ ⟨1⟩ 6 (at_ 1)).2.log.all
      (fun call => decide ((call.a 0).val < 100 ∧ -100 < (call.a 0).val)) = true := by decide +kernel
    simpa using h) call hc))
example := C54_affine (env := demoQ) (fuel := 10) (bounds := boundsQ) (n := 4) (cp := ⟨1 / 2⟩) (w := ⟨1 / 2⟩) (iters := 6)
  (fun c => if c = 0 then 2 else 3) (fun _ => 3) (demoQ_affine _ _ (fun c => by split <;> norm_num) _) demoQ.compare 0 ()
example := C54_prefix demo_contract (by omega) run6.choose_spec run9.choose_spec
example := C54_more_iterations demo_contract demo_compares demo_strict (by omega) run6.choose_spec run9.choose_spec
example := C54_objective_monotone (fun a : Pt (Exact ℤ) 2 => -(a 0).val) demo_contract demo_compares (by omega)
  run6.choose_spec run9.choose_spec

/-! ## IEEE coordinates -/

/-- The world of a generator in state `g`. -/
def atF (g : ℕ) : DEWorld (Ieee .f64) 2 ℕ Unit := ⟨g, (), []⟩
theorem runF : ∃ r, demoF.optimize 10 boundsF 4 (f32 (1 / 2)) (f64 (1 / 2)) 3 (atF 0) =
    (.ok r, (demoF.optimize 10 boundsF 4 (f32 (1 / 2)) (f64 (1 / 2)) 3 (atF 0)).2) := ran (by decide +kernel)
/-- Weight `-0`. -/
theorem runF0 : ∃ r, demoF.optimize 10 boundsF 4 (f32 (1 / 2)) (.zero true) 3 (atF 0) =
    (.ok r, (demoF.optimize 10 boundsF 4 (f32 (1 / 2)) (.zero true) 3 (atF 0)).2) := ran (by decide +kernel)
/-- The initial points: all have the coordinates -2 and 1. -/
def initialF : Fin 4 → Pt (Ieee .f64) 2 := fun _ c => if c = 0 then f64 (-2) else one
theorem drawnF : demoF.Drawn boundsF (atF 0).rng initialF := by
  intro i c
  refine ok_of_some ?_
  revert i c
  decide +kernel

-- C53
example := C53_nan_params (env := demoF) (fuel := 10) (bounds := boundsF) (n := 4) (cp := .nan) (w := f64 1) (iters := 3)
  (s := atF 0) (.inl id)
example := C53_nan_params (env := demoF) (fuel := 10) (bounds := boundsF) (n := 4) (cp := f32 1) (w := .inf false) (iters := 3)
  (s := atF 0) (.inr id)
example := C53_minimum (fun a : Pt (Ieee .f64) 2 => ((a 0).mul (a 0)).sub (a 1)) demoF_contract (fun _ _ _ => rfl) initialF
  drawnF (by decide +kernel) runF.choose_spec
example := C53_weight_zero demoF_contract runF0.choose_spec (by decide +kernel) 1 (by decide +kernel) (by decide +kernel)
  (by decide +kernel)
example := C53_finite demoF_contract runF.choose_spec 1 3 (by decide +kernel) (by decide +kernel) (by decide +kernel)
  (by decide +kernel) (by decide +kernel)

end Magnesia.Witness
