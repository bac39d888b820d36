import Verif.Proof.DESym
import Verif.Props.DEProb

/-!
# C76: the optimizer has no preferred coordinate and no preferred unit

Two problems which are the same up to the order of the coordinates and the units they are measured in. Both are optimized
with ideal random numbers, possibly from different generators. The result of the second has the distribution of the
re-coded result of the first.
-/

namespace Magnesia

open MeasureTheory ENNReal

variable {T T' P G G' S S' : Type} {N n : ℕ} [MeasurableSpace G] {μ : Measure G} [IsProbabilityMeasure μ]
  [MeasurableSpace G'] {μ' : Measure G'} [IsProbabilityMeasure μ'] [Countable S] [Countable S'] [Countable T] [Countable T']
  [Countable P] [RPartialOrd P] [RZero P] [ROne P] [RPartialOrd T] [FromI8 T] [RAdd T T T] [RSub T T T] [RMul T T T]
  [RPartialOrd T'] [FromI8 T'] [RAdd T' T' T'] [RSub T' T' T'] [RMul T' T' T'] [NeZero N]

/-- Every re-coding of the problem: for every set `X` of points, the new problem's result is in `X` with exactly the
probability that the old problem's result, re-coded, is in `X`. -/
theorem C76_recoded {env : DEnv T P N G S} {env' : DEnv T' P N G' S'} {bounds : Fin N → T × T} {bounds' : Fin N → T' × T'}
    {E : Textbook T P N} {E' : Textbook T' P N} {w : T} {w' : T'} {σ : Equiv.Perm (Fin N)} {φ : Fin N → T → T'}
    (hr : Recoded E E' σ φ)
    (hc : env.RandContract) (hid : env.Ideal μ bounds E.D E.U) (hb : env.Compares E.better)
    (hm : ∀ x y z : T, (do RAdd.add x (← RMul.mul (← RSub.sub y z) w)) = Except.ok (E.mutation x y z))
    (hv : ValidParams n E.cp w)
    (hc' : env'.RandContract) (hid' : env'.Ideal μ' bounds' E'.D E'.U) (hb' : env'.Compares E'.better)
    (hm' : ∀ x y z : T', (do RAdd.add x (← RMul.mul (← RSub.sub y z) w')) = Except.ok (E'.mutation x y z))
    (hv' : ValidParams n E'.cp w') (iters : ℕ) (c : S) (l : List (Call T N)) (c' : S') (l' : List (Call T' N))
    (X : Set (Pt T' N)) :
    μ' {g | ∃ x ∈ X, ∃ fuel s', env'.optimize fuel bounds' n E'.cp w' iters ⟨g, c', l'⟩ = (.ok x, s')} =
      μ {g | ∃ x, recode σ φ x ∈ X ∧ ∃ fuel s', env.optimize fuel bounds n E.cp w iters ⟨g, c, l⟩ = (.ok x, s')} := by
  rw [C64_probability hc' hid' hb' hm' hv', hr.result]
  have h := C64_probability hc hid hb hm hv iters c l (recode σ φ ⁻¹' X)
  simp only [Set.mem_preimage] at h
  rw [h, PMF.toOuterMeasure_map_apply]
  congr 1
  ext o
  cases o <;> simp

/-- Permuting the coordinates: if the second problem has the same coordinates in another order, its result is the first
problem's result with the coordinates in that order (in distribution). -/
theorem C76_permute {env : DEnv T P N G S} {env' : DEnv T P N G' S'} {bounds bounds' : Fin N → T × T} {D : Fin N → PMF T}
    {U : PMF P} {cp : P} {w : T} {mutation : T → T → T → T} {better better' : Pt T N → Pt T N → Bool}
    (σ : Equiv.Perm (Fin N)) (hσ : ∀ x y : Pt T N, better' (x ∘ σ) (y ∘ σ) = better x y)
    (hc : env.RandContract) (hid : env.Ideal μ bounds D U) (hb : env.Compares better)
    (hc' : env'.RandContract) (hid' : env'.Ideal μ' bounds' (D ∘ σ) U) (hb' : env'.Compares better')
    (hm : ∀ x y z : T, (do RAdd.add x (← RMul.mul (← RSub.sub y z) w)) = Except.ok (mutation x y z))
    (hv : ValidParams n cp w) (iters : ℕ) (c : S) (l : List (Call T N)) (c' : S') (l' : List (Call T N))
    (X : Set (Pt T N)) :
    μ' {g | ∃ x ∈ X, ∃ fuel s', env'.optimize fuel bounds' n cp w iters ⟨g, c', l'⟩ = (.ok x, s')} =
      μ {g | ∃ x : Pt T N, x ∘ σ ∈ X ∧ ∃ fuel s', env.optimize fuel bounds n cp w iters ⟨g, c, l⟩ = (.ok x, s')} :=
  C76_recoded (E := ⟨D, U, cp, mutation, better⟩) (E' := ⟨D ∘ σ, U, cp, mutation, better'⟩) (σ := σ) (φ := fun _ => id)
    ⟨fun _ => (PMF.map_id _).symm, rfl, rfl, fun _ _ _ _ => rfl, hσ⟩ hc hid hb hm hv hc' hid' hb' hm hv iters c l c' l' X

/-- A symmetric problem: if exchanging coordinates changes neither the initial distributions nor the comparison, the
distribution of the result is symmetric, too. -/
theorem C76_symmetric {env : DEnv T P N G S} {bounds : Fin N → T × T} {E : Textbook T P N} {w : T} (σ : Equiv.Perm (Fin N))
    (hD : ∀ c, E.D (σ c) = E.D c) (hσ : ∀ x y : Pt T N, E.better (x ∘ σ) (y ∘ σ) = E.better x y)
    (hc : env.RandContract) (hid : env.Ideal μ bounds E.D E.U) (hb : env.Compares E.better)
    (hm : ∀ x y z : T, (do RAdd.add x (← RMul.mul (← RSub.sub y z) w)) = Except.ok (E.mutation x y z))
    (hv : ValidParams n E.cp w) (iters : ℕ) (c : S) (l : List (Call T N)) (X : Set (Pt T N)) :
    μ {g | ∃ x ∈ X, ∃ fuel s', env.optimize fuel bounds n E.cp w iters ⟨g, c, l⟩ = (.ok x, s')} =
      μ {g | ∃ x : Pt T N, x ∘ σ ∈ X ∧ ∃ fuel s', env.optimize fuel bounds n E.cp w iters ⟨g, c, l⟩ = (.ok x, s')} :=
  C76_recoded (E := E) (E' := E) (σ := σ) (φ := fun _ => id)
    ⟨fun c => by rw [PMF.map_id, hD], rfl, rfl, fun _ _ _ _ => rfl, hσ⟩ hc hid hb hm hv hc hid hb hm hv iters c l c l X

/-- Units: over an exact commutative ring, measuring coordinate `c` as `a c * x + b c` instead of `x` (in the bounds, the
objective and the result) changes nothing. -/
theorem C76_affine {K : Type} [CommRing K] [Countable K] [RPartialOrd (Exact K)] [FromI8 (Exact K)]
    {env : DEnv (Exact K) P N G S} {env' : DEnv (Exact K) P N G' S'} {bounds bounds' : Fin N → Exact K × Exact K}
    {D D' : Fin N → PMF (Exact K)} {U : PMF P} {cp : P} {w : Exact K}
    {better better' : Pt (Exact K) N → Pt (Exact K) N → Bool} (a b : Fin N → K)
    (hD : ∀ c, D' c = (D c).map fun x => ⟨a c * x.val + b c⟩)
    (hσ : ∀ x y : Pt (Exact K) N, better' (fun c => ⟨a c * (x c).val + b c⟩) (fun c => ⟨a c * (y c).val + b c⟩) = better x y)
    (hc : env.RandContract) (hid : env.Ideal μ bounds D U) (hb : env.Compares better)
    (hc' : env'.RandContract) (hid' : env'.Ideal μ' bounds' D' U) (hb' : env'.Compares better')
    (hv : ValidParams n cp w) (iters : ℕ) (c : S) (l : List (Call (Exact K) N)) (c' : S') (l' : List (Call (Exact K) N))
    (X : Set (Pt (Exact K) N)) :
    μ' {g | ∃ x ∈ X, ∃ fuel s', env'.optimize fuel bounds' n cp w iters ⟨g, c', l'⟩ = (.ok x, s')} =
      μ {g | ∃ x : Pt (Exact K) N, (fun c => (⟨a c * (x c).val + b c⟩ : Exact K)) ∈ X ∧
        ∃ fuel s', env.optimize fuel bounds n cp w iters ⟨g, c, l⟩ = (.ok x, s')} := by
  have : Countable (Exact K) := Function.Injective.countable (f := Exact.val) fun _ _ h => congrArg Exact.mk h
  refine C76_recoded (E := ⟨D, U, cp, fun x y z => ⟨x.val + (y.val - z.val) * w.val⟩, better⟩)
    (E' := ⟨D', U, cp, fun x y z => ⟨x.val + (y.val - z.val) * w.val⟩, better'⟩) (σ := Equiv.refl _)
    (φ := fun c x => ⟨a c * x.val + b c⟩) ⟨hD, rfl, rfl, fun c x y z => ?_, hσ⟩ hc hid hb (fun _ _ _ => rfl) hv hc' hid' hb'
    (fun _ _ _ => rfl) hv iters c l c' l' X
  simp only [Exact.mk.injEq]
  ring

/-- Floating point numbers, NaN and infinities included: the order of the coordinates does not matter. -/
theorem C76_float {F F' : Fmt} {env : DEnv (Ieee F) (Ieee F') N G S} {env' : DEnv (Ieee F) (Ieee F') N G' S'}
    {bounds bounds' : Fin N → Ieee F × Ieee F} {D : Fin N → PMF (Ieee F)} {U : PMF (Ieee F')} {cp : Ieee F'} {w : Ieee F}
    {better better' : Pt (Ieee F) N → Pt (Ieee F) N → Bool}
    (σ : Equiv.Perm (Fin N)) (hσ : ∀ x y : Pt (Ieee F) N, better' (x ∘ σ) (y ∘ σ) = better x y)
    (hc : env.RandContract) (hid : env.Ideal μ bounds D U) (hb : env.Compares better)
    (hc' : env'.RandContract) (hid' : env'.Ideal μ' bounds' (D ∘ σ) U) (hb' : env'.Compares better') (hn : 4 ≤ n)
    (hcp : cp.Finite ∧ 0 ≤ cp.value ∧ cp.value ≤ 1) (hw : w.Finite ∧ 0 ≤ w.value ∧ w.value ≤ 2)
    (iters : ℕ) (c : S) (l : List (Call (Ieee F) N)) (c' : S') (l' : List (Call (Ieee F) N)) (X : Set (Pt (Ieee F) N)) :
    μ' {g | ∃ x ∈ X, ∃ fuel s', env'.optimize fuel bounds' n cp w iters ⟨g, c', l'⟩ = (.ok x, s')} =
      μ {g | ∃ x : Pt (Ieee F) N, x ∘ σ ∈ X ∧ ∃ fuel s', env.optimize fuel bounds n cp w iters ⟨g, c, l⟩ = (.ok x, s')} :=
  C76_permute σ hσ hc hid hb hc' hid' hb' (fun _ _ _ => rfl) ((C53_params n cp w).2 ⟨hn, hcp, hw⟩) iters c l c' l' X

end Magnesia
