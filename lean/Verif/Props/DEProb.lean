import Verif.Proof.DELaw
import Verif.Props.DEIeee

/-!
# C64: with ideal random numbers the optimizer is the textbook algorithm, in distribution

`Spec/DEProb.lean` has the textbook algorithm. `c` and `l` are an arbitrary state of the comparator and an arbitrary log; the
generator's state `g` is random with distribution `μ`.
-/

namespace Magnesia

open MeasureTheory ENNReal Filter

variable {T P G S α : Type} {N n : ℕ} [MeasurableSpace G] {μ : Measure G} [IsProbabilityMeasure μ]
  [Countable S] [Countable T] [Countable P] [RPartialOrd P] [RZero P] [ROne P] [RPartialOrd T] [FromI8 T] [RAdd T T T]
  [RSub T T T] [RMul T T T] [NeZero N] {env : DEnv T P N G S} {bounds : Fin N → T × T} {E : Textbook T P N} {w : T}

/-! ## The distributions of the specification -/

/-- Independent values: the probability of a tuple is the product. -/
theorem C64_independent {k : ℕ} (p : Fin k → PMF α) (f : Fin k → α) : indep p f = ∏ i, p i (f i) :=
  indep_apply p f

/-- Independent values: the same for events. -/
theorem C64_independent_events {k : ℕ} (p : Fin k → PMF α) (B : Fin k → Set α) :
    (indep p).toOuterMeasure {f | ∀ i, f i ∈ B i} = ∏ i, (p i).toOuterMeasure (B i) :=
  indep_event p B

/-- The champion of a nonempty tournament is one of the players, and with a consistent comparison no player is better. -/
theorem C64_champion {better : α → α → Bool} (hs : StrictWeak better) (l : List α) (hl : l ≠ []) :
    ∃ x ∈ l, champion better l = some x ∧ ∀ y ∈ l, better y x = false := by
  obtain ⟨x, h1, h2⟩ := champion_isSome better l hl
  exact ⟨x, h1, h2, champion_best hs l x h2⟩

omit [RZero P] [ROne P] [RPartialOrd T] [FromI8 T] [RAdd T T T] [RSub T T T] [RMul T T T] [Countable T] [Countable P] in
/-- Crossover: where donor and current point differ, the coordinate of the trial point is the donor's with probability
`1/N + (N-1)/N * q`, `q` being the probability that a random number is below the crossover probability. -/
theorem C64_crossover_rate (current donor : Pt T N) (i : Fin N) (hne : current i ≠ donor i) :
    ((PMF.uniformOfFintype (Fin N)).bind (E.crossover current donor)).toOuterMeasure {x | x i = donor i} =
      1 / N + (N - 1 : ℕ) / N * E.U.toOuterMeasure {u | RPartialOrd.lt u E.cp = true} := by
  classical
  have hcross : ∀ r, (E.crossover current donor r).toOuterMeasure {x | x i = donor i} =
      if i = r then 1 else E.U.toOuterMeasure {u | RPartialOrd.lt u E.cp = true} := by
    intro r
    have h := indep_event (fun c => if c = r then PMF.pure (donor c) else
      E.U.map fun u => if RPartialOrd.lt u E.cp then donor c else current c) fun c => if c = i then {donor i} else Set.univ
    have hset : {x : Pt T N | x i = donor i} = {f | ∀ c, f c ∈ if c = i then {donor i} else Set.univ} := by
      ext x
      simp only [Set.mem_ofPred_eq]
      constructor
      · intro hx c
        by_cases hc : c = i
        · subst hc; simpa using hx
        · simp [hc]
      · intro hx
        simpa using hx i
    rw [Textbook.crossover, hset, h, Finset.prod_eq_single i]
    · simp only [if_true]
      by_cases hi : i = r
      · simp only [hi, if_true]
        rw [PMF.toOuterMeasure_pure_apply]
        simp
      · simp only [hi, if_false]
        rw [PMF.toOuterMeasure_map_apply]
        congr 1
        ext u
        simp only [Set.mem_preimage, Set.mem_singleton_iff, Set.mem_ofPred_eq]
        by_cases hu : RPartialOrd.lt u E.cp = true
        · simp [hu]
        · simp [hu, hne]
    · intro c _ hc
      simp only [hc, if_false]
      rw [PMF.toOuterMeasure_apply_eq_one_iff]
      exact Set.subset_univ _
    · simp
  have hN : (N : ℝ≥0∞) ≠ 0 := by exact_mod_cast NeZero.ne N
  rw [PMF.toOuterMeasure_bind_apply, tsum_fintype]
  simp only [hcross, PMF.uniformOfFintype_apply, Fintype.card_fin]
  rw [← Finset.mul_sum, Finset.sum_ite, Finset.sum_const, Finset.sum_const, Finset.filter_eq, Finset.filter_ne]
  simp only [Finset.mem_univ, if_true, Finset.card_singleton, Finset.card_erase_of_mem, Finset.card_univ, Fintype.card_fin,
    nsmul_eq_mul, Nat.cast_one, mul_one]
  rw [mul_add, mul_one, one_div, ENNReal.div_eq_inv_mul, mul_assoc]

/-! ## The optimizer -/

omit [Countable S] [Countable T] [Countable P] [RZero P] [ROne P] [RPartialOrd P] [NeZero N] [FromI8 T] [RPartialOrd T]
  [RAdd T T T] [RSub T T T] [RMul T T T] [MeasurableSpace G] in
private theorem endsIn_some (m : Proc (DEWorld T N G S) (Pt T N)) (c : S) (l : List (Call T N)) (X : Set (Pt T N)) :
    EndsIn (some <$> m) c l (some '' X) = {g | ∃ x ∈ X, (m ⟨g, c, l⟩).1 = .ok x} := by
  ext g
  rw [map_eq_pure_bind]
  simp only [EndsIn, Proc.bind_eq, Set.mem_ofPred_eq, Set.mem_image]
  rcases hm : m ⟨g, c, l⟩ with ⟨_ | x, w⟩
  · simp
  · constructor
    · rintro ⟨_, ⟨y, hy, rfl⟩, h⟩
      cases h
      exact ⟨x, hy, rfl⟩
    · rintro ⟨y, hy, h⟩
      cases h
      exact ⟨some x, ⟨x, hy, rfl⟩, rfl⟩

/-- With at most `fuel` attempts per draw of a partner: for every set `X` of points, the probability that the optimizer
returns a point of `X` is that of the textbook algorithm, up to the probability that the attempts do not suffice. -/
theorem C64_distribution (hc : env.RandContract) (hid : env.Ideal μ bounds E.D E.U) (hb : env.Compares E.better)
    (hm : ∀ x y z : T, (do RAdd.add x (← RMul.mul (← RSub.sub y z) w)) = Except.ok (E.mutation x y z))
    (hv : ValidParams n E.cp w) (fuel iters : ℕ) (c : S) (l : List (Call T N)) (X : Set (Pt T N)) :
    MeasurableSet {g | ∃ x ∈ X, (env.optimize fuel bounds n E.cp w iters ⟨g, c, l⟩).1 = .ok x} ∧
    μ {g | ∃ x ∈ X, (env.optimize fuel bounds n E.cp w iters ⟨g, c, l⟩).1 = .ok x} ≤
      (E.result hv.size iters).toOuterMeasure (some '' X) ∧
    (E.result hv.size iters).toOuterMeasure (some '' X) ≤
      μ {g | ∃ x ∈ X, (env.optimize fuel bounds n E.cp w iters ⟨g, c, l⟩).1 = .ok x} +
        iters * ((1 / n) ^ fuel + ((2 / n) ^ fuel + (3 / n) ^ fuel)) := by
  have := (samples_optimize hc hid hb hm hv fuel iters).event c l (some '' X)
  rw [endsIn_some] at this
  exact this

/-- The probability that `optimize` needs more than `fuel` attempts to draw some partner. -/
theorem C64_fuel (hc : env.RandContract) (hid : env.Ideal μ bounds E.D E.U) (hb : env.Compares E.better)
    (hm : ∀ x y z : T, (do RAdd.add x (← RMul.mul (← RSub.sub y z) w)) = Except.ok (E.mutation x y z))
    (hv : ValidParams n E.cp w) (fuel iters : ℕ) (c : S) (l : List (Call T N)) :
    μ {g | ¬ ∃ x, (env.optimize fuel bounds n E.cp w iters ⟨g, c, l⟩).1 = .ok x} ≤
      iters * ((1 / n) ^ fuel + ((2 / n) ^ fuel + (3 / n) ^ fuel)) := by
  obtain ⟨h1, _, h3⟩ := C64_distribution hc hid hb hm hv fuel iters c l Set.univ
  rw [result_some] at h3
  simp only [Set.mem_univ, true_and] at h1 h3
  have : {g | ¬ ∃ x, (env.optimize fuel bounds n E.cp w iters ⟨g, c, l⟩).1 = .ok x} =
    {g | ∃ x, (env.optimize fuel bounds n E.cp w iters ⟨g, c, l⟩).1 = .ok x}ᶜ := rfl
  rw [this, prob_compl_eq_one_sub h1]
  exact tsub_le_iff_left.2 h3

/-- For every set `X` of points, the probability that `optimize` returns a point of `X` is exactly that of the textbook
algorithm. -/
theorem C64_probability (hc : env.RandContract) (hid : env.Ideal μ bounds E.D E.U) (hb : env.Compares E.better)
    (hm : ∀ x y z : T, (do RAdd.add x (← RMul.mul (← RSub.sub y z) w)) = Except.ok (E.mutation x y z))
    (hv : ValidParams n E.cp w) (iters : ℕ) (c : S) (l : List (Call T N)) (X : Set (Pt T N)) :
    μ {g | ∃ x ∈ X, ∃ fuel s', env.optimize fuel bounds n E.cp w iters ⟨g, c, l⟩ = (.ok x, s')} =
      (E.result hv.size iters).toOuterMeasure (some '' X) := by
  set A : ℕ → Set G := fun fuel => {g | ∃ x ∈ X, (env.optimize fuel bounds n E.cp w iters ⟨g, c, l⟩).1 = .ok x} with hA
  have hd := fun fuel => C64_distribution hc hid hb hm hv fuel iters c l X
  have hmono : Monotone A := by
    rintro f f' hf g ⟨x, hx, h⟩
    refine ⟨x, hx, ?_⟩
    rw [C42_fuel_irrelevant hf (s' := (env.optimize f bounds n E.cp w iters ⟨g, c, l⟩).2) (Prod.ext h rfl)]
  have hU : {g | ∃ x ∈ X, ∃ fuel s', env.optimize fuel bounds n E.cp w iters ⟨g, c, l⟩ = (.ok x, s')} = ⋃ fuel, A fuel := by
    ext g
    simp only [hA, Set.mem_ofPred_eq, Set.mem_iUnion]
    constructor
    · rintro ⟨x, hx, fuel, s', h⟩
      exact ⟨fuel, x, hx, by rw [h]⟩
    · rintro ⟨fuel, x, hx, h⟩
      exact ⟨x, hx, fuel, _, Prod.ext h rfl⟩
  rw [hU]
  refine le_antisymm ?_ ?_
  · rw [hmono.measure_iUnion]
    exact iSup_le fun fuel => (hd fuel).2.1
  · have hlim : Tendsto (fun fuel : ℕ => (iters : ℝ≥0∞) * ((1 / n) ^ fuel + ((2 / n) ^ fuel + (3 / n) ^ fuel))) atTop (nhds 0) := by
      have h1 : ∀ k : ℕ, k ≤ 3 → Tendsto (fun fuel : ℕ => ((k : ℝ≥0∞) / n) ^ fuel) atTop (nhds 0) := by
        intro k hk
        refine ENNReal.tendsto_pow_atTop_nhds_zero_of_lt_one ?_
        have := hv.size
        rw [ENNReal.div_lt_iff (by left; simp; omega) (by left; simp), one_mul]
        exact_mod_cast (by omega : k < n)
      have h2 := ((h1 1 (by omega)).add ((h1 2 (by omega)).add (h1 3 (by omega))))
      have h3 := ENNReal.Tendsto.const_mul h2 (a := (iters : ℝ≥0∞)) (.inr (by simp))
      simpa using h3
    have h4 : Tendsto (fun fuel : ℕ => μ (⋃ fuel, A fuel) +
        (iters : ℝ≥0∞) * ((1 / n) ^ fuel + ((2 / n) ^ fuel + (3 / n) ^ fuel))) atTop (nhds (μ (⋃ fuel, A fuel))) := by
      simpa using tendsto_const_nhds.add hlim
    refine ge_of_tendsto' h4 fun fuel => (hd fuel).2.2.trans ?_
    gcongr
    exact Set.subset_iUnion A fuel

/-- `optimize` returns with probability one. -/
theorem C64_terminates (hc : env.RandContract) (hid : env.Ideal μ bounds E.D E.U) (hb : env.Compares E.better)
    (hm : ∀ x y z : T, (do RAdd.add x (← RMul.mul (← RSub.sub y z) w)) = Except.ok (E.mutation x y z))
    (hv : ValidParams n E.cp w) (iters : ℕ) (c : S) (l : List (Call T N)) :
    ∀ᵐ g ∂μ, ∃ F result s', ∀ fuel, F ≤ fuel → env.optimize fuel bounds n E.cp w iters ⟨g, c, l⟩ = (.ok result, s') := by
  have h := C64_probability hc hid hb hm hv iters c l Set.univ
  rw [result_some] at h
  have hms : MeasurableSet {g | ∃ x ∈ Set.univ, ∃ fuel s', env.optimize fuel bounds n E.cp w iters ⟨g, c, l⟩ = (.ok x, s')} := by
    have : {g | ∃ x ∈ Set.univ, ∃ fuel s', env.optimize fuel bounds n E.cp w iters ⟨g, c, l⟩ = (.ok x, s')} =
        ⋃ fuel, {g | ∃ x ∈ Set.univ, (env.optimize fuel bounds n E.cp w iters ⟨g, c, l⟩).1 = .ok x} := by
      ext g
      simp only [Set.mem_ofPred_eq, Set.mem_iUnion]
      constructor
      · rintro ⟨x, hx, fuel, s', h⟩
        exact ⟨fuel, x, hx, by rw [h]⟩
      · rintro ⟨fuel, x, hx, h⟩
        exact ⟨x, hx, fuel, _, Prod.ext h rfl⟩
    rw [this]
    exact MeasurableSet.iUnion fun fuel => (C64_distribution hc hid hb hm hv fuel iters c l Set.univ).1
  have h2 := (prob_compl_eq_zero_iff hms).2 h
  rw [ae_iff]
  refine measure_mono_null ?_ h2
  intro g hg hg'
  obtain ⟨x, _, F, s', hx⟩ := hg'
  exact hg ⟨F, x, s', fun fuel hf => C42_fuel_irrelevant hf hx⟩

/-! ## Consequences for the quality of the result -/

/-- The more iterations, the better the result: the probability to return a good point does not decrease. -/
theorem C64_monotone (hc : env.RandContract) (hid : env.Ideal μ bounds E.D E.U) (hb : env.Compares E.better)
    (hs : StrictWeak E.better)
    (hm : ∀ x y z : T, (do RAdd.add x (← RMul.mul (← RSub.sub y z) w)) = Except.ok (E.mutation x y z))
    (hv : ValidParams n E.cp w) {iters iters' : ℕ} (hi : iters ≤ iters') (c : S) (l : List (Call T N)) (A : Set (Pt T N))
    (hA : GoodSet E.better A) :
    μ {g | ∃ x ∈ A, ∃ fuel s', env.optimize fuel bounds n E.cp w iters ⟨g, c, l⟩ = (.ok x, s')} ≤
      μ {g | ∃ x ∈ A, ∃ fuel s', env.optimize fuel bounds n E.cp w iters' ⟨g, c, l⟩ = (.ok x, s')} := by
  rw [C64_probability hc hid hb hm hv, C64_probability hc hid hb hm hv, result_good hs hA, result_good hs hA]
  exact monotone_nat_of_le_succ (population_good_succ hs hA hv.size) hi

/-- If a single random point is good with probability `p`, the result is good with probability at least `1 - (1 - p) ^ n`. -/
theorem C64_success (hc : env.RandContract) (hid : env.Ideal μ bounds E.D E.U) (hb : env.Compares E.better)
    (hs : StrictWeak E.better)
    (hm : ∀ x y z : T, (do RAdd.add x (← RMul.mul (← RSub.sub y z) w)) = Except.ok (E.mutation x y z))
    (hv : ValidParams n E.cp w) (iters : ℕ) (c : S) (l : List (Call T N)) (A : Set (Pt T N))
    (hA : GoodSet E.better A) :
    1 - (1 - (indep E.D).toOuterMeasure A) ^ n ≤
      μ {g | ∃ x ∈ A, ∃ fuel s', env.optimize fuel bounds n E.cp w iters ⟨g, c, l⟩ = (.ok x, s')} := by
  rw [C64_probability hc hid hb hm hv, result_good hs hA, ← population_good_zero A hv.size]
  exact monotone_nat_of_le_succ (population_good_succ hs hA hv.size) (Nat.zero_le iters)

/-! ## Floating point numbers -/

instance {F : Fmt} : Countable (Ieee F) :=
  Function.Injective.countable (f := fun x : Ieee F => match x with
    | .nan => ((0 : ℕ), false, (0 : ℚ))
    | .inf s => (1, s, 0)
    | .zero s => (2, s, 0)
    | .fin x _ _ => (3, false, x)) (by
    intro x y h
    cases x <;> cases y <;> simp at h <;> simp [h])

/-- Coordinates in `f32` or `f64` (any format `F`), crossover in `f32` (any format `F'`): with the IEEE-rounded mutation
`x + (y - z) * w` the textbook algorithm gives the exact distribution of the results, NaN and infinities included. -/
theorem C64_float {F F' : Fmt} {env : DEnv (Ieee F) (Ieee F') N G S} {bounds : Fin N → Ieee F × Ieee F}
    {D : Fin N → PMF (Ieee F)} {U : PMF (Ieee F')} {cp : Ieee F'} {w : Ieee F}
    {better : Pt (Ieee F) N → Pt (Ieee F) N → Bool}
    (hc : env.RandContract) (hid : env.Ideal μ bounds D U) (hb : env.Compares better) (hn : 4 ≤ n)
    (hcp : cp.Finite ∧ 0 ≤ cp.value ∧ cp.value ≤ 1) (hw : w.Finite ∧ 0 ≤ w.value ∧ w.value ≤ 2)
    (iters : ℕ) (c : S) (l : List (Call (Ieee F) N)) (X : Set (Pt (Ieee F) N)) :
    μ {g | ∃ x ∈ X, ∃ fuel s', env.optimize fuel bounds n cp w iters ⟨g, c, l⟩ = (.ok x, s')} =
      (Textbook.result { D := D, U := U, cp := cp, mutation := fun x y z => x.add ((y.sub z).mul w), better := better } hn
        iters).toOuterMeasure (some '' X) :=
  C64_probability (E := { D := D, U := U, cp := cp, mutation := fun x y z => x.add ((y.sub z).mul w), better := better })
    hc hid hb (fun _ _ _ => rfl) ((C53_params n cp w).2 ⟨hn, hcp, hw⟩) iters c l X

end Magnesia
