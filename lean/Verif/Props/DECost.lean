import Verif.Proof.DECost
import Verif.Proof.DEUses
import Verif.Props.DEProb
import Verif.Props.DERel
import Mathlib.Analysis.SpecificLimits.Normed

/-!
# C77: how many random numbers a run needs

Random numbers are counted as calls of the generator: `gen_range(lo..hi)`, `gen_range(0..n)` and `gen::<f32>()`.
-/

namespace Magnesia

open MeasureTheory ENNReal Filter

variable {T P G S : Type} {N n : ℕ} [RPartialOrd P] [RZero P] [ROne P] [RPartialOrd T] [FromI8 T] [RAdd T T T]
  [RSub T T T] [RMul T T T] {env : DEnv T P N G S} {bounds : Fin N → T × T} {cp : P} {w : T}

/-- Counting changes nothing: result, comparator calls and final states are the same with and without the counter. -/
theorem C77_counting_harmless (fuel iters : ℕ) (g : G) (k : ℕ) (c : S) :
    let r := env.optimize fuel bounds n cp w iters ⟨g, c, []⟩
    let r' := env.counted.optimize fuel bounds n cp w iters ⟨(g, k), c, []⟩
    r'.1 = r.1 ∧ r'.2.log = r.2.log ∧ r'.2.rng.1 = r.2.rng ∧ r'.2.cmp = r.2.cmp := by
  have hcall : ∀ {x y : Call T N}, CallRel (fun _ a b => a = b) x y → x = y := by
    rintro ⟨a, b, x⟩ ⟨a', b', x'⟩ ⟨h1, h2, h3⟩
    cases ptRel_eq h1
    cases ptRel_eq h2
    cases h3
    rfl
  have ha : env.Alike (fun _ a b => a = b) (fun a b => b.1 = a) (fun a b => a = b) env.counted bounds bounds w w := {
    weight := rfl
    index := by rintro n g ⟨_, k⟩ rfl; exact ⟨rfl, rfl⟩
    unit := by rintro g ⟨_, k⟩ rfl; exact ⟨rfl, rfl⟩
    uniform := by rintro c g ⟨_, k⟩ rfl; exact ⟨arith_sameEnd _, rfl⟩
    arith := by rintro c x y z _ _ _ rfl rfl rfl; exact arith_sameEnd _
    compare := by
      intro a b a' b' s s' h1 h2 h3
      obtain rfl := ptRel_eq h1
      obtain rfl := ptRel_eq h2
      obtain rfl := h3
      exact ⟨rfl, rfl⟩ }
  obtain ⟨h1, h2, h3, h4⟩ := C54_alike (n := n) (cp := cp) (fuel := fuel) (iters := iters) ha g (g, k) rfl c c rfl
  refine ⟨?_, ?_, h3, h4.symm⟩
  · revert h1
    rcases (env.optimize fuel bounds n cp w iters ⟨g, c, []⟩).1 with e | x <;>
      rcases (env.counted.optimize fuel bounds n cp w iters ⟨(g, k), c, []⟩).1 with e' | x' <;> intro h1
    · cases h1; rfl
    · cases h1
    · cases h1
    · rw [ptRel_eq h1]
  · have h5 := h2.imp fun _ _ => hcall
    rw [List.forall₂_eq_eq_eq] at h5
    exact h5.symm

/-- A run that returns needs a certain number of random numbers, and conversely. -/
theorem C77_defined {iters : ℕ} {g : G} {c : S} :
    (∃ fuel x s', env.optimize fuel bounds n cp w iters ⟨g, c, []⟩ = (.ok x, s')) ↔
      ∃ k, env.Needs bounds n cp w iters ⟨g, c, []⟩ k := by
  constructor
  · rintro ⟨fuel, x, s', h⟩
    have hh := (C77_counting_harmless (env := env) (bounds := bounds) (n := n) (cp := cp) (w := w) fuel iters g 0 c).1
    rw [h] at hh
    exact ⟨_, fuel, x, _, Prod.ext hh rfl, rfl⟩
  · rintro ⟨k, fuel, x, s', h, _⟩
    have hh := (C77_counting_harmless (env := env) (bounds := bounds) (n := n) (cp := cp) (w := w) fuel iters g 0 c).1
    rw [h] at hh
    exact ⟨fuel, x, _, Prod.ext hh.symm rfl⟩

/-- The number of random numbers a run needs is well defined. -/
theorem C77_unique {iters : ℕ} {s : DEWorld T N G S} {k k' : ℕ} (h : env.Needs bounds n cp w iters s k)
    (h' : env.Needs bounds n cp w iters s k') : k = k' := by
  obtain ⟨f, x, s1, h1, rfl⟩ := h
  obtain ⟨f', x', s1', h1', rfl⟩ := h'
  have e := C42_fuel_irrelevant (le_max_left f f') h1
  have e' := C42_fuel_irrelevant (le_max_right f f') h1'
  rw [e] at e'
  cases e'
  rfl

/-- Whatever the generator delivers: no run gets by with less than `n * N` random numbers for the start and `N + 3` per
iteration. -/
theorem C77_at_least [NeZero N] (hc : env.RandContract) {iters : ℕ} {s : DEWorld T N G S} {k : ℕ}
    (h : env.Needs bounds n cp w iters s k) : n * N + iters * (N + 3) ≤ k := by
  obtain ⟨f, x, s1, h1, rfl⟩ := h
  have := (Uses.optimize hc (Nat.pos_of_ne_zero (NeZero.ne N)) f bounds n cp w iters _ _ _ h1).1
  simp only [zero_add] at this
  rwa [add_comm N 3]

/-- If no draw of a partner takes more than `fuel` attempts, at most `N + 3 * fuel` random numbers per iteration. -/
theorem C77_at_most [NeZero N] (hc : env.RandContract) {fuel iters : ℕ} {s : DEWorld T N G S} {k : ℕ} {x : Pt T N}
    {s' : DEWorld T N G S} (hr : env.optimize fuel bounds n cp w iters ⟨s.rng, s.cmp, []⟩ = (.ok x, s'))
    (h : env.Needs bounds n cp w iters ⟨s.rng, s.cmp, []⟩ k) : k ≤ n * N + iters * (N + 3 * fuel) := by
  have hh := C77_counting_harmless (env := env) (bounds := bounds) (n := n) (cp := cp) (w := w) fuel iters s.rng 0 s.cmp
  rw [hr] at hh
  have hn : env.Needs bounds n cp w iters ⟨s.rng, s.cmp, []⟩
      (env.counted.optimize fuel bounds n cp w iters ⟨(s.rng, 0), s.cmp, []⟩).2.rng.2 :=
    ⟨fuel, x, _, Prod.ext hh.1 rfl, rfl⟩
  rw [C77_unique h hn]
  have := (Uses.optimize hc (Nat.pos_of_ne_zero (NeZero.ne N)) fuel bounds n cp w iters _ _ _ (Prod.ext hh.1 rfl)).2
  simp only [zero_add] at this
  rwa [add_comm N (3 * fuel)]

section ideal

variable [MeasurableSpace G] {μ : Measure G} [IsProbabilityMeasure μ] [Countable S] [Countable T] [Countable P] [NeZero N]
  {E : Textbook T P N}

theorem lim_fuel {r : ℝ≥0∞} (hr : r < 1) : Tendsto (fun fuel : ℕ => (fuel : ℝ≥0∞) * r ^ fuel) atTop (nhds 0) := by
  lift r to NNReal using hr.ne_top
  have hr' : (r : ℝ) < 1 := by exact_mod_cast hr
  have h := tendsto_self_mul_const_pow_of_lt_one r.coe_nonneg hr'
  have h2 : Tendsto (fun fuel : ℕ => (fuel : NNReal) * r ^ fuel) atTop (nhds 0) := by
    rw [← NNReal.tendsto_coe]
    simpa using h
  have h3 := ENNReal.tendsto_coe.2 h2
  simpa using h3

/-- With ideal random numbers: the number of random numbers a run needs is a random variable with expectation
`n * N + iters * (N + n / (n - 1) + n / (n - 2) + n / (n - 3))`. -/
theorem C77_expected (hc : env.RandContract) (hid : env.Ideal μ bounds E.D E.U) (hb : env.Compares E.better)
    (hm : ∀ x y z : T, (do RAdd.add x (← RMul.mul (← RSub.sub y z) w)) = Except.ok (E.mutation x y z))
    (hv : ValidParams n E.cp w) (iters : ℕ) (c : S) (l : List (Call T N)) :
    ∃ count : G → ℕ, Measurable count ∧ (∀ᵐ g ∂μ, env.Needs bounds n E.cp w iters ⟨g, c, l⟩ (count g)) ∧
      ∫⁻ g, (count g : ℝ≥0∞) ∂μ = n * N + iters * (N + n / (n - 1) + n / (n - 2) + n / (n - 3)) := by
  classical
  obtain ⟨κ, hκ⟩ := Classical.axiomOfChoice fun fuel => Costs.optimize (μ := μ) (E := E) (w := w) hc hid hb hm hv fuel iters
  set A : ℕ → Set G := fun fuel => {g | ∃ x ∈ Set.univ, (env.optimize fuel bounds n E.cp w iters ⟨g, c, l⟩).1 = .ok x} with hA
  have hAm : ∀ fuel, MeasurableSet (A fuel) := fun fuel => (C64_distribution hc hid hb hm hv fuel iters c l Set.univ).1
  have hmono : Monotone A := by
    rintro f f' hf g ⟨x, hx, h⟩
    refine ⟨x, hx, ?_⟩
    rw [C42_fuel_irrelevant hf (s' := (env.optimize f bounds n E.cp w iters ⟨g, c, l⟩).2) (Prod.ext h rfl)]
  -- on `A fuel`, the run needs `κ fuel`
  have hneed : ∀ fuel g, g ∈ A fuel → env.Needs bounds n E.cp w iters ⟨g, c, l⟩ (κ fuel g c l) := by
    rintro fuel g ⟨x, _, hx⟩
    have ht := (hκ fuel).1 g 0 c l
    exact ⟨fuel, x, _, by rw [ht, hx], by simp⟩
  have hAc : ∀ fuel, μ (A fuel)ᶜ ≤ iters * ((1 / n) ^ fuel + ((2 / n) ^ fuel + (3 / n) ^ fuel)) := by
    intro fuel
    refine le_trans (le_of_eq ?_) (C64_fuel hc hid hb hm hv fuel iters c l)
    congr 1
    ext g
    simp [hA]
  have hae : ∀ᵐ g ∂μ, ∃ fuel, g ∈ A fuel := by
    filter_upwards [C64_terminates hc hid hb hm hv iters c l] with g ⟨F, x, s', hF⟩
    exact ⟨F, x, trivial, by rw [hF F le_rfl]⟩
  let count : G → ℕ := fun g => if h : ∃ fuel, g ∈ A fuel then κ (Nat.find h) g c l else 0
  have hcount : ∀ fuel g, g ∈ A fuel → count g = κ fuel g c l := by
    intro fuel g hg
    have h : ∃ fuel, g ∈ A fuel := ⟨fuel, hg⟩
    simp only [count, dif_pos h]
    exact C77_unique (hneed _ _ (Nat.find_spec h)) (hneed _ _ hg)
  have hlim0 : ∀ g, g ∉ (⋃ fuel, A fuel) → count g = 0 := by
    intro g hg
    simp only [count]
    rw [dif_neg (by simpa using hg)]
  have hmeas : Measurable count := by
    refine measurable_of_tendsto_metrizable (f := fun fuel g => (A fuel).indicator (fun g => κ fuel g c l) g)
      (fun fuel => ((hκ fuel).2 c l).1.indicator (hAm fuel)) ?_
    rw [tendsto_pi_nhds]
    intro g
    by_cases hg : ∃ fuel, g ∈ A fuel
    · obtain ⟨F, hF⟩ := hg
      refine tendsto_const_nhds.congr' ?_
      filter_upwards [eventually_ge_atTop F] with fuel hf
      rw [Set.indicator_of_mem (hmono hf hF), hcount fuel g (hmono hf hF)]
    · rw [hlim0 g (by simpa using hg)]
      refine tendsto_const_nhds.congr' (Eventually.of_forall fun fuel => ?_)
      exact (Set.indicator_of_notMem (fun h => hg ⟨fuel, h⟩) _).symm
  refine ⟨count, hmeas, ?_, ?_⟩
  · filter_upwards [hae] with g ⟨fuel, hg⟩
    rw [hcount fuel g hg]
    exact hneed fuel g hg
  -- the expectation
  have h3n : 3 < n := hv.size
  set e : ℝ≥0∞ := (n * N : ℕ) + iters * Costs.perIter n N with he
  have hee : e = n * N + iters * (N + n / (n - 1) + n / (n - 2) + n / (n - 3)) := by
    have hk : ∀ k : ℕ, k ≤ n → ((n - k : ℕ) : ℝ≥0∞) = n - k := fun k _ => by push_cast; rfl
    rw [he, Costs.perIter, hk 1 (by omega), hk 2 (by omega), hk 3 (by omega)]
    push_cast
    ring
  rw [← hee]
  have hset : ∀ fuel, ∫⁻ g in A fuel, (count g : ℝ≥0∞) ∂μ = ∫⁻ g in A fuel, (κ fuel g c l : ℝ≥0∞) ∂μ := fun fuel =>
    setLIntegral_congr_fun (hAm fuel) fun g hg => by simp only [hcount fuel g hg]
  have hU : ∫⁻ g, (count g : ℝ≥0∞) ∂μ = ∫⁻ g in ⋃ fuel, A fuel, (count g : ℝ≥0∞) ∂μ := by
    refine (setLIntegral_eq_of_support_subset fun g hg => ?_).symm
    by_contra h
    simp [hlim0 g h] at hg
  refine le_antisymm ?_ ?_
  · rw [hU, setLIntegral_iUnion_of_directed _ hmono.directed_le]
    refine iSup_le fun fuel => ?_
    rw [hset fuel]
    exact (setLIntegral_le_lintegral _ _).trans ((hκ fuel).2 c l).2.2.1
  · set ρ : ℕ → ℝ≥0∞ := fun fuel => (1 / n) ^ fuel + ((2 / n) ^ fuel + (3 / n) ^ fuel) with hρ
    have hlt : ∀ k : ℕ, k ≤ 3 → (k : ℝ≥0∞) / n < 1 := by
      intro k hk
      rw [ENNReal.div_lt_iff (by left; simp; omega) (by left; simp), one_mul]
      exact_mod_cast (by omega : k < n)
    have hρ0 : Tendsto ρ atTop (nhds 0) := by
      have h2 := (ENNReal.tendsto_pow_atTop_nhds_zero_of_lt_one (hlt 1 (by omega))).add
        ((ENNReal.tendsto_pow_atTop_nhds_zero_of_lt_one (hlt 2 (by omega))).add
          (ENNReal.tendsto_pow_atTop_nhds_zero_of_lt_one (hlt 3 (by omega))))
      simpa [hρ] using h2
    have hρ1 : Tendsto (fun fuel : ℕ => (fuel : ℝ≥0∞) * ρ fuel) atTop (nhds 0) := by
      have h2 := (lim_fuel (hlt 1 (by omega))).add ((lim_fuel (hlt 2 (by omega))).add (lim_fuel (hlt 3 (by omega))))
      simp only [hρ, mul_add]
      simpa using h2
    have hfin : Costs.perIter n N ≠ ∞ := by
      have hd : ∀ k : ℕ, k ≤ 3 → (n : ℝ≥0∞) / (n - k : ℕ) ≠ ∞ := fun k hk =>
        ENNReal.div_ne_top (natCast_ne_top n) (by exact_mod_cast (by omega : n - k ≠ 0))
      unfold Costs.perIter
      exact ENNReal.add_ne_top.2 ⟨hd 1 (by omega), ENNReal.add_ne_top.2 ⟨hd 2 (by omega), ENNReal.add_ne_top.2 ⟨hd 3 (by omega),
        natCast_ne_top _⟩⟩⟩
    have hbound : ∀ fuel, e ≤ ∫⁻ g, (count g : ℝ≥0∞) ∂μ + ((n * N + iters * N : ℕ) * iters * ρ fuel +
        ((3 * iters * iters : ℕ) * ((fuel : ℝ≥0∞) * ρ fuel) + iters * iters * Costs.perIter n N * ρ fuel)) := by
      intro fuel
      obtain ⟨h1, h2, _, h4⟩ := (hκ fuel).2 c l
      have hsplit : ∫⁻ g, (κ fuel g c l : ℝ≥0∞) ∂μ ≤ ∫⁻ g, (count g : ℝ≥0∞) ∂μ +
          ((n * N + iters * (3 * fuel + N) : ℕ) : ℝ≥0∞) * (iters * ρ fuel) := by
        rw [← lintegral_add_compl _ (hAm fuel), ← hset fuel]
        refine add_le_add (setLIntegral_le_lintegral _ _) ?_
        calc ∫⁻ g in (A fuel)ᶜ, (κ fuel g c l : ℝ≥0∞) ∂μ
            ≤ ∫⁻ _ in (A fuel)ᶜ, ((n * N + iters * (3 * fuel + N) : ℕ) : ℝ≥0∞) ∂μ :=
              lintegral_mono fun g => Nat.cast_le.2 (h2 g)
          _ = ((n * N + iters * (3 * fuel + N) : ℕ) : ℝ≥0∞) * μ (A fuel)ᶜ := by rw [setLIntegral_const]
          _ ≤ _ := by gcongr; exact hAc fuel
      refine h4.trans ((add_le_add_left hsplit _).trans (le_of_eq ?_))
      push_cast
      ring
    have hlim : Tendsto (fun fuel : ℕ => ∫⁻ g, (count g : ℝ≥0∞) ∂μ + ((n * N + iters * N : ℕ) * iters * ρ fuel +
        ((3 * iters * iters : ℕ) * ((fuel : ℝ≥0∞) * ρ fuel) + iters * iters * Costs.perIter n N * ρ fuel))) atTop
        (nhds (∫⁻ g, (count g : ℝ≥0∞) ∂μ)) := by
      have k1 := ENNReal.Tendsto.const_mul hρ0 (a := ((n * N + iters * N : ℕ) * iters : ℝ≥0∞))
        (.inr (ENNReal.mul_ne_top (natCast_ne_top _) (natCast_ne_top _)))
      have k2 := ENNReal.Tendsto.const_mul hρ1 (a := ((3 * iters * iters : ℕ) : ℝ≥0∞)) (.inr (natCast_ne_top _))
      have k3 := ENNReal.Tendsto.const_mul hρ0 (a := (iters * iters * Costs.perIter n N : ℝ≥0∞))
        (.inr (ENNReal.mul_ne_top (ENNReal.mul_ne_top (natCast_ne_top _) (natCast_ne_top _)) hfin))
      simpa using tendsto_const_nhds.add (k1.add (k2.add k3))
    exact ge_of_tendsto' hlim hbound

/-- The same for coordinates in `f32` or `f64` and crossover in `f32` (any formats `F`, `F'`), whatever the objective. -/
theorem C77_expected_float {F F' : Fmt} {env : DEnv (Ieee F) (Ieee F') N G S} {bounds : Fin N → Ieee F × Ieee F}
    {D : Fin N → PMF (Ieee F)} {U : PMF (Ieee F')} {cp : Ieee F'} {w : Ieee F}
    {better : Pt (Ieee F) N → Pt (Ieee F) N → Bool}
    (hc : env.RandContract) (hid : env.Ideal μ bounds D U) (hb : env.Compares better) (hn : 4 ≤ n)
    (hcp : cp.Finite ∧ 0 ≤ cp.value ∧ cp.value ≤ 1) (hw : w.Finite ∧ 0 ≤ w.value ∧ w.value ≤ 2)
    (iters : ℕ) (c : S) (l : List (Call (Ieee F) N)) :
    ∃ count : G → ℕ, Measurable count ∧ (∀ᵐ g ∂μ, env.Needs bounds n cp w iters ⟨g, c, l⟩ (count g)) ∧
      ∫⁻ g, (count g : ℝ≥0∞) ∂μ = n * N + iters * (N + n / (n - 1) + n / (n - 2) + n / (n - 3)) :=
  C77_expected (E := { D := D, U := U, cp := cp, mutation := fun x y z => x.add ((y.sub z).mul w), better := better })
    hc hid hb (fun _ _ _ => rfl) ((C53_params n cp w).2 ⟨hn, hcp, hw⟩) iters c l

end ideal

/-- The larger the population, the fewer random numbers an iteration needs on average. -/
theorem C77_population {n n' : ℕ} (N : ℕ) (h : 4 ≤ n) (h' : n ≤ n') :
    ((N : ℝ≥0∞) + n' / (n' - 1) + n' / (n' - 2) + n' / (n' - 3)) ≤ N + n / (n - 1) + n / (n - 2) + n / (n - 3) := by
  have hk : ∀ k : ℕ, k ≤ 3 → ((n' : ℝ≥0∞) / (n' - k)) ≤ n / (n - k) := by
    intro k hk
    rw [← ENNReal.natCast_sub, ← ENNReal.natCast_sub,
      ENNReal.div_le_iff (by exact_mod_cast (by omega : n' - k ≠ 0)) (natCast_ne_top _), div_eq_mul_inv, mul_right_comm, ← div_eq_mul_inv,
      ENNReal.le_div_iff_mul_le (.inl (by exact_mod_cast (by omega : n - k ≠ 0))) (.inl (natCast_ne_top _))]
    norm_cast
    obtain ⟨a, rfl⟩ := Nat.exists_eq_add_of_le (show k ≤ n by omega)
    obtain ⟨b, rfl⟩ := Nat.exists_eq_add_of_le h'
    rw [show k + a - k = a by omega, show k + a + b - k = a + b by omega]
    nlinarith [Nat.zero_le (k * b)]
  have h1 := hk 1 (by omega)
  have h2 := hk 2 (by omega)
  have h3 := hk 3 (by omega)
  push_cast at h1 h2 h3
  gcongr

/-- In every population, an iteration needs at most `N + 22 / 3` random numbers on average. -/
theorem C77_per_iteration {n : ℕ} (N : ℕ) (h : 4 ≤ n) :
    ((N : ℝ≥0∞) + n / (n - 1) + n / (n - 2) + n / (n - 3)) ≤ N + 22 / 3 := by
  refine (C77_population N le_rfl h).trans (le_of_eq ?_)
  have e1 : ((4 : ℕ) : ℝ≥0∞) - 1 = 3 := by rw [← Nat.cast_one, ← ENNReal.natCast_sub]; norm_num
  have e2 : ((4 : ℕ) : ℝ≥0∞) - 2 = 2 := by rw [← Nat.cast_two, ← ENNReal.natCast_sub]
  have e3 : ((4 : ℕ) : ℝ≥0∞) - 3 = 1 := by rw [← Nat.cast_three, ← ENNReal.natCast_sub]; norm_num
  rw [e1, e2, e3]
  have h2 : ((4 : ℕ) : ℝ≥0∞) / 2 = 2 := by
    rw [eq_comm, ENNReal.eq_div_iff (by norm_num) (by norm_num)]; norm_num
  rw [h2, add_assoc, add_assoc]
  congr 1
  rw [div_one, ENNReal.eq_div_iff (by norm_num) (by norm_num), mul_add, ENNReal.mul_div_cancel (by norm_num) (by norm_num)]
  norm_num
end Magnesia
