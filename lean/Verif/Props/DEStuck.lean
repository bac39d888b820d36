import Verif.Props.DEProb

/-!
# C81: no number of iterations makes success certain
-/

namespace Magnesia

set_option linter.unusedSectionVars false

open MeasureTheory ENNReal

variable {T P G S : Type} {N n : ℕ} [MeasurableSpace G] {μ : Measure G} [IsProbabilityMeasure μ]
  [Countable S] [Countable T] [Countable P] [RPartialOrd P] [RZero P] [ROne P] [RPartialOrd T] [FromI8 T] [RAdd T T T]
  [RSub T T T] [RMul T T T] [NeZero N] {env : DEnv T P N G S} {bounds : Fin N → T × T} {E : Textbook T P N} {w : T}

private theorem indep_support {α : Type} {k : ℕ} {p : Fin k → PMF α} {f : Fin k → α} (h : f ∈ (indep p).support) (i : Fin k) :
    f i ∈ (p i).support := by
  rw [PMF.mem_support_iff, indep_apply, Finset.prod_ne_zero_iff] at h
  exact (PMF.mem_support_iff _ _).2 (h i (Finset.mem_univ i))

/-- All coordinates are in the given sets. -/
private def Inside (Y : Fin N → Set T) : Set (Fin n → Pt T N) := {pop | ∀ i c, pop i c ∈ Y c}

private theorem trial_inside {Y : Fin N → Set T} (hY : ∀ c, ∀ x ∈ Y c, ∀ y ∈ Y c, ∀ z ∈ Y c, E.mutation x y z ∈ Y c)
    {pop : Fin n → Pt T N} (hp : pop ∈ Inside Y) (hn : 4 ≤ n) (i : Fin n) {x : Pt T N} (hx : x ∈ (E.trial pop hn i).support) (c : Fin N) :
    x c ∈ Y c := by
  rw [Textbook.trial, PMF.mem_support_bind_iff] at hx
  obtain ⟨t, _, hx⟩ := hx
  rw [PMF.mem_support_bind_iff] at hx
  obtain ⟨r, _, hx⟩ := hx
  have := indep_support hx c
  have hd : E.mutation (pop t.1 c) (pop t.2.1 c) (pop t.2.2 c) ∈ Y c := hY c _ (hp _ c) _ (hp _ c) _ (hp _ c)
  by_cases hr : c = r
  · rw [if_pos hr, PMF.mem_support_pure_iff] at this
    rwa [this]
  · rw [if_neg hr, PMF.mem_support_map_iff] at this
    obtain ⟨u, _, hu⟩ := this
    rw [← hu]
    split
    · exact hd
    · exact hp _ c

private theorem inside_succ {Y : Fin N → Set T} (hY : ∀ c, ∀ x ∈ Y c, ∀ y ∈ Y c, ∀ z ∈ Y c, E.mutation x y z ∈ Y c) (hn : 4 ≤ n) (t : ℕ) :
    (E.population hn t).toOuterMeasure (Inside Y) ≤ (E.population hn (t + 1)).toOuterMeasure (Inside Y) := by
  rw [Textbook.population, PMF.toOuterMeasure_bind_apply, PMF.toOuterMeasure_apply]
  refine ENNReal.tsum_le_tsum fun pop => ?_
  by_cases hp : pop ∈ Inside Y
  · rw [Set.indicator_of_mem hp]
    have : (E.step pop hn (slot (by omega) t)).toOuterMeasure (Inside Y) = 1 := by
      rw [Textbook.step, PMF.toOuterMeasure_map_apply, PMF.toOuterMeasure_apply_eq_one_iff]
      intro x hx
      show (if E.better x (pop _) then Function.update pop _ x else pop) ∈ Inside Y
      split
      · intro i c
        by_cases hi : i = slot (by omega) t
        · subst hi
          rw [Function.update_self]
          exact trial_inside hY hp hn _ hx c
        · rw [Function.update_of_ne hi]
          exact hp i c
      · exact hp
    rw [this, mul_one]
  · rw [Set.indicator_of_notMem hp]
    exact zero_le

/-- With ideal random numbers: let `Y c` be sets of coordinates that mutation does not leave. If one random coordinate `c` is in `Y c`
with probability `q c`, then after any number of iterations the result is confined to these sets with probability at least
`(∏ c, q c) ^ n`. -/
theorem C81_confined (hc : env.RandContract) (hid : env.Ideal μ bounds E.D E.U) (hb : env.Compares E.better)
    (hm : ∀ x y z : T, (do RAdd.add x (← RMul.mul (← RSub.sub y z) w)) = Except.ok (E.mutation x y z))
    (hv : ValidParams n E.cp w) (iters : ℕ) (c : S) (l : List (Call T N)) (Y : Fin N → Set T)
    (hY : ∀ c, ∀ x ∈ Y c, ∀ y ∈ Y c, ∀ z ∈ Y c, E.mutation x y z ∈ Y c) :
    (∏ c, (E.D c).toOuterMeasure (Y c)) ^ n ≤
      μ {g | ∃ x : Pt T N, (∀ c, x c ∈ Y c) ∧ ∃ fuel s', env.optimize fuel bounds n E.cp w iters ⟨g, c, l⟩ = (.ok x, s')} := by
  have h := C64_probability hc hid hb hm hv iters c l {x : Pt T N | ∀ c, x c ∈ Y c}
  rw [show {g | ∃ x : Pt T N, (∀ c, x c ∈ Y c) ∧ ∃ fuel s', env.optimize fuel bounds n E.cp w iters ⟨g, c, l⟩ = (.ok x, s')} =
    {g | ∃ x ∈ {x : Pt T N | ∀ c, x c ∈ Y c}, ∃ fuel s', env.optimize fuel bounds n E.cp w iters ⟨g, c, l⟩ = (.ok x, s')} from rfl, h]
  have h0 : (E.population hv.size 0).toOuterMeasure (Inside Y) = (∏ c, (E.D c).toOuterMeasure (Y c)) ^ n := by
    rw [Textbook.population, show (Inside Y : Set (Fin n → Pt T N)) = {pop | ∀ i, pop i ∈ {x : Pt T N | ∀ c, x c ∈ Y c}} from rfl,
      indep_event]
    simp only [indep_event, Finset.prod_const, Finset.card_univ, Fintype.card_fin]
  rw [← h0]
  refine (monotone_nat_of_le_succ (inside_succ hY hv.size) (Nat.zero_le iters)).trans ?_
  rw [Textbook.result, PMF.toOuterMeasure_map_apply]
  refine measure_mono fun pop hp => ?_
  obtain ⟨x, h1, h2⟩ := champion_isSome E.better (List.ofFn pop) (by
    intro h
    have := congrArg List.length h
    have := hv.size
    simp at *
    omega)
  obtain ⟨s, rfl⟩ := (List.mem_ofFn' _ _).1 h1
  exact ⟨pop s, fun c => hp s c, h2.symm⟩

/-- What a set of points gains the other points lose. -/
theorem C81_failure (hc : env.RandContract) (hid : env.Ideal μ bounds E.D E.U) (hb : env.Compares E.better)
    (hm : ∀ x y z : T, (do RAdd.add x (← RMul.mul (← RSub.sub y z) w)) = Except.ok (E.mutation x y z))
    (hv : ValidParams n E.cp w) (iters : ℕ) (c : S) (l : List (Call T N)) (Y : Fin N → Set T)
    (hY : ∀ c, ∀ x ∈ Y c, ∀ y ∈ Y c, ∀ z ∈ Y c, E.mutation x y z ∈ Y c) (A : Set (Pt T N)) (hA : ∀ x ∈ A, ∃ c, x c ∉ Y c) :
    μ {g | ∃ x ∈ A, ∃ fuel s', env.optimize fuel bounds n E.cp w iters ⟨g, c, l⟩ = (.ok x, s')} ≤
      1 - (∏ c, (E.D c).toOuterMeasure (Y c)) ^ n := by
  have h1 := C81_confined hc hid hb hm hv iters c l Y hY
  have h2 := C64_probability hc hid hb hm hv iters c l {x : Pt T N | ∀ c, x c ∈ Y c}
  rw [C64_probability hc hid hb hm hv]
  refine ENNReal.le_sub_of_add_le_right ?_ ?_
  · refine ENNReal.pow_ne_top ((ENNReal.prod_ne_top fun c _ => ?_))
    exact ne_top_of_le_ne_top one_ne_top ((measure_mono (Set.subset_univ _)).trans
      ((PMF.toOuterMeasure_apply_eq_one_iff _ _).2 (Set.subset_univ _)).le)
  · calc _ ≤ (E.result hv.size iters).toOuterMeasure (some '' A) +
          (E.result hv.size iters).toOuterMeasure (some '' {x : Pt T N | ∀ c, x c ∈ Y c}) := by
          gcongr
          exact h1.trans h2.le
      _ ≤ (E.result hv.size iters).toOuterMeasure (some '' A) + (E.result hv.size iters).toOuterMeasure (some '' A)ᶜ := by
          gcongr
          rintro _ ⟨x, hx, rfl⟩ ⟨y, hy, e⟩
          cases e
          obtain ⟨c, h⟩ := hA x hy
          exact h (hx c)
      _ = 1 := toOuterMeasure_union_compl _ _

/-- Exact arithmetic: after any number of iterations the result is a given point `x` with at least the probability that the whole
initial population is `x` - however bad `x` is. -/
theorem C81_stuck {K : Type} [CommRing K] [Countable K] [RPartialOrd (Exact K)] [FromI8 (Exact K)]
    {env : DEnv (Exact K) P N G S} {bounds : Fin N → Exact K × Exact K} {D : Fin N → PMF (Exact K)} {U : PMF P} {cp : P} {w : Exact K}
    {better : Pt (Exact K) N → Pt (Exact K) N → Bool} (hc : env.RandContract) (hid : env.Ideal μ bounds D U) (hb : env.Compares better)
    (hv : ValidParams n cp w) (iters : ℕ) (c : S) (l : List (Call (Exact K) N)) (x : Pt (Exact K) N) :
    (∏ c, D c (x c)) ^ n ≤ μ {g | ∃ fuel s', env.optimize fuel bounds n cp w iters ⟨g, c, l⟩ = (.ok x, s')} := by
  have : Countable (Exact K) := Function.Injective.countable (f := Exact.val) fun a b h => by cases a; cases b; cases h; rfl
  refine le_trans (le_of_eq ?_) ((C81_confined
    (E := { D := D, U := U, cp := cp, mutation := fun x y z => ⟨x.val + (y.val - z.val) * w.val⟩, better := better })
    hc hid hb (fun _ _ _ => rfl) hv iters c l (fun c => {x c}) ?_).trans (measure_mono ?_))
  · simp only [PMF.toOuterMeasure_apply_singleton]
  · rintro c _ rfl _ rfl _ rfl
    show (⟨(x c).val + ((x c).val - (x c).val) * w.val⟩ : Exact K) = x c
    rw [sub_self, zero_mul, add_zero]
  · rintro g ⟨y, hy, h⟩
    rwa [← show y = x from funext hy]

/-- A finite number other than `-0` does not move by a multiple of its difference to itself. -/
private theorem float_fixed {F : Fmt} {x w : Ieee F} (hx : x.Finite) (h0 : x ≠ .zero true) (hw : w.Finite) :
    x.add ((x.sub x).mul w) = x := by
  have hz : ∀ s, ∃ t, (Ieee.zero s : Ieee F).mul w = .zero t := by
    intro s
    match w, hw with
    | .zero t, _ => exact ⟨_, rfl⟩
    | .fin y _ _, _ => exact ⟨_, rfl⟩
  match x, hx, h0 with
  | .zero false, _, _ =>
    obtain ⟨t, ht⟩ := hz false
    rw [show (Ieee.zero false : Ieee F).sub (.zero false) = .zero false from rfl, ht]
    rfl
  | .zero true, _, h => exact absurd rfl h
  | .fin y hy hr, _, _ =>
    obtain ⟨t, ht⟩ := hz false
    have : (Ieee.fin y hy hr : Ieee F).sub (.fin y hy hr) = .zero false := by
      show (if y + -y = 0 then Ieee.zero false else Ieee.round (y + -y)) = _
      rw [if_pos (add_neg_cancel y)]
    rw [this, ht]
    rfl

/-- Floating point coordinates: the same for every point with finite coordinates (`-0` excluded). -/
theorem C81_stuck_float {F F' : Fmt} {env : DEnv (Ieee F) (Ieee F') N G S} {bounds : Fin N → Ieee F × Ieee F}
    {D : Fin N → PMF (Ieee F)} {U : PMF (Ieee F')} {cp : Ieee F'} {w : Ieee F} {better : Pt (Ieee F) N → Pt (Ieee F) N → Bool}
    (hc : env.RandContract) (hid : env.Ideal μ bounds D U) (hb : env.Compares better) (hn : 4 ≤ n)
    (hcp : cp.Finite ∧ 0 ≤ cp.value ∧ cp.value ≤ 1) (hw : w.Finite ∧ 0 ≤ w.value ∧ w.value ≤ 2)
    (iters : ℕ) (c : S) (l : List (Call (Ieee F) N)) (x : Pt (Ieee F) N) (hx : ∀ c, (x c).Finite ∧ x c ≠ .zero true) :
    (∏ c, D c (x c)) ^ n ≤ μ {g | ∃ fuel s', env.optimize fuel bounds n cp w iters ⟨g, c, l⟩ = (.ok x, s')} := by
  refine le_trans (le_of_eq ?_) ((C81_confined
    (E := { D := D, U := U, cp := cp, mutation := fun x y z => x.add ((y.sub z).mul w), better := better })
    hc hid hb (fun _ _ _ => rfl) ((C53_params n cp w).2 ⟨hn, hcp, hw⟩) iters c l (fun c => {x c}) ?_).trans (measure_mono ?_))
  · simp only [PMF.toOuterMeasure_apply_singleton]
  · rintro c _ rfl _ rfl _ rfl
    show (x c).add (((x c).sub (x c)).mul w) = x c
    exact float_fixed (hx c).1 (hx c).2 hw.1
  · rintro g ⟨y, hy, h⟩
    rwa [← show y = x from funext hy]

/-- No number of iterations makes success certain: if some point outside `A` (with finite coordinates, not `-0`) is drawn with positive
probability, the probability to return a point of `A` stays below 1 by a fixed amount. -/
theorem C81_no_guarantee {F F' : Fmt} {env : DEnv (Ieee F) (Ieee F') N G S} {bounds : Fin N → Ieee F × Ieee F}
    {D : Fin N → PMF (Ieee F)} {U : PMF (Ieee F')} {cp : Ieee F'} {w : Ieee F} {better : Pt (Ieee F) N → Pt (Ieee F) N → Bool}
    (hc : env.RandContract) (hid : env.Ideal μ bounds D U) (hb : env.Compares better) (hn : 4 ≤ n)
    (hcp : cp.Finite ∧ 0 ≤ cp.value ∧ cp.value ≤ 1) (hw : w.Finite ∧ 0 ≤ w.value ∧ w.value ≤ 2)
    (A : Set (Pt (Ieee F) N)) (x : Pt (Ieee F) N) (hA : x ∉ A) (hx : ∀ c, (x c).Finite ∧ x c ≠ .zero true) (hD : ∀ c, D c (x c) ≠ 0) :
    ∃ p < 1, ∀ iters (c : S) (l : List (Call (Ieee F) N)),
      μ {g | ∃ x ∈ A, ∃ fuel s', env.optimize fuel bounds n cp w iters ⟨g, c, l⟩ = (.ok x, s')} ≤ p := by
  have hpos : (∏ c, D c (x c)) ^ n ≠ 0 := pow_ne_zero _ (Finset.prod_ne_zero_iff.2 fun c _ => hD c)
  refine ⟨1 - (∏ c, D c (x c)) ^ n, ENNReal.sub_lt_self one_ne_top one_ne_zero hpos, fun iters c l => ?_⟩
  have := C81_failure
    (E := { D := D, U := U, cp := cp, mutation := fun x y z => x.add ((y.sub z).mul w), better := better })
    hc hid hb (fun _ _ _ => rfl) ((C53_params n cp w).2 ⟨hn, hcp, hw⟩) iters c l (fun c => {x c})
    (by rintro c _ rfl _ rfl _ rfl; exact float_fixed (hx c).1 (hx c).2 hw.1) A
    (fun y hy => by
      by_contra h
      push Not at h
      rw [show y = x from funext h] at hy
      exact hA hy)
  simpa only [PMF.toOuterMeasure_apply_singleton] using this

end Magnesia
