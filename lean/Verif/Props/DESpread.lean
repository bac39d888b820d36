import Verif.Proof.DEProposal
import Verif.Proof.DEDrift
import Verif.Props.DEProb

/-!
# C88: mean and spread of the proposed points; coordinates the objective ignores do not drift

Exact (rational) coordinates, an ideal generator and a comparator that is a function of its arguments. `c` and `l` are an
arbitrary state of the comparator and an arbitrary log of earlier calls.
-/

namespace Magnesia

open MeasureTheory ENNReal

section

variable {T P G S : Type} {N n : ℕ} [MeasurableSpace G] {μ : Measure G} [IsProbabilityMeasure μ]
  [Countable S] [Countable T] [Countable P] [RPartialOrd P] [RZero P] [ROne P] [RPartialOrd T] [FromI8 T] [RAdd T T T]
  [RSub T T T] [RMul T T T] [NeZero N] {env : DEnv T P N G S} {bounds : Fin N → T × T} {E : Textbook T P N} {w : T}

/-- C88: for every element type, population and slot, the proposed point has the distribution of the trial point of the
textbook. -/
theorem C88_law (hc : env.RandContract) (hid : env.Ideal μ bounds E.D E.U) (hb : env.Compares E.better)
    (hm : ∀ x y z : T, (do RAdd.add x (← RMul.mul (← RSub.sub y z) w)) = Except.ok (E.mutation x y z)) (hn : 4 ≤ n)
    (pop : Fin n → Pt T N) (i : Fin n) (c : S) (l : List (Call T N)) (x : Pt T N) :
    μ (env.proposes E.cp w pop i c l x) = E.trial pop hn i x :=
  proposes_law hc hid hb hm hn pop i c l x

end

variable {P G S : Type} {N n : ℕ} [MeasurableSpace G] {μ : Measure G} [IsProbabilityMeasure μ]
  [Countable S] [Countable P] [RPartialOrd P] [RZero P] [ROne P] [NeZero N]
  {env : DEnv (Exact ℚ) P N G S} {bounds : Fin N → Exact ℚ × Exact ℚ} {D : Fin N → PMF (Exact ℚ)} {U : PMF P} {cp : P}
  {w : Exact ℚ} {better : Pt (Exact ℚ) N → Pt (Exact ℚ) N → Bool}

/-- The textbook algorithm with exact arithmetic. -/
def exactBook (D : Fin N → PMF (Exact ℚ)) (U : PMF P) (cp : P) (w : Exact ℚ)
    (better : Pt (Exact ℚ) N → Pt (Exact ℚ) N → Bool) : Textbook (Exact ℚ) P N :=
  { D := D, U := U, cp := cp, mutation := fun x y z => ⟨x.val + (y.val - z.val) * w.val⟩, better := better }

theorem proposed_moment (hc : env.RandContract) (hid : env.Ideal μ bounds D U) (hb : env.Compares better) (hn : 4 ≤ n)
    (pop : Fin n → Pt (Exact ℚ) N) (i : Fin n) (c : S) (l : List (Call (Exact ℚ) N)) (d : Fin N) (f : ℝ → ℝ) :
    expected (fun x => μ (env.proposes cp w pop i c l x)) (fun x => f (x d).val) =
      (1 - mutationRate N U cp) * f (pop i d).val + mutationRate N U cp *
        expected (PMF.uniformOfFinset (triples i) (triples_nonempty hn i))
          (fun t => f (((pop t.1 d).val : ℝ) + (((pop t.2.1 d).val : ℝ) - (pop t.2.2 d).val) * w.val)) := by
  have : Countable (Exact ℚ) := Function.Injective.countable (f := Exact.val) fun _ _ h => congrArg Exact.mk h
  have h := fun x => proposes_law (E := exactBook D U cp w better) (w := w) hc hid hb (fun _ _ _ => rfl) hn pop i c l x
  have e := expected_trial (E := exactBook D U cp w better) pop hn i (fun x => f x.val) d
  simp only [exactBook] at h e
  simp only [h]
  rw [e]
  simp only [Textbook.donor]
  push_cast
  rfl

/-- C88: the expected value of a coordinate of the proposed point: with the probability of a mutation the mean of the other
points, otherwise the present value. -/
theorem C88_mean (hc : env.RandContract) (hid : env.Ideal μ bounds D U) (hb : env.Compares better) (hn : 4 ≤ n)
    (pop : Fin n → Pt (Exact ℚ) N) (i : Fin n) (c : S) (l : List (Call (Exact ℚ) N)) (d : Fin N) :
    expected (fun x => μ (env.proposes cp w pop i c l x)) (fun x => (x d).val) =
      (1 - mutationRate N U cp) * (pop i d).val + mutationRate N U cp * meanBut (fun s => (pop s d).val) i := by
  rw [proposed_moment hc hid hb hn pop i c l d (fun a => a), partners_mean hn i (fun s => ((pop s d).val : ℝ)) w.val, meanBut,
    Finset.sum_erase_eq_sub (Finset.mem_univ i)]

/-- The mean square deviation of all but one from any number. -/
theorem square_but (hn : 4 ≤ n) (x : Fin n → ℝ) (i : Fin n) (a : ℝ) :
    (∑ j, (x j - a) ^ 2 - (x i - a) ^ 2) / (n - 1) = (meanBut x i - a) ^ 2 + spreadBut x i := by
  have n4 : (4 : ℝ) ≤ n := by exact_mod_cast hn
  have d1 : (n : ℝ) - 1 ≠ 0 := by linarith
  have hm : ∑ j ∈ Finset.univ.erase i, x j = (n - 1) * meanBut x i := by
    rw [meanBut]; field_simp
  have hcard : ((Finset.univ.erase i).card : ℝ) = n - 1 := by
    rw [Finset.card_erase_of_mem (Finset.mem_univ i), Finset.card_univ, Fintype.card_fin, Nat.cast_sub (by omega)]; simp
  have key : ∀ b, ∑ j ∈ Finset.univ.erase i, (x j - b) ^ 2 =
      ∑ j ∈ Finset.univ.erase i, x j ^ 2 - 2 * b * ((n - 1) * meanBut x i) + (n - 1) * b ^ 2 := by
    intro b
    rw [Finset.sum_congr rfl fun j _ => show (x j - b) ^ 2 = x j ^ 2 - 2 * b * x j + b ^ 2 by ring, Finset.sum_add_distrib,
      Finset.sum_sub_distrib, ← Finset.mul_sum, hm, Finset.sum_const, nsmul_eq_mul, hcard]
  rw [← Finset.sum_erase_eq_sub (Finset.mem_univ i), key, spreadBut, key]
  field_simp
  ring

theorem sum_but (hn : 4 ≤ n) (x : Fin n → ℝ) (i : Fin n) (a : ℝ) :
    ∑ j, (x j - a) - (x i - a) = (n - 1) * (meanBut x i - a) := by
  have n4 : (4 : ℝ) ≤ n := by exact_mod_cast hn
  have d1 : (n : ℝ) - 1 ≠ 0 := by linarith
  rw [meanBut, Finset.sum_erase_eq_sub (Finset.mem_univ i), Finset.sum_sub_distrib, Finset.sum_const, Finset.card_univ,
    Fintype.card_fin, nsmul_eq_mul]
  field_simp
  ring

/-- C88: the expected square of the distance of a coordinate of the proposed point from any number `a`. -/
theorem C88_spread (hc : env.RandContract) (hid : env.Ideal μ bounds D U) (hb : env.Compares better) (hn : 4 ≤ n)
    (pop : Fin n → Pt (Exact ℚ) N) (i : Fin n) (c : S) (l : List (Call (Exact ℚ) N)) (d : Fin N) (a : ℝ) :
    expected (fun x => μ (env.proposes cp w pop i c l x)) (fun x => ((x d).val - a) ^ 2) =
      (1 - mutationRate N U cp) * ((pop i d).val - a) ^ 2 +
      mutationRate N U cp * ((meanBut (fun s => (pop s d).val) i - a) ^ 2 +
        (1 + 2 * (w.val : ℝ) ^ 2 * ((n - 1) / (n - 2))) * spreadBut (fun s => (pop s d).val) i) := by
  have n4 : (4 : ℝ) ≤ n := by exact_mod_cast hn
  have d1 : (n : ℝ) - 1 ≠ 0 := by linarith
  have d2 : (n : ℝ) - 2 ≠ 0 := by linarith
  have h := proposed_moment (w := w) (cp := cp) hc hid hb hn pop i c l d (fun v => (v - a) ^ 2)
  simp only [show ∀ x y z : ℝ, (x + (y - z) * (w.val : ℝ) - a) = (x - a) + ((y - a) - (z - a)) * (w.val : ℝ) from
    fun x y z => by ring] at h
  rw [h, partners_square hn i (fun s => ((pop s d).val : ℝ) - a) w.val]
  have e2 := square_but hn (fun s => ((pop s d).val : ℝ)) i a
  have e1 := sum_but hn (fun s => ((pop s d).val : ℝ)) i a
  rw [div_eq_iff d1] at e2
  rw [e1, e2]
  field_simp
  ring

/-- C88: on average over the slots, the proposed points are where the population is. -/
theorem C88_average_mean (hc : env.RandContract) (hid : env.Ideal μ bounds D U) (hb : env.Compares better) (hn : 4 ≤ n)
    (pop : Fin n → Pt (Exact ℚ) N) (c : S) (l : List (Call (Exact ℚ) N)) (d : Fin N) :
    mean (fun i => expected (fun x => μ (env.proposes cp w pop i c l x)) (fun x => (x d).val)) =
      mean (fun s => ((pop s d).val : ℝ)) := by
  have n4 : (4 : ℝ) ≤ n := by exact_mod_cast hn
  have d1 : (n : ℝ) - 1 ≠ 0 := by linarith
  have d0 : (n : ℝ) ≠ 0 := by linarith
  simp only [C88_mean hc hid hb hn]
  unfold mean
  congr 1
  rw [Finset.sum_add_distrib, ← Finset.mul_sum, ← Finset.mul_sum]
  have : ∑ i, meanBut (fun s => ((pop s d).val : ℝ)) i = ∑ i, ((pop i d).val : ℝ) := by
    simp only [meanBut, Finset.sum_erase_eq_sub (Finset.mem_univ _)]
    rw [← Finset.sum_div, Finset.sum_sub_distrib, Finset.sum_const, Finset.card_univ, Fintype.card_fin, nsmul_eq_mul]
    field_simp
  rw [this]
  ring

/-- C88: on average over the slots, the proposed points are more spread than the population, by exactly the factor
`1 + 2 q w² n / (n - 1)`, `q` being the probability of a mutation. -/
theorem C88_average_spread (hc : env.RandContract) (hid : env.Ideal μ bounds D U) (hb : env.Compares better) (hn : 4 ≤ n)
    (pop : Fin n → Pt (Exact ℚ) N) (c : S) (l : List (Call (Exact ℚ) N)) (d : Fin N) :
    mean (fun i => expected (fun x => μ (env.proposes cp w pop i c l x))
      (fun x => ((x d).val - mean (fun s => ((pop s d).val : ℝ))) ^ 2)) =
      (1 + 2 * mutationRate N U cp * (w.val : ℝ) ^ 2 * (n / (n - 1))) * spread (fun s => ((pop s d).val : ℝ)) := by
  have n4 : (4 : ℝ) ≤ n := by exact_mod_cast hn
  have d1 : (n : ℝ) - 1 ≠ 0 := by linarith
  have d2 : (n : ℝ) - 2 ≠ 0 := by linarith
  have d0 : (n : ℝ) ≠ 0 := by linarith
  set x : Fin n → ℝ := fun s => ((pop s d).val : ℝ) with hx
  set M := mean x with hM
  set y : Fin n → ℝ := fun s => x s - M with hy
  have y0 : ∑ s, y s = 0 := by
    simp only [hy, Finset.sum_sub_distrib, Finset.sum_const, Finset.card_univ, Fintype.card_fin, nsmul_eq_mul, hM, mean]
    field_simp
    ring
  have ys : ∑ s, y s ^ 2 = n * spread x := by
    simp only [spread, hy, hM]
    field_simp
  have hi : ∀ i, expected (fun z => μ (env.proposes cp w pop i c l z)) (fun z => ((z d).val - M) ^ 2) =
      mutationRate N U cp * ((1 + 2 * (w.val : ℝ) ^ 2 * ((n - 1) / (n - 2))) / (n - 1) * (n * spread x)) +
      (1 - mutationRate N U cp - mutationRate N U cp * ((1 + 2 * (w.val : ℝ) ^ 2 * ((n - 1) / (n - 2))) / (n - 1)
        + 2 * (w.val : ℝ) ^ 2 * ((n - 1) / (n - 2)) / (n - 1) ^ 2)) * y i ^ 2 := by
    intro i
    rw [C88_spread hc hid hb hn]
    have e1 := sum_but hn x i M
    have e2 := square_but hn x i M
    change ∑ j, y j - y i = _ at e1
    change (∑ j, y j ^ 2 - y i ^ 2) / _ = _ at e2
    rw [y0] at e1
    rw [ys] at e2
    have e3 : meanBut x i - M = - y i / (n - 1) := by
      rw [eq_div_iff d1]; linarith
    have e4 : spreadBut x i = (n * spread x - y i ^ 2) / (n - 1) - (- y i / (n - 1)) ^ 2 := by
      rw [e2, e3]; ring
    change (1 - mutationRate N U cp) * (y i) ^ 2 + mutationRate N U cp * ((meanBut x i - M) ^ 2 + _ * spreadBut x i) = _
    rw [e3, e4]
    field_simp
    ring
  unfold mean
  rw [Finset.sum_congr rfl fun i _ => hi i, Finset.sum_add_distrib, Finset.sum_const, ← Finset.mul_sum, ys, Finset.card_univ,
    Fintype.card_fin, nsmul_eq_mul]
  field_simp
  ring

/-- C88: a coordinate the comparator does not look at does not drift: its expected value in the returned point is the
expected value of a random initial coordinate, after any number of iterations. -/
theorem C88_ignored (hc : env.RandContract) (hid : env.Ideal μ bounds D U) (hb : env.Compares better) {d : Fin N}
    (hig : IgnoresCoord better d) (hv : ValidParams n cp w) (iters : ℕ) (c : S) (l : List (Call (Exact ℚ) N)) :
    expected (fun x => μ {g | ∃ fuel s', env.optimize fuel bounds n cp w iters ⟨g, c, l⟩ = (.ok x, s')})
      (fun x => ((x d).val : ℝ)) = expected (D d) (fun v => (v.val : ℝ)) := by
  have : Countable (Exact ℚ) := Function.Injective.countable (f := Exact.val) fun _ _ h => congrArg Exact.mk h
  have h := fun x => C64_probability (E := exactBook D U cp w better) (w := w) hc hid hb (fun _ _ _ => rfl) hv iters c l {x}
  have hB : ∀ v ∈ (D d).support, |(v.val : ℝ)| ≤ |((bounds d).1.val : ℝ)| + |((bounds d).2.val : ℝ)| := by
    intro v hv
    rw [PMF.mem_support_iff] at hv
    have h1 := (hid.uniform d).law v Set.univ MeasurableSet.univ
    rw [measure_univ, mul_one] at h1
    rw [← h1] at hv
    obtain ⟨g, hg, _⟩ := nonempty_of_measure_ne_zero hv
    obtain ⟨h2, h3⟩ := hc.uniform_range _ _ g v hg
    have h2 : (bounds d).1.val ≤ v.val := of_decide_eq_true h2
    have h3 : v.val < (bounds d).2.val := of_decide_eq_true h3
    have h2' : ((bounds d).1.val : ℝ) ≤ v.val := by exact_mod_cast h2
    have h3' : (v.val : ℝ) < (bounds d).2.val := by exact_mod_cast h3
    rw [abs_le]
    constructor
    · linarith [neg_abs_le ((bounds d).1.val : ℝ), abs_nonneg ((bounds d).2.val : ℝ)]
    · linarith [le_abs_self ((bounds d).2.val : ℝ), abs_nonneg ((bounds d).1.val : ℝ)]
  have e := expected_result (E := exactBook D U cp w better) (val := fun v : Exact ℚ => (v.val : ℝ)) (w := w.val)
    (B := |((bounds d).1.val : ℝ)| + |((bounds d).2.val : ℝ)|) hig
    (fun x y z => by simp only [exactBook]; push_cast; rfl) hv.size hB iters
  simp only [exactBook] at h e
  rw [← e]
  unfold expected
  have h' : ∀ x : Pt (Exact ℚ) N, μ {g | ∃ fuel s', env.optimize fuel bounds n cp w iters ⟨g, c, l⟩ = (.ok x, s')} =
      (exactBook D U cp w better).result hv.size iters (some x) := by
    intro x
    have := h x
    simp only [Set.mem_singleton_iff, exists_eq_left, Set.image_singleton, PMF.toOuterMeasure_apply_singleton] at this
    exact this
  simp only [h']
  have := Function.Injective.tsum_eq (f := fun o : Option (Pt (Exact ℚ) N) =>
    ((exactBook D U cp w better).result hv.size iters o).toReal * o.elim 0 fun x => ((x d).val : ℝ))
    (Option.some_injective (Pt (Exact ℚ) N)) (by
      intro o ho
      cases o with
      | none => simp at ho
      | some x => exact ⟨x, rfl⟩)
  exact this

end Magnesia
