import Verif.Spec.DE
import Mathlib.Probability.Distributions.Uniform
import Mathlib.Probability.ProbabilityMassFunction.Constructions
import Mathlib.Data.Fintype.Prod

/-!
# Differential evolution as a randomised algorithm

The textbook algorithm ("DE/rand/1/bin" with in-place replacement and a final tournament), written with Mathlib's
probability mass functions, and what it means for a random number generator to be ideal. Nothing in here refers to how the
optimizer draws its random numbers.
-/

namespace Magnesia

open MeasureTheory ENNReal

variable {T P G S α : Type} {N n : ℕ}

/-! ## Ideal generators -/

/-- If the generator's state is distributed according to `μ`, then `draw` returns each value `x` with probability `d x`,
and the state it leaves is independent of the value and distributed according to `μ` again. -/
structure IsSample [MeasurableSpace G] (μ : Measure G) (draw : G → Res α × G) (d : PMF α) : Prop where
  measurable : ∀ x A, MeasurableSet A → MeasurableSet {g | (draw g).1 = .ok x ∧ (draw g).2 ∈ A}
  law : ∀ x A, MeasurableSet A → μ {g | (draw g).1 = .ok x ∧ (draw g).2 ∈ A} = d x * μ A

/-- An ideal generator: all draws are independent, indices are uniformly distributed, coordinate `c` of an initial point has
the distribution `D c`, and `gen::<f32>()` the distribution `U`. -/
structure DEnv.Ideal [MeasurableSpace G] (env : DEnv T P N G S) (μ : Measure G) (bounds : Fin N → T × T) (D : Fin N → PMF T)
    (U : PMF P) : Prop where
  index : ∀ n (hn : 0 < n), IsSample μ (env.genIndex n) (PMF.uniformOfFinset (.range n) ⟨0, Finset.mem_range.2 hn⟩)
  uniform : ∀ c, IsSample μ (env.genUniform (bounds c).1 (bounds c).2) (D c)
  unit : IsSample μ (fun g => (.ok (env.genUnit g).1, (env.genUnit g).2)) U

/-! ## The textbook algorithm -/

/-- Independent random values with the given distributions. (`C64_independent`: the probability of `f` is the product of
the probabilities of the `f i`.) -/
noncomputable def indep : {k : ℕ} → (Fin k → PMF α) → PMF (Fin k → α)
  | 0, _ => .pure Fin.elim0
  | _ + 1, p => (p 0).bind fun x => (indep fun i => p i.succ).map fun f => Fin.cons x f

/-- Three different slots other than `i`. -/
def triples (i : Fin n) : Finset (Fin n × Fin n × Fin n) :=
  Finset.univ.filter fun t => [i, t.1, t.2.1, t.2.2].Nodup

theorem triples_nonempty (hn : 4 ≤ n) (i : Fin n) : (triples i).Nonempty := by
  have key : ∀ s : Finset (Fin n), s.card < n → ∃ a, a ∉ s := by
    intro s hs
    by_contra h
    push Not at h
    have : s = Finset.univ := Finset.eq_univ_of_forall h
    rw [this, Finset.card_univ, Fintype.card_fin] at hs
    omega
  obtain ⟨j, hj⟩ := key {i} (by simp; omega)
  obtain ⟨k, hk⟩ := key {i, j} (lt_of_le_of_lt (Finset.card_le_two) (by omega))
  obtain ⟨l, hl⟩ := key {i, j, k} (lt_of_le_of_lt (Finset.card_le_three) (by omega))
  simp only [Finset.mem_insert, Finset.mem_singleton, not_or] at hj hk hl
  refine ⟨(j, k, l), ?_⟩
  simp only [triples, Finset.mem_filter, Finset.mem_univ, true_and, List.nodup_cons, List.mem_cons, List.not_mem_nil,
    or_false, not_or, List.nodup_nil, and_true, not_false_eq_true]
  exact ⟨⟨Ne.symm hj, Ne.symm hk.1, Ne.symm hl.1⟩, ⟨Ne.symm hk.2, Ne.symm hl.2.1⟩, Ne.symm hl.2.2⟩

/-- The parameters of the textbook algorithm: distributions of the initial coordinates and of the random numbers of the
crossover, crossover probability, the mutation `x + (y - z) * w` of a coordinate, and the comparison. -/
structure Textbook (T P : Type) (N : ℕ) where
  D : Fin N → PMF T
  U : PMF P
  cp : P
  mutation : T → T → T → T
  better : Pt T N → Pt T N → Bool

namespace Textbook

variable [RPartialOrd P] (E : Textbook T P N)

/-- Binomial crossover: coordinate `r` is taken from the donor, every other coordinate independently with the probability
that a random number is below `cp`. -/
noncomputable def crossover (current donor : Pt T N) (r : Fin N) : PMF (Pt T N) :=
  indep fun c => if c = r then .pure (donor c) else
    E.U.map fun u => if RPartialOrd.lt u E.cp then donor c else current c

/-- The distribution of the trial point for slot `i`: three uniformly distributed different slots other than `i` give the
donor, a uniformly distributed coordinate is surely taken from it. -/
noncomputable def trial [NeZero N] (pop : Fin n → Pt T N) (hn : 4 ≤ n) (i : Fin n) : PMF (Pt T N) :=
  (PMF.uniformOfFinset (triples i) (triples_nonempty hn i)).bind fun t =>
    (PMF.uniformOfFintype (Fin N)).bind fun r =>
      E.crossover (pop i) (fun c => E.mutation (pop t.1 c) (pop t.2.1 c) (pop t.2.2 c)) r

/-- One step for slot `i`: the trial point replaces the point in the slot if it is better. -/
noncomputable def step [NeZero N] (pop : Fin n → Pt T N) (hn : 4 ≤ n) (i : Fin n) : PMF (Fin n → Pt T N) :=
  (E.trial pop hn i).map fun x => if E.better x (pop i) then Function.update pop i x else pop

/-- The distribution of the population after `t` steps. -/
noncomputable def population [NeZero N] (hn : 4 ≤ n) : ℕ → PMF (Fin n → Pt T N)
  | 0 => indep fun _ => indep E.D
  | t + 1 => (population hn t).bind fun pop => E.step pop hn (slot (by omega) t)

end Textbook

/-- One round of a tournament: the first half defends itself against the second half, in order; with an odd number of
players the last one has a bye. -/
def playRound (better : α → α → Bool) (l : List α) : List α :=
  List.zipWith (fun b a => if better a b then a else b) (l.take (l.length / 2)) (l.drop (l.length / 2)) ++
    l.drop (2 * (l.length / 2))

/-- The winner of the tournament (`none` if there are no players). -/
def champion (better : α → α → Bool) : List α → Option α
  | [] => none
  | [x] => some x
  | x :: y :: l => champion better (playRound better (x :: y :: l))
termination_by l => l.length
decreasing_by simp [playRound]; omega

/-- The distribution of the result of the textbook algorithm. -/
noncomputable def Textbook.result [RPartialOrd P] [NeZero N] (E : Textbook T P N) (hn : 4 ≤ n)
    (iters : ℕ) : PMF (Option (Pt T N)) :=
  (E.population hn iters).map fun pop => champion E.better (List.ofFn pop)

/-- A set of good points: what is at least as good as a good point is good. -/
def GoodSet (better : α → α → Bool) (A : Set α) : Prop := ∀ x y, x ∈ A → better x y = false → y ∈ A

end Magnesia
