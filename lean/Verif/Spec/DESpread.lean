import Verif.Spec.DEProb

/-!
# Averages over the random numbers of the optimizer, and the mean and spread of a population
-/

namespace Magnesia

open MeasureTheory ENNReal

/-- The expected value of `f x`, if `x` has probability `p x`. -/
noncomputable def expected {α : Type} (p : α → ℝ≥0∞) (f : α → ℝ) : ℝ := ∑' x, (p x).toReal * f x

section

variable {T P G S : Type} {N n : ℕ} [RPartialOrd P] [RAdd T T T] [RSub T T T] [RMul T T T]

/-- The generator states from which the pass for slot `i` proposes `x` as a replacement of the point in the slot: the pass
ends normally, and the comparator is called exactly once, with `x` and the point in the slot. -/
def DEnv.proposes (env : DEnv T P N G S) (cp : P) (w : T) (pop : Fin n → Pt T N) (i : Fin n) (c : S) (l : List (Call T N))
    (x : Pt T N) : Set G :=
  {g | ∃ fuel pop' s' answer, env.iteration fuel cp w n (List.ofFn pop) i ⟨g, c, l⟩ = (.ok pop', s') ∧
    s'.log = l ++ [⟨x, pop i, answer⟩]}

/-- The probability that a coordinate of the trial point is mutated: it is the coordinate drawn to be mutated anyway, or a
random number is below the crossover probability. -/
noncomputable def mutationRate (N : ℕ) (U : PMF P) (cp : P) : ℝ :=
  1 / N + (1 - 1 / N) * (U.toOuterMeasure {u | RPartialOrd.lt u cp = true}).toReal

end

/-- The mean of `n` numbers. -/
noncomputable def mean {n : ℕ} (x : Fin n → ℝ) : ℝ := (∑ j, x j) / n

/-- The mean square deviation of `n` numbers from their mean. -/
noncomputable def spread {n : ℕ} (x : Fin n → ℝ) : ℝ := (∑ j, (x j - mean x) ^ 2) / n

/-- The mean of all but the `i`-th number. -/
noncomputable def meanBut {n : ℕ} (x : Fin n → ℝ) (i : Fin n) : ℝ := (∑ j ∈ Finset.univ.erase i, x j) / (n - 1)

/-- The mean square deviation of all but the `i`-th number from their mean. -/
noncomputable def spreadBut {n : ℕ} (x : Fin n → ℝ) (i : Fin n) : ℝ :=
  (∑ j ∈ Finset.univ.erase i, (x j - meanBut x i) ^ 2) / (n - 1)

/-- The comparison does not depend on coordinate `c`. -/
def IgnoresCoord {T : Type} {N : ℕ} (better : Pt T N → Pt T N → Bool) (c : Fin N) : Prop :=
  ∀ x y x' y' : Pt T N, (∀ d, d ≠ c → x d = x' d) → (∀ d, d ≠ c → y d = y' d) → better x y = better x' y'

end Magnesia
