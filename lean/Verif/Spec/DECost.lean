import Verif.Spec.DEProb

/-!
# Specification of property C77: counting random numbers
-/

namespace Magnesia

variable {T P G S : Type} {N : ℕ}

/-- The generator with a counter: every random number (an index, a coordinate or a `gen::<f32>()`) adds one to it. -/
def DEnv.counted (env : DEnv T P N G S) : DEnv T P N (G × ℕ) S where
  genIndex n g := ((env.genIndex n g.1).1, (env.genIndex n g.1).2, g.2 + 1)
  genUniform lo hi g := ((env.genUniform lo hi g.1).1, (env.genUniform lo hi g.1).2, g.2 + 1)
  genUnit g := ((env.genUnit g.1).1, (env.genUnit g.1).2, g.2 + 1)
  compare := env.compare

/-- The run of `optimize` returns, and by then it has asked the generator for `k` random numbers. -/
def DEnv.Needs [RPartialOrd P] [RZero P] [ROne P] [RPartialOrd T] [FromI8 T] [RAdd T T T] [RSub T T T] [RMul T T T]
    (env : DEnv T P N G S) (bounds : Fin N → T × T) (n : ℕ) (cp : P) (w : T) (iters : ℕ) (s : DEWorld T N G S) (k : ℕ) : Prop :=
  ∃ fuel x s', env.counted.optimize fuel bounds n cp w iters ⟨(s.rng, 0), s.cmp, s.log⟩ = (.ok x, s') ∧ s'.rng.2 = k

end Magnesia
