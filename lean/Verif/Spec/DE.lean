import Verif.Model.DE
import Verif.Spec.Dyn
import Mathlib.Data.Multiset.Basic
import Mathlib.Data.Finset.Basic
import Mathlib.Data.Fintype.Basic

/-!
# What a run of the optimizer is supposed to be

Written without reference to how the model computes: a run consists of populations, trial points and comparator calls
that fit together.
-/

namespace Magnesia

open RZero ROne

variable {T P G S : Type} {N n : ℕ}

/-- What `rand` guarantees for every generator (`rand` 0.8, `Rng::gen_range` and `Rng::gen`): a range is rejected if it is
empty, numbers lie in the range, `gen::<f32>()` lies in `[0, 1)`. -/
structure DEnv.RandContract [RPartialOrd P] [RZero P] [ROne P] [RPartialOrd T] (env : DEnv T P N G S) : Prop where
  index_empty : ∀ g, (env.genIndex 0 g).1 = .error .emptyRange
  index_returns : ∀ n g, 0 < n → ∃ k, (env.genIndex n g).1 = .ok k
  index_range : ∀ n g k, (env.genIndex n g).1 = .ok k → k < n
  uniform_empty : ∀ lo hi g, RPartialOrd.lt lo hi = false → (env.genUniform lo hi g).1 = .error .emptyRange
  uniform_range : ∀ lo hi g x, (env.genUniform lo hi g).1 = .ok x → RPartialOrd.le lo x = true ∧ RPartialOrd.lt x hi = true
  unit_range : ∀ g, RPartialOrd.lt (env.genUnit g).1 (zero : P) = false ∧ RPartialOrd.lt (env.genUnit g).1 (one : P) = true

/-- Knockout tournament: as long as there are at least two candidates, two of them are compared and the loser is
eliminated (`b` holds against the challenger `a` unless the comparator says that `a` is better). -/
inductive Knockout : Multiset (Pt T N) → List (Call T N) → Pt T N → Prop
  | winner (x : Pt T N) : Knockout {x} [] x
  | game (a b : Pt T N) (answer : Bool) (s : Multiset (Pt T N)) (calls : List (Call T N)) (x : Pt T N) :
      Knockout ((if answer then a else b) ::ₘ s) calls x → Knockout (a ::ₘ b ::ₘ s) (⟨a, b, answer⟩ :: calls) x

/-- `x` is a trial point for slot `i` of the population `pop`: there are three further slots `j, k, l`, all four
different, a coordinate `r` and a set of coordinates `mutated` containing `r`, such that the mutated coordinates are
`x_j + (x_k - x_l) * w` and all others are those of slot `i`. A coordinate other than `r` is mutated exactly if some
random number of `[0, 1)` is below the crossover probability `cp`. -/
def IsTrial [RPartialOrd P] [RZero P] [ROne P] [RAdd T T T] [RSub T T T] [RMul T T T] (cp : P) (w : T)
    (pop : Fin n → Pt T N) (i : Fin n) (x : Pt T N) : Prop :=
  ∃ (j k l : Fin n) (r : Fin N) (mutated : Fin N → Bool), [i, j, k, l].Nodup ∧ mutated r = true ∧
    (∀ c, mutated c = true → (do RAdd.add (pop j c) (← RMul.mul (← RSub.sub (pop k c) (pop l c)) w)) = .ok (x c)) ∧
    (∀ c, mutated c = false → x c = pop i c) ∧
    ∀ c, c ≠ r → ∃ u : P, RPartialOrd.lt u (zero : P) = false ∧ RPartialOrd.lt u (one : P) = true ∧
      mutated c = RPartialOrd.lt u cp

/-- The generator's state after the first `c` coordinates of an initial point have been drawn, one after the other, from
the ranges `bounds 0`, `bounds 1`, …, starting with the state `g`. -/
def coordState (gen : T → T → G → Res T × G) (bounds : Fin N → T × T) (c : ℕ) (g : G) : G :=
  ((List.finRange N).take c).foldl (fun g i => (gen (bounds i).1 (bounds i).2 g).2) g

/-- `pop` is the initial population drawn from the generator with state `g`: points are drawn one after the other,
each of them coordinate by coordinate. -/
def DEnv.Drawn (env : DEnv T P N G S) (bounds : Fin N → T × T) (g : G) (pop : Fin n → Pt T N) : Prop :=
  ∀ (s : Fin n) (c : Fin N), (env.genUniform (bounds c).1 (bounds c).2
    (coordState env.genUniform bounds c ((coordState env.genUniform bounds N)^[s] g))).1 = .ok (pop s c)

/-- The slot of iteration `t`: `t mod n`. -/
def slot (hn : 0 < n) (t : ℕ) : Fin n := ⟨t % n, Nat.mod_lt t hn⟩

/-- The course of a run with population size `n`: the population before each iteration, the trial point and the
comparator's answer in each iteration, and the comparator calls of the knockout stage. -/
structure DERun (T : Type) (N n : ℕ) where
  pop : ℕ → Fin n → Pt T N
  trial : ℕ → Pt T N
  answer : ℕ → Bool
  final : List (Call T N)

/-- The course `R` explains the observed comparator `calls` and the `result`. -/
structure DERun.Explains [RPartialOrd P] [RZero P] [ROne P] [RPartialOrd T] [RAdd T T T] [RSub T T T] [RMul T T T]
    (R : DERun T N n) (hn : 0 < n) (bounds : Fin N → T × T) (cp : P) (w : T) (iters : ℕ) (calls : List (Call T N))
    (result : Pt T N) : Prop where
  /-- The initial points lie within the bounds. -/
  initial : ∀ s c, RPartialOrd.le (bounds c).1 (R.pop 0 s c) = true ∧ RPartialOrd.lt (R.pop 0 s c) (bounds c).2 = true
  /-- Iteration `t` makes a trial point for slot `t mod n`. -/
  trial : ∀ t < iters, IsTrial cp w (R.pop t) (slot hn t) (R.trial t)
  /-- It replaces the point in that slot if the comparator says so; nothing else changes. -/
  step : ∀ t < iters, R.pop (t + 1) = if R.answer t then Function.update (R.pop t) (slot hn t) (R.trial t) else R.pop t
  /-- The calls: one per iteration, trial point first, then those of the knockout stage. -/
  calls_eq : calls = (List.range iters).map (fun t => ⟨R.trial t, R.pop t (slot hn t), R.answer t⟩) ++ R.final
  /-- The knockout stage determines the result. -/
  knockout : Knockout (Finset.univ.val.map (R.pop iters)) R.final result

/-- The recorded answers are answers the comparator gave. -/
def DEnv.Honest (env : DEnv T P N G S) (calls : List (Call T N)) : Prop :=
  ∀ c ∈ calls, ∃ s, (env.compare c.a c.b s).1 = .ok c.answer

/-- The generator's state after `m` draws of an index below `n`. -/
def DEnv.afterDraws (env : DEnv T P N G S) (n : ℕ) : ℕ → G → G
  | 0, g => g
  | m + 1, g => afterDraws env n m (env.genIndex n g).2

/-- No index is avoided forever: from every state, drawing indices below `n` repeatedly, every index `a` turns up. -/
def DEnv.Fair (env : DEnv T P N G S) : Prop :=
  ∀ (n : ℕ) (g : G) (a : ℕ), a < n → ∃ m, (env.genIndex n (env.afterDraws n m g)).1 = .ok a

/-- The arithmetic of a trial coordinate does not panic. -/
def DEnv.Arith (T : Type) [RAdd T T T] [RSub T T T] [RMul T T T] : Prop :=
  ∀ a b c w : T, Returns (do RAdd.add a (← RMul.mul (← RSub.sub b c) w) : Res T)

/-- The comparator does not panic. -/
def DEnv.CmpTotal (env : DEnv T P N G S) : Prop := ∀ a b s, Returns (env.compare a b s).1

/-- Neither the comparator nor the arithmetic nor `rand` uses the pseudo panic `Panic.fuel` of the model. -/
structure DEnv.Genuine [RAdd T T T] [RSub T T T] [RMul T T T] (env : DEnv T P N G S) : Prop where
  cmp : ∀ a b s, (env.compare a b s).1 ≠ .error .fuel
  uniform : ∀ lo hi g, (env.genUniform lo hi g).1 ≠ .error .fuel
  arith : ∀ a b c w : T, (do RAdd.add a (← RMul.mul (← RSub.sub b c) w) : Res T) ≠ .error .fuel

/-- The parameters `optimize` accepts. -/
structure ValidParams [RPartialOrd P] [RZero P] [ROne P] [RPartialOrd T] [FromI8 T] (populationSize : ℕ) (cp : P) (w : T) :
    Prop where
  size : 4 ≤ populationSize
  cp_nonneg : RPartialOrd.le (zero : P) cp = true
  cp_le_one : RPartialOrd.le cp (one : P) = true
  weight_nonneg : RPartialOrd.le (FromI8.fromI8 0) w = true
  weight_le_two : RPartialOrd.le w (FromI8.fromI8 2) = true

/-- A strict weak order: "better than" for a consistent comparator. -/
structure StrictWeak {α : Type} (better : α → α → Bool) : Prop where
  asymm : ∀ a b, better a b = true → better b a = false
  negTrans : ∀ a b c, better a b = false → better b c = false → better a c = false

/-- The comparator is the pure function `better`. -/
def DEnv.Compares (env : DEnv T P N G S) (better : Pt T N → Pt T N → Bool) : Prop :=
  ∀ a b s, (env.compare a b s).1 = .ok (better a b)

end Magnesia
