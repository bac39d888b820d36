import Verif.Model.Scalars

/-!
# Model of src/optimize/differential_evolution.rs

The random number generator and the comparator are arbitrary state machines; every call of the comparator is recorded in
a log (the comparator is supplied by the caller, so its calls are observable). The rejection loops `loop { … }` may run
forever if the random numbers are unlucky: they get a bound `fuel` on the number of draws of one loop, and a loop
that is not finished by then ends with the pseudo panic `Panic.fuel`. `f32` (type of `crossover_probability`) is an
arbitrary type `P` with comparisons, so that NaN is included.
-/

namespace Magnesia

open RZero ROne

/-- A computation with a mutable world `W`; the world is left in some state also if the computation panics. -/
def Proc (W α : Type) := W → Res α × W

namespace Proc

variable {W α β : Type}

instance : Monad (Proc W) where
  pure a := fun w => (.ok a, w)
  bind m f := fun w =>
    match m w with
    | (.ok a, w') => f a w'
    | (.error e, w') => (.error e, w')

/-- A computation that does not touch the world. -/
def ofRes (x : Res α) : Proc W α := fun w => (x, w)

/-- `panic!` -/
def panic (e : Panic) : Proc W α := fun w => (.error e, w)

/-- `assert!(b)` -/
def assert (b : Bool) : Proc W Unit := if b then pure () else panic .assertFailed

end Proc

/-- `i8: Into<T>` (src/optimize/differential_evolution.rs:43). -/
class FromI8 (T : Type) where
  fromI8 : ℤ → T

/-- `i8: Into<T>` for exact scalars. -/
instance {R : Type} [IntCast R] : FromI8 (Exact R) := ⟨fun z => ⟨z⟩⟩

/-- A candidate `[T; N]`. -/
abbrev Pt (T : Type) (N : ℕ) := Fin N → T

/-- The random number generator (`rng: &mut impl rand::Rng`) and the comparator (`impl FnMut(&[T; N], &[T; N]) -> bool`)
as state machines with states `G` and `S`. -/
structure DEnv (T P : Type) (N : ℕ) (G S : Type) where
  /-- `rng.gen_range(0..n)` for `usize` -/
  genIndex : ℕ → G → Res ℕ × G
  /-- `rng.gen_range(lo..hi)` for `T` -/
  genUniform : T → T → G → Res T × G
  /-- `rng.gen::<f32>()` -/
  genUnit : G → P × G
  /-- `compare_candidates(a, b)` -/
  compare : Pt T N → Pt T N → S → Res Bool × S

/-- A call `compare_candidates(a, b)` that returned `answer`. -/
structure Call (T : Type) (N : ℕ) where
  a : Pt T N
  b : Pt T N
  answer : Bool

/-- The mutable world: generator state, comparator state, and the log of the comparator calls made so far. -/
structure DEWorld (T : Type) (N : ℕ) (G S : Type) where
  rng : G
  cmp : S
  log : List (Call T N)

namespace DEnv

variable {T P G S : Type} {N : ℕ} (env : DEnv T P N G S)

/-- `rng.gen_range(0..n)` -/
def index (n : ℕ) : Proc (DEWorld T N G S) ℕ := fun w =>
  let r := env.genIndex n w.rng
  (r.1, { w with rng := r.2 })

/-- `rng.gen_range(lo..hi)` -/
def uniform (lo hi : T) : Proc (DEWorld T N G S) T := fun w =>
  let r := env.genUniform lo hi w.rng
  (r.1, { w with rng := r.2 })

/-- `rng.gen::<f32>()` -/
def unit : Proc (DEWorld T N G S) P := fun w =>
  let r := env.genUnit w.rng
  (.ok r.1, { w with rng := r.2 })

/-- `compare_candidates(a, b)`; a call that returns is logged. -/
def cmp (a b : Pt T N) : Proc (DEWorld T N G S) Bool := fun w =>
  let r := env.compare a b w.cmp
  (r.1, { w with cmp := r.2, log := match r.1 with
    | .ok ans => w.log ++ [⟨a, b, ans⟩]
    | .error _ => w.log })

/-- The rejection loops of src/optimize/differential_evolution.rs:70-91: draw an index below `n` until it is not in
`avoid`. (The first loop compares with `j != i`, the others with `![..].contains(&..)`; the same test.) -/
def draw (n : ℕ) (avoid : List ℕ) : ℕ → Proc (DEWorld T N G S) ℕ
  | 0 => Proc.panic .fuel
  | fuel + 1 => do
    let j ← env.index n
    if avoid.contains j then draw n avoid fuel else pure j

/-- src/optimize/differential_evolution.rs:98: `n == r || rng.gen::<f32>() < crossover_probability`; `||` short-circuits:
for `n == r` no random number is drawn. -/
def mutates [RPartialOrd P] (cp : P) (n r : ℕ) : Proc (DEWorld T N G S) Bool :=
  if n = r then pure true else do
    let u ← env.unit
    pure (RPartialOrd.lt u cp)

/-- src/optimize/differential_evolution.rs:97-103: the trial point. -/
def trial [RPartialOrd P] [RAdd T T T] [RSub T T T] [RMul T T T] (pop : List (Pt T N)) (cp : P) (weight : T)
    (i j k l r : ℕ) : Proc (DEWorld T N G S) (Pt T N) :=
  fromFnM N (fun n => do
    let mutate ← env.mutates cp n r
    if mutate then
      Proc.ofRes (do
        let xj ← getIdx pop j
        let xk ← getIdx pop k
        let xl ← getIdx pop l
        RAdd.add (xj n) (← RMul.mul (← RSub.sub (xk n) (xl n)) weight))
    else
      Proc.ofRes (do
        let xi ← getIdx pop i
        pure (xi n)))

/-- src/optimize/differential_evolution.rs:68-109: one pass of the loop body for slot `i`; `n` is the `population.len()`
of `index_range` (line 66). -/
def iteration [RPartialOrd P] [RAdd T T T] [RSub T T T] [RMul T T T] (fuel : ℕ) (cp : P) (weight : T)
    (n : ℕ) (pop : List (Pt T N)) (i : ℕ) : Proc (DEWorld T N G S) (List (Pt T N)) := do
  let j ← env.draw n [i] fuel
  let k ← env.draw n [i, j] fuel
  let l ← env.draw n [i, j, k] fuel
  let r ← env.index N
  let x ← env.trial pop cp weight i j k l r
  let xi ← Proc.ofRes (getIdx pop i)
  if ← env.cmp x xi then
    Proc.ofRes (updAt pop i (fun _ => .done x)).toRes
  else
    pure pop

/-- src/optimize/differential_evolution.rs:118-119: `if compare_candidates(..) { population[i] = population[half_len + i] }`,
after the comparator has answered. -/
def takeOver (answer : Bool) (halfLen : ℕ) (pop : List (Pt T N)) (i : ℕ) : Res (List (Pt T N)) :=
  if answer then do
    let x ← getIdx pop (halfLen + i)
    (updAt pop i (fun _ => .done x)).toRes
  else pure pop

/-- src/optimize/differential_evolution.rs:116-123: the body of the inner loop of the knockout stage. -/
def knockoutGame (popLen halfLen : ℕ) (pop : List (Pt T N)) (i : ℕ) : Proc (DEWorld T N G S) (List (Pt T N)) := do
  let a ← Proc.ofRes (getIdx pop (halfLen + i))
  let b ← Proc.ofRes (getIdx pop i)
  let answer ← env.cmp a b
  let pop ← Proc.ofRes (takeOver answer halfLen pop i)
  if popLen % 2 = 1 then
    Proc.ofRes (do
      let x ← getIdx pop (popLen - 1)
      (updAt pop halfLen (fun _ => .done x)).toRes)
  else pure pop

/-- src/optimize/differential_evolution.rs:112-128: the knockout stage and the return of the winner. -/
def knockout (pop : List (Pt T N)) : Proc (DEWorld T N G S) (Pt T N) :=
  if pop.length > 1 then do
    let popLen := pop.length
    let halfLen := popLen / 2
    let pop' ← (List.range halfLen).foldlM (env.knockoutGame popLen halfLen) pop
    knockout (pop'.take ((popLen + 1) / 2))
  else
    Proc.ofRes (getIdx pop 0)
termination_by pop.length
decreasing_by
  have := List.length_take_le ((pop.length + 1) / 2) pop'
  omega

/-- src/optimize/differential_evolution.rs:26-129 `optimize`. `(a..=b).contains(&x)` is `a <= x && x <= b`;
`index_range.clone().cycle().take(num_iters)` yields `0, 1, …, population.len() - 1, 0, 1, …`. -/
def optimize [RPartialOrd P] [RZero P] [ROne P] [RPartialOrd T] [FromI8 T] [RAdd T T T] [RSub T T T] [RMul T T T]
    (fuel : ℕ) (bounds : Fin N → T × T) (populationSize : ℕ) (crossoverProbability : P) (differentialWeight : T)
    (numIters : ℕ) : Proc (DEWorld T N G S) (Pt T N) := do
  Proc.assert (decide (populationSize ≥ 4))
  Proc.assert (RPartialOrd.le (zero : P) crossoverProbability && RPartialOrd.le crossoverProbability one)
  Proc.assert (RPartialOrd.le (FromI8.fromI8 0) differentialWeight && RPartialOrd.le differentialWeight (FromI8.fromI8 2))
  let population ← (List.range populationSize).mapM (fun _ =>
    fromFnM N (fun i => env.uniform (bounds i).1 (bounds i).2))
  let n := population.length
  let population ← (List.range numIters).foldlM (fun pop t =>
    env.iteration fuel crossoverProbability differentialWeight n pop (t % n)) population
  env.knockout population

end DEnv

end Magnesia
