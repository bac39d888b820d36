# Formal model of magnesia 0.11.1 in Lean 4

The statements of the properties are in `properties.jsonl`, the theorems proving them in `MANIFEST.json`; theorem
`Cnn_…` belongs to property `Cnn` and lives in `lean/Verif/Props/`. Every theorem that has hypotheses is applied to a
concrete, non-trivial case with all hypotheses discharged in the module of the same name in `lean/Verif/Witness/` (or a
common one); `tools/check_witness.py` checks that none is missing, and `tools/check_coverage.py` that every line of a function body in `/repo/src` is cited by a definition of the model. The examples in `Props/` show further values.

## 1. Layers

| directory | content | who must read it |
|---|---|---|
| `Verif/Model/` | transcription of the Rust code, function by function, each definition citing file and lines | to check that the model is the code |
| `Verif/Spec/` | vocabulary of the theorem statements; does not mention how anything is computed | to check that a theorem says what the English says |
| `Verif/Props/` | the theorems `Cnn_…` and their examples | statements only |
| `Verif/Witness/` | a concrete case for every theorem with hypotheses | to check that the hypotheses are realistic |
| `Verif/Tests/` | the crate's own deterministic unit tests and doctests, transcribed and evaluated on the model by the kernel | evidence that the model is the code; these are tests, not proofs, and no property rests on them |
| `Verif/Proof/` | lemmas | nobody: the kernel checks them |

### How Rust is transcribed

* **Panics are values.** `Res α = Except Panic α`. A function taking `&mut self` returns `Upd σ`: the state the object is
  left in *and* the optional panic, so the state observable after `catch_unwind` is part of the model (C35, C28, C30).
* **Trait bounds become classes without laws** (`RZero`, `ROne`, `AddAssignRef`, `SubAssignRef`, `MulRefs`, `RNeg`,
  `RPartialEq`, `RRing`, `RField`, `RAdd`, …, `Model/Traits.lean`). Every method may panic and may do anything; each theorem
  says what it assumes of the element type, in terms of `Spec/Basic.lean` (`Implements φ`: operations that return commute with
  the interpretation `φ : T → R` in a ring `R`; `NeverPanics`; …).
* **Loops** are transcribed as folds/recursions in source order (`forEach`, `foldlM`, `fromFnM`), including the counters
  owned by the closures in `SMatrix`, the in-place loops of `Polynomial`, and the recursive call in `Polynomial::add`.
* **Lazy expressions**: a type implementing `VectorExpr`/`MatrixExpr` is the record of its methods (`len`, `entry`, `eval`),
  because generic code can observe nothing else. User closures may panic. Expression *trees* (`Spec/Tree.lean`) are a
  separate inductive type of everything that the public combinators can build; C26 is an induction over it.
* **Randomness and comparator** of the optimizer are arbitrary state machines. `rand`'s contract (`RandContract`) is a
  hypothesis where it is needed. Rejection loops get fuel; `C42_fuel_irrelevant` shows results do not depend on it and
  `C42_terminates` that enough fuel exists for every fair generator.

### Element types proved to meet the hypotheses

`Exact R` (any ring), `MInt w chk` (machine integers, overflow-checked or wrapping), `SReal` (ℝ with the elementary
functions; an operation without real value is the pseudo panic `undefinedReal`), `Ieee F` (IEEE-754 binary formats, `f32` and
`f64` being instances), `Trap F ud` (IEEE arithmetic that stops at the first exception; used to state "no exception
occurred"), and all nestings of `Complex`, `Poly`, `SMatrix` over them.

### Recurring proof techniques

* **Parametricity** (`Proof/Hom.lean`, `Rel.lean`, `DynRel.lean`, `ProgramRel.lean`): a relation between two element types that is
  preserved by the element operations is preserved by every container operation. Used to transfer between checked
  integers/ℤ/wrapping integers (C08, C09), IEEE and trapping arithmetic (C47-C49), generator states (C42).
* **Refinement** to Mathlib's `Polynomial`, `Matrix`, `ℂ`, `Finset.sum` and to `Cx R` = R[i] (`Spec/Cx.lean`).
* **Loop invariants** (`Proof/Loops.lean`, `DynLoop.lean`), **induction over trees** (`TreeEval.lean`), **over programs** (`Spec/Program.lean`:
  a language of all ring/vector/matrix computations, C08/C09), **over histories** (C28, C30), **over iterations** (C37-C45).
* **Standard error analysis** (`Spec/Rounding.lean`): `RoundsRing φ u η`, with IEEE-754 as proved instance.

## 2. Plan per property

| id | modelled by | proof |
|----|-------|-------|
| C01-C04 | `Poly.eval`, `add`, `addAssignV/Ref`, `sub…`, `neg`, `mul…` | loop invariants: each loop computes the coefficient function; then `Implements` |
| C05 | same | refinement to `Polynomial.eval`; 2×2 matrix witness for failure |
| C06, C07 | `Poly` over `Exact R` | coefficient lists; C07 is a negative result (iff) |
| C08, C09 | `MInt w chk`; `Spec/Program.lean` (all computations) | parametricity along `toInt` resp. reduction mod 2^w |
| C10 | `Nest` (arbitrary nesting) | induction over the nesting |
| C11-C16 | `Complex T` | refinement to `Cx R`; C16: iff with witness `Complex<Complex<ℝ>>` |
| C17-C21 | `Complex SReal` | refinement to Mathlib `ℂ`; no undefined operation is met |
| C22-C25 | `SVector`, `SMatrix` | refinement to functions / `Matrix`; counters by invariant |
| C26, C27 | `VExpr`, `MExpr`, trees | induction over trees |
| C28-C30 | `DVector`, `DMatrix`, `Profile` | storage invariant over histories; C29 negative |
| C31-C33, C36 | combinators, `mulEntry`, `dotRef` | entry-wise; C33/C36 contain negative results |
| C34, C35 | compound assignment | loop invariants on `Upd`; `InterruptedBy` |
| C37-C45 | `DEnv.optimize` | simulation by `DERun.Explains`; tournament induction; C41, C42, C45 contain negative results |
| C46 | `ackley` over ℝ | real analysis |
| C47-C49 | any scalar with rounding; `Ieee F` | error analysis by induction; IEEE instance through `Trap` |
| C50 | `Complex (Ieee F)` etc. | case analysis for every format, kernel-evaluated witnesses |
| C51 | all container types, any element type | unfold `==`; loop induction for `iter_mut` incl. panics (`Visits` specification) |
| C52 | all containers over `Ieee F` | case analysis on IEEE operands, symmetry of rounding; kernel-evaluated counterexamples |
| C53 | `optimize` over `Ieee F` coordinates, `Ieee E` probabilities | parameter check evaluated on IEEE order; NaN-last order is a strict weak order on runs; run invariant (`explains_invariant`) with monotone rounding |
| C54 | pairs of runs of `optimize` (two environments, two lengths) | relational (bisimulation) induction over `Proc`; log-locality induction; main loop split at the shorter length |
| C55 | `abs`, `sqr_norm`, `sqrt` of complex IEEE numbers | integer square root of a rounded square is exact in binary (`roundSqrt_roundQ_sq`); rounding of squares, sums of non-negative numbers and square roots is monotone |
| C56 | `Complex::sqrt` over `Ieee F`, both branches | exact halving/doubling, relative errors of the other operations propagated through both branch formulas over the reals (`Proof/SqrtErr`); the branch condition bounds the amplification of the error of `abs` by 9.48 |
| C57 | `Complex` operators over `Ieee F` inside `Polynomial::eval`, static and dynamic products | finiteness of a result propagates backwards through every loop, then a normwise running error analysis in ℂ (`NApprox`, induction over the loops); the product bound splits the error of the four partial products (Cauchy-Schwarz) from that of the final sum |
| C58 | `Complex` `exp`, `sin`, `cos`, `sinh`, `cosh`, `tan`, `ln` over `Ieee F`; the scalar functions are a parameter with an error bound as hypothesis (`Accurate`, their precision is unspecified by `std`) | composition of errors of the factors of each part (`NearProduct`), Mathlib's formulas for the parts of the complex functions, a perturbation bound for the quotient (`tan`) and for `log` near 1 (`ln`); a correctly rounding library meets the hypotheses |
| C59 | the same functions and `sqrt`, over `Ieee F`; the scalar functions are a parameter with oddness/evenness or values at ±0 as hypotheses (`SymFns`, `AtZero`) | sign rules and commutativity of IEEE multiplication; one library is constructed that meets the hypotheses of C58 and C59 together |
| C60 | `ackley` over `Ieee f32` with its literals and constants; `exp`, `exp_m1`, `cos` of `std` are a parameter (`AckleyLib`) with symmetries, ranges (`Sane`) or error bounds (`Accurate`) as hypotheses | interval propagation through correctly rounded operations; error analysis against the real function of C46; a library meeting both hypotheses is constructed |
| C61 | `optimize` over `Ieee f32` with `ackley` as objective (the documented call) | run invariant: values never rise above 15.03, and the sublevel set of the real function (C46) enlarged by the evaluation error (C60) lies within `[-10, 10]²`; trial points are bounded by monotone rounding; C53 and C54 then apply without exceptions for NaN |
| C62 | `Form` (typed formulas) compiled to `Tree` (API calls) and interpreted in Mathlib's `Matrix` | `entry_value`: induction on the formula gives every entry the value of the denotation; C26 turns entries into the result of `eval()`; identities are then those of Mathlib's matrix algebra; totality by a second induction |
| C63 | the formulas of C62 over `Ieee F` and `Complex (Ieee F)` | `FloatOps` abstracts what C41 and C58 prove of one operation (error of a finite result, finiteness of a small one); induction on the formula carries `(factor - 1) * mag + factor * under`; a second induction shows that entries within the magnitude estimate are finite |
| C64 | `DEnv.optimize` with a random generator state (probability measure `μ`) against `Spec/DEProb.lean`, the textbook algorithm in Mathlib's `PMF` | `Samples μ m d ε`: a procedure returns each value with probability at most `d`, fails with at most `ε` and leaves an independent generator state; closed under bind, `from_fn` and `map`; rejection loop by induction on the fuel; fuel to infinity by continuity of measure. Generators whose values have countably many possible results (all machine types do). `Witness/DEProb.lean` constructs an ideal generator (infinite product measure) |
| C65 | the programs of C08 run over `Tracked F` (exact value, error bound, no-overflow flag; the rules of running error analysis, `Spec/Track.lean`) beside `Ieee F` | one rounding is analysed in `tracks_rounded` from the facts of C41; floats paired with a right tracked value form an element type (`Outcome`), and its three projections respect all operations, so the program run commutes with each of them |
| C66 | the programs of C08 run over `MInt w true` and over `Ieee F` | pairs of an integer and a float of the same value form an element type whose operations panic when the integer overflows; integers of at most `p` bits are representable, so one operation rounds nothing; the projections respect the operations (that to floats: as long as the integer side returns) |
| C67 | `Complex::sqrt`, `*`, `-`, `abs` over `Ieee F`; `sqrtCheck` is the body of `test_sqrt_complex_f32` | the rounded steps of both branches of the root are exposed (`SqrtSteps`); a sharper analysis than C56 that uses the cancellation of the errors of the two parts in `a² - b²` and `2ab` (`Proof/SqrtResid`, worst case 7.98u at `|re| = 2|im|`); rounding is monotone, so the computed error stays below the computed tolerance |
| C68 | `optimize` as in C37–C45, over `Exact K` and `Ieee F` | a property of points that trial points inherit from the population is an invariant from any time on (`explains_closed`), by induction on the iterations; applied to a coordinate value, a linear equation (all coordinates are mutated for `cp = 1`), a grid; for floats `x - x` is a zero whatever `x` is and adding a zero keeps the value |
| C69 | the operations and functions of `Complex` over `Ieee F` (as C56–C58), composed by formulas `CForm` | `CForm.exact` is the meaning in ℂ, `CForm.err` the running error bound; induction on the formula: the error of one operation from C51, C56–C58, the change of the function under a change of the operand from `Proof/CPerturb` (`exp`, `sin`, … by addition theorems, `log` and the root off the branch cut by the mean value inequality); identities by comparing two formulas with the same meaning |
| C70 | `Complex::ln`, `*`, `-`, `abs` over `Ieee F`, with a scalar `ln`/`atan2` of stated accuracy (`LogLib`); `lnCheck` is the body of `test_ln_complex_f32` | the argument of the rounded product differs from the sum of the arguments by at most 2.45u modulo a full turn (`arg_of_near_product`); `log` of the rounded squared norm; the subtractions of imaginary parts are rounded below 8, which needs absolute errors (in total 15.75u ≤ 16u); `1 + |log r| ≤ max(r, 1/r)` shows that the tolerance of the test is large enough |
| C71 | `Polynomial` operators and `eval` over any `RRing` with rounding operations (`RingFloat`), instantiated for `Ieee F` and `Complex (Ieee F)`; formulas `PForm`/`NForm` | the double loop of the product is reduced to one sum per coefficient (`mulRef_coef`, by induction on the list of index pairs); then induction on the formula with `NApprox` (relative factor, underflow, magnitude), coefficients of Mathlib polynomials for meaning and magnitudes; Horner with inexact coefficients and point |
| C72 | `Complex` `exp`, `sin`, `cos`, `sinh`, `cosh`, `mul`, `neg`, `div`, `sub`, `abs` over `Ieee F`; the four formulas and the assertion of the tests in `Spec/Euler.lean`; the scalar library is any `FnLib F R ε θ` | multiplication by ±i is exact, division by 2 and 2i exact up to underflow; error of the two exponentials plus one rounded sum; \|sin z\| ≤ sinh\|z\|, \|cos z\| ≤ cosh\|Im z\|; the tolerance is at least 3.87 u e^\|z\| because the computed \|z\| is at least (1 − 3u)\|z\| |
| C73 | `Polynomial::eval`, dot products, `SMatrix` and `DMatrix` products, complex `sqrt`, over `Ieee F` and `Complex (Ieee F)` | each rounded operation is `(exact)(1+δ) + e` (`perturb`), the factors are pushed through the loops by induction on the list or length (`backward_horner`, `backward_dot`, `backward_sumTerms`), once for normed fields; the square root from the forward bounds of C56 |
| C74 | `Polynomial::eval` and `*`, dot products, `SMatrix` and `DMatrix` products, `SVector` `+` and `-` over `Ieee F` | rounding is monotone (`roundQ_mono`), hence `+` and `*` of non-negative numbers are, infinities included (`Dom`); the loops by induction; in Horner's scheme an infinite intermediate result is never multiplied by zero because for x = 0 all intermediate results are coefficients |
| C75 | `DVector` `*` (conjugating), `DMatrix` `t`, `h`, `*` over `Ieee F` and `Complex (Ieee F)` | conj(a)·b and conj(b)·a agree in the real part by commutativity and are opposite in the imaginary part up to signs of zeros; both relations are compatible with `+`, so they pass through the sums by induction (`swap_foldl`, `rel_sumTerms`); positivity and dominance from the lemmas of C74 |
| C76 | `optimize` with an ideal generator (C64) on two problems related by `recode σ φ` | the textbook algorithm is equivariant: independent draws may be permuted and mapped (`indep_map`, `indep_perm`), the uniform coordinate is invariant under `σ`, the tournament commutes with maps (`champion_map`); induction over the iterations (`Recoded.population`), then C64 for both problems |
| C77 | `optimize` with a counting generator (`Spec/DECost.lean`) | counting is harmless by C54 (`C77_counting_harmless`); the bounds by a Hoare-style rule for the counter (`Proof/DEUses.lean`); the expectation: each procedure with fuel has a measurable cost with expectation between e-δ and e (`Proof/DECost.lean`; geometric rejection loop by induction over the fuel), then fuel → ∞ by monotone convergence and `fuel * (3/n)^fuel → 0` |
| C78 | programs (`Spec/Program.lean`) over two element types; terms and intervals as element types (`Spec/Generic.lean`) | pairs of related values are themselves an element type, and both projections are homomorphisms, so `Prog.run_map` applies twice (`Proof/Generic.lean`); counts by induction over the loops of the model run over terms (`Proof/Count.lean`) |
| C79 | programs over dual numbers (`Spec/Generic.lean`) | functions differentiable at `t₀` are an element type; evaluation at `t` and "value and derivative at `t₀`" are homomorphisms (`Proof/Dual.lean`); polynomials by induction over the coefficients |
| C80 | numbers computed in two systems of units, with their unit (`Spec/Scale.lean`), over `Trap F true` (`Ieee F` that panics on overflow and underflow) | rounding commutes with powers of two in the normal range, and always for sums (`Proof/Scale.lean`); consistent numbers are a subtype closed under the operations and both projections are homomorphisms (`Proof/ScaleRun.lean`); the optimizer by lock step of runs that may panic differently (`Proof/DERef.lean`) |
| C81 | the random process of C64 | populations inside invariant sets stay inside (support of the trial distribution), the probability of being inside does not fall with the iterations; `x + (x - x) * w = x` in exact rings and for finite floats |
| C82 | programs over `Mag M` (guarded bounds), overflow-checked integers | pairs (integer, bound) with homomorphisms to both; for single operations induction over the loops with the remaining terms in the invariant, values by C01, C04, C22, C23, C33, C36 |
| C83 | `optimize` over `Ieee F` and over `Exact ℤ` | relational invariant with two relations: members (box B) and trials (box 5 B); exactness of `x + (y - z) * w` on the grid by representability |
| C84 | second model of `dvector.rs`/`dmatrix.rs` (`Model/DynEff.lean`) with closures that are computations in a mutable world; expression trees with labelled closures whose calls are logged | induction on the tree with a predicate "the log grows by a prefix of the expected calls, by all of them on return"; agreement with the first model by a relational induction |
| C85 | programs over `Word F` (guarded fixed-point words), over `Ieee F` and over `Exact ℚ` | triples (float, word, proof) with homomorphisms to words, floats and exact rationals; representability of grid numbers; for single operations induction over the loops with the remaining terms in the invariant |
| C86 | `Complex.tan`, `div`, `mul`, `sub`, `abs` over `Ieee F`; the test's assertion as `tanCheck` | error analysis of the quotient near 1 (products with the conjugate, reciprocal), perturbation of the exact addition theorem; for the failure bounds on π and uniqueness of the nearest number of `sin(π/4)` |
| C87 | `CForm.run` over `Ieee F` (all operations and functions of `Complex`), bound `CForm.apriori`, conditions `Tame`, `Regular` | one step lemma per operation (rounding error of the operation + Lipschitz estimate of the exact function), induction on the formula; for the limit, the bounds are shown to tend to 0 together with the conditions, by induction; the precision claim from the filter of all formats |
| C88 | `DEnv.iteration`, `DEnv.optimize` (as for C64), `Spec/DESpread`: `expected`, `proposes`, `mutationRate`, `mean`, `spread` | the proposal has the law of the textbook trial (refinement of C64); moments of sums over ordered triples of distinct partners; for drift, the random numbers of a step are drawn in advance and independently of the ignored coordinates, and "every ignored coordinate has conditional mean m given everything the comparator sees" is an invariant of the population |
| C89 | `DEnv.optimize` with an arbitrary comparator, `Call.loss` (`Spec/DENoise`) | the course of the run (C43) makes every slot a chain of calls; sums of losses along the chain; for the logarithm, a round-by-round invariant of the knockout loop and induction on the number of rounds; the bound is attained by an explicit run evaluated by the kernel |
| C90 | `Spec/Mirror.lean`: an element type that carries a number, its transformed image and the transformation (a sign in `ZMod 2` or a number of right angles in `ZMod 4`), panicking when differently transformed numbers are added; equality up to signs of zeros | `Proof/Mirror.lean`: every operation respects the transformations (`Symm`), so every program does by the relational theorem for programs (`Prog.run_rel`, `Prog.run_map`); zeros, conjugation and the real axis are instances of C78; corollaries for dot, matrix product and Horner by induction |
| C91 | `Model/ElemEff.lean`: the arithmetic once more over element types whose operators (`EOps W T`) are computations in a mutable world, with the order of calls that Rust prescribes; `Spec/ElemEff`: `Tells`, `Charges`, `OpCosts` | loop rules for folds, `for` loops with in-place updates and nested array maps, by induction on the list of iterations, once for results (`Tells`) and once for logs with prefixes on panics (`Charges`); closure under `Complex` and `SMatrix` field by field; counts follow from the logs |
| C92 | `Model/ElemEff.lean` (as for C91); `Spec/Tape`: `Represents` (a relation between handles and values that survives the growth of the world), `Sim`, `SimU`, `EOps.Simulates`, `Tape`, `replay` | Kripke-style logical relation: a rule for every construct of the model (sequencing, in-place updates, loops, maps), in which the relation is carried along the growth of the world; the operators of the tape by induction on the tape; cells that are overwritten in place are not covered |
| C93 | `Complex` `Mul` and `Div` over `Ieee F`; `Polynomial::eval`, static and dynamic products over complex numbers | Brent, Percival and Zimmermann's theorem, with underflow: one of the two parts has no cancellation (error `2u` relatively, by the refined bound `u/(1+u)` per rounding), the other is treated by the binades of its two products (Sterbenz-like exactness of the difference on the common grid, case by case); `AB = CD` joins the two; sharpness by evaluating explicit inputs in the kernel; algorithms by instantiating the generic error analysis of C57; quotient by composing numerator, squared norm, reciprocal and products |
| C94 | vector, static matrix, matrix-vector and dynamic matrix products over `Ieee F` and `Complex (Ieee F)` | Jeannerod and Rump's induction: the rounding error of `s + x` is at most `u/(1+u)` of the sum and, as rounding goes to the nearest number and `s` is a number itself, at most the distance of `s` from it, the magnitude of `x`; by cases on which of the two is small the bound grows by one `u` per term; the same argument for the norm of complex sums, after C93 for the products; sharpness: `1 + u` is a tie that is rounded to one, by induction any number of times |
| C95 | vector, static and dynamic matrix products, polynomial product and evaluation over any element type resp. `Ieee F`, `Complex (Ieee F)` | entries of each product as the same left fold (`smatrix_mul_entries`, `mul_eval_iff`, coefficient formula of C71); a fold from zero and one from the first product differ by `plusZero` (induction; a floating point sum is the negative zero only if both operands are, as sums are never rounded to zero); zeros are neutral for anything but the negative zero, which a sum started at zero never is |
| C96 | dot products, static and dynamic matrix products, polynomial product and evaluation, complex operations over `Ieee F` | induction on the last step of the dot product (`dot_last`) with the exception cases of addition and multiplication (`add_finite`, `mul_finite`, `add_nan_iff`); matrices through their entries, dynamic ones through C95, products of polynomials through the dot products of C95 |
| C97 | `Poly (Poly T)`, `Poly (SMatrix T)`, `SMatrix (Poly T)`, `SMatrix (SMatrix T)`, `Poly (Complex T)` over `Implements φ`; complex product and 2 × 2 matrix product over `Ieee F` | C10 for each nesting (evaluation and products denote those of Mathlib's polynomials and matrices), then `eval_comp`, exchange of sums, `finProdFinEquiv`, `aeval_self_charpoly`, uniqueness of interpolation; bits through `plusZero` of C95 |
| C98 | `Ball F` (`Spec/Ball.lean`: midpoint, radius, `up`) as the element type of `Prog` | C78 for the relation "contains" and for the relation "has the midpoint"; one lemma per operation: `up` makes up for the rounding of the radius (`1 + 2u` against `(1-u)² (1 + 16u(1-u))`), error of one rounding of the midpoint from its computed value; the same analysis from above for the size of the radius |
| C99 | `MaxMag F` and `Growth F` (`Spec/Growth.lean`) as element types of `Prog`, next to `Ieee F` and `Exact ℚ` | C78 for the relations "bounds" (rounding is monotone) and "right about the error" (standard model with underflow), and for the projections of pairs; C78 for equal depths |
| C100 | `freivalds`, `freivaldsDyn`, `pointCheck` (`Spec/Checks.lean`) on top of `mulVec`, `DMatrix.mul`, `Poly.eval` and `==` | the outcome is decided by `(C - A B) v` (C23, C25, C33, C51); flipping one bit maps passing to failing vectors injectively; `Fintype.piFinset` for repetitions; at most `degree` roots |
| C101 | `Prog.run` at two element types and two `Profile`s; `MInt.unchecked`, `MInt.cast`, `Profile.Ports` (`Spec/Convert.lean`) | the relational interpretation of programs (C08–C10) generalised to two profiles (`Prog.run_rel_profiles`); the casts are homomorphisms as far as the first run returns (C82), and narrowing is a ring homomorphism on bit vectors |

## 3. Trusted base

* Lean 4.33.0's kernel. Axioms of every theorem: a subset of `propext`, `Classical.choice`, `Quot.sound` (no other axiom, no
  compiled evaluation).
* Mathlib's definitions where they occur in statements: ℤ, ℚ, ℝ, ℂ, `Matrix`, `Polynomial`, `BitVec`, `Finset.sum`, `Real.exp`, …
* The transcription in `Verif/Model/` and the following readings and simplifications:
  * `T`, `&T` and `&mut T` operands are not distinguished; where the crate has separate impls, each impl is modelled separately.
    For *scalar* types the by-value and by-reference operators are one class (they are generated by one macro in `core`).
    `Clone` is the identity (but for C91, where it is an operator with effects). Drop and allocation are not modelled (no out-of-memory, no capacity overflow).
  * `usize` is ℕ except in `row * num_cols + col` of `DMatrix`, which is computed in a `Profile` (pointer width, overflow checks).
    `r * c` used by `Vec::with_capacity`-like size hints is not modelled.
  * `Exact R` division by zero is Mathlib's `x / 0 = 0`; every theorem using it has a non-zero hypothesis.
  * `SReal`: see above; constants such as `PI` and `E` are exact.
  * `Ieee F`: all NaNs are identified (payload and sign of NaN are unspecified in Rust), default rounding (nearest-even),
    `+ - * / sqrt` correctly rounded, no flush-to-zero, no excess precision, no fused operations.
  * `rand` 0.8: only the contract `RandContract` is assumed; which bounds beyond the empty ones are rejected is left open.
  * Dynamic vectors and matrices are modelled twice: with closures that may panic but have no effects (`Model/Dyn.lean`, used by all
    properties but C84) and with closures that change a world (`Model/DynEff.lean`, C84). C84 proves that the two agree. Operators
    of the element type have no effects but panics in either of the two. `Model/ElemEff.lean` (C91) models the arithmetic of polynomials,
    complex numbers, static vectors and matrices, and the products of dynamic ones once more for element types whose operators have effects.
  * The comparator of the optimizer is any state machine; `DEnv.Honest` only says that recorded answers were given.

## 4. Not modelled

`Debug` output, documentation, the `Hash`/`Clone`/`Copy` derives, examples and benches; rounding of the transcendental functions of
`std` (`exp`, `sin`, …: implementation-defined accuracy), so `ackley` and the complex functions are verified in floating point relative to hypotheses on them (C58, C59, C60); the statistical quality of random
numbers; time and memory consumption (numbers of operations are: C91).

## 5. Testing the theorems

`seeded/LOG.jsonl` records every seeded bug: the definition edited, the edit, the claim it breaks, the theorems that failed and
the theorems that were tightened or added because of it. Seeded bugs are applied to a scratch copy of the model and the whole
project is rebuilt; a mutant is *killed* by a property only if a theorem of that property (or a lemma its proof uses) fails.
