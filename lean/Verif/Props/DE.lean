import Verif.Proof.DESafe
import Mathlib.Algebra.Order.Ring.Defs
import Mathlib.Algebra.Order.Field.Basic
import Mathlib.Tactic.Linarith
import Mathlib.Tactic.Ring
import Mathlib.Tactic.Positivity

/-!
# Properties C37–C45: differential evolution

`s` is the world before the call (generator state, comparator state, log of earlier comparator calls), `s'` the world
after it; the new part of the log are the comparator calls of this run.
-/

namespace Magnesia

set_option linter.unusedSectionVars false

open RZero ROne

variable {T P G S : Type} {N n : ℕ} {env : DEnv T P N G S}
variable [RPartialOrd P] [RZero P] [ROne P] [RPartialOrd T] [FromI8 T] [RAdd T T T] [RSub T T T] [RMul T T T]
variable {fuel : ℕ} {bounds : Fin N → T × T} {cp : P} {w : T} {iters : ℕ} {result : Pt T N} {s s' : DEWorld T N G S}

/-! ### An example generator

A counter; every index comes up again and again. -/

/-- Generator: a counter `g`; `gen_range(lo..hi)` gives `lo + g mod (hi - lo)`; `gen::<f32>()` gives `0`.
Comparator: larger first coordinate is better. -/
def demo : DEnv (Exact ℤ) (Exact ℤ) 2 ℕ Unit where
  genIndex n g := (if n = 0 then .error .emptyRange else .ok (g % n), g + 1)
  genUniform lo hi g := (if lo.val < hi.val then .ok ⟨lo.val + g % (hi.val - lo.val)⟩ else .error .emptyRange, g + 1)
  genUnit g := (⟨0⟩, g + 1)
  compare a b s := (.ok (decide ((b 0).val < (a 0).val)), s)

theorem demo_contract : demo.RandContract where
  index_empty g := rfl
  index_returns n g hn := ⟨g % n, if_neg (by omega)⟩
  index_range n g k h := by
    unfold demo at h
    by_cases hn : n = 0
    · simp [hn] at h
    · simp [hn] at h
      rw [← h]; exact Nat.mod_lt _ (by omega)
  uniform_empty lo hi g h := if_neg (by simpa [RPartialOrd.lt] using h)
  uniform_range lo hi g x h := by
    unfold demo at h
    by_cases hl : lo.val < hi.val
    · simp only [if_pos hl] at h
      cases h
      have h1 := Int.emod_nonneg (g : ℤ) (show hi.val - lo.val ≠ 0 by omega)
      have h2 := Int.emod_lt_of_pos (g : ℤ) (show 0 < hi.val - lo.val by omega)
      simp only [RPartialOrd.le, RPartialOrd.lt, decide_eq_true_eq]
      omega
    · simp only [if_neg hl] at h; cases h
  unit_range g := by simp [demo, RPartialOrd.lt, RZero.zero, ROne.one]

theorem demo_fair : demo.Fair := by
  have hd : ∀ m n g, demo.afterDraws n m g = g + m := by
    intro m
    induction m with
    | zero => intro n g; rfl
    | succ m ih => intro n g; show demo.afterDraws n m (g + 1) = _; rw [ih]; omega
  intro n g a ha
  refine ⟨a + n * (g + 1) - g, ?_⟩
  rw [hd]
  have hn : n ≠ 0 := by omega
  have h1 : g ≤ n * (g + 1) := le_trans (Nat.le_succ g) (Nat.le_mul_of_pos_left _ (by omega))
  show (if n = 0 then _ else Except.ok ((g + (a + n * (g + 1) - g)) % n)) = _
  rw [if_neg hn, show g + (a + n * (g + 1) - g) = a + n * (g + 1) by omega, Nat.add_mul_mod_self_left, Nat.mod_eq_of_lt ha]

theorem demo_genuine : demo.Genuine where
  cmp a b s h := by cases h
  uniform lo hi g h := by
    simp only [demo] at h
    split at h <;> cases h
  arith a b c w h := by cases h

/-- The start of the demo run. -/
def demoStart : DEWorld (Exact ℤ) 2 ℕ Unit := ⟨0, (), []⟩

/-! ### C37 -/

/-- C37: with a population size below 4, a crossover probability outside `[0, 1]` or a differential weight outside
`[0, 2]` (a NaN fails every comparison, so it is outside) `optimize` panics right away: the random number generator and
the comparator are not even touched. -/
theorem C37_invalid_parameters (h : ¬ ValidParams n cp w) :
    env.optimize fuel bounds n cp w iters s = (.error .assertFailed, s) := by
  have hf : (Proc.assert false : Proc (DEWorld T N G S) Unit) s = (.error .assertFailed, s) := rfl
  have ht : (Proc.assert true : Proc (DEWorld T N G S) Unit) s = (.ok (), s) := rfl
  unfold DEnv.optimize
  by_cases h1 : 4 ≤ n
  · rw [Proc.bind_eq, show decide (n ≥ 4) = true from decide_eq_true h1, ht]
    dsimp only
    cases h2 : (RPartialOrd.le (zero : P) cp && RPartialOrd.le cp one) with
    | false => rw [Proc.bind_eq, hf]
    | true =>
      rw [Proc.bind_eq, ht]
      dsimp only
      cases h3 : (RPartialOrd.le (FromI8.fromI8 0) w && RPartialOrd.le w (FromI8.fromI8 2)) with
      | false => rw [Proc.bind_eq, hf]
      | true =>
        rw [Bool.and_eq_true] at h2 h3
        exact absurd ⟨h1, h2.1, h2.2, h3.1, h3.2⟩ h
  · rw [Proc.bind_eq, show decide (n ≥ 4) = false from decide_eq_false h1, hf]

example : ¬ ValidParams 3 (⟨1⟩ : Exact ℤ) (⟨1⟩ : Exact ℤ) := fun h => absurd h.size (by omega)
example : ValidParams 4 (⟨1⟩ : Exact ℤ) (⟨1⟩ : Exact ℤ) := by
  constructor <;> decide

/-- A run that returns had valid parameters. -/
theorem C37_valid_of_returns (h : env.optimize fuel bounds n cp w iters s = (.ok result, s')) : ValidParams n cp w := by
  by_contra hv
  rw [C37_invalid_parameters hv] at h
  cases h

/-- `m` fails from every world with a panic of the kind `E`, without calling the comparator. -/
def Fails {α : Type} (m : Proc (DEWorld T N G S) α) (E : Panic → Prop) : Prop :=
  ∀ s, ∃ e s', m s = (.error e, s') ∧ E e ∧ s'.log = s.log

/-- `m` does not call the comparator, and if it fails then with a panic of the kind `E`. -/
def Quiet {α : Type} (m : Proc (DEWorld T N G S) α) (E : Panic → Prop) : Prop :=
  ∀ s, (m s).2.log = s.log ∧ ∀ e, (m s).1 = .error e → E e

theorem Fails.bind {α β : Type} {m : Proc (DEWorld T N G S) α} {f : α → Proc (DEWorld T N G S) β} {E : Panic → Prop}
    (h : Fails m E) : Fails (m >>= f) E := by
  intro s
  obtain ⟨e, s', h1, h2, h3⟩ := h s
  exact ⟨e, s', by rw [Proc.bind_eq, h1], h2, h3⟩

theorem Quiet.bind_fails {α β : Type} {m : Proc (DEWorld T N G S) α} {f : α → Proc (DEWorld T N G S) β}
    {E : Panic → Prop} (h : Quiet m E) (hf : ∀ a, Fails (f a) E) : Fails (m >>= f) E := by
  intro s
  obtain ⟨h1, h2⟩ := h s
  rcases hm : m s with ⟨e | a, s1⟩
  · rw [hm] at h1 h2
    exact ⟨e, s1, by rw [Proc.bind_eq, hm], h2 e rfl, h1⟩
  · rw [hm] at h1
    obtain ⟨e, s2, h3, h4, h5⟩ := hf a s1
    exact ⟨e, s2, by rw [Proc.bind_eq, hm]; exact h3, h4, h5.trans h1⟩

theorem Quiet.bind {α β : Type} {m : Proc (DEWorld T N G S) α} {f : α → Proc (DEWorld T N G S) β}
    {E : Panic → Prop} (h : Quiet m E) (hf : ∀ a, Quiet (f a) E) : Quiet (m >>= f) E := by
  intro s
  obtain ⟨h1, h2⟩ := h s
  rw [Proc.bind_eq]
  rcases hm : m s with ⟨e | a, s1⟩
  · rw [hm] at h1 h2
    exact ⟨h1, fun e' he => by cases he; exact h2 e rfl⟩
  · rw [hm] at h1
    exact ⟨(hf a s1).1.trans h1, (hf a s1).2⟩

theorem Quiet.pure {α : Type} (a : α) (E : Panic → Prop) : Quiet (Pure.pure a : Proc (DEWorld T N G S) α) E :=
  fun _ => ⟨rfl, fun _ h => by cases h⟩

/-- C37: an empty range among the bounds (`hi <= lo`, or a NaN) makes `optimize` panic, without a call of the comparator.
(`rand` rejects empty ranges; the second hypothesis says that it accepts the others.) -/
theorem C37_empty_bound (hc : env.RandContract) (hv : ValidParams n cp w) (c : Fin N)
    (he : RPartialOrd.lt (bounds c).1 (bounds c).2 = false)
    (hb : ∀ c, RPartialOrd.lt (bounds c).1 (bounds c).2 = true → ∀ g, Returns (env.genUniform (bounds c).1 (bounds c).2 g).1) :
    ∃ s', env.optimize fuel bounds n cp w iters s = (.error .emptyRange, s') ∧ s'.log = s.log := by
  have hq : ∀ c, Quiet (env.uniform (bounds c).1 (bounds c).2) (fun e => e = .emptyRange) := by
    intro c s
    refine ⟨rfl, fun e h => ?_⟩
    cases hl : RPartialOrd.lt (bounds c).1 (bounds c).2 with
    | false =>
      have h' := hc.uniform_empty _ _ s.rng hl
      rw [show (env.genUniform (bounds c).1 (bounds c).2 s.rng).1 = .error e from h] at h'
      cases h'; rfl
    | true =>
      obtain ⟨y, hy⟩ := hb c hl s.rng
      rw [show (env.genUniform (bounds c).1 (bounds c).2 s.rng).1 = .error e from h] at hy
      cases hy
  have hfail : Fails (env.uniform (bounds c).1 (bounds c).2) (fun e => e = .emptyRange) := fun s =>
    ⟨.emptyRange, (env.uniform (bounds c).1 (bounds c).2 s).2, Prod.ext (hc.uniform_empty _ _ s.rng he) rfl, rfl, rfl⟩
  have hpoint : ∀ (M : ℕ) (f : Fin M → Proc (DEWorld T N G S) T) (c : Fin M) (_ : ∀ c, Quiet (f c) (fun e => e = .emptyRange))
      (_ : Fails (f c) (fun e => e = .emptyRange)), Fails (fromFnM M f) (fun e => e = .emptyRange) := by
    intro M
    induction M with
    | zero => intro f c; exact c.elim0
    | succ M ih =>
      intro f c hq hf
      refine Fin.cases (fun hf => ?_) (fun c hf => ?_) c hf
      · exact hf.bind
      · exact (hq 0).bind_fails fun x => (ih (fun i => f i.succ) c (fun i => hq i.succ) hf).bind
  have ass : Quiet (Proc.assert true : Proc (DEWorld T N G S) Unit) (fun e => e = .emptyRange) := Quiet.pure () _
  have key : Fails (env.optimize fuel bounds n cp w iters) (fun e => e = .emptyRange) := by
    unfold DEnv.optimize
    simp only [hv.size, hv.cp_nonneg, hv.cp_le_one, hv.weight_nonneg, hv.weight_le_two, decide_true, Bool.and_self]
    refine ass.bind_fails fun _ => ass.bind_fails fun _ => ass.bind_fails fun _ => Fails.bind ?_
    obtain ⟨m, rfl⟩ : ∃ m, n = m + 1 := ⟨n - 1, by have := hv.size; omega⟩
    rw [List.range_succ_eq_map, List.mapM_cons]
    exact (hpoint N _ c hq hfail).bind
  obtain ⟨e, s', h1, rfl, h3⟩ := key s
  exact ⟨s', h1, h3⟩

/-- The hypotheses of `C37_empty_bound` are met by the demo generator and the range `1..1`. -/
example : (RPartialOrd.lt (⟨1⟩ : Exact ℤ) ⟨1⟩ = false) ∧
    ∀ (lo hi : Exact ℤ), RPartialOrd.lt lo hi = true → ∀ g, Returns (demo.genUniform lo hi g).1 :=
  ⟨rfl, fun _ _ h _ => ⟨_, if_pos (by simpa [RPartialOrd.lt] using h)⟩⟩

/-- C37: for `N = 0` and at least one iteration, `optimize` never returns and never calls the comparator: the choice of
a coordinate panics, unless the index draws before it go on forever. -/
theorem C37_no_coordinates {env : DEnv T P 0 G S} {bounds : Fin 0 → T × T} {s : DEWorld T 0 G S}
    (hc : env.RandContract) (hv : ValidParams n cp w) (hi : 0 < iters) :
    ∃ e s', env.optimize fuel bounds n cp w iters s = (.error e, s') ∧ (e = .emptyRange ∨ e = .fuel) ∧
      s'.log = s.log := by
  have ass : Quiet (Proc.assert true : Proc (DEWorld T 0 G S) Unit) (fun e => e = .emptyRange ∨ e = .fuel) := Quiet.pure () _
  have hn : 0 < n := by have := hv.size; omega
  have hq : ∀ k, Quiet (env.index k) (fun e => e = .emptyRange ∨ e = .fuel) := by
    intro k s
    refine ⟨rfl, fun e h => ?_⟩
    rcases Nat.eq_zero_or_pos k with rfl | hk
    · have h' := hc.index_empty s.rng
      rw [show (env.genIndex 0 s.rng).1 = .error e from h] at h'
      cases h'; exact .inl rfl
    · obtain ⟨y, hy⟩ := hc.index_returns k s.rng hk
      rw [show (env.genIndex k s.rng).1 = .error e from h] at hy
      cases hy
  have hd : ∀ avoid fuel, Quiet (env.draw n avoid fuel) (fun e => e = .emptyRange ∨ e = .fuel) := by
    intro avoid fuel
    induction fuel with
    | zero => exact fun s => ⟨rfl, fun e h => by cases h; exact .inr rfl⟩
    | succ fuel ih =>
      refine (hq n).bind fun j => ?_
      cases avoid.contains j with
      | true => exact ih
      | false => exact Quiet.pure j _
  have hz : Fails (env.index 0) (fun e => e = .emptyRange ∨ e = .fuel) := fun s =>
    ⟨.emptyRange, (env.index 0 s).2, Prod.ext (hc.index_empty s.rng) rfl, .inl rfl, rfl⟩
  have key : Fails (env.optimize fuel bounds n cp w iters) (fun e => e = .emptyRange ∨ e = .fuel) := by
    unfold DEnv.optimize
    simp only [hv.size, hv.cp_nonneg, hv.cp_le_one, hv.weight_nonneg, hv.weight_le_two, decide_true, Bool.and_self]
    refine ass.bind_fails fun _ => ass.bind_fails fun _ => ass.bind_fails fun _ => ?_
    have hm : ∀ l : List ℕ, Quiet (l.mapM (fun _ => fromFnM 0 (fun i => env.uniform (bounds i).1 (bounds i).2)))
        (fun e => e = .emptyRange ∨ e = .fuel) := by
      intro l
      induction l with
      | nil => rw [List.mapM_nil]; exact Quiet.pure _ _
      | cons a l ih => rw [List.mapM_cons]; exact (Quiet.pure _ _).bind fun x => ih.bind fun xs => Quiet.pure _ _
    intro s
    rcases hmm : (List.range n).mapM (fun _ => fromFnM 0 (fun i => env.uniform (bounds i).1 (bounds i).2)) s with ⟨e | p, s1⟩
    · have := hm (List.range n) s
      rw [hmm] at this
      exact ⟨e, s1, by rw [Proc.bind_eq, hmm], this.2 e rfl, this.1⟩
    · have h1 := hm (List.range n) s
      rw [hmm] at h1
      have hl : p.length = n := by
        have := (Proc.mapM_inv (f := fun _ : ℕ => fromFnM 0 (fun i => env.uniform (bounds i).1 (bounds i).2)) (L := fun _ => ())
          (Q := fun _ => True) (fun _ _ _ _ _ => ⟨trivial, rfl⟩) hmm).1
        simpa using this
      obtain ⟨it, rfl⟩ : ∃ it, iters = it + 1 := ⟨iters - 1, by omega⟩
      have hf : Fails ((List.range (it + 1)).foldlM (fun pop t => env.iteration fuel cp w p.length pop (t % p.length)) p >>=
          fun population => env.knockout population) (fun e => e = .emptyRange ∨ e = .fuel) := by
        rw [List.range_succ_eq_map, List.foldlM_cons, hl]
        refine Fails.bind (Fails.bind ?_)
        unfold DEnv.iteration
        exact (hd _ _).bind_fails fun j => (hd _ _).bind_fails fun k => (hd _ _).bind_fails fun l => hz.bind
      obtain ⟨e, s2, h2, h3, h4⟩ := hf s1
      exact ⟨e, s2, by rw [Proc.bind_eq, hmm]; exact h2, h3, h4.trans h1.1⟩
  exact key s

/-- C37: for all other parameters no panic is possible whatever the random numbers and the answers of the comparator
are: a run that does not return is one that draws indices forever. -/
theorem C37_no_panic (hc : env.RandContract) (ha : DEnv.Arith T) (ht : env.CmpTotal) (hv : ValidParams n cp w)
    (hb : ∀ c g, Returns (env.genUniform (bounds c).1 (bounds c).2 g).1) (hN : 0 < N ∨ iters = 0) :
    (∃ result s', env.optimize fuel bounds n cp w iters s = (.ok result, s')) ∨
      ∃ s', env.optimize fuel bounds n cp w iters s = (.error .fuel, s') := by
  rcases DEnv.optimize_safe hc ha ht hv.size ⟨hv.cp_nonneg, hv.cp_le_one⟩ ⟨hv.weight_nonneg, hv.weight_le_two⟩ hb hN s with
    ⟨r, s1, h, _⟩ | ⟨s1, h⟩
  · exact .inl ⟨r, s1, h⟩
  · exact .inr ⟨s1, h⟩

/-! ### C42 -/

/-- C42: if no index is avoided forever, the rejection loops terminate: from every start there is an outcome that does
not change when more draws are allowed. -/
theorem C42_terminates (hc : env.RandContract) (hf : env.Fair) (hg : env.Genuine) (bounds : Fin N → T × T) (n : ℕ) (cp : P)
    (w : T) (iters : ℕ) (s : DEWorld T N G S) :
    ∃ F r s', r ≠ .error .fuel ∧ ∀ fuel, F ≤ fuel → env.optimize fuel bounds n cp w iters s = (r, s') :=
  DEnv.optimize_settles hc hf hg bounds cp w iters s

/-- C42, with C37: with valid parameters `optimize` returns. -/
theorem C42_returns (hc : env.RandContract) (hf : env.Fair) (hg : env.Genuine) (ha : DEnv.Arith T) (ht : env.CmpTotal)
    (hv : ValidParams n cp w) (hb : ∀ c g, Returns (env.genUniform (bounds c).1 (bounds c).2 g).1)
    (hN : 0 < N ∨ iters = 0) (s : DEWorld T N G S) :
    ∃ F result s', ∀ fuel, F ≤ fuel → env.optimize fuel bounds n cp w iters s = (.ok result, s') := by
  obtain ⟨F, r, s', h1, h2⟩ := C42_terminates hc hf hg bounds n cp w iters s
  rcases C37_no_panic (fuel := F) (s := s) hc ha ht hv hb hN with ⟨x, s1, h⟩ | ⟨s1, h⟩
  · rw [h2 F (le_refl F)] at h
    cases h
    exact ⟨F, x, s', h2⟩
  · rw [h2 F (le_refl F)] at h
    cases h
    exact absurd rfl h1

/-- The bound on the number of draws, an artefact of the model, does not influence a finished run. -/
theorem C42_fuel_irrelevant {fuel fuel' : ℕ} (hle : fuel ≤ fuel')
    (h : env.optimize fuel bounds n cp w iters s = (.ok result, s')) :
    env.optimize fuel' bounds n cp w iters s = (.ok result, s') :=
  DEnv.mono_optimize env bounds n cp w iters fuel fuel' s _ s' hle (by simp) h

/-- The demo generator makes every run return. -/
theorem demo_returns (hv : ValidParams n (⟨1⟩ : Exact ℤ) (⟨1⟩ : Exact ℤ)) (iters : ℕ) (s : DEWorld (Exact ℤ) 2 ℕ Unit) :
    ∃ fuel result s', demo.optimize fuel (fun _ => (⟨0⟩, ⟨4⟩)) n ⟨1⟩ ⟨1⟩ iters s = (.ok result, s') := by
  obtain ⟨F, r, s', h⟩ := C42_returns (bounds := fun _ => ((⟨0⟩ : Exact ℤ), ⟨4⟩)) (iters := iters) demo_contract demo_fair
    demo_genuine (fun _ _ _ _ => ⟨_, rfl⟩) (fun _ _ _ => ⟨_, rfl⟩) hv
    (fun _ g => ⟨⟨0 + g % (4 - 0)⟩, rfl⟩)
    (.inl (by omega)) s
  exact ⟨F, r, s', h F (le_refl F)⟩

/-- C42: each iteration works on slot `t mod n` and three partners; all four are pairwise distinct. (And the trial point
is made from them as in C44.) -/
theorem C42_partners (hc : env.RandContract) (h : env.optimize fuel bounds n cp w iters s = (.ok result, s')) :
    ∃ (hn : 0 < n) (R : DERun T N n) (calls : List (Call T N)), s'.log = s.log ++ calls ∧
      env.Drawn bounds s.rng (R.pop 0) ∧ R.Explains hn bounds cp w iters calls result ∧
      ∀ t < iters, IsTrial cp w (R.pop t) (slot hn t) (R.trial t) := by
  obtain ⟨hn, R, calls, h1, _, h3, h4, _⟩ := DEnv.optimize_ok hc h
  exact ⟨hn, R, calls, h1, h3, h4, h4.trial⟩

/-- C42: with three points or fewer no iteration can ever finish, whatever the random numbers. -/
theorem C42_needs_four (hc : env.RandContract) (hn : n ≤ 3) (pop : List (Pt T N)) (i : ℕ) (hi : i < n)
    (pop' : List (Pt T N)) : env.iteration fuel cp w n pop i s ≠ (.ok pop', s') := by
  intro h
  unfold DEnv.iteration at h
  obtain ⟨j, s1, h1, h⟩ := Proc.bind_ok h
  obtain ⟨k, s2, h2, h⟩ := Proc.bind_ok h
  obtain ⟨l, s3, h3, h⟩ := Proc.bind_ok h
  obtain ⟨j1, j2, _⟩ := DEnv.draw_ok hc h1
  obtain ⟨k1, k2, _⟩ := DEnv.draw_ok hc h2
  obtain ⟨l1, l2, _⟩ := DEnv.draw_ok hc h3
  simp only [List.mem_cons, List.not_mem_nil, or_false, not_or] at j2 k2 l2
  omega

/-- C42: fairness is needed: with a (legal) generator that draws index 0 again and again, the first iteration never
ends. -/
theorem C42_unlucky (h0 : ∀ n g, 0 < n → (env.genIndex n g).1 = .ok 0) (hi : 0 < iters) :
    env.optimize fuel bounds n cp w iters s ≠ (.ok result, s') := by
  intro h
  have hv := C37_valid_of_returns h
  have hn : 0 < n := by have := hv.size; omega
  have hd : ∀ (fuel : ℕ) (s s' : DEWorld T N G S) (j : ℕ), env.draw n [0] fuel s ≠ (.ok j, s') := by
    intro fuel
    induction fuel with
    | zero => intro s s' j h; cases h
    | succ fuel ih =>
      intro s s' j h
      obtain ⟨k, s1, h1, h⟩ := Proc.bind_ok h
      have hk : Except.ok 0 = (Except.ok k : Res ℕ) := (h0 n s.rng hn).symm.trans (congrArg Prod.fst h1)
      cases hk
      exact ih _ _ _ h
  unfold DEnv.optimize at h
  obtain ⟨_, s1, h1, h⟩ := Proc.bind_ok h
  obtain ⟨_, s2, h2, h⟩ := Proc.bind_ok h
  obtain ⟨_, s3, h3, h⟩ := Proc.bind_ok h
  obtain ⟨p0, s4, h4, h⟩ := Proc.bind_ok h
  obtain ⟨p1, s5, h5, h⟩ := Proc.bind_ok h
  have hl : p0.length = n := by
    have := (Proc.mapM_inv (f := fun _ : ℕ => fromFnM N (fun i => env.uniform (bounds i).1 (bounds i).2)) (L := fun _ => ())
      (Q := fun _ => True) (fun _ _ _ _ _ => ⟨trivial, rfl⟩) h4).1
    simpa using this
  obtain ⟨it, rfl⟩ : ∃ it, iters = it + 1 := ⟨iters - 1, by omega⟩
  rw [List.range_succ_eq_map, List.foldlM_cons, hl] at h5
  obtain ⟨q, s6, h6, h5⟩ := Proc.bind_ok h5
  unfold DEnv.iteration at h6
  obtain ⟨j, s7, h7, h6⟩ := Proc.bind_ok h6
  rw [Nat.zero_mod] at h7
  exact hd _ _ _ _ h7

example : ∀ n g : ℕ, 0 < n → (({ demo with genIndex := fun n g => (if n = 0 then .error .emptyRange else .ok 0, g) } :
    DEnv (Exact ℤ) (Exact ℤ) 2 ℕ Unit).genIndex n g).1 = .ok 0 := fun _ _ h => if_neg (by omega)

/-! ### C40 -/

theorem Knockout.length {p : Multiset (Pt T N)} {cs : List (Call T N)} {x : Pt T N} (h : Knockout p cs x) :
    cs.length + 1 = p.card := by
  induction h with
  | winner x => simp
  | game a b ans p cs x _ ih => simp only [Multiset.card_cons] at ih ⊢; simp [ih]

/-- C40: the comparator is called exactly `num_iters + population_size - 1` times. -/
theorem C40_number_of_calls (hc : env.RandContract) (h : env.optimize fuel bounds n cp w iters s = (.ok result, s')) :
    s'.log.length = s.log.length + (iters + n - 1) := by
  obtain ⟨hn, R, calls, h1, _, _, h4, _⟩ := DEnv.optimize_ok hc h
  have hk := h4.knockout.length
  rw [Multiset.card_map, Finset.card_val, Finset.card_univ, Fintype.card_fin] at hk
  rw [h1, h4.calls_eq]
  simp only [List.length_append, List.length_map, List.length_range]
  omega

/-! ### C38 -/

theorem Knockout.mem {p : Multiset (Pt T N)} {cs : List (Call T N)} {x : Pt T N} (h : Knockout p cs x) : x ∈ p := by
  induction h with
  | winner x => simp
  | game a b ans p cs x _ ih =>
    simp only [Multiset.mem_cons] at ih ⊢
    cases ans with
    | true => simp only [if_true] at ih; tauto
    | false => simp only [Bool.false_eq_true, if_false] at ih; tauto

/-- Every point of a population is an initial point or the trial point of an earlier iteration. -/
theorem pop_origin {R : DERun T N n} {hn : 0 < n} {calls : List (Call T N)}
    (hR : R.Explains hn bounds cp w iters calls result) : ∀ t ≤ iters, ∀ i, (∃ j, R.pop t i = R.pop 0 j) ∨
      ∃ t' < t, R.pop t i = R.trial t' := by
  intro t
  induction t with
  | zero => intro _ i; exact .inl ⟨i, rfl⟩
  | succ t ih =>
    intro ht i
    rw [hR.step t (by omega)]
    have old : (∃ j, R.pop t i = R.pop 0 j) ∨ ∃ t' < t + 1, R.pop t i = R.trial t' := by
      rcases ih (by omega) i with h | ⟨t', h1, h2⟩
      · exact .inl h
      · exact .inr ⟨t', by omega, h2⟩
    cases R.answer t with
    | false => exact old
    | true =>
      rw [if_pos rfl]
      by_cases his : i = slot hn t
      · exact .inr ⟨t, by omega, by rw [his, Function.update_self]⟩
      · rw [Function.update_of_ne his]; exact old

/-- C38: for every comparator, even an inconsistent or stateful one, the returned point is one of the initial random
points (`initial`, drawn from the generator) or was the first argument in one of the first `iters` calls of the
comparator. -/
theorem C38_result (hc : env.RandContract) (h : env.optimize fuel bounds n cp w iters s = (.ok result, s')) :
    ∃ (initial : Fin n → Pt T N) (calls : List (Call T N)), env.Drawn bounds s.rng initial ∧ s'.log = s.log ++ calls ∧
      ((∃ i, result = initial i) ∨ ∃ call ∈ calls.take iters, result = call.a) := by
  obtain ⟨hn, R, calls, h1, _, h3, h4, _⟩ := DEnv.optimize_ok hc h
  refine ⟨R.pop 0, calls, h3, h1, ?_⟩
  obtain ⟨i, _, hi⟩ := Multiset.mem_map.1 h4.knockout.mem
  rcases pop_origin h4 iters (le_refl _) i with ⟨j, hj⟩ | ⟨t, ht, hj⟩
  · exact .inl ⟨j, by rw [← hi, hj]⟩
  · refine .inr ⟨⟨R.trial t, R.pop t (slot hn t), R.answer t⟩, ?_, by rw [← hi, hj]⟩
    rw [h4.calls_eq, List.take_left' (by simp)]
    exact List.mem_map.2 ⟨t, by simpa using ht, rfl⟩

/-! ### C43 -/

/-- C43: an iteration changes at most the slot `t mod n`, and only to the point which the comparator, asked in that
iteration, declared better than the one it replaces. (`R` is the course of the run: its initial population is the one
drawn from the generator, and it explains the calls of the comparator and the result.) -/
theorem C43_slots (hc : env.RandContract) (h : env.optimize fuel bounds n cp w iters s = (.ok result, s')) :
    ∃ (hn : 0 < n) (R : DERun T N n) (calls : List (Call T N)), s'.log = s.log ++ calls ∧
      env.Drawn bounds s.rng (R.pop 0) ∧ R.Explains hn bounds cp w iters calls result ∧
      ∀ t < iters, (∀ i : Fin n, (i : ℕ) ≠ t % n → R.pop (t + 1) i = R.pop t i) ∧
        ∀ i, R.pop (t + 1) i ≠ R.pop t i → calls[t]? = some ⟨R.pop (t + 1) i, R.pop t i, true⟩ ∧
          ∃ s0, (env.compare (R.pop (t + 1) i) (R.pop t i) s0).1 = .ok true := by
  obtain ⟨hn, R, calls, h1, h2, h3, h4, _⟩ := DEnv.optimize_ok hc h
  refine ⟨hn, R, calls, h1, h3, h4, fun t ht => ⟨fun i hi => ?_, fun i hne => ?_⟩⟩
  · rw [h4.step t ht]
    cases R.answer t with
    | false => rfl
    | true =>
      rw [if_pos rfl, Function.update_of_ne]
      intro e; apply hi; rw [e]; rfl
  · have hcall : calls[t]? = some ⟨R.trial t, R.pop t (slot hn t), R.answer t⟩ := by
      rw [h4.calls_eq, List.getElem?_append_left (by simpa using ht), List.getElem?_map, List.getElem?_range ht]
      rfl
    have hans : R.answer t = true := by
      cases ha : R.answer t with
      | true => rfl
      | false =>
        rw [h4.step t ht, ha] at hne
        exact absurd rfl hne
    have his : i = slot hn t := by
      by_contra hi
      rw [h4.step t ht, hans, if_pos rfl, Function.update_of_ne hi] at hne
      exact hne rfl
    have hnew : R.pop (t + 1) i = R.trial t := by rw [h4.step t ht, hans, if_pos rfl, his, Function.update_self]
    rw [hans] at hcall
    rw [hnew, his]
    exact ⟨hcall, h2 _ (List.mem_of_getElem? hcall)⟩

/-- The comparator's recorded answers, for a comparator that is a pure function. -/
theorem honest_better {better : Pt T N → Pt T N → Bool} (hb : env.Compares better) {calls : List (Call T N)}
    (h : env.Honest calls) : ∀ c ∈ calls, c.answer = better c.a c.b := by
  intro c hcc
  obtain ⟨s0, hs⟩ := h c hcc
  rw [hb] at hs
  exact (Except.ok.inj hs).symm

theorem explains_answer {better : Pt T N → Pt T N → Bool} (hb : env.Compares better) {R : DERun T N n} {hn : 0 < n}
    {calls : List (Call T N)} (hR : R.Explains hn bounds cp w iters calls result) (h : env.Honest calls) :
    ∀ t < iters, R.answer t = better (R.trial t) (R.pop t (slot hn t)) := by
  intro t ht
  refine honest_better hb h ⟨R.trial t, R.pop t (slot hn t), R.answer t⟩ ?_
  rw [hR.calls_eq]
  exact List.mem_append_left _ (List.mem_map.2 ⟨t, by simpa using ht, rfl⟩)

theorem slots_monotone {better : Pt T N → Pt T N → Bool} (hb : env.Compares better) (hw : StrictWeak better)
    {R : DERun T N n} {hn : 0 < n} {calls : List (Call T N)} (hR : R.Explains hn bounds cp w iters calls result)
    (h : env.Honest calls) (i : Fin n) : ∀ (k t : ℕ), t + k ≤ iters → better (R.pop t i) (R.pop (t + k) i) = false := by
  have irr : ∀ a, better a a = false := fun a => by
    cases e : better a a with
    | false => rfl
    | true => rw [hw.asymm a a e] at e; cases e
  intro k
  induction k with
  | zero => intro t _; exact irr _
  | succ k ih =>
    intro t ht
    refine hw.negTrans _ _ _ (ih t (by omega)) ?_
    rw [show t + (k + 1) = (t + k) + 1 from rfl, hR.step (t + k) (by omega)]
    have ha := explains_answer hb hR h (t + k) (by omega)
    cases hans : R.answer (t + k) with
    | false => exact irr _
    | true =>
      rw [if_pos rfl]
      by_cases his : i = slot hn (t + k)
      · rw [← his, Function.update_self]
        rw [hans, ← his] at ha
        exact hw.asymm _ _ ha.symm
      · rw [Function.update_of_ne his]; exact irr _

/-- C43: if the comparator is a strict weak order, the quality of no slot ever decreases. -/
theorem C43_monotone {better : Pt T N → Pt T N → Bool} (hc : env.RandContract) (hb : env.Compares better)
    (hw : StrictWeak better) (h : env.optimize fuel bounds n cp w iters s = (.ok result, s')) :
    ∃ (hn : 0 < n) (R : DERun T N n) (calls : List (Call T N)), s'.log = s.log ++ calls ∧
      env.Drawn bounds s.rng (R.pop 0) ∧ R.Explains hn bounds cp w iters calls result ∧
      ∀ (i : Fin n) (t t' : ℕ), t ≤ t' → t' ≤ iters → better (R.pop t i) (R.pop t' i) = false := by
  obtain ⟨hn, R, calls, h1, h2, h3, h4, _⟩ := DEnv.optimize_ok hc h
  refine ⟨hn, R, calls, h1, h3, h4, fun i t t' ht ht' => ?_⟩
  have := slots_monotone hb hw h4 h2 i (t' - t) t (by omega)
  rwa [show t + (t' - t) = t' by omega] at this

/-! ### C39 -/

theorem Knockout.best {better : Pt T N → Pt T N → Bool} (hw : StrictWeak better) {p : Multiset (Pt T N)}
    {cs : List (Call T N)} {x : Pt T N} (h : Knockout p cs x) (ha : ∀ c ∈ cs, c.answer = better c.a c.b) :
    (∀ y ∈ p, better y x = false) ∧ ∀ c ∈ cs, better c.a x = false ∧ better c.b x = false := by
  have irr : ∀ a, better a a = false := fun a => by
    cases e : better a a with
    | false => rfl
    | true => rw [hw.asymm a a e] at e; cases e
  induction h with
  | winner x => exact ⟨fun y hy => by rw [Multiset.mem_singleton.1 hy]; exact irr x, fun c hc => by simp at hc⟩
  | game a b ans p cs x _ ih =>
    obtain ⟨i1, i2⟩ := ih fun c hc => ha c (List.mem_cons_of_mem _ hc)
    have h0 : ans = better a b := ha ⟨a, b, ans⟩ List.mem_cons_self
    have hab : better a x = false ∧ better b x = false := by
      cases hans : ans with
      | true =>
        rw [hans] at i1 h0
        have := i1 a (by simp)
        exact ⟨this, hw.negTrans _ _ _ (hw.asymm _ _ h0.symm) this⟩
      | false =>
        rw [hans] at i1 h0
        have := i1 b (by simp)
        exact ⟨hw.negTrans _ _ _ h0.symm this, this⟩
    refine ⟨fun y hy => ?_, fun c hc => ?_⟩
    · rcases Multiset.mem_cons.1 hy with rfl | hy
      · exact hab.1
      · rcases Multiset.mem_cons.1 hy with rfl | hy
        · exact hab.2
        · exact i1 y (Multiset.mem_cons_of_mem hy)
    · rcases List.mem_cons.1 hc with rfl | hc
      · exact hab
      · exact i2 c hc

/-- C39: if the comparator is a strict weak order, no initial point and no point ever passed to the comparator is
better than the returned one. -/
theorem C39_best {better : Pt T N → Pt T N → Bool} (hc : env.RandContract) (hb : env.Compares better)
    (hw : StrictWeak better) (h : env.optimize fuel bounds n cp w iters s = (.ok result, s')) :
    ∃ (initial : Fin n → Pt T N) (calls : List (Call T N)), env.Drawn bounds s.rng initial ∧ s'.log = s.log ++ calls ∧
      (∀ i, better (initial i) result = false) ∧
      ∀ call ∈ calls, better call.a result = false ∧ better call.b result = false := by
  obtain ⟨hn, R, calls, h1, h2, h3, h4, _⟩ := DEnv.optimize_ok hc h
  obtain ⟨k1, k2⟩ := h4.knockout.best hw fun c hcc => honest_better hb h2 c (by
    rw [h4.calls_eq]; exact List.mem_append_right _ hcc)
  have hlast : ∀ t ≤ iters, ∀ i, better (R.pop t i) result = false := by
    intro t ht i
    have := slots_monotone hb hw h4 h2 i (iters - t) t (by omega)
    rw [show t + (iters - t) = iters by omega] at this
    exact hw.negTrans _ _ _ this (k1 _ (Multiset.mem_map.2 ⟨i, Finset.mem_univ_val i, rfl⟩))
  refine ⟨R.pop 0, calls, h3, h1, hlast 0 (by omega), fun call hcall => ?_⟩
  rw [h4.calls_eq] at hcall
  rcases List.mem_append.1 hcall with hcall | hcall
  · obtain ⟨t, ht, rfl⟩ := List.mem_map.1 hcall
    have ht' : t < iters := by simpa using ht
    refine ⟨?_, hlast t (by omega) _⟩
    have ha := explains_answer hb h4 h2 t ht'
    cases hans : R.answer t with
    | true =>
      have := hlast (t + 1) (by omega) (slot hn t)
      rw [h4.step t ht', hans, if_pos rfl, Function.update_self] at this
      exact this
    | false =>
      rw [hans] at ha
      exact hw.negTrans _ _ _ ha.symm (hlast t (by omega) _)
  · exact k2 call hcall

/-- An objective function with values in a linear order gives a strict weak order. -/
theorem strictWeak_objective {V : Type} [LinearOrder V] (f : Pt T N → V) : StrictWeak (fun a b => decide (f a < f b)) where
  asymm a b h := by simp only [decide_eq_true_eq, decide_eq_false_iff_not, not_lt] at h ⊢; exact h.le
  negTrans a b c h1 h2 := by simp only [decide_eq_false_iff_not, not_lt] at h1 h2 ⊢; exact h2.trans h1

/-- C39 for the documented use, minimising an objective function `f` without NaNs: the value at the returned point is the
smallest of all values at initial points and points passed to the comparator. -/
theorem C39_minimum {V : Type} [LinearOrder V] (f : Pt T N → V) (hc : env.RandContract)
    (hb : env.Compares (fun a b => decide (f a < f b)))
    (h : env.optimize fuel bounds n cp w iters s = (.ok result, s')) :
    ∃ (initial : Fin n → Pt T N) (calls : List (Call T N)), env.Drawn bounds s.rng initial ∧ s'.log = s.log ++ calls ∧
      (∀ i, f result ≤ f (initial i)) ∧ ∀ call ∈ calls, f result ≤ f call.a ∧ f result ≤ f call.b := by
  obtain ⟨initial, calls, h1, h2, h3, h4⟩ := C39_best hc hb (strictWeak_objective f) h
  simp only [decide_eq_false_iff_not, not_lt] at h3 h4
  exact ⟨initial, calls, h1, h2, h3, h4⟩

/-- The demo comparator minimises `-x₀`. -/
example : demo.Compares (fun a b => decide (-(a 0).val < -(b 0).val)) := fun a b s => by
  simp [demo]

/-! ### C44 -/

/-- C44: every trial point takes at least one coordinate from the mutation formula; every other coordinate comes from the
formula or from the current point of the slot. -/
theorem C44_sources (hc : env.RandContract) (h : env.optimize fuel bounds n cp w iters s = (.ok result, s')) :
    ∃ (hn : 0 < n) (R : DERun T N n) (calls : List (Call T N)), s'.log = s.log ++ calls ∧
      env.Drawn bounds s.rng (R.pop 0) ∧ R.Explains hn bounds cp w iters calls result ∧
      ∀ t < iters, ∃ j k l : Fin n, [slot hn t, j, k, l].Nodup ∧
        (∃ r, (do RAdd.add (R.pop t j r) (← RMul.mul (← RSub.sub (R.pop t k r) (R.pop t l r)) w)) = .ok (R.trial t r)) ∧
        ∀ c, R.trial t c = R.pop t (slot hn t) c ∨
          (do RAdd.add (R.pop t j c) (← RMul.mul (← RSub.sub (R.pop t k c) (R.pop t l c)) w)) = .ok (R.trial t c) := by
  obtain ⟨hn, R, calls, h1, h2, h3, h4, _⟩ := DEnv.optimize_ok hc h
  refine ⟨hn, R, calls, h1, h3, h4, fun t ht => ?_⟩
  obtain ⟨j, k, l, r, m, hnd, hr, hm1, hm2, _⟩ := h4.trial t ht
  refine ⟨j, k, l, hnd, ⟨r, hm1 r hr⟩, fun c => ?_⟩
  cases hmc : m c with
  | true => exact .inr (hm1 c hmc)
  | false => exact .inl (hm2 c hmc)

/-- C44: with crossover probability 0 exactly one coordinate `r` is mutated. -/
theorem C44_zero (hc : env.RandContract) (h : env.optimize fuel bounds n (zero : P) w iters s = (.ok result, s')) :
    ∃ (hn : 0 < n) (R : DERun T N n) (calls : List (Call T N)), s'.log = s.log ++ calls ∧
      env.Drawn bounds s.rng (R.pop 0) ∧ R.Explains hn bounds (zero : P) w iters calls result ∧
      ∀ t < iters, ∃ (j k l : Fin n) (r : Fin N), [slot hn t, j, k, l].Nodup ∧
        (do RAdd.add (R.pop t j r) (← RMul.mul (← RSub.sub (R.pop t k r) (R.pop t l r)) w)) = .ok (R.trial t r) ∧
        ∀ c, c ≠ r → R.trial t c = R.pop t (slot hn t) c := by
  obtain ⟨hn, R, calls, h1, h2, h3, h4, _⟩ := DEnv.optimize_ok hc h
  refine ⟨hn, R, calls, h1, h3, h4, fun t ht => ?_⟩
  obtain ⟨j, k, l, r, m, hnd, hr, hm1, hm2, hm3⟩ := h4.trial t ht
  refine ⟨j, k, l, r, hnd, hm1 r hr, fun c hcr => hm2 c ?_⟩
  obtain ⟨u, hu1, _, hu3⟩ := hm3 c hcr
  rw [hu3, hu1]

/-- C44: with crossover probability 1 all coordinates are mutated. -/
theorem C44_one (hc : env.RandContract) (h : env.optimize fuel bounds n (one : P) w iters s = (.ok result, s')) :
    ∃ (hn : 0 < n) (R : DERun T N n) (calls : List (Call T N)), s'.log = s.log ++ calls ∧
      env.Drawn bounds s.rng (R.pop 0) ∧ R.Explains hn bounds (one : P) w iters calls result ∧
      ∀ t < iters, ∃ (j k l : Fin n), [slot hn t, j, k, l].Nodup ∧ ∀ c,
        (do RAdd.add (R.pop t j c) (← RMul.mul (← RSub.sub (R.pop t k c) (R.pop t l c)) w)) = .ok (R.trial t c) := by
  obtain ⟨hn, R, calls, h1, h2, h3, h4, _⟩ := DEnv.optimize_ok hc h
  refine ⟨hn, R, calls, h1, h3, h4, fun t ht => ?_⟩
  obtain ⟨j, k, l, r, m, hnd, hr, hm1, hm2, hm3⟩ := h4.trial t ht
  refine ⟨j, k, l, hnd, fun c => hm1 c ?_⟩
  by_cases hcr : c = r
  · rw [hcr]; exact hr
  · obtain ⟨u, _, hu2, hu3⟩ := hm3 c hcr
    rw [hu3, hu2]

/-! ### C45 -/

theorem drawn_unique {a b : Fin n → Pt T N} {g : G} (ha : env.Drawn bounds g a) (hb : env.Drawn bounds g b) : a = b := by
  funext i c
  have := (ha i c).symm.trans (hb i c)
  exact Except.ok.inj this

/-- C45: with the documented comparator `f(a) < f(b)`: if the objective of the first initial point is unordered with
everything (NaN), then exactly that point is returned, whatever all other points are. -/
theorem C45_nan_first {V : Type} [RPartialOrd V] (f : Pt T N → V) (hc : env.RandContract)
    (hb : env.Compares (fun a b => RPartialOrd.lt (f a) (f b)))
    (initial : Fin n → Pt T N) (hi : env.Drawn bounds s.rng initial) (hn : 0 < n)
    (hnan : ∀ v, RPartialOrd.lt v (f (initial ⟨0, hn⟩)) = false)
    (h : env.optimize fuel bounds n cp w iters s = (.ok result, s')) : result = initial ⟨0, hn⟩ := by
  obtain ⟨_, R, calls, h1, h2, h3, h4, s1, h5⟩ := DEnv.optimize_ok hc h
  obtain rfl := drawn_unique hi h3
  have hy : ∀ a s, (env.compare a (R.pop 0 ⟨0, hn⟩) s).1 ≠ .ok true := by
    intro a s0 hh
    rw [hb] at hh
    have h6 : RPartialOrd.lt (f a) (f (R.pop 0 ⟨0, hn⟩)) = true := Except.ok.inj hh
    rw [hnan] at h6
    cases h6
  have hstay : ∀ t ≤ iters, R.pop t ⟨0, hn⟩ = R.pop 0 ⟨0, hn⟩ := by
    intro t
    induction t with
    | zero => intro _; rfl
    | succ t ih =>
      intro ht
      rw [h4.step t (by omega)]
      have ha := explains_answer hb h4 h2 t (by omega)
      cases hans : R.answer t with
      | false => exact ih (by omega)
      | true =>
        rw [if_pos rfl]
        by_cases his : (⟨0, hn⟩ : Fin n) = slot hn t
        · rw [hans, ← his, ih (by omega), hnan] at ha
          cases ha
        · rw [Function.update_of_ne his]; exact ih (by omega)
  refine DEnv.knockout_first hy n (by simp) ?_ h5
  rw [List.getElem?_eq_getElem (by simpa using hn)]
  simp only [List.getElem_ofFn]
  rw [hstay iters (le_refl _)]

/-! ### C41 -/

/-- C41: without iterations, or if the weight cancels the difference (`x + (y - z) * w = x`, as for `w = 0`), the
returned point lies within the bounds. -/
theorem C41_within_bounds (hc : env.RandContract) (h : env.optimize fuel bounds n cp w iters s = (.ok result, s'))
    (hw : iters = 0 ∨ ∀ a b c x : T, (do RAdd.add a (← RMul.mul (← RSub.sub b c) w)) = .ok x → x = a) (c : Fin N) :
    RPartialOrd.le (bounds c).1 (result c) = true ∧ RPartialOrd.lt (result c) (bounds c).2 = true := by
  obtain ⟨hn, R, calls, h1, h2, h3, h4, _⟩ := DEnv.optimize_ok hc h
  have key : ∀ t ≤ iters, ∀ i, RPartialOrd.le (bounds c).1 (R.pop t i c) = true ∧
      RPartialOrd.lt (R.pop t i c) (bounds c).2 = true := by
    intro t
    induction t with
    | zero => intro _ i; exact h4.initial i c
    | succ t ih =>
      intro ht i
      rw [h4.step t (by omega)]
      cases R.answer t with
      | false => exact ih (by omega) i
      | true =>
        rw [if_pos rfl]
        by_cases his : i = slot hn t
        · rw [his, Function.update_self]
          obtain ⟨j, k, l, r, m, _, _, hm1, hm2, _⟩ := h4.trial t (by omega)
          cases hmc : m c with
          | true =>
            rw [hw.resolve_left (by omega) _ _ _ _ (hm1 c hmc)]
            exact ih (by omega) j
          | false => rw [hm2 c hmc]; exact ih (by omega) _
        · rw [Function.update_of_ne his]; exact ih (by omega) i
  obtain ⟨i, _, hi⟩ := Multiset.mem_map.1 h4.knockout.mem
  rw [← hi]
  exact key iters (le_refl _) i

/-- The second hypothesis of `C41_within_bounds` holds in exact arithmetic for weight 0. -/
example (a b c x : Exact ℤ) (h : (do RAdd.add a (← RMul.mul (← RSub.sub b c) (⟨0⟩ : Exact ℤ))) = .ok x) : x = a := by
  cases h; ext; simp

section Field

variable {K : Type} [Field K] [LinearOrder K] [IsStrictOrderedRing K] {env : DEnv (Exact K) P N G S}
  {bounds : Fin N → Exact K × Exact K} {w : Exact K} {result : Pt (Exact K) N} {s s' : DEWorld (Exact K) N G S}

theorem trial_range {pop : Fin n → Pt (Exact K) N} {i : Fin n} {x : Pt (Exact K) N} (h : IsTrial cp w pop i x)
    (hw : 0 ≤ w.val) (c : Fin N) (lo hi : K) (hr : ∀ j, lo ≤ (pop j c).val ∧ (pop j c).val ≤ hi) :
    lo - w.val * (hi - lo) ≤ (x c).val ∧ (x c).val ≤ hi + w.val * (hi - lo) := by
  obtain ⟨j, k, l, r, m, _, _, hm1, hm2, _⟩ := h
  have hh : lo ≤ hi := (hr i).1.trans (hr i).2
  have h0 : 0 ≤ w.val * (hi - lo) := mul_nonneg hw (sub_nonneg.2 hh)
  cases hmc : m c with
  | false =>
    rw [hm2 c hmc]
    exact ⟨by linarith [(hr i).1], by linarith [(hr i).2]⟩
  | true =>
    have hx : (x c).val = (pop j c).val + ((pop k c).val - (pop l c).val) * w.val := by
      rw [← Except.ok.inj (hm1 c hmc)]
    rw [hx]
    have h1 : ((pop k c).val - (pop l c).val) * w.val ≤ w.val * (hi - lo) := by
      rw [mul_comm]; exact mul_le_mul_of_nonneg_left (by linarith [(hr k).2, (hr l).1]) hw
    have h2 : -(w.val * (hi - lo)) ≤ ((pop k c).val - (pop l c).val) * w.val := by
      rw [mul_comm _ w.val, ← mul_neg]; exact mul_le_mul_of_nonneg_left (by linarith [(hr k).1, (hr l).2]) hw
    exact ⟨by linarith [(hr j).1], by linarith [(hr j).2]⟩

theorem weight_nonneg (h : env.optimize fuel bounds n cp w iters s = (.ok result, s')) : 0 ≤ w.val := by
  have := (C37_valid_of_returns h).weight_nonneg
  simpa [RPartialOrd.le, FromI8.fromI8] using this

/-- C41 in exact arithmetic: one iteration enlarges the range of a coordinate by at most the weight times its width, on
each side. -/
theorem C41_one_iteration (hc : env.RandContract) (h : env.optimize fuel bounds n cp w iters s = (.ok result, s')) :
    ∃ (hn : 0 < n) (R : DERun (Exact K) N n) (calls : List (Call (Exact K) N)), s'.log = s.log ++ calls ∧
      env.Drawn bounds s.rng (R.pop 0) ∧ R.Explains hn bounds cp w iters calls result ∧
      ∀ t < iters, ∀ (c : Fin N) (lo hi : K), (∀ i, lo ≤ (R.pop t i c).val ∧ (R.pop t i c).val ≤ hi) →
        ∀ i, lo - w.val * (hi - lo) ≤ (R.pop (t + 1) i c).val ∧ (R.pop (t + 1) i c).val ≤ hi + w.val * (hi - lo) := by
  have hw := weight_nonneg h
  obtain ⟨hn, R, calls, h1, h2, h3, h4, _⟩ := DEnv.optimize_ok hc h
  refine ⟨hn, R, calls, h1, h3, h4, fun t ht c lo hi hr i => ?_⟩
  have old : lo - w.val * (hi - lo) ≤ (R.pop t i c).val ∧ (R.pop t i c).val ≤ hi + w.val * (hi - lo) := by
    have h0 : 0 ≤ w.val * (hi - lo) := mul_nonneg hw (sub_nonneg.2 ((hr i).1.trans (hr i).2))
    exact ⟨by linarith [(hr i).1], by linarith [(hr i).2]⟩
  rw [h4.step t ht]
  cases R.answer t with
  | false => exact old
  | true =>
    rw [if_pos rfl]
    by_cases his : i = slot hn t
    · rw [his, Function.update_self]
      exact trial_range (h4.trial t ht) hw c lo hi hr
    · rw [Function.update_of_ne his]; exact old

/-- C41 in exact arithmetic: how far outside the bounds the returned point can be at most. -/
theorem C41_escape_bound (hc : env.RandContract) (h : env.optimize fuel bounds n cp w iters s = (.ok result, s'))
    (c : Fin N) :
    (bounds c).1.val - ((1 + 2 * w.val) ^ iters - 1) / 2 * ((bounds c).2.val - (bounds c).1.val) ≤ (result c).val ∧
    (result c).val ≤ (bounds c).2.val + ((1 + 2 * w.val) ^ iters - 1) / 2 * ((bounds c).2.val - (bounds c).1.val) := by
  obtain ⟨hn, R, calls, h1, h3, h4, hstep⟩ := C41_one_iteration hc h
  have key : ∀ t ≤ iters, ∀ i,
      (bounds c).1.val - ((1 + 2 * w.val) ^ t - 1) / 2 * ((bounds c).2.val - (bounds c).1.val) ≤ (R.pop t i c).val ∧
      (R.pop t i c).val ≤ (bounds c).2.val + ((1 + 2 * w.val) ^ t - 1) / 2 * ((bounds c).2.val - (bounds c).1.val) := by
    intro t
    induction t with
    | zero =>
      intro _ i
      have := h4.initial i c
      simp only [RPartialOrd.le, RPartialOrd.lt, decide_eq_true_eq] at this
      simp only [pow_zero, sub_self, zero_div, zero_mul, sub_zero, add_zero]
      exact ⟨this.1, this.2.le⟩
    | succ t ih =>
      intro ht i
      have := hstep t (by omega) c _ _ (ih (by omega)) i
      refine ⟨le_trans (le_of_eq ?_) this.1, le_trans this.2 (le_of_eq ?_)⟩
      · rw [pow_succ]; ring
      · rw [pow_succ]; ring
  obtain ⟨i, _, hi⟩ := Multiset.mem_map.1 h4.knockout.mem
  rw [← hi]
  exact key iters (le_refl _) i

end Field

/-- The first coordinate of the point returned by a demo run. -/
theorem demo_escapes : (demo.optimize 10 (fun _ => (⟨0⟩, ⟨3⟩)) 5 ⟨1⟩ ⟨1⟩ 6 ⟨1, (), []⟩).1.toOption.map (fun p => (p 0).val) =
    some 4 := by
  decide +kernel

/-- C41: the bounds are not honoured in general: a demo run with bounds `0..3` returns a point with coordinate 4. -/
theorem C41_escape_example : ∃ result s', demo.optimize 10 (fun _ => (⟨0⟩, ⟨3⟩)) 5 ⟨1⟩ ⟨1⟩ 6 ⟨1, (), []⟩ =
    (.ok result, s') ∧ 3 < (result 0).val := by
  have h := demo_escapes
  rcases hr : demo.optimize 10 (fun _ => (⟨0⟩, ⟨3⟩)) 5 ⟨1⟩ ⟨1⟩ 6 ⟨1, (), []⟩ with ⟨e | x, s'⟩
  · rw [hr] at h; cases h
  · rw [hr] at h
    refine ⟨x, s', rfl, ?_⟩
    rw [show (x 0).val = 4 from Option.some.inj h]
    decide

/-- Objective values with a NaN (`none`). -/
local instance : RPartialOrd (Option ℤ) where
  lt a b := match a, b with | some a, some b => decide (a < b) | _, _ => false
  le a b := match a, b with | some a, some b => decide (a ≤ b) | _, _ => false

/-- The demo generator with an objective that is NaN at `x₀ = 0` and `x₀` elsewhere. -/
def demoNaN : DEnv (Exact ℤ) (Exact ℤ) 2 ℕ Unit :=
  { demo with compare := fun a b s => (.ok (RPartialOrd.lt (if (a 0).val = 0 then none else some (a 0).val)
      (if (b 0).val = 0 then none else some (b 0).val)), s) }

/-- A run as in C45: the first point is `(0, 1)`, the others have the objective values 2, 0, 2. -/
example : (demoNaN.optimize 10 (fun _ => (⟨0⟩, ⟨4⟩)) 4 ⟨1⟩ ⟨1⟩ 0 demoStart).1.toOption.map
    (fun p => ((p 0).val, (p 1).val)) = some (0, 1) := by
  decide +kernel

/-- The number of calls in a demo run: 6 iterations, 5 points. -/
example : (demo.optimize 10 (fun _ => (⟨0⟩, ⟨3⟩)) 5 ⟨1⟩ ⟨1⟩ 6 ⟨1, (), []⟩).2.log.length = 10 := by
  decide +kernel

end Magnesia
