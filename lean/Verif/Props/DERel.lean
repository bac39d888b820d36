import Verif.Proof.DERel
import Verif.Props.DE
import Mathlib.Tactic.FieldSimp

/-!
# Property C54: how runs of the optimizer compare with each other
-/

namespace Magnesia

set_option linter.unusedSectionVars false

open RZero ROne

variable {T T' P G G' S S' : Type} {N n : ℕ} {env : DEnv T P N G S} {env' : DEnv T' P N G' S'}
variable [RPartialOrd P] [RZero P] [ROne P] [RPartialOrd T] [FromI8 T] [RAdd T T T] [RSub T T T] [RMul T T T]
variable [RPartialOrd T'] [FromI8 T'] [RAdd T' T' T'] [RSub T' T' T'] [RMul T' T' T']
variable {fuel : ℕ} {bounds : Fin N → T × T} {cp : P} {w : T} {iters iters' : ℕ} {result result' : Pt T N}
variable {s s' s₁ s₁' : DEWorld T N G S}

/-! ### Corresponding runs -/

/-- C54: if generator, comparator, bounds, weight and arithmetic of two settings behave alike on related coordinates, the
runs correspond to each other call by call: same answers at related points, related results, or the same panic. -/
theorem C54_alike {R : Fin N → T → T' → Prop} {RG : G → G' → Prop} {RS : S → S' → Prop} {bounds' : Fin N → T' × T'} {w' : T'}
    (h : env.Alike R RG RS env' bounds bounds' w w') (g : G) (g' : G') (hg : RG g g') (c : S) (c' : S') (hc : RS c c') :
    let r := env.optimize fuel bounds n cp w iters ⟨g, c, []⟩
    let r' := env'.optimize fuel bounds' n cp w' iters ⟨g', c', []⟩
    SameEnd (PtRel R) r.1 r'.1 ∧ List.Forall₂ (CallRel R) r.2.log r'.2.log ∧ RG r.2.rng r'.2.rng ∧ RS r.2.cmp r'.2.cmp := by
  obtain ⟨h1, h2, h3, h4⟩ := h.optimize_rel (n := n) (cp := cp) fuel iters ⟨g, c, []⟩ ⟨g', c', []⟩ ⟨hg, hc, .nil⟩
  exact ⟨h1, h4, h2, h3⟩

theorem arith_sameEnd (x : Res T) : SameEnd (fun a b => a = b) x x := DEnv.sameEnd_eq rfl

theorem ptRel_eq {x y : Pt T N} (h : PtRel (fun _ a b => a = b) x y) : x = y := funext h

/-- C54: the result and the comparator calls depend on the comparator only through its answers: any internal state of a
comparator that answers like the pure function `better` (a counter, a cache, an evaluation log …) is irrelevant. -/
theorem C54_comparator_state {better : Pt T N → Pt T N → Bool} {compare' : Pt T N → Pt T N → S' → Res Bool × S'}
    (hb : env.Compares better) (hb' : (env.withComparator compare').Compares better) (g : G) (c : S) (c' : S') :
    let r := env.optimize fuel bounds n cp w iters ⟨g, c, []⟩
    let r' := (env.withComparator compare').optimize fuel bounds n cp w iters ⟨g, c', []⟩
    r.1 = r'.1 ∧ r.2.log = r'.2.log ∧ r.2.rng = r'.2.rng := by
  have ha : env.Alike (fun _ a b => a = b) (fun a b => a = b) (fun _ _ => True) (env.withComparator compare')
      bounds bounds w w := {
    weight := rfl
    index := by rintro n g _ rfl; exact ⟨rfl, rfl⟩
    unit := by rintro g _ rfl; exact ⟨rfl, rfl⟩
    uniform := by rintro c g _ rfl; exact ⟨arith_sameEnd _, rfl⟩
    arith := by rintro c x y z _ _ _ rfl rfl rfl; exact arith_sameEnd _
    compare := by
      intro a b a' b' s s' h1 h2 _
      obtain rfl := ptRel_eq h1
      obtain rfl := ptRel_eq h2
      exact ⟨(hb _ _ _).trans (hb' _ _ _).symm, trivial⟩ }
  obtain ⟨h1, h2, h3, _⟩ := C54_alike (fuel := fuel) (n := n) (cp := cp) (iters := iters) ha g g rfl c c' trivial
  refine ⟨?_, ?_, h3⟩
  · generalize (env.optimize fuel bounds n cp w iters ⟨g, c, []⟩).1 = x at h1
    generalize ((env.withComparator compare').optimize fuel bounds n cp w iters ⟨g, c', []⟩).1 = y at h1
    cases x <;> cases y <;> simp only [SameEnd] at h1
    · rw [h1]
    · rw [ptRel_eq h1]
  · have : ∀ (x y : Call T N), CallRel (fun _ a b => a = b) x y → x = y := by
      rintro ⟨a, b, r⟩ ⟨a', b', r'⟩ ⟨e1, e2, e3⟩
      rw [show a = a' from ptRel_eq e1, show b = b' from ptRel_eq e2, show r = r' from e3]
    exact List.forall₂_eq_eq_eq ▸ h2.imp this

/-- C54: only the order of the objective values matters: with the comparators `f(a) < f(b)` and `f'(a) < f'(b)` the runs
are the same if `f` and `f'` order all points in the same way (for instance `f' = g ∘ f` with a strictly increasing `g`). -/
theorem C54_order_only {V V' : Type} [LinearOrder V] [LinearOrder V'] (f : Pt T N → V) (f' : Pt T N → V')
    (h : ∀ a b, f a < f b ↔ f' a < f' b) (s : DEWorld T N G S) :
    (env.withComparator (fun a b (st : S) => (.ok (decide (f a < f b)), st))).optimize fuel bounds n cp w iters s =
    (env.withComparator (fun a b (st : S) => (.ok (decide (f' a < f' b)), st))).optimize fuel bounds n cp w iters s := by
  have : (fun a b (st : S) => ((.ok (decide (f a < f b)), st) : Res Bool × S)) =
      (fun a b (st : S) => (.ok (decide (f' a < f' b)), st)) := by
    funext a b st
    simp only [h]
  rw [this]

/-- C54: a comparator that answers differently only at pairs of points that were not compared leads to the same run:
the same result, the same calls, the same final states. -/
theorem C54_local {compare' : Pt T N → Pt T N → S → Res Bool × S}
    (h : env.optimize fuel bounds n cp w iters s = (.ok result, s')) {calls : List (Call T N)} (hl : s'.log = s.log ++ calls)
    (ha : ∀ call ∈ calls, ∀ st, compare' call.a call.b st = env.compare call.a call.b st) :
    (env.withComparator compare').optimize fuel bounds n cp w iters s = (.ok result, s') := by
  obtain ⟨l, h1, h2⟩ := DEnv.optimize_local (compare' := compare') fuel iters bounds cp w s result s' h
  rw [hl] at h1
  exact h2 (List.append_cancel_left h1 ▸ ha)

/-! ### Affine maps -/

section Affine

variable {K : Type} [Field K] [LinearOrder K] [IsStrictOrderedRing K]

/-- The affine map `x ↦ α x + β`, coordinate by coordinate. -/
def affine (α β : Fin N → K) (x : Pt (Exact K) N) : Pt (Exact K) N := fun c => ⟨α c * (x c).val + β c⟩

/-- The images of all bounds. -/
def affineBounds (α β : Fin N → K) (bounds : Fin N → Exact K × Exact K) : Fin N → Exact K × Exact K := fun c =>
  (⟨α c * (bounds c).1.val + β c⟩, ⟨α c * (bounds c).2.val + β c⟩)

/-- C54: in exact arithmetic the optimizer is invariant under an affine change of every coordinate. If the generator is
(it draws from the image of each range the image of what it draws from the range), then optimizing `f` within the image
of the bounds gives the image of what optimizing `x ↦ f (α x + β)` within the bounds gives, with the image of all
comparator calls and the same final states, for the same weight. -/
theorem C54_affine {env : DEnv (Exact K) P N G S} {bounds : Fin N → Exact K × Exact K} {w : Exact K} (α β : Fin N → K)
    (hg : ∀ c g, env.genUniform (affineBounds α β bounds c).1 (affineBounds α β bounds c).2 g =
      ((env.genUniform (bounds c).1 (bounds c).2 g).1.map (fun x => ⟨α c * x.val + β c⟩),
        (env.genUniform (bounds c).1 (bounds c).2 g).2))
    (compare : Pt (Exact K) N → Pt (Exact K) N → S → Res Bool × S) (g : G) (c : S) :
    let r := (env.withComparator (fun a b => compare (affine α β a) (affine α β b))).optimize fuel bounds n cp w iters ⟨g, c, []⟩
    (env.withComparator compare).optimize fuel (affineBounds α β bounds) n cp w iters ⟨g, c, []⟩ =
      (r.1.map (affine α β), ⟨r.2.rng, r.2.cmp, r.2.log.map (fun x => ⟨affine α β x.a, affine α β x.b, x.answer⟩)⟩) := by
  have hp : ∀ {x y}, PtRel (fun c (a b : Exact K) => b = ⟨α c * a.val + β c⟩) x y → y = affine α β x := fun h => funext h
  have ha : (env.withComparator (fun a b => compare (affine α β a) (affine α β b))).Alike
      (fun c (a b : Exact K) => b = ⟨α c * a.val + β c⟩) (fun a b => a = b) (fun a b => a = b)
      (env.withComparator compare) bounds (affineBounds α β bounds) w w := {
    weight := rfl
    index := by rintro n g _ rfl; exact ⟨rfl, rfl⟩
    unit := by rintro g _ rfl; exact ⟨rfl, rfl⟩
    uniform := by
      rintro c g _ rfl
      show SameEnd _ (env.genUniform (bounds c).1 (bounds c).2 g).1 (env.genUniform _ _ g).1 ∧
        (env.genUniform (bounds c).1 (bounds c).2 g).2 = (env.genUniform _ _ g).2
      rw [hg c g]
      refine ⟨?_, rfl⟩
      cases (env.genUniform (bounds c).1 (bounds c).2 g).1 <;> rfl
    arith := by
      rintro c x y z _ _ _ rfl rfl rfl
      show (⟨_⟩ : Exact K) = ⟨_⟩
      congr 1
      ring
    compare := by
      rintro a b a' b' s _ h1 h2 rfl
      rw [hp h1, hp h2]
      exact ⟨rfl, rfl⟩ }
  obtain ⟨h1, h2, h3, h4⟩ := C54_alike (fuel := fuel) (n := n) (cp := cp) (iters := iters) ha g g rfl c c rfl
  intro r
  refine Prod.ext ?_ ?_
  · show _ = r.1.map (affine α β)
    rw [show (env.withComparator (fun a b => compare (affine α β a) (affine α β b))).optimize fuel bounds n cp w iters
      ⟨g, c, []⟩ = r from rfl] at h1
    generalize ((env.withComparator compare).optimize fuel (affineBounds α β bounds) n cp w iters ⟨g, c, []⟩).1 = y at h1 ⊢
    generalize r.1 = x at h1 ⊢
    cases x <;> cases y <;> simp only [SameEnd] at h1
    · rw [h1]; rfl
    · rw [hp h1]; rfl
  · have hl : ∀ {l l' : List (Call (Exact K) N)}, List.Forall₂ (CallRel fun c (a b : Exact K) => b = ⟨α c * a.val + β c⟩) l l' →
        l' = l.map (fun x => ⟨affine α β x.a, affine α β x.b, x.answer⟩) := by
      intro l l' h
      induction h with
      | nil => rfl
      | @cons x y _ _ h _ ih =>
        obtain ⟨a, b, ans⟩ := x
        obtain ⟨a', b', ans'⟩ := y
        obtain ⟨e1, e2, e3⟩ := h
        rw [List.map_cons, ← ih, show a' = _ from hp e1, show b' = _ from hp e2, show ans = ans' from e3]
    show _ = (⟨r.2.rng, r.2.cmp, _⟩ : DEWorld (Exact K) N G S)
    rw [show r.2.rng = _ from h3, show r.2.cmp = _ from h4, ← hl h2]

end Affine

/-! ### More iterations -/

/-- The parts of two runs of different length that start in the same world. -/
theorem optimize_split (hc : env.RandContract) (hle : iters ≤ iters')
    (h : env.optimize fuel bounds n cp w iters s = (.ok result, s₁))
    (h' : env.optimize fuel bounds n cp w iters' s = (.ok result', s₁')) :
    ∃ (hn : 0 < n) (R : DERun T N n) (p' : List (Pt T N)) (m m' : DEWorld T N G S) ,
      m.log = s.log ++ (List.range iters).map (fun t => ⟨R.trial t, R.pop t (slot hn t), R.answer t⟩) ∧
      env.knockout (List.ofFn (R.pop iters)) m = (.ok result, s₁) ∧
      (List.range' iters (iters' - iters)).foldlM (fun pop t => env.iteration fuel cp w n pop (t % n))
        (List.ofFn (R.pop iters)) m = (.ok p', m') ∧
      env.knockout p' m' = (.ok result', s₁') := by
  unfold DEnv.optimize at h h'
  obtain ⟨_, s1, h1, h⟩ := Proc.bind_ok h
  obtain ⟨_, s2, h2, h⟩ := Proc.bind_ok h
  obtain ⟨_, s3, h3, h⟩ := Proc.bind_ok h
  obtain ⟨_, s1', h1', h'⟩ := Proc.bind_ok h'
  obtain ⟨_, s2', h2', h'⟩ := Proc.bind_ok h'
  obtain ⟨_, s3', h3', h'⟩ := Proc.bind_ok h'
  obtain ⟨a1, rfl⟩ := Proc.assert_ok h1
  obtain ⟨_, rfl⟩ := Proc.assert_ok h2
  obtain ⟨_, rfl⟩ := Proc.assert_ok h3
  obtain ⟨_, rfl⟩ := Proc.assert_ok h1'
  obtain ⟨_, rfl⟩ := Proc.assert_ok h2'
  obtain ⟨_, rfl⟩ := Proc.assert_ok h3'
  obtain ⟨p0, s4, h4, h⟩ := Proc.bind_ok h
  obtain ⟨p0', s4', h4', h'⟩ := Proc.bind_ok h'
  rw [h4] at h4'
  obtain ⟨e1, rfl⟩ := Prod.mk.inj h4'
  cases e1
  obtain ⟨p1, s5, h5, hk⟩ := Proc.bind_ok h
  obtain ⟨p1', s5', h5', hk'⟩ := Proc.bind_ok h'
  have hn : 0 < n := by have : 4 ≤ n := by simpa using a1
                        omega
  obtain ⟨m1, m2, m3⟩ := Proc.mapM_inv (f := fun _ : ℕ => fromFnM N (fun i => env.uniform (bounds i).1 (bounds i).2))
    (L := DEWorld.log) (Q := fun _ : Pt T N => True)
    (fun _ w x w' h => ⟨trivial, (Proc.fromFn_inv (f := fun i => env.uniform (bounds i).1 (bounds i).2)
      (L := DEWorld.log) (Q := fun _ _ => True)
      (fun i w x w' h => ⟨trivial, (DEnv.uniform_ok hc h).2⟩) h).2⟩) h4
  have hlen : p0.length = n := by simpa using m1
  obtain ⟨pop, rfl⟩ : ∃ pop : Fin n → Pt T N, p0 = List.ofFn pop := by
    subst hlen
    exact ⟨fun i => p0[i], List.ofFn_getElem.symm⟩
  rw [hlen] at h5 h5'
  rw [show List.range iters' = List.range iters ++ List.range' iters (iters' - iters) by
    obtain ⟨d, rfl⟩ := Nat.exists_eq_add_of_le hle
    rw [Nat.add_sub_cancel_left, List.range_eq_range', List.range_eq_range', ← List.range'_append_1, Nat.zero_add], List.foldlM_append] at h5'
  obtain ⟨q, s6, h6, h7⟩ := Proc.bind_ok h5'
  rw [h5] at h6
  obtain ⟨e2, rfl⟩ := Prod.mk.inj h6
  cases e2
  obtain ⟨R, r0, rfl, r1, r2, r3, r4⟩ := DEnv.loop_ok hc hn h5
  exact ⟨hn, R, p1', s5, s5', by rw [r3, m3], hk, h7, hk'⟩

/-- C54: with the same generator state, a run with more iterations makes the same comparator calls, and only then the
runs differ. -/
theorem C54_prefix (hc : env.RandContract) (hle : iters ≤ iters')
    (h : env.optimize fuel bounds n cp w iters s = (.ok result, s₁))
    (h' : env.optimize fuel bounds n cp w iters' s = (.ok result', s₁')) :
    ∃ common rest rest', common.length = iters ∧ s₁.log = s.log ++ common ++ rest ∧ s₁'.log = s.log ++ common ++ rest' := by
  obtain ⟨hn, R, p', m, m', h1, h2, h3, h4⟩ := optimize_split hc hle h h'
  obtain ⟨l1, e1, _⟩ := DEnv.knockout_local (compare' := env.compare) _ _ rfl _ _ _ h2
  obtain ⟨l2, e2, _⟩ := DEnv.knockout_local (compare' := env.compare) _ _ rfl _ _ _ h4
  obtain ⟨l3, e3, _⟩ := DEnv.Local.foldlM (fun a i => DEnv.iteration_local (env := env) (n := n) (compare' := env.compare)
    fuel a cp w (i % n)) _ _ _ _ _ h3
  refine ⟨_, l1, l3 ++ l2, ?_, by rw [e1, h1], by rw [e2, e3, h1]; simp only [List.append_assoc]⟩
  rw [List.length_map, List.length_range]

/-- C54: more iterations never make the result worse (same generator state, the comparator a strict weak order). -/
theorem C54_more_iterations {better : Pt T N → Pt T N → Bool} (hc : env.RandContract) (hb : env.Compares better)
    (hw : StrictWeak better) (hle : iters ≤ iters') (h : env.optimize fuel bounds n cp w iters s = (.ok result, s₁))
    (h' : env.optimize fuel bounds n cp w iters' s = (.ok result', s₁')) : better result result' = false := by
  obtain ⟨hn, R, p', m, m', h1, h2, h3, h4⟩ := optimize_split hc hle h h'
  obtain ⟨q, _, rfl, _, q3⟩ := DEnv.loop_monotone hc hb hw hn _ h3
  obtain ⟨cs, _, k2, k3⟩ := DEnv.knockout_ok _ rfl h2
  obtain ⟨cs', _, k2', k3'⟩ := DEnv.knockout_ok _ rfl h4
  have hr : result ∈ List.ofFn (R.pop iters) := by
    have : ∀ {p : Multiset (Pt T N)} {cs x}, Knockout p cs x → x ∈ p := by
      intro p cs x hk
      induction hk with
      | winner x => simp
      | game a b ans s cs x _ ih =>
        rcases Multiset.mem_cons.1 ih with rfl | ih
        · cases ans <;> simp
        · exact Multiset.mem_cons_of_mem (Multiset.mem_cons_of_mem ih)
    simpa using this k3
  obtain ⟨i, rfl⟩ := List.mem_ofFn.1 hr
  refine hw.negTrans _ _ _ (q3 i) ((k3'.best hw (honest_better hb k2')).1 _ ?_)
  simp [List.mem_ofFn]

/-- C54: for an objective function with values in a linear order: the objective value at the result is monotone in the
number of iterations. -/
theorem C54_objective_monotone {V : Type} [LinearOrder V] (f : Pt T N → V) (hc : env.RandContract)
    (hb : env.Compares (fun a b => decide (f a < f b))) (hle : iters ≤ iters')
    (h : env.optimize fuel bounds n cp w iters s = (.ok result, s₁))
    (h' : env.optimize fuel bounds n cp w iters' s = (.ok result', s₁')) : f result' ≤ f result := by
  simpa using C54_more_iterations hc hb (strictWeak_objective f) hle h h'

/-! ### Examples -/

/-- An example generator for affine maps: a counter `g`; `gen_range(lo..hi)` gives `lo + (hi - lo) u` with
`u ∈ {0, 1/4, 2/4, 3/4}`; the comparator prefers points near the origin. -/
def demoQ : DEnv (Exact ℚ) (Exact ℚ) 2 ℕ Unit where
  genIndex n g := (if n = 0 then .error .emptyRange else .ok (g % n), g + 1)
  genUniform lo hi g := (if lo.val < hi.val then .ok ⟨lo.val + (hi.val - lo.val) * ((g % 4 : ℕ) / 4)⟩ else .error .emptyRange, g + 1)
  genUnit g := (⟨(g % 2 : ℕ) / 2⟩, g + 1)
  compare a b s := (.ok (decide ((a 0).val ^ 2 + (a 1).val ^ 2 < (b 0).val ^ 2 + (b 1).val ^ 2)), s)

/-- It has the invariance required by `C54_affine` for all maps with positive factors. -/
theorem demoQ_affine (α β : Fin 2 → ℚ) (hα : ∀ c, 0 < α c) (bounds : Fin 2 → Exact ℚ × Exact ℚ) (c : Fin 2) (g : ℕ) :
    demoQ.genUniform (affineBounds α β bounds c).1 (affineBounds α β bounds c).2 g =
      ((demoQ.genUniform (bounds c).1 (bounds c).2 g).1.map (fun x => ⟨α c * x.val + β c⟩),
        (demoQ.genUniform (bounds c).1 (bounds c).2 g).2) := by
  have h1 : (α c * (bounds c).1.val + β c < α c * (bounds c).2.val + β c) ↔ (bounds c).1.val < (bounds c).2.val := by
    rw [add_lt_add_iff_right, mul_lt_mul_iff_right₀ (hα c)]
  simp only [demoQ, affineBounds, h1]
  split
  · simp only [Except.map]
    congr 3
    ring
  · rfl

theorem demoQ_contract : demoQ.RandContract where
  index_empty g := rfl
  index_returns n g hn := ⟨g % n, if_neg (by omega)⟩
  index_range n g k h := by
    unfold demoQ at h
    by_cases hn : n = 0
    · simp [hn] at h
    · simp [hn] at h
      rw [← h]; exact Nat.mod_lt _ (by omega)
  uniform_empty lo hi g h := if_neg (by simpa [RPartialOrd.lt] using h)
  uniform_range lo hi g x h := by
    unfold demoQ at h
    by_cases hl : lo.val < hi.val
    · simp only [if_pos hl] at h
      cases h
      have h4 : ((g % 4 : ℕ) : ℚ) < 4 := by exact_mod_cast Nat.mod_lt g (by norm_num)
      have h5 : (0 : ℚ) ≤ ((g % 4 : ℕ) : ℚ) / 4 := by positivity
      have h6 : ((g % 4 : ℕ) : ℚ) / 4 < 1 := by linarith
      simp only [RPartialOrd.le, RPartialOrd.lt, decide_eq_true_eq]
      constructor <;> nlinarith
    · simp only [if_neg hl] at h; cases h
  unit_range g := by
    have h4 : ((g % 2 : ℕ) : ℚ) < 2 := by exact_mod_cast Nat.mod_lt g (by norm_num)
    have h5 : (0 : ℚ) ≤ ((g % 2 : ℕ) : ℚ) / 2 := by positivity
    have h6 : ((g % 2 : ℕ) : ℚ) / 2 < 1 := by linarith
    exact ⟨decide_eq_false (not_lt.2 h5), decide_eq_true h6⟩

/-- The example comparator is `f(a) < f(b)` for the squared distance from the origin. -/
theorem demoQ_compares : demoQ.Compares (fun a b => decide ((a 0).val ^ 2 + (a 1).val ^ 2 < (b 0).val ^ 2 + (b 1).val ^ 2)) :=
  fun _ _ _ => rfl

theorem demoQ_fair : demoQ.Fair := by
  have hd : ∀ m n g, demoQ.afterDraws n m g = demo.afterDraws n m g := by
    intro m
    induction m with
    | zero => intro n g; rfl
    | succ m ih => intro n g; exact ih _ _
  intro n g a ha
  obtain ⟨m, hm⟩ := demo_fair n g a ha
  exact ⟨m, by rw [hd]; exact hm⟩

theorem demoQ_genuine : demoQ.Genuine where
  cmp a b s h := by cases h
  uniform lo hi g h := by
    simp only [demoQ] at h
    split at h <;> cases h
  arith a b c w h := by cases h

/-- The bounds of the example: `-1..2`. -/
def boundsQ : Fin 2 → Exact ℚ × Exact ℚ := fun _ => (⟨-1⟩, ⟨2⟩)

theorem demoQ_draws (c : Fin 2) (g : ℕ) : Returns (demoQ.genUniform (boundsQ c).1 (boundsQ c).2 g).1 := by
  have h : (boundsQ c).1.val < (boundsQ c).2.val := by norm_num [boundsQ]
  simp only [demoQ, if_pos h]
  exact ⟨_, rfl⟩

theorem demoQ_params : ValidParams 4 (⟨1 / 2⟩ : Exact ℚ) (⟨1 / 2⟩ : Exact ℚ) :=
  ⟨le_refl 4, decide_eq_true (show (0 : ℚ) ≤ 1 / 2 by norm_num), decide_eq_true (show (1 / 2 : ℚ) ≤ 1 by norm_num),
    decide_eq_true (show ((0 : ℤ) : ℚ) ≤ 1 / 2 by norm_num), decide_eq_true (show (1 / 2 : ℚ) ≤ ((2 : ℤ) : ℚ) by norm_num)⟩

/-- The hypotheses of the theorems above are met: runs of any length return. -/
theorem demoQ_returns (iters : ℕ) (s : DEWorld (Exact ℚ) 2 ℕ Unit) : ∃ L result s', ∀ fuel, L ≤ fuel →
    demoQ.optimize fuel boundsQ 4 ⟨1 / 2⟩ ⟨1 / 2⟩ iters s = (.ok result, s') :=
  C42_returns demoQ_contract demoQ_fair demoQ_genuine (fun _ _ _ _ => ⟨_, rfl⟩) (fun _ _ _ => ⟨_, rfl⟩) demoQ_params
    demoQ_draws (.inl (by omega)) s

example (iters iters' : ℕ) (hle : iters ≤ iters') (s : DEWorld (Exact ℚ) 2 ℕ Unit) : ∃ fuel r r' s₁ s₁',
    demoQ.optimize fuel boundsQ 4 ⟨1 / 2⟩ ⟨1 / 2⟩ iters s = (.ok r, s₁) ∧
    demoQ.optimize fuel boundsQ 4 ⟨1 / 2⟩ ⟨1 / 2⟩ iters' s = (.ok r', s₁') ∧
    (r' 0).val ^ 2 + (r' 1).val ^ 2 ≤ (r 0).val ^ 2 + (r 1).val ^ 2 := by
  obtain ⟨L, r, s₁, h⟩ := demoQ_returns iters s
  obtain ⟨L', r', s₁', h'⟩ := demoQ_returns iters' s
  have h1 := h (max L L') (le_max_left _ _)
  have h2 := h' (max L L') (le_max_right _ _)
  exact ⟨_, r, r', s₁, s₁', h1, h2, C54_objective_monotone (fun a : Pt (Exact ℚ) 2 => (a 0).val ^ 2 + (a 1).val ^ 2)
    demoQ_contract demoQ_compares hle h1 h2⟩

/-- A concrete use of `C54_affine`: minimising the distance from the origin within `1..7` and `0..9` is minimising the
distance of `(2x + 3, 3y + 3)` within `-1..2`. -/
example (fuel iters : ℕ) : let φ := affine (N := 2) (fun c => if c = 0 then 2 else 3) (fun _ => (3 : ℚ))
    (demoQ.optimize fuel (affineBounds (fun c => if c = 0 then 2 else 3) (fun _ => 3) boundsQ)
      4 ⟨1 / 2⟩ ⟨1 / 2⟩ iters ⟨0, (), []⟩).1 =
    ((demoQ.withComparator (fun a b => demoQ.compare (φ a) (φ b))).optimize fuel boundsQ
      4 ⟨1 / 2⟩ ⟨1 / 2⟩ iters ⟨0, (), []⟩).1.map φ :=
  congrArg Prod.fst (C54_affine (env := demoQ) _ _ (demoQ_affine _ _ (fun c => by split <;> norm_num) _) demoQ.compare 0 ())

end Magnesia
