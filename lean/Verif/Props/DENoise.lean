import Verif.Spec.DENoise
import Verif.Props.DE
import Verif.Proof.IeeeMono
import Mathlib.Data.Int.CardIntervalMod

/-!
# C89: comparators that err

Nothing is assumed about the comparator: it may be stateful, random, inconsistent. `f` is the function one would like to
minimise, and `Call.loss f` what an answer of the comparator costs.
-/

namespace Magnesia

open RZero ROne

variable {T P G S : Type} {N n : ℕ} {env : DEnv T P N G S} {f : Pt T N → ℝ}

theorem Call.loss_nonneg (f : Pt T N → ℝ) (call : Call T N) : 0 ≤ call.loss f := by
  unfold Call.loss; split <;> exact le_max_left _ _

theorem Call.loss_a (f : Pt T N → ℝ) (a b : Pt T N) (ans : Bool) :
    f (if ans then a else b) ≤ f a + Call.loss f ⟨a, b, ans⟩ := by
  unfold Call.loss
  cases ans
  · simp only [Bool.false_eq_true, if_false]
    linarith [le_max_right 0 (f b - f a)]
  · simp only [if_true]
    linarith [le_max_left 0 (f a - f b)]

theorem Call.loss_b (f : Pt T N → ℝ) (a b : Pt T N) (ans : Bool) :
    f (if ans then a else b) ≤ f b + Call.loss f ⟨a, b, ans⟩ := by
  unfold Call.loss
  cases ans
  · simp only [Bool.false_eq_true, if_false]
    linarith [le_max_left 0 (f b - f a)]
  · simp only [if_true]
    linarith [le_max_right 0 (f a - f b)]

theorem Knockout.total {p : Multiset (Pt T N)} {cs : List (Call T N)} {x : Pt T N} (h : Knockout p cs x) (f : Pt T N → ℝ) :
    (∀ y ∈ p, f x ≤ f y + (cs.map (Call.loss f)).sum) ∧
    ∀ c ∈ cs, f x ≤ f c.a + (cs.map (Call.loss f)).sum ∧ f x ≤ f c.b + (cs.map (Call.loss f)).sum := by
  induction h with
  | winner x => exact ⟨fun y hy => by rw [Multiset.mem_singleton.1 hy]; simp, fun c hc => by simp at hc⟩
  | game a b ans p cs x _ ih =>
    obtain ⟨i1, i2⟩ := ih
    have h0 := i1 _ (Multiset.mem_cons_self _ _)
    have ha := Call.loss_a f a b ans
    have hb := Call.loss_b f a b ans
    have hp := Call.loss_nonneg f ⟨a, b, ans⟩
    simp only [List.map_cons, List.sum_cons]
    refine ⟨fun y hy => ?_, fun c hc => ?_⟩
    · rcases Multiset.mem_cons.1 hy with rfl | hy
      · linarith
      · rcases Multiset.mem_cons.1 hy with rfl | hy
        · linarith
        · linarith [i1 y (Multiset.mem_cons_of_mem hy)]
    · rcases List.mem_cons.1 hc with rfl | hc
      · exact ⟨by dsimp only; linarith, by dsimp only; linarith⟩
      · obtain ⟨j1, j2⟩ := i2 c hc
        exact ⟨by linarith, by linarith⟩

/-- One round: the winner of every game is at most `ε` worse than the players. -/
theorem round_tol {len : ℕ} {pop : List (Pt T N)} {ε : ℝ} (hl : pop.length = len) : ∀ {i : ℕ} (_ : i ≤ len / 2)
    {pop' : List (Pt T N)} {s s' : DEWorld T N G S}
    (_ : (List.range i).foldlM (env.knockoutGame len (len / 2)) pop s = (.ok pop', s')),
    pop'.length = len ∧ (0 < i → len % 2 = 1 → pop'[len / 2]? = pop'[len - 1]?) ∧
    ∃ cs, s'.log = s.log ++ cs ∧ ((∀ c ∈ cs, c.loss f ≤ ε) →
      (∀ k < i, ∀ a b, pop[len / 2 + k]? = some a → pop[k]? = some b → ∃ y, pop'[k]? = some y ∧ f y ≤ f a + ε ∧ f y ≤ f b + ε) ∧
      (∀ k, i ≤ k → k < len / 2 → pop'[k]? = pop[k]?) ∧ pop'.drop (len / 2 + i) = pop.drop (len / 2 + i)) := by
  intro i
  induction i with
  | zero =>
    intro _ pop' s s' h
    obtain ⟨rfl, rfl⟩ := Proc.pure_ok h
    exact ⟨hl, fun h => absurd h (lt_irrefl 0), [], by simp, fun _ => ⟨fun k hk => absurd hk (by omega), fun _ _ _ => rfl, rfl⟩⟩
  | succ i ih =>
    intro hi pop' s s' h
    rw [List.range_succ, List.foldlM_append] at h
    obtain ⟨p1, s1, h1, h⟩ := Proc.bind_ok h
    obtain ⟨l1, _, cs, g1, g2⟩ := ih (by omega) h1
    rw [List.foldlM_cons] at h
    obtain ⟨p2, s2, h2, h⟩ := Proc.bind_ok h
    obtain ⟨rfl, rfl⟩ := Proc.pure_ok h
    obtain ⟨a, b, ans, ha, hb, k1, k2, k3, k4, k5, k6⟩ := DEnv.game_ok l1 (by omega) h2
    refine ⟨k3, fun _ => k6, cs ++ [⟨a, b, ans⟩], by rw [k1, g1, List.append_assoc], fun hε => ?_⟩
    obtain ⟨g3, g4, g5⟩ := g2 fun c hc => hε c (List.mem_append_left _ hc)
    have hloss := hε ⟨a, b, ans⟩ (by simp)
    have first : ∀ k, k < len / 2 → p2[k]? = ((p1.take (len / 2)).set i (if ans then a else b))[k]? := by
      intro k hk
      rw [← k4, List.getElem?_take_of_lt hk]
    have hil : i < (p1.take (len / 2)).length := by rw [List.length_take]; omega
    refine ⟨fun k hk x y hx hy => ?_, fun k hk hk' => ?_, ?_⟩
    · rcases Nat.lt_succ_iff_lt_or_eq.1 hk with hk | rfl
      · obtain ⟨z, z1, z2⟩ := g3 k hk x y hx hy
        refine ⟨z, ?_, z2⟩
        rw [first k (by omega), List.getElem?_set_ne (by omega), List.getElem?_take_of_lt (by omega), z1]
      · refine ⟨if ans then a else b, ?_, ?_⟩
        · rw [first k (by omega), List.getElem?_set_self hil]
        · have ea : x = a := by
            have : p1[len / 2 + k]? = pop[len / 2 + k]? := by
              have := congrArg (fun l => l[0]?) g5
              simpa using this
            rw [this, hx] at ha
            exact Option.some.inj ha
          have eb : y = b := by
            rw [g4 k (le_refl _) (by omega), hy] at hb
            exact Option.some.inj hb
          subst ea eb
          exact ⟨by linarith [Call.loss_a f x y ans], by linarith [Call.loss_b f x y ans]⟩
    · rw [first k hk', List.getElem?_set_ne (by omega), List.getElem?_take_of_lt hk', g4 k (by omega) hk']
    · rw [k5]
      have := congrArg (List.drop 1) g5
      simpa [List.drop_drop, Nat.add_assoc] using this

/-- The knockout stage: every point is at most `ε` better for each round. -/
theorem knockout_tol {ε : ℝ} (hε0 : 0 ≤ ε) : ∀ (len : ℕ) {pop : List (Pt T N)} (_ : pop.length = len) {x : Pt T N} {s s' : DEWorld T N G S}
    (_ : env.knockout pop s = (.ok x, s')),
    ∃ cs, s'.log = s.log ++ cs ∧ ((∀ c ∈ cs, c.loss f ≤ ε) → ∀ y ∈ pop, f x ≤ f y + Nat.clog 2 len * ε) := by
  intro len
  induction len using Nat.strongRecOn with
  | _ len ih =>
    intro pop hl x s s' h
    rw [DEnv.knockout] at h
    by_cases hlen : pop.length > 1
    · rw [if_pos hlen] at h
      simp only [hl] at h hlen
      obtain ⟨p1, s1, h1, h⟩ := Proc.bind_ok h
      obtain ⟨l1, l2, cs, g1, g2⟩ := round_tol (f := f) (ε := ε) hl (le_refl _) h1
      have hlt : (p1.take ((len + 1) / 2)).length = (len + 1) / 2 := by rw [List.length_take]; omega
      obtain ⟨ds, d1, d2⟩ := ih ((len + 1) / 2) (by omega) hlt h
      refine ⟨cs ++ ds, by rw [d1, g1, List.append_assoc], fun hε y hy => ?_⟩
      obtain ⟨g3, g4, g5⟩ := g2 fun c hc => hε c (List.mem_append_left _ hc)
      have d3 := d2 fun c hc => hε c (List.mem_append_right _ hc)
      rw [Nat.clog_of_one_lt (by norm_num) (by omega : 1 < len)]
      have e0 : (len + 2 - 1) / 2 = (len + 1) / 2 := by rfl
      rw [e0]
      push_cast
      have step : ∀ k z, p1[k]? = some z → k < (len + 1) / 2 → f z ≤ f y + ε → f x ≤ f y + ((Nat.clog 2 ((len + 1) / 2) : ℝ) + 1) * ε := by
        intro k z hz hk hf
        have hm : z ∈ p1.take ((len + 1) / 2) := by
          rw [List.mem_iff_getElem?]
          exact ⟨k, by rw [List.getElem?_take_of_lt hk, hz]⟩
        have := d3 z hm
        linarith
      obtain ⟨m, hm, rfl⟩ := List.mem_iff_getElem.1 hy
      rw [hl] at hm
      by_cases h1 : m < len / 2
      · obtain ⟨z, z1, z2, z3⟩ := g3 m h1 pop[len / 2 + m] pop[m] (by simp) (by simp)
        exact step m z z1 (by omega) z3
      · by_cases h2 : m < len / 2 + len / 2
        · obtain ⟨k, rfl⟩ : ∃ k, m = len / 2 + k := ⟨m - len / 2, by omega⟩
          obtain ⟨z, z1, z2, z3⟩ := g3 k (by omega) pop[len / 2 + k] pop[k] (by simp) (by simp)
          exact step k z z1 (by omega) z2
        · have hm' : m = len - 1 := by omega
          have hodd : len % 2 = 1 := by omega
          have e := l2 (by omega) hodd
          have e2 := congrArg (fun l => l[0]?) g5
          simp only [List.getElem?_drop] at e2
          rw [show len / 2 + len / 2 + 0 = len - 1 by omega] at e2
          rw [e2] at e
          subst hm'
          refine step (len / 2) pop[len - 1] (by rw [e]; simp) (by omega) (by linarith)
    · rw [if_neg hlen] at h
      obtain ⟨h0, rfl⟩ := Proc.ofRes_ok h
      have hx := DEnv.getIdx_ok h0
      have : pop = [x] := by
        match pop, hlen, hx with
        | [], _, hx => simp at hx
        | [y], _, hx => simp at hx; rw [hx]
        | _ :: _ :: _, hlen, _ => simp at hlen
      subst this
      refine ⟨[], by simp, fun _ y hy => ?_⟩
      simp only [List.mem_singleton] at hy
      subst hy
      simp only [List.length_cons, List.length_nil] at hl
      subst hl
      simp

section

variable [RPartialOrd P] [RZero P] [ROne P] [RPartialOrd T] [FromI8 T] [RAdd T T T] [RSub T T T] [RMul T T T]
  {fuel : ℕ} {bounds : Fin N → T × T} {cp : P} {w : T} {iters : ℕ} {result : Pt T N} {s s' : DEWorld T N G S}

omit [FromI8 T] in
/-- One iteration: the slot is not worse than before and not worse than the trial point, up to the loss of the call. -/
theorem step_loss {R : DERun T N n} {hn : 0 < n} {calls : List (Call T N)} (hR : R.Explains hn bounds cp w iters calls result)
    (f : Pt T N → ℝ) {t : ℕ} (ht : t < iters) (i : Fin n) :
    (i ≠ slot hn t → R.pop (t + 1) i = R.pop t i) ∧
    (i = slot hn t → f (R.pop (t + 1) i) ≤ f (R.trial t) + Call.loss f ⟨R.trial t, R.pop t i, R.answer t⟩ ∧
      f (R.pop (t + 1) i) ≤ f (R.pop t i) + Call.loss f ⟨R.trial t, R.pop t i, R.answer t⟩) := by
  have ha := Call.loss_a f (R.trial t) (R.pop t i) (R.answer t)
  have hb := Call.loss_b f (R.trial t) (R.pop t i) (R.answer t)
  have e := hR.step t ht
  constructor
  · intro h
    rw [e]
    split
    · rw [Function.update_of_ne h]
    · rfl
  · rintro rfl
    have e' : R.pop (t + 1) (slot hn t) = if R.answer t then R.trial t else R.pop t (slot hn t) := by
      rw [e]
      split
      · rw [Function.update_self]
      · rfl
    rw [e']
    exact ⟨ha, hb⟩

/-- C89: whatever the comparator does, the returned point is at most as much worse than any initial point and any point ever
compared as the answers of the comparator cost altogether. -/
theorem C89_total (hc : env.RandContract) (h : env.optimize fuel bounds n cp w iters s = (.ok result, s')) (f : Pt T N → ℝ) :
    ∃ (initial : Fin n → Pt T N) (calls : List (Call T N)), env.Drawn bounds s.rng initial ∧ s'.log = s.log ++ calls ∧
      (∀ i, f result ≤ f (initial i) + (calls.map (Call.loss f)).sum) ∧
      ∀ call ∈ calls, f result ≤ f call.a + (calls.map (Call.loss f)).sum ∧ f result ≤ f call.b + (calls.map (Call.loss f)).sum := by
  obtain ⟨hn, R, calls, h1, h2, h3, h4, _⟩ := DEnv.optimize_ok hc h
  obtain ⟨k1, k2⟩ := h4.knockout.total f
  set fin := (R.final.map (Call.loss f)).sum with hfin
  set L : ℕ → ℝ := fun t => Call.loss f ⟨R.trial t, R.pop t (slot hn t), R.answer t⟩ with hL
  have hL0 : ∀ t, 0 ≤ L t := fun t => Call.loss_nonneg f _
  have hsum : (calls.map (Call.loss f)).sum = (∑ t ∈ Finset.range iters, L t) + fin := by
    rw [h4.calls_eq, List.map_append, List.sum_append, List.map_map, Finset.sum_range]
    congr 1
    rw [← List.sum_ofFn, List.ofFn_eq_map, ← List.map_coe_finRange_eq_range, List.map_map]
    rfl
  have hstep : ∀ t, t < iters → ∀ i, f (R.pop (t + 1) i) ≤ f (R.pop t i) + L t := by
    intro t ht i
    obtain ⟨a, b⟩ := step_loss h4 f ht i
    by_cases hi : i = slot hn t
    · have := (b hi).2
      rw [hi] at this ⊢
      exact this
    · rw [a hi]; linarith [hL0 t]
  have hlast : ∀ k t, t + k = iters → ∀ i, f (R.pop iters i) ≤ f (R.pop t i) + ∑ u ∈ Finset.Ico t iters, L u := by
    intro k
    induction k with
    | zero => rintro t rfl i; simp
    | succ k ih =>
      intro t ht i
      have h5 := ih (t + 1) (by omega) i
      have h6 := hstep t (by omega) i
      rw [Finset.sum_eq_sum_Ico_succ_bot (by omega : t < iters)]
      linarith
  have hpart : ∀ t, ∑ u ∈ Finset.Ico t iters, L u ≤ ∑ u ∈ Finset.range iters, L u := fun t =>
    Finset.sum_le_sum_of_subset_of_nonneg (by intro u hu; simp at hu ⊢; omega) fun u _ _ => hL0 u
  have hany : ∀ t ≤ iters, ∀ i, f result ≤ f (R.pop t i) + ∑ u ∈ Finset.Ico t iters, L u + fin := by
    intro t ht i
    have := k1 (R.pop iters i) (Multiset.mem_map.2 ⟨i, Finset.mem_univ_val i, rfl⟩)
    linarith [hlast (iters - t) t (by omega) i]
  have hfin0 : 0 ≤ fin := List.sum_nonneg fun x hx => by
    obtain ⟨c, _, rfl⟩ := List.mem_map.1 hx; exact Call.loss_nonneg f c
  have hsum0 : 0 ≤ ∑ u ∈ Finset.range iters, L u := Finset.sum_nonneg fun u _ => hL0 u
  refine ⟨R.pop 0, calls, h3, h1, fun i => ?_, fun call hcall => ?_⟩
  · rw [hsum]; linarith [hany 0 (by omega) i, hpart 0]
  · rw [hsum]
    rw [h4.calls_eq] at hcall
    rcases List.mem_append.1 hcall with hcall | hcall
    · obtain ⟨t, ht, rfl⟩ := List.mem_map.1 hcall
      have ht' : t < iters := by simpa using ht
      refine ⟨?_, by linarith [hany t (by omega) (slot hn t), hpart t]⟩
      have h5 := hany (t + 1) (by omega) (slot hn t)
      have h6 := ((step_loss h4 f ht' (slot hn t)).2 rfl).1
      have h7 := hpart t
      rw [Finset.sum_eq_sum_Ico_succ_bot (by omega : t < iters)] at h7
      simp only [hL] at h5 h7 ⊢
      linarith
    · obtain ⟨j1, j2⟩ := k2 call hcall
      exact ⟨by linarith, by linarith⟩

/-- C89: if no answer costs more than `ε`, the loss does not grow with all calls, but only with the number of iterations of one
slot, `⌈iters / n⌉`, and the number of rounds of the knockout stage, `⌈log₂ n⌉`. -/
theorem C89_tolerance (hc : env.RandContract) (h : env.optimize fuel bounds n cp w iters s = (.ok result, s')) (f : Pt T N → ℝ)
    {ε : ℝ} (hε : ∀ call ∈ s'.log.drop s.log.length, call.loss f ≤ ε) :
    ∃ (initial : Fin n → Pt T N) (calls : List (Call T N)), env.Drawn bounds s.rng initial ∧ s'.log = s.log ++ calls ∧
      (∀ i, f result ≤ f (initial i) + (((iters + n - 1) / n : ℕ) + Nat.clog 2 n) * ε) ∧
      ∀ call ∈ calls, f result ≤ f call.a + (((iters + n - 1) / n : ℕ) + Nat.clog 2 n) * ε ∧
        f result ≤ f call.b + (((iters + n - 1) / n : ℕ) + Nat.clog 2 n) * ε := by
  obtain ⟨hn, R, calls, h1, h2, h3, h4, s1, h5⟩ := DEnv.optimize_ok hc h
  have hε' : ∀ call ∈ calls, call.loss f ≤ ε := by
    rw [h1, List.drop_left] at hε; exact hε
  have hn4 := (C37_valid_of_returns h).size
  have hcard := h4.knockout.length
  have hfinal : R.final.length + 1 = n := by simpa using hcard
  have hε0 : 0 ≤ ε := by
    cases hcs : calls with
    | nil =>
      have := h4.calls_eq
      rw [hcs] at this
      have := congrArg List.length this
      simp at this
      omega
    | cons c cs => exact (Call.loss_nonneg f c).trans (hε' c (by rw [hcs]; simp))
  -- The calls of the knockout stage.
  obtain ⟨cs, g1, g2⟩ := knockout_tol (f := f) hε0 n (by simp) h5
  obtain ⟨cs', g3, _, g4⟩ := DEnv.knockout_ok _ rfl h5
  have hcs : cs = R.final := by
    have e1 : cs = cs' := List.append_cancel_left (g1.symm.trans g3)
    have e2 := g4.length
    simp only [Multiset.coe_card, List.length_ofFn] at e2
    rw [e1]
    have e3 := g3
    rw [h1, h4.calls_eq, ← List.append_assoc] at e3
    exact (List.append_inj_right' e3 (by omega)).symm
  have hko : ∀ i, f result ≤ f (R.pop iters i) + Nat.clog 2 n * ε := by
    intro i
    refine g2 (fun c hcc => hε' c ?_) _ (by simp)
    rw [h4.calls_eq, ← hcs]
    exact List.mem_append_right _ hcc
  have hL : ∀ t < iters, Call.loss f ⟨R.trial t, R.pop t (slot hn t), R.answer t⟩ ≤ ε := by
    intro t ht
    refine hε' _ ?_
    rw [h4.calls_eq]
    exact List.mem_append_left _ (List.mem_map.2 ⟨t, by simpa using ht, rfl⟩)
  -- The calls for one slot.
  set cost : Fin n → ℕ → ℝ := fun i t => if t % n = i then ε else 0 with hcost
  have cost0 : ∀ i t, 0 ≤ cost i t := fun i t => by simp only [hcost]; split <;> [exact hε0; exact le_refl _]
  have hstep : ∀ t, t < iters → ∀ i, f (R.pop (t + 1) i) ≤ f (R.pop t i) + cost i t := by
    intro t ht i
    obtain ⟨a, b⟩ := step_loss h4 f ht i
    by_cases hi : i = slot hn t
    · have hi' : t % n = i := by rw [hi]; rfl
      simp only [hcost, if_pos hi']
      have h6 := (b hi).2
      have h7 := hL t ht
      rw [← hi] at h7
      linarith
    · rw [a hi]; linarith [cost0 i t]
  have hlast : ∀ k t, t + k = iters → ∀ i, f (R.pop iters i) ≤ f (R.pop t i) + ∑ u ∈ Finset.Ico t iters, cost i u := by
    intro k
    induction k with
    | zero => rintro t rfl i; simp
    | succ k ih =>
      intro t ht i
      have h5 := ih (t + 1) (by omega) i
      have h6 := hstep t (by omega) i
      rw [Finset.sum_eq_sum_Ico_succ_bot (by omega : t < iters)]
      linarith
  have hpart : ∀ i t, ∑ u ∈ Finset.Ico t iters, cost i u ≤ ((iters + n - 1) / n : ℕ) * ε := by
    intro i t
    have h6 : ∑ u ∈ Finset.Ico t iters, cost i u ≤ ∑ u ∈ Finset.range iters, cost i u :=
      Finset.sum_le_sum_of_subset_of_nonneg (by intro u hu; simp at hu ⊢; omega) fun u _ _ => cost0 i u
    refine h6.trans ?_
    rw [hcost, ← Finset.sum_filter, Finset.sum_const, nsmul_eq_mul]
    refine mul_le_mul_of_nonneg_right ?_ hε0
    have h7 := Nat.count_modEq_card iters hn (i : ℕ)
    rw [Nat.count_eq_card_filter_range] at h7
    have h8 : (Finset.range iters).filter (fun u => u % n = i) = (Finset.range iters).filter (fun u => u ≡ i [MOD n]) := by
      refine Finset.filter_congr fun u _ => ?_
      rw [Nat.ModEq, Nat.mod_eq_of_lt i.2]
    rw [h8, h7]
    have h9 : iters / n + (if (i : ℕ) % n < iters % n then 1 else 0) ≤ (iters + n - 1) / n := by
      rw [Nat.le_div_iff_mul_le hn]
      have := Nat.div_add_mod iters n
      rw [Nat.add_mul, Nat.mul_comm]
      split
      · omega
      · omega
    exact_mod_cast h9
  have hany : ∀ t ≤ iters, ∀ i, f result ≤ f (R.pop t i) + ∑ u ∈ Finset.Ico t iters, cost i u + Nat.clog 2 n * ε := by
    intro t ht i
    linarith [hlast (iters - t) t (by omega) i, hko i]
  have hclog : 0 ≤ (Nat.clog 2 n : ℝ) * ε := by positivity
  have hq : 0 ≤ (((iters + n - 1) / n : ℕ) : ℝ) * ε := by positivity
  refine ⟨R.pop 0, calls, h3, h1, fun i => ?_, fun call hcall => ?_⟩
  · rw [add_mul]; linarith [hany 0 (by omega) i, hpart i 0]
  · rw [add_mul]
    rw [h4.calls_eq] at hcall
    rcases List.mem_append.1 hcall with hcall | hcall
    · obtain ⟨t, ht, rfl⟩ := List.mem_map.1 hcall
      have ht' : t < iters := by simpa using ht
      refine ⟨?_, by linarith [hany t (by omega) (slot hn t), hpart (slot hn t) t]⟩
      have h5 := hany (t + 1) (by omega) (slot hn t)
      have h6 := ((step_loss h4 f ht' (slot hn t)).2 rfl).1
      have h7 := hpart (slot hn t) t
      rw [Finset.sum_eq_sum_Ico_succ_bot (by omega : t < iters)] at h7
      have h8 : cost (slot hn t) t = ε := if_pos rfl
      have h9 := hL t ht'
      dsimp only
      linarith
    · -- Players of the knockout stage are points of the last population.
      have hmem : ∀ {p : Multiset (Pt T N)} {cs : List (Call T N)} {x : Pt T N}, Knockout p cs x →
          ∀ c ∈ cs, c.a ∈ p ∧ c.b ∈ p := by
        intro p cs x hk
        induction hk with
        | winner x => intro c hc; simp at hc
        | game a b ans p cs x _ ih =>
          intro c hc
          rcases List.mem_cons.1 hc with rfl | hc
          · simp
          · obtain ⟨j1, j2⟩ := ih c hc
            cases ans
            · simp only [Bool.false_eq_true, if_false] at j1 j2
              exact ⟨Multiset.mem_cons_of_mem j1, Multiset.mem_cons_of_mem j2⟩
            · simp only [if_true] at j1 j2
              rw [Multiset.cons_swap]
              exact ⟨Multiset.mem_cons_of_mem j1, Multiset.mem_cons_of_mem j2⟩
      obtain ⟨j1, j2⟩ := hmem h4.knockout call hcall
      obtain ⟨i1, _, e1⟩ := Multiset.mem_map.1 j1
      obtain ⟨i2, _, e2⟩ := Multiset.mem_map.1 j2
      rw [← e1, ← e2]
      exact ⟨by linarith [hko i1], by linarith [hko i2]⟩

/-- C89: a comparator that minimises an approximation `g` of `f`: if `g` is off by at most `δ` at all points, the returned point
is at most `2 δ` worse than every other, however long the run. -/
theorem C89_approximate {V : Type} [LinearOrder V] (g : Pt T N → V) (val : V → ℝ) (hval : ∀ a b, a ≤ b → val a ≤ val b)
    (f : Pt T N → ℝ) {δ : ℝ} (hδ : ∀ x, |val (g x) - f x| ≤ δ) (hc : env.RandContract)
    (hb : env.Compares (fun a b => decide (g a < g b)))
    (h : env.optimize fuel bounds n cp w iters s = (.ok result, s')) :
    ∃ (initial : Fin n → Pt T N) (calls : List (Call T N)), env.Drawn bounds s.rng initial ∧ s'.log = s.log ++ calls ∧
      (∀ i, f result ≤ f (initial i) + 2 * δ) ∧ ∀ call ∈ calls, f result ≤ f call.a + 2 * δ ∧ f result ≤ f call.b + 2 * δ := by
  obtain ⟨initial, calls, h1, h2, h3, h4⟩ := C39_minimum g hc hb h
  have key : ∀ p, g result ≤ g p → f result ≤ f p + 2 * δ := by
    intro p hp
    have a := abs_le.1 (hδ result)
    have b := abs_le.1 (hδ p)
    linarith [hval _ _ hp]
  exact ⟨initial, calls, h1, h2, fun i => key _ (h3 i), fun c hcc => ⟨key _ (h4 c hcc).1, key _ (h4 c hcc).2⟩⟩

/-- C89: an objective computed in floating point arithmetic and compared with `<`: if the computed value is finite and within `δ` of `f`
at all points, the returned point is at most `2 δ` worse than every other, however long the run. -/
theorem C89_float {F : Fmt} (g : Pt T N → Ieee F) (hg : ∀ x, (g x).Finite) (f : Pt T N → ℝ) {δ : ℝ}
    (hδ : ∀ x, |((g x).value : ℝ) - f x| ≤ δ) (hc : env.RandContract) (hb : env.Compares (fun a b => Ieee.flt (g a) (g b)))
    (h : env.optimize fuel bounds n cp w iters s = (.ok result, s')) :
    ∃ (initial : Fin n → Pt T N) (calls : List (Call T N)), env.Drawn bounds s.rng initial ∧ s'.log = s.log ++ calls ∧
      (∀ i, f result ≤ f (initial i) + 2 * δ) ∧ ∀ call ∈ calls, f result ≤ f call.a + 2 * δ ∧ f result ≤ f call.b + 2 * δ := by
  refine C89_approximate (fun x => (g x).value) (fun v => (v : ℝ)) (fun a b h => by exact_mod_cast h) f hδ hc ?_ h
  intro a b s
  rw [hb a b s]
  congr 2
  rw [Bool.eq_iff_iff, decide_eq_true_iff]
  exact Ieee.flt_value (hg a) (hg b)

end

/-! ### The bound is attained -/

/-- The random numbers of the run. -/
def erringDraws : List ℕ := [0, 1, 2, 4, 1, 3, 2, 0, 0, 2, 3, 0, 0, 3, 1, 0, 0, 1, 2, 0]

/-- A generator that gives the random numbers of a list, and a comparator that prefers 3 to 0, 2 to 3, 4 to 1 and 4 to 2. -/
def erring : DEnv (Exact ℤ) (Exact ℤ) 1 ℕ Unit where
  genIndex n g := (if n = 0 then .error .emptyRange else .ok (erringDraws.getD g 0 % n), g + 1)
  genUniform lo hi g := (if lo.val < hi.val then .ok ⟨lo.val + erringDraws.getD g 0 % (hi.val - lo.val)⟩ else .error .emptyRange,
    g + 1)
  genUnit g := (⟨0⟩, g + 1)
  compare a b s := (.ok (decide (((a 0).val, (b 0).val) ∈ [((3 : ℤ), (0 : ℤ)), (2, 3), (4, 1), (4, 2)])), s)

theorem erring_contract : erring.RandContract where
  index_empty g := rfl
  index_returns n g hn := ⟨_, if_neg (by omega)⟩
  index_range n g k h := by
    unfold erring at h
    by_cases hn : n = 0
    · simp [hn] at h
    · simp only [hn, if_false, Except.ok.injEq] at h
      rw [← h]; exact Nat.mod_lt _ (by omega)
  uniform_empty lo hi g h := if_neg (by simpa [RPartialOrd.lt] using h)
  uniform_range lo hi g x h := by
    unfold erring at h
    by_cases hl : lo.val < hi.val
    · simp only [if_pos hl] at h
      cases h
      have h1 := Int.emod_nonneg (erringDraws.getD g 0 : ℤ) (show hi.val - lo.val ≠ 0 by omega)
      have h2 := Int.emod_lt_of_pos (erringDraws.getD g 0 : ℤ) (show 0 < hi.val - lo.val by omega)
      simp only [RPartialOrd.le, RPartialOrd.lt, decide_eq_true_eq]
      omega
    · simp only [if_neg hl] at h; cases h
  unit_range g := by simp [erring, RPartialOrd.lt, RZero.zero, ROne.one]

/-- The run: the calls of the comparator, and the result. -/
theorem erring_run :
    (erring.optimize 10 (fun _ => (⟨0⟩, ⟨5⟩)) 4 ⟨1⟩ ⟨1⟩ 4 ⟨0, (), []⟩).1.toOption.map (fun p => (p 0).val) = some 4 ∧
    (erring.optimize 10 (fun _ => (⟨0⟩, ⟨5⟩)) 4 ⟨1⟩ ⟨1⟩ 4 ⟨0, (), []⟩).2.log.map (fun c => ((c.a 0).val, (c.b 0).val, c.answer)) =
      [(3, 0, true), (1, 1, false), (6, 2, false), (2, 4, false), (2, 3, true), (4, 1, true), (4, 2, true)] := by
  decide +kernel

/-- The objective. -/
def erringF (x : ℤ) : ℕ := if x = 0 then 0 else if x = 3 then 1 else if x = 4 then 3 else 2

/-- C89: the bound of `C89_tolerance` cannot be improved: in a run with 4 points and 4 iterations, every answer of which costs at
most `ε`, the returned point is worse than the first initial point by exactly that amount. -/
theorem C89_attained {ε : ℝ} (hε : 0 ≤ ε) : ∃ (env : DEnv (Exact ℤ) (Exact ℤ) 1 ℕ Unit) (f : Pt (Exact ℤ) 1 → ℝ) (fuel : ℕ)
    (bounds : Fin 1 → Exact ℤ × Exact ℤ) (cp w : Exact ℤ) (s s' : DEWorld (Exact ℤ) 1 ℕ Unit) (result : Pt (Exact ℤ) 1)
    (initial : Fin 4 → Pt (Exact ℤ) 1), env.RandContract ∧ env.optimize fuel bounds 4 cp w 4 s = (.ok result, s') ∧
      env.Drawn bounds s.rng initial ∧ (∀ call ∈ s'.log.drop s.log.length, call.loss f ≤ ε) ∧
      f result = f (initial 0) + (((4 + 4 - 1) / 4 : ℕ) + Nat.clog 2 4) * ε := by
  obtain ⟨h1, h2⟩ := erring_run
  rcases hr : erring.optimize 10 (fun _ => (⟨0⟩, ⟨5⟩)) 4 ⟨1⟩ ⟨1⟩ 4 ⟨0, (), []⟩ with ⟨e | x, s'⟩
  · rw [hr] at h1; cases h1
  rw [hr] at h1 h2
  have hx : (x 0).val = 4 := Option.some.inj h1
  refine ⟨erring, fun x => erringF (x 0).val * ε, 10, _, _, _, _, s', x, fun i _ => ⟨if i = 3 then 4 else i⟩, erring_contract, hr,
    ?_, ?_, ?_⟩
  · intro i c
    fin_cases c
    fin_cases i <;> rfl
  · intro call hcall
    have hm : ((call.a 0).val, (call.b 0).val, call.answer) ∈ s'.log.map (fun c => ((c.a 0).val, (c.b 0).val, c.answer)) :=
      List.mem_map_of_mem (by simpa using hcall)
    rw [h2] at hm
    simp only [List.mem_cons, Prod.mk.injEq, List.not_mem_nil, or_false] at hm
    have key : ∀ (a b : ℤ) (ans : Bool), (if ans then (erringF a : ℤ) - erringF b else erringF b - erringF a) ≤ 1 →
        (call.a 0).val = a ∧ (call.b 0).val = b ∧ call.answer = ans →
        Call.loss (fun x : Pt (Exact ℤ) 1 => erringF (x 0).val * ε) call ≤ ε := by
      rintro a b ans h ⟨rfl, rfl, rfl⟩
      unfold Call.loss
      cases hans : call.answer
      · rw [hans] at h
        simp only [Bool.false_eq_true, if_false] at h ⊢
        have h' : (erringF (call.b 0).val : ℝ) - erringF (call.a 0).val ≤ 1 := by exact_mod_cast h
        exact max_le hε (by nlinarith)
      · rw [hans] at h
        simp only [if_true] at h ⊢
        have h' : (erringF (call.a 0).val : ℝ) - erringF (call.b 0).val ≤ 1 := by exact_mod_cast h
        exact max_le hε (by nlinarith)
    rcases hm with h | h | h | h | h | h | h <;> exact key _ _ _ (by decide) h
  · have : Nat.clog 2 4 = 2 := by decide +kernel
    dsimp only
    rw [this, hx]
    simp [erringF]
    norm_num

end Magnesia
