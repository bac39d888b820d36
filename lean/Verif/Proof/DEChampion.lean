import Verif.Spec.DEProb
import Verif.Proof.DESafe

/-!
# The tournament of the optimizer with a consistent comparator (helper lemmas)
-/

namespace Magnesia

variable {T P G S α β : Type} {N : ℕ}

/-- `m` returns `a` without touching the generator, and what it does to the rest does not depend on the generator. -/
def Det (m : Proc (DEWorld T N G S) α) (a : α) : Prop := ∀ c l, ∃ c' l', ∀ g, m ⟨g, c, l⟩ = (.ok a, ⟨g, c', l'⟩)

namespace Det

theorem pure (a : α) : Det (Pure.pure a : Proc (DEWorld T N G S) α) a := fun c l => ⟨c, l, fun _ => rfl⟩

theorem ofRes {x : Res α} {a : α} (h : x = .ok a) : Det (Proc.ofRes x : Proc (DEWorld T N G S) α) a :=
  fun c l => ⟨c, l, fun _ => by rw [h]; rfl⟩

theorem bind {m : Proc (DEWorld T N G S) α} {f : α → Proc (DEWorld T N G S) β} {a : α} {b : β} (hm : Det m a)
    (hf : Det (f a) b) : Det (m >>= f) b := by
  intro c l
  obtain ⟨c1, l1, h1⟩ := hm c l
  obtain ⟨c2, l2, h2⟩ := hf c1 l1
  refine ⟨c2, l2, fun g => ?_⟩
  rw [Proc.bind_eq, h1]
  exact h2 g

theorem cmp {env : DEnv T P N G S} {better : Pt T N → Pt T N → Bool} (h : env.Compares better) (a b : Pt T N) :
    Det (env.cmp a b) (better a b) := by
  intro c l
  refine ⟨(env.compare a b c).2, l ++ [⟨a, b, better a b⟩], fun g => ?_⟩
  unfold DEnv.cmp
  simp only [h a b c]

end Det

theorem getIdx_some {l : List α} {i : ℕ} {x : α} (h : l[i]? = some x) : getIdx l i = .ok x := by
  unfold getIdx; rw [h]

theorem setRes_some {l : List α} {i : ℕ} (h : i < l.length) (x : α) :
    (updAt l i (fun _ => .done x)).toRes = .ok (l.set i x) := by
  unfold updAt
  rw [List.getElem?_eq_getElem h]
  rfl

/-- The winner of game `i`. -/
def winner (better : α → α → Bool) (b a : α) : α := if better a b then a else b

/-- The list after the first `i` games of a round. -/
structure AfterGames (better : α → α → Bool) (pop : List α) (i : ℕ) (l : List α) : Prop where
  len : l.length = pop.length
  won : ∀ j a b, j < i → pop[pop.length / 2 + j]? = some a → pop[j]? = some b → l[j]? = some (winner better b a)
  todo : ∀ j, i ≤ j → (j ≠ pop.length / 2 ∨ pop.length % 2 = 0 ∨ i = 0) → l[j]? = pop[j]?
  bye : pop.length % 2 = 1 → 0 < i → l[pop.length / 2]? = pop[pop.length - 1]?

theorem det_takeOver {pop : List (Pt T N)} {half i : ℕ} {a b : Pt T N} (ans : Bool) (ha : pop[half + i]? = some a)
    (hb : pop[i]? = some b) : DEnv.takeOver ans half pop i = .ok (pop.set i (if ans then a else b)) := by
  obtain ⟨h1, h2⟩ := List.getElem?_eq_some_iff.1 hb
  unfold DEnv.takeOver
  cases ans with
  | true =>
    rw [getIdx_some ha]
    exact setRes_some h1 _
  | false =>
    subst h2
    simp
    rfl

theorem det_game {env : DEnv T P N G S} {better : Pt T N → Pt T N → Bool} (h : env.Compares better) {pop l : List (Pt T N)}
    {i : ℕ} (hi : i < pop.length / 2) (hl : AfterGames better pop i l) :
    ∃ l', Det (env.knockoutGame pop.length (pop.length / 2) l i) l' ∧ AfterGames better pop (i + 1) l' := by
  set half := pop.length / 2 with hhalf
  have ha1 : half + i < pop.length := by omega
  have ha : l[half + i]? = some pop[half + i] := by
    rw [hl.todo (half + i) (by omega) (by omega)]
    exact List.getElem?_eq_getElem ha1
  have hb : l[i]? = some pop[i] := by
    rw [hl.todo i (le_refl i) (by omega)]
    exact List.getElem?_eq_getElem _
  obtain ⟨v, hv⟩ : ∃ v, v = winner better pop[i] pop[half + i] := ⟨_, rfl⟩
  have hset : DEnv.takeOver (better pop[half + i] pop[i]) half l i = .ok (l.set i v) := by
    rw [hv]; exact det_takeOver _ ha hb
  have hlen : (l.set i v).length = pop.length := by simp [hl.len]
  have hlast : pop.length % 2 = 1 → (l.set i v)[pop.length - 1]? = some pop[pop.length - 1] := by
    intro hodd
    rw [List.getElem?_set_ne (by omega), hl.todo _ (by omega) (by omega)]
    exact List.getElem?_eq_getElem _
  have start : ∀ {l' : List (Pt T N)}, Det (T := T) (N := N) (G := G) (S := S) (if pop.length % 2 = 1 then
      Proc.ofRes (do
        let x ← getIdx (l.set i v) (pop.length - 1)
        (updAt (l.set i v) half (fun _ => .done x)).toRes) else Pure.pure (l.set i v)) l' →
      Det (env.knockoutGame pop.length half l i) l' := by
    intro l' hd
    unfold DEnv.knockoutGame
    exact (Det.ofRes (getIdx_some ha)).bind ((Det.ofRes (getIdx_some hb)).bind ((Det.cmp h _ _).bind
      ((Det.ofRes hset).bind hd)))
  by_cases hodd : pop.length % 2 = 1
  · refine ⟨(l.set i v).set half pop[pop.length - 1], start ?_, by simp [hl.len], ?_, ?_, ?_⟩
    · rw [if_pos hodd]
      refine Det.ofRes ?_
      rw [getIdx_some (hlast hodd)]
      exact setRes_some (by omega) _
    · intro j a b hj ha' hb'
      rw [List.getElem?_set_ne (by omega)]
      by_cases hji : j = i
      · subst hji
        rw [List.getElem?_set_self (by rw [hl.len]; omega), hv]
        rw [List.getElem?_eq_some_iff] at ha' hb'
        obtain ⟨_, rfl⟩ := ha'
        obtain ⟨_, rfl⟩ := hb'
        rfl
      · rw [List.getElem?_set_ne (by omega)]
        exact hl.won j a b (by omega) ha' hb'
    · intro j hj hj2
      rw [List.getElem?_set_ne (by omega), List.getElem?_set_ne (by omega)]
      exact hl.todo j (by omega) (by omega)
    · intro _ _
      rw [List.getElem?_set_self (by omega)]
      exact (List.getElem?_eq_getElem _).symm
  · refine ⟨l.set i v, start ?_, hlen, ?_, ?_, fun h => absurd h hodd⟩
    · rw [if_neg hodd]
      exact Det.pure _
    · intro j a b hj ha' hb'
      by_cases hji : j = i
      · subst hji
        rw [List.getElem?_set_self (by rw [hl.len]; omega), hv]
        rw [List.getElem?_eq_some_iff] at ha' hb'
        obtain ⟨_, rfl⟩ := ha'
        obtain ⟨_, rfl⟩ := hb'
        rfl
      · rw [List.getElem?_set_ne (by omega)]
        exact hl.won j a b (by omega) ha' hb'
    · intro j hj hj2
      rw [List.getElem?_set_ne (by omega)]
      exact hl.todo j (by omega) (by omega)

theorem det_games {env : DEnv T P N G S} {better : Pt T N → Pt T N → Bool} (h : env.Compares better) {pop : List (Pt T N)} :
    ∀ i, i ≤ pop.length / 2 → ∃ l', Det ((List.range i).foldlM (env.knockoutGame pop.length (pop.length / 2)) pop) l' ∧
      AfterGames better pop i l'
  | 0, _ => ⟨pop, Det.pure _, rfl, fun j a b hj => absurd hj (by omega), fun _ _ _ => rfl, fun _ h => absurd h (by omega)⟩
  | i + 1, hi => by
    obtain ⟨l, h1, h2⟩ := det_games h (pop := pop) i (by omega)
    obtain ⟨l', h3, h4⟩ := det_game h (pop := pop) (i := i) (by omega) h2
    refine ⟨l', ?_, h4⟩
    rw [List.range_succ, List.foldlM_append]
    refine h1.bind ?_
    simpa [List.foldlM] using h3

theorem afterGames_take {better : α → α → Bool} {pop l : List α} (h : AfterGames better pop (pop.length / 2) l)
    (h2 : 2 ≤ pop.length) : l.take ((pop.length + 1) / 2) = playRound better pop := by
  have hz : (List.zipWith (fun b a => if better a b then a else b) (pop.take (pop.length / 2))
      (pop.drop (pop.length / 2))).length = pop.length / 2 := by simp; omega
  apply List.ext_getElem?
  intro j
  unfold playRound
  by_cases hj : j < pop.length / 2
  · rw [List.getElem?_append_left (by omega), List.getElem?_take_of_lt (by omega),
      h.won j pop[pop.length / 2 + j] pop[j] hj (List.getElem?_eq_getElem _) (List.getElem?_eq_getElem _)]
    rw [List.getElem?_zipWith, List.getElem?_take_of_lt hj, List.getElem?_drop, List.getElem?_eq_getElem (by omega),
      List.getElem?_eq_getElem (by omega)]
    rfl
  · rw [List.getElem?_append_right (by omega), hz, List.getElem?_drop]
    by_cases hj2 : j < (pop.length + 1) / 2
    · have : j = pop.length / 2 := by omega
      subst this
      rw [List.getElem?_take_of_lt hj2, h.bye (by omega) (by omega)]
      congr 1
      omega
    · rw [List.getElem?_eq_none (by simp; omega), List.getElem?_eq_none (by omega)]

/-- The knockout stage returns the winner of the tournament. -/
theorem det_knockout {env : DEnv T P N G S} {better : Pt T N → Pt T N → Bool} (h : env.Compares better) :
    ∀ (k : ℕ) (pop : List (Pt T N)) (_ : pop.length = k) (_ : pop ≠ []),
      ∃ x, champion better pop = some x ∧ Det (env.knockout pop) x := by
  intro k
  induction k using Nat.strong_induction_on with
  | _ k ih =>
    intro pop hk hne
    match pop, hk, hne with
    | [x], _, _ =>
      refine ⟨x, by rw [champion], ?_⟩
      rw [DEnv.knockout]
      exact Det.ofRes rfl
    | x :: y :: pop, hk, _ =>
      obtain ⟨l, h1, h2⟩ := det_games h (pop := x :: y :: pop) _ (le_refl _)
      have h3 := afterGames_take h2 (by simp)
      have hlen : (playRound better (x :: y :: pop)).length = ((x :: y :: pop).length + 1) / 2 := by
        rw [← h3, List.length_take, h2.len]; omega
      obtain ⟨z, h4, h5⟩ := ih (playRound better (x :: y :: pop)).length (by rw [hlen]; simp at hk ⊢; omega) _ rfl (by
        intro h0; rw [h0] at hlen; simp at hlen; omega)
      refine ⟨z, by rw [champion]; exact h4, ?_⟩
      rw [DEnv.knockout, if_pos (by simp)]
      refine h1.bind ?_
      rw [h3]
      exact h5

end Magnesia
