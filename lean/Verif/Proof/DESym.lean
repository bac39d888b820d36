import Verif.Spec.DESym
import Verif.Proof.DELaw

/-!
# The textbook algorithm does not depend on how the problem is written (helper lemmas)
-/

namespace Magnesia

open ENNReal

variable {T T' P α β : Type} {N n : ℕ}

/-- Functions of independent values are independent. -/
theorem indep_map : ∀ {k : ℕ} (p : Fin k → PMF α) (f : Fin k → α → β),
    (indep fun i => (p i).map (f i)) = (indep p).map fun x i => f i (x i)
  | 0, p, f => by
    show PMF.pure Fin.elim0 = (PMF.pure Fin.elim0).map _
    rw [PMF.pure_map]
    congr 1
    funext i
    exact i.elim0
  | k + 1, p, f => by
    show ((p 0).map (f 0)).bind (fun x => (indep fun i => (p i.succ).map (f i.succ)).map fun g => (Fin.cons x g : Fin (k + 1) → β)) =
      ((p 0).bind fun x => (indep fun i => p i.succ).map fun g => (Fin.cons x g : Fin (k + 1) → α)).map _
    rw [PMF.bind_map, PMF.map_bind]
    congr 1
    funext x
    rw [indep_map (fun i => p i.succ) (fun i => f i.succ)]
    show ((indep fun i => p i.succ).map _).map _ = _
    rw [PMF.map_comp, PMF.map_comp]
    congr 1
    funext g i
    refine Fin.cases ?_ (fun i => ?_) i <;> rfl

/-- The order of independent values does not matter. -/
theorem indep_perm {k : ℕ} (p : Fin k → PMF α) (σ : Equiv.Perm (Fin k)) :
    (indep fun i => p (σ i)) = (indep p).map fun x i => x (σ i) := by
  ext f
  let e : (Fin k → α) → (Fin k → α) := fun x i => x (σ i)
  have he : Function.Injective e := fun x y h => funext fun i => by simpa [e] using congrFun h (σ.symm i)
  have hf : f = e (fun i => f (σ.symm i)) := by funext i; simp [e]
  show _ = (indep p).map e f
  rw [hf]
  have : (indep p).map e (e fun i => f (σ.symm i)) = indep p fun i => f (σ.symm i) := by
    rw [PMF.map_apply]
    refine (tsum_eq_single (fun i => f (σ.symm i)) fun x hx => if_neg fun h => hx (he h).symm).trans (if_pos rfl)
  rw [this, indep_apply, indep_apply, ← hf, ← Equiv.prod_comp σ fun i => p i (f (σ.symm i))]
  simp

/-- Drawing a coordinate uniformly and renaming it. -/
theorem uniform_perm [NeZero N] (σ : Equiv.Perm (Fin N)) (K : Fin N → PMF α) :
    ((PMF.uniformOfFintype (Fin N)).bind fun r => K (σ r)) = (PMF.uniformOfFintype (Fin N)).bind K := by
  ext x
  simp only [PMF.bind_apply, PMF.uniformOfFintype_apply, tsum_fintype]
  exact Equiv.sum_comp σ fun r => (Fintype.card (Fin N) : ℝ≥0∞)⁻¹ * K r x

theorem playRound_map (f : α → β) {better : α → α → Bool} {better' : β → β → Bool}
    (h : ∀ x y, better' (f x) (f y) = better x y) (l : List α) :
    playRound better' (l.map f) = (playRound better l).map f := by
  unfold playRound
  rw [List.length_map, List.map_append, List.map_drop, List.map_zipWith, ← List.map_take, ← List.map_drop, List.zipWith_map]
  congr 2
  funext b a
  rw [h]
  split <;> rfl

theorem champion_map (f : α → β) {better : α → α → Bool} {better' : β → β → Bool}
    (h : ∀ x y, better' (f x) (f y) = better x y) (l : List α) :
    champion better' (l.map f) = (champion better l).map f := by
  induction l using champion.induct better with
  | case1 => simp [champion]
  | case2 x => simp [champion]
  | case3 x y l ih =>
    rw [champion, ← ih, ← playRound_map f h, List.map_cons, List.map_cons, champion]

namespace Recoded

variable {E : Textbook T P N} {E' : Textbook T' P N} {σ : Equiv.Perm (Fin N)} {φ : Fin N → T → T'}

variable [RPartialOrd P] (h : Recoded E E' σ φ)
include h

omit [RPartialOrd P] in
theorem start : indep E'.D = (indep E.D).map (recode σ φ) := by
  have e : E'.D = fun c => (E.D (σ c)).map (φ c) := funext h.initial
  rw [e, indep_map, indep_perm, PMF.map_comp]
  rfl

theorem crossover (current donor : Pt T N) (r : Fin N) :
    E'.crossover (recode σ φ current) (recode σ φ donor) r = (E.crossover current donor (σ r)).map (recode σ φ) := by
  unfold Textbook.crossover
  have e : (fun c => if c = r then PMF.pure (recode σ φ donor c) else E'.U.map fun u =>
      if RPartialOrd.lt u E'.cp then recode σ φ donor c else recode σ φ current c) =
      fun c => ((fun c => if c = σ r then PMF.pure (donor c) else E.U.map fun u =>
        if RPartialOrd.lt u E.cp then donor c else current c) (σ c)).map (φ c) := by
    funext c
    by_cases hc : c = r
    · subst hc
      simp only [if_true, PMF.pure_map]
      rfl
    · simp only [hc, if_false, σ.injective.eq_iff, PMF.map_comp, h.random, h.cp]
      congr 1
      funext u
      simp only [Function.comp]
      split <;> rfl
  rw [e, indep_map (fun c => (fun c => if c = σ r then PMF.pure (donor c) else E.U.map fun u =>
        if RPartialOrd.lt u E.cp then donor c else current c) (σ c)) φ, indep_perm (fun c => if c = σ r then PMF.pure (donor c) else E.U.map fun u =>
        if RPartialOrd.lt u E.cp then donor c else current c) σ, PMF.map_comp]
  rfl

theorem trial [NeZero N] (pop : Fin n → Pt T N) (hn : 4 ≤ n) (i : Fin n) :
    E'.trial (fun k => recode σ φ (pop k)) hn i = (E.trial pop hn i).map (recode σ φ) := by
  unfold Textbook.trial
  rw [PMF.map_bind]
  congr 1
  funext t
  rw [PMF.map_bind]
  refine Eq.trans ?_ (uniform_perm σ _)
  congr 1
  funext r
  rw [← h.crossover]
  congr 1
  funext c
  exact (h.mutation c _ _ _).symm

theorem step [NeZero N] (pop : Fin n → Pt T N) (hn : 4 ≤ n) (i : Fin n) :
    E'.step (fun k => recode σ φ (pop k)) hn i = (E.step pop hn i).map fun pop k => recode σ φ (pop k) := by
  unfold Textbook.step
  rw [h.trial, PMF.map_comp, PMF.map_comp]
  congr 1
  funext x
  simp only [Function.comp, h.better]
  split
  · funext k
    by_cases hk : k = i
    · subst hk; simp
    · simp [hk]
  · rfl

theorem population [NeZero N] (hn : 4 ≤ n) : ∀ t,
    E'.population hn t = (E.population hn t).map fun pop k => recode σ φ (pop k)
  | 0 => by
    show (indep fun _ => indep E'.D) = (indep fun _ => indep E.D).map _
    rw [h.start, indep_map]
  | t + 1 => by
    show (E'.population hn t).bind _ = ((E.population hn t).bind _).map _
    rw [population hn t, PMF.bind_map, PMF.map_bind]
    congr 1
    funext pop
    exact h.step pop hn _

theorem result [NeZero N] (hn : 4 ≤ n) (iters : ℕ) :
    E'.result hn iters = (E.result hn iters).map (Option.map (recode σ φ)) := by
  unfold Textbook.result
  rw [h.population, PMF.map_comp, PMF.map_comp]
  congr 1
  funext pop
  simp only [Function.comp]
  rw [← champion_map (recode σ φ) h.better, List.map_ofFn]
  rfl

end Recoded

end Magnesia
