import Verif.Proof.DE

/-!
# Absence of panics and termination of the optimizer (helper lemmas)
-/

namespace Magnesia

set_option linter.unusedSectionVars false

open RZero ROne

variable {W α β : Type}

namespace Proc

/-- From every world, `m` returns a value with `Q` or runs out of fuel. -/
def Safe (m : Proc W α) (Q : α → Prop) : Prop :=
  ∀ w, (∃ a w', m w = (.ok a, w') ∧ Q a) ∨ ∃ w', m w = (.error .fuel, w')

theorem Safe.bind {m : Proc W α} {f : α → Proc W β} {Q : α → Prop} {Q' : β → Prop} (hm : Safe m Q)
    (hf : ∀ a, Q a → Safe (f a) Q') : Safe (m >>= f) Q' := by
  intro w
  rcases hm w with ⟨a, w1, h1, h2⟩ | ⟨w1, h1⟩
  · rw [bind_eq, h1]; exact hf a h2 w1
  · rw [bind_eq, h1]; exact .inr ⟨w1, rfl⟩

theorem Safe.pure {a : α} {Q : α → Prop} (h : Q a) : Safe (Pure.pure a : Proc W α) Q := fun w => .inl ⟨a, w, rfl, h⟩

theorem Safe.ofRes {x : Res α} {a : α} {Q : α → Prop} (hx : x = .ok a) (h : Q a) : Safe (Proc.ofRes x : Proc W α) Q := by
  subst hx; exact fun w => .inl ⟨a, w, rfl, h⟩

theorem Safe.mono {m : Proc W α} {Q Q' : α → Prop} (hm : Safe m Q) (h : ∀ a, Q a → Q' a) : Safe m Q' := by
  intro w
  rcases hm w with ⟨a, w1, h1, h2⟩ | ⟨w1, h1⟩
  · exact .inl ⟨a, w1, h1, h a h2⟩
  · exact .inr ⟨w1, h1⟩

theorem Safe.fromFn : ∀ {n : ℕ} {f : Fin n → Proc W α}, (∀ i, Safe (f i) (fun _ => True)) →
    Safe (fromFnM n f) (fun _ => True) := by
  intro n
  induction n with
  | zero => intro f _; exact Safe.pure trivial
  | succ n ih =>
    intro f hf
    exact (hf 0).bind fun x _ => (ih fun i => hf i.succ).bind fun xs _ => Safe.pure trivial

theorem Safe.mapM {ι : Type} {f : ι → Proc W α} (hf : ∀ i, Safe (f i) (fun _ => True)) : ∀ l : List ι,
    Safe (l.mapM f) (fun v => v.length = l.length) := by
  intro l
  induction l with
  | nil => rw [List.mapM_nil]; exact Safe.pure rfl
  | cons a l ih =>
    rw [List.mapM_cons]
    exact (hf a).bind fun x _ => ih.bind fun xs hx => Safe.pure (by simp [hx])

theorem Safe.foldlM {ι : Type} {f : α → ι → Proc W α} {Q : α → Prop} {l : List ι}
    (hf : ∀ a, ∀ i ∈ l, Q a → Safe (f a i) Q) : ∀ {a : α}, Q a → Safe (l.foldlM f a) Q := by
  induction l with
  | nil => intro a ha; exact Safe.pure ha
  | cons i l ih =>
    intro a ha
    rw [List.foldlM_cons]
    exact (hf a i List.mem_cons_self ha).bind fun b hb => ih (fun a j hj => hf a j (List.mem_cons_of_mem _ hj)) hb

/-- From every world, there is an outcome (a value or a genuine panic) that does not change for all sufficiently large
bounds on the number of draws. -/
def Settles (m : ℕ → Proc W α) : Prop :=
  ∀ w, ∃ F r w', r ≠ .error .fuel ∧ ∀ fuel, F ≤ fuel → m fuel w = (r, w')

theorem Settles.bind {m : ℕ → Proc W α} {f : ℕ → α → Proc W β} (hm : Settles m)
    (hf : ∀ a, (∃ fuel w w', m fuel w = (.ok a, w')) → Settles (fun fuel => f fuel a)) :
    Settles (fun fuel => m fuel >>= f fuel) := by
  intro w
  obtain ⟨F, r, w1, h1, h2⟩ := hm w
  cases r with
  | error e =>
    exact ⟨F, .error e, w1, fun h => h1 (by cases h; rfl), fun fuel hF => by
      show (m fuel >>= f fuel) w = _
      rw [bind_eq, h2 fuel hF]⟩
  | ok a =>
    obtain ⟨F', r, w2, h3, h4⟩ := hf a ⟨F, w, w1, h2 F (le_refl F)⟩ w1
    refine ⟨max F F', r, w2, h3, fun fuel hF => ?_⟩
    show (m fuel >>= f fuel) w = _
    rw [bind_eq, h2 fuel (le_trans (le_max_left _ _) hF)]
    exact h4 fuel (le_trans (le_max_right _ _) hF)

/-- A computation that never runs out of fuel. -/
def NoFuel (m : Proc W α) : Prop := ∀ w, (m w).1 ≠ .error .fuel

theorem NoFuel.settles {m : Proc W α} (h : NoFuel m) : Settles (fun _ => m) :=
  fun w => ⟨0, (m w).1, (m w).2, h w, fun _ _ => rfl⟩

theorem NoFuel.bind {m : Proc W α} {f : α → Proc W β} (hm : NoFuel m) (hf : ∀ a, NoFuel (f a)) : NoFuel (m >>= f) := by
  intro w
  have := hm w
  rw [bind_eq]
  rcases hw : m w with ⟨e | a, w1⟩
  · rw [hw] at this; intro h; apply this; cases h; rfl
  · exact hf a w1

theorem NoFuel.pure (a : α) : NoFuel (Pure.pure a : Proc W α) := fun w h => by cases h

theorem NoFuel.ofRes {x : Res α} (h : x ≠ .error .fuel) : NoFuel (Proc.ofRes x : Proc W α) := fun _ => h

theorem NoFuel.fromFn : ∀ {n : ℕ} {f : Fin n → Proc W α}, (∀ i, NoFuel (f i)) → NoFuel (fromFnM n f) := by
  intro n
  induction n with
  | zero => intro f _; exact NoFuel.pure _
  | succ n ih =>
    intro f hf
    exact (hf 0).bind fun x => (ih fun i => hf i.succ).bind fun xs => NoFuel.pure _

theorem NoFuel.mapM {ι : Type} {f : ι → Proc W α} (hf : ∀ i, NoFuel (f i)) : ∀ l : List ι, NoFuel (l.mapM f) := by
  intro l
  induction l with
  | nil => rw [List.mapM_nil]; exact NoFuel.pure _
  | cons a l ih =>
    rw [List.mapM_cons]
    exact (hf a).bind fun x => ih.bind fun xs => NoFuel.pure _

theorem NoFuel.foldlM {ι : Type} {f : α → ι → Proc W α} (hf : ∀ a i, NoFuel (f a i)) : ∀ (l : List ι) (a : α),
    NoFuel (l.foldlM f a) := by
  intro l
  induction l with
  | nil => intro a; exact NoFuel.pure _
  | cons i l ih =>
    intro a
    rw [List.foldlM_cons]
    exact (hf a i).bind fun b => ih b

theorem Settles.foldlM {ι : Type} {f : ℕ → α → ι → Proc W α} (hf : ∀ a i, Settles (fun fuel => f fuel a i)) :
    ∀ (l : List ι) (a : α), Settles (fun fuel => l.foldlM (f fuel) a) := by
  intro l
  induction l with
  | nil => intro a; exact (NoFuel.pure a).settles
  | cons i l ih =>
    intro a
    simp only [List.foldlM_cons]
    exact (hf a i).bind fun b _ => ih b

end Proc

namespace DEnv

open Proc

variable {T P G S : Type} {N n : ℕ} {env : DEnv T P N G S}
variable [RPartialOrd P] [RZero P] [ROne P] [RPartialOrd T] [FromI8 T] [RAdd T T T] [RSub T T T] [RMul T T T]

/-! ### Absence of panics -/

theorem index_safe (hc : env.RandContract) (hn : 0 < n) : Safe (env.index n) (fun k => k < n) := by
  intro w
  obtain ⟨k, hk⟩ := hc.index_returns n w.rng hn
  exact .inl ⟨k, (env.index n w).2, Prod.ext hk rfl, hc.index_range _ _ _ hk⟩

theorem draw_safe (hc : env.RandContract) (hn : 0 < n) (avoid : List ℕ) (fuel : ℕ) :
    Safe (env.draw n avoid fuel) (fun k => k < n) := by
  induction fuel with
  | zero => exact fun w => .inr ⟨w, rfl⟩
  | succ fuel ih =>
    refine (index_safe hc hn).bind fun j hj => ?_
    cases avoid.contains j with
    | true => exact ih
    | false => exact Safe.pure hj

theorem unit_safe : Safe env.unit (fun _ => True) := fun _ => .inl ⟨_, _, rfl, trivial⟩

theorem trial_safe (ha : Arith T) (pop : Fin n → Pt T N) (cp : P) (w : T) (i j k l : Fin n) (r : ℕ) :
    Safe (env.trial (List.ofFn pop) cp w i j k l r) (fun _ => True) := by
  unfold trial
  refine Safe.fromFn fun c => ?_
  have hm : Safe (env.mutates cp c r) (fun _ => True) := by
    unfold mutates
    split
    · exact Safe.pure trivial
    · exact unit_safe.bind fun _ _ => Safe.pure trivial
  refine hm.bind fun b _ => ?_
  cases b with
  | true =>
    rw [if_pos rfl, getIdx_ofFn, getIdx_ofFn, getIdx_ofFn]
    obtain ⟨y, hy⟩ := ha (pop j c) (pop k c) (pop l c) w
    exact Safe.ofRes hy trivial
  | false =>
    rw [if_neg (by simp), getIdx_ofFn]
    exact Safe.ofRes rfl trivial

theorem cmp_safe (ht : env.CmpTotal) (a b : Pt T N) : Safe (env.cmp a b) (fun _ => True) := by
  intro w
  obtain ⟨r, hr⟩ := ht a b w.cmp
  exact .inl ⟨r, (env.cmp a b w).2, Prod.ext hr rfl, trivial⟩

theorem setRes_of_lt {l : List α} {i : ℕ} (h : i < l.length) (x : α) :
    (updAt l i (fun _ => .done x)).toRes = .ok (l.set i x) := by
  unfold updAt
  rw [List.getElem?_eq_getElem h]
  rfl

theorem getIdx_of_lt {l : List α} {i : ℕ} (h : i < l.length) : getIdx l i = .ok l[i] :=
  getIdx_eq.2 (List.getElem?_eq_getElem h)

theorem iteration_safe (hc : env.RandContract) (hN : 0 < N) (ha : Arith T) (ht : env.CmpTotal) (fuel : ℕ)
    (pop : List (Pt T N)) (hp : pop.length = n) (cp : P) (w : T) (i : Fin n) :
    Safe (env.iteration fuel cp w n pop i) (fun p => p.length = n) := by
  have hn : 0 < n := i.pos
  obtain ⟨pop, rfl⟩ : ∃ f : Fin n → Pt T N, pop = List.ofFn f := by
    subst hp
    exact ⟨fun i => pop[i], List.ofFn_getElem.symm⟩
  unfold iteration
  refine (draw_safe hc hn _ fuel).bind fun j hj => (draw_safe hc hn _ fuel).bind fun k hk =>
    (draw_safe hc hn _ fuel).bind fun l hl => (index_safe hc hN).bind fun r hr =>
    (trial_safe ha pop cp w i ⟨j, hj⟩ ⟨k, hk⟩ ⟨l, hl⟩ r).bind fun x _ => ?_
  rw [getIdx_ofFn]
  refine (Safe.ofRes (a := pop i) (Q := fun _ => True) rfl trivial).bind fun xi _ => ?_
  refine (cmp_safe ht x xi).bind fun b _ => ?_
  cases b with
  | true =>
    rw [if_pos rfl]
    exact Safe.ofRes (setRes_of_lt (by simp) x) (by simp)
  | false =>
    rw [if_neg (by simp)]
    exact Safe.pure (by simp)

theorem takeOver_ok {answer : Bool} {half : ℕ} {pop : List (Pt T N)} {i : ℕ} (h : half + i < pop.length) :
    ∃ p, takeOver answer half pop i = .ok p ∧ p.length = pop.length := by
  unfold takeOver
  cases answer with
  | true =>
    rw [if_pos rfl, getIdx_of_lt h]
    exact ⟨_, setRes_of_lt (by omega) _, by simp⟩
  | false => exact ⟨pop, rfl, rfl⟩

theorem game_safe (ht : env.CmpTotal) {len : ℕ} {pop : List (Pt T N)} (hp : pop.length = len) {i : ℕ} (hi : i < len / 2) :
    Safe (env.knockoutGame len (len / 2) pop i) (fun p => p.length = len) := by
  unfold knockoutGame
  rw [getIdx_of_lt (show len / 2 + i < pop.length by omega), getIdx_of_lt (show i < pop.length by omega)]
  refine (Safe.ofRes (Q := fun _ => True) rfl trivial).bind fun a _ =>
    (Safe.ofRes (Q := fun _ => True) rfl trivial).bind fun b _ => (cmp_safe ht a b).bind fun ans _ => ?_
  obtain ⟨p, h1, h2⟩ := takeOver_ok (answer := ans) (half := len / 2) (pop := pop) (i := i) (by omega)
  refine (Safe.ofRes (Q := fun p => p.length = len) h1 (h2.trans hp)).bind fun q hq => ?_
  split
  · rw [getIdx_of_lt (show len - 1 < q.length by omega)]
    exact Safe.ofRes (setRes_of_lt (show len / 2 < q.length by omega) _) (by simp [hq])
  · exact Safe.pure hq

theorem knockout_safe (ht : env.CmpTotal) : ∀ (len : ℕ) {pop : List (Pt T N)} (_ : pop.length = len) (_ : 0 < len),
    Safe (env.knockout pop) (fun _ => True) := by
  intro len
  induction len using Nat.strongRecOn with
  | _ len ih =>
    intro pop hl h0
    rw [knockout]
    split
    · rename_i h1
      simp only [hl] at h1 ⊢
      refine (Safe.foldlM (Q := fun p : List (Pt T N) => p.length = len) (fun p i hi hp => ?_) hl).bind fun p hp => ?_
      · exact game_safe ht hp (by simpa using hi)
      · have : (p.take ((len + 1) / 2)).length = (len + 1) / 2 := by rw [List.length_take]; omega
        exact ih ((len + 1) / 2) (by omega) this (by omega)
    · rw [getIdx_of_lt (show 0 < pop.length by omega)]
      exact Safe.ofRes rfl trivial

/-- Valid parameters: the only way not to return is to draw indices forever. -/
theorem optimize_safe (hc : env.RandContract) (ha : Arith T) (ht : env.CmpTotal) {fuel : ℕ} {bounds : Fin N → T × T}
    {cp : P} {w : T} {iters : ℕ} (hn : 4 ≤ n)
    (hcp : RPartialOrd.le (zero : P) cp = true ∧ RPartialOrd.le cp (one : P) = true)
    (hw : RPartialOrd.le (FromI8.fromI8 0) w = true ∧ RPartialOrd.le w (FromI8.fromI8 2) = true)
    (hb : ∀ c g, Returns (env.genUniform (bounds c).1 (bounds c).2 g).1) (hN : 0 < N ∨ iters = 0) :
    Safe (env.optimize fuel bounds n cp w iters) (fun _ => True) := by
  unfold optimize
  simp only [hcp.1, hcp.2, hw.1, hw.2, hn, decide_true, Bool.and_self]
  have ass : Safe (Proc.assert true : Proc (DEWorld T N G S) Unit) (fun _ => True) := Safe.pure trivial
  have hu : ∀ c, Safe (env.uniform (bounds c).1 (bounds c).2) (fun _ => True) := by
    intro c s
    obtain ⟨y, hy⟩ := hb c s.rng
    exact .inl ⟨y, (env.uniform (bounds c).1 (bounds c).2 s).2, Prod.ext hy rfl, trivial⟩
  refine ass.bind fun _ _ => ass.bind fun _ _ => ass.bind fun _ _ =>
    (Safe.mapM (fun _ => Safe.fromFn hu) _).bind fun p hp => ?_
  rw [List.length_range] at hp
  rw [hp]
  refine (Safe.foldlM (Q := fun p : List (Pt T N) => p.length = n) (fun q t ht' hq => ?_) hp).bind fun q hq =>
    knockout_safe ht n hq (by omega)
  have hN' : 0 < N := hN.resolve_right (by rintro rfl; simp at ht')
  exact iteration_safe hc hN' ha ht fuel q hq cp w ⟨t % n, Nat.mod_lt t (by omega)⟩

/-! ### Termination -/

theorem index_noFuel (hc : env.RandContract) : NoFuel (env.index n) := by
  intro w h
  unfold index at h
  rcases Nat.eq_zero_or_pos n with rfl | hn
  · rw [hc.index_empty] at h; cases h
  · obtain ⟨k, hk⟩ := hc.index_returns n w.rng hn
    rw [hk] at h; cases h

/-- Drawing succeeds after `m` rejected draws at most. -/
theorem draw_after (hc : env.RandContract) (hn : 0 < n) (avoid : List ℕ) : ∀ (m a : ℕ) (w : DEWorld T N G S),
    (env.genIndex n (env.afterDraws n m w.rng)).1 = .ok a → a ∉ avoid →
    ∃ k w', ∀ fuel, m + 1 ≤ fuel → env.draw n avoid fuel w = (.ok k, w') := by
  intro m
  induction m with
  | zero =>
    intro a w h ha
    refine ⟨a, { w with rng := (env.genIndex n w.rng).2 }, fun fuel hf => ?_⟩
    obtain ⟨f, rfl⟩ : ∃ f, fuel = f + 1 := ⟨fuel - 1, by omega⟩
    rw [draw, bind_eq]
    have h' : env.index n w = (.ok a, { w with rng := (env.genIndex n w.rng).2 }) := by
      exact Prod.ext h rfl
    rw [h']
    show (if avoid.contains a then _ else _ : Proc _ _) _ = _
    rw [if_neg (by simpa using ha)]
    rfl
  | succ m ih =>
    intro a w h ha
    obtain ⟨b, hb⟩ := hc.index_returns n w.rng hn
    have h' : env.index n w = (.ok b, { w with rng := (env.genIndex n w.rng).2 }) := by
      exact Prod.ext hb rfl
    by_cases hba : b ∈ avoid
    · obtain ⟨k, w', hk⟩ := ih a { w with rng := (env.genIndex n w.rng).2 } h ha
      refine ⟨k, w', fun fuel hf => ?_⟩
      obtain ⟨f, rfl⟩ : ∃ f, fuel = f + 1 := ⟨fuel - 1, by omega⟩
      rw [draw, bind_eq, h']
      show (if avoid.contains b then _ else _ : Proc _ _) _ = _
      rw [if_pos (by simpa using hba)]
      exact hk f (by omega)
    · refine ⟨b, { w with rng := (env.genIndex n w.rng).2 }, fun fuel hf => ?_⟩
      obtain ⟨f, rfl⟩ : ∃ f, fuel = f + 1 := ⟨fuel - 1, by omega⟩
      rw [draw, bind_eq, h']
      show (if avoid.contains b then _ else _ : Proc _ _) _ = _
      rw [if_neg (by simpa using hba)]
      rfl

theorem draw_settles (hc : env.RandContract) (hf : env.Fair) (avoid : List ℕ) (h : avoid.length < n) :
    Settles (fun fuel => env.draw n avoid fuel) := by
  obtain ⟨a, ha, hav⟩ : ∃ a, a < n ∧ a ∉ avoid := by
    by_contra hcon
    push Not at hcon
    have : (Finset.range n) ⊆ avoid.toFinset := fun x hx => by
      rw [List.mem_toFinset]; exact hcon x (Finset.mem_range.1 hx)
    have h1 := Finset.card_le_card this
    have h2 := List.toFinset_card_le avoid
    rw [Finset.card_range] at h1
    omega
  intro w
  obtain ⟨m, hm⟩ := hf n w.rng a ha
  obtain ⟨k, w', hk⟩ := draw_after hc (by omega) avoid m a w hm hav
  exact ⟨m + 1, .ok k, w', by simp, hk⟩

theorem res_bind_noFuel {x : Res α} {f : α → Res β} (hx : x ≠ .error .fuel) (hf : ∀ a, f a ≠ .error .fuel) :
    (x >>= f) ≠ .error .fuel := by
  cases x with
  | error e => intro h; apply hx; cases h; rfl
  | ok a => exact hf a

theorem getIdx_noFuel (l : List α) (i : ℕ) : getIdx l i ≠ .error .fuel := by
  unfold getIdx
  cases l[i]? <;> simp

theorem updAt_noFuel (l : List α) (i : ℕ) (x : α) : (updAt l i (fun _ => .done x)).toRes ≠ .error .fuel := by
  unfold updAt
  cases l[i]? <;> (intro h; cases h)

theorem trial_noFuel (hg : env.Genuine) (pop : List (Pt T N)) (cp : P) (w : T) (i j k l r : ℕ) :
    NoFuel (env.trial pop cp w i j k l r) := by
  unfold trial
  refine NoFuel.fromFn fun c => ?_
  have hm : NoFuel (env.mutates cp c r) := by
    unfold mutates
    split
    · exact NoFuel.pure _
    · exact NoFuel.bind (fun w h => by cases h) fun _ => NoFuel.pure _
  refine hm.bind fun b => ?_
  split
  · exact NoFuel.ofRes (res_bind_noFuel (getIdx_noFuel _ _) fun xj => res_bind_noFuel (getIdx_noFuel _ _) fun xk =>
      res_bind_noFuel (getIdx_noFuel _ _) fun xl => hg.arith _ _ _ _)
  · exact NoFuel.ofRes (res_bind_noFuel (getIdx_noFuel _ _) fun xi => by intro h; cases h)

theorem cmp_noFuel (hg : env.Genuine) (a b : Pt T N) : NoFuel (env.cmp a b) := fun w => hg.cmp a b w.cmp

theorem iteration_settles (hc : env.RandContract) (hf : env.Fair) (hg : env.Genuine) (hn : 4 ≤ n) (cp : P) (w : T)
    (pop : List (Pt T N)) (i : ℕ) : Settles (fun fuel => env.iteration fuel cp w n pop i) := by
  unfold iteration
  refine (draw_settles hc hf _ (by simp; omega)).bind fun j _ => (draw_settles hc hf _ (by simp; omega)).bind fun k _ =>
    (draw_settles hc hf _ (by simp; omega)).bind fun l _ => NoFuel.settles ?_
  refine (index_noFuel hc).bind fun r => (trial_noFuel hg _ _ _ _ _ _ _ _).bind fun x =>
    (NoFuel.ofRes (getIdx_noFuel _ _)).bind fun xi => (cmp_noFuel hg _ _).bind fun b => ?_
  split
  · exact NoFuel.ofRes (updAt_noFuel _ _ _)
  · exact NoFuel.pure _

theorem knockout_noFuel (hg : env.Genuine) : ∀ (len : ℕ) {pop : List (Pt T N)} (_ : pop.length = len),
    NoFuel (env.knockout pop) := by
  intro len
  induction len using Nat.strongRecOn with
  | _ len ih =>
    intro pop hl
    rw [knockout]
    split
    · rename_i h1
      simp only [hl] at h1 ⊢
      refine NoFuel.bind (NoFuel.foldlM (fun p i => ?_) _ _) fun p => ?_
      · unfold knockoutGame
        refine (NoFuel.ofRes (getIdx_noFuel _ _)).bind fun a => (NoFuel.ofRes (getIdx_noFuel _ _)).bind fun b =>
          (cmp_noFuel hg _ _).bind fun ans => NoFuel.bind (NoFuel.ofRes ?_) fun q => ?_
        · unfold takeOver
          split
          · exact res_bind_noFuel (getIdx_noFuel _ _) fun x => updAt_noFuel _ _ _
          · intro h; cases h
        · split
          · exact NoFuel.ofRes (res_bind_noFuel (getIdx_noFuel _ _) fun x => updAt_noFuel _ _ _)
          · exact NoFuel.pure _
      · exact ih _ (by rw [List.length_take]; omega) rfl
    · exact NoFuel.ofRes (getIdx_noFuel _ _)

theorem optimize_settles (hc : env.RandContract) (hf : env.Fair) (hg : env.Genuine) (bounds : Fin N → T × T) (cp : P)
    (w : T) (iters : ℕ) : Settles (fun fuel => env.optimize fuel bounds n cp w iters) := by
  have ass : ∀ b, NoFuel (Proc.assert b : Proc (DEWorld T N G S) Unit) := by
    intro b s h
    cases b <;> cases h
  have hu : ∀ c, NoFuel (env.uniform (bounds c).1 (bounds c).2) := fun c s => hg.uniform _ _ s.rng
  unfold optimize
  by_cases hn : 4 ≤ n
  · refine (ass _).settles.bind fun _ _ => (ass _).settles.bind fun _ _ => (ass _).settles.bind fun _ _ =>
      Settles.bind (NoFuel.settles (NoFuel.mapM (fun _ => NoFuel.fromFn fun c => hu c) _)) fun p hp => ?_
    have hl : p.length = n := by
      obtain ⟨_, s, s', h⟩ := hp
      have := (mapM_inv (f := fun _ : ℕ => fromFnM N (fun i => env.uniform (bounds i).1 (bounds i).2)) (L := fun _ => ())
        (Q := fun _ => True) (fun _ _ _ _ _ => ⟨trivial, rfl⟩) h).1
      simpa using this
    rw [hl]
    exact (Settles.foldlM (fun a t => iteration_settles hc hf hg hn cp w a _) _ _).bind fun q _ =>
      (knockout_noFuel hg _ rfl).settles
  · intro s
    refine ⟨0, .error .assertFailed, s, by simp, fun fuel _ => ?_⟩
    show (Proc.assert _ >>= _) s = _
    rw [bind_eq, decide_eq_false (by omega)]
    rfl

/-! ### More fuel does not change an outcome -/

/-- An outcome other than "out of fuel" stays the same with more fuel. -/
def _root_.Magnesia.Proc.Mono (m : ℕ → Proc W α) : Prop :=
  ∀ fuel fuel' w r w', fuel ≤ fuel' → r ≠ .error .fuel → m fuel w = (r, w') → m fuel' w = (r, w')

theorem mono_bind {m : ℕ → Proc W α} {f : ℕ → α → Proc W β} (hm : Mono m) (hf : ∀ a, Mono (fun fuel => f fuel a)) :
    Mono (fun fuel => m fuel >>= f fuel) := by
  intro fuel fuel' w r w' hle hr h
  change (m fuel >>= f fuel) w = _ at h
  show (m fuel' >>= f fuel') w = _
  rw [bind_eq] at h ⊢
  rcases hmw : m fuel w with ⟨e | a, w1⟩
  · rw [hmw] at h
    cases h
    rw [hm fuel fuel' w (.error e) _ hle (fun he => hr (by cases he; rfl)) hmw]
  · rw [hmw] at h
    rw [hm fuel fuel' w (.ok a) w1 hle (by simp) hmw]
    exact hf a fuel fuel' w1 r w' hle hr h

theorem mono_const (m : Proc W α) : Mono (fun _ => m) := fun _ _ _ _ _ _ _ h => h

theorem mono_foldlM {ι : Type} {f : ℕ → α → ι → Proc W α} (hf : ∀ a i, Mono (fun fuel => f fuel a i)) :
    ∀ (l : List ι) (a : α), Mono (fun fuel => l.foldlM (f fuel) a) := by
  intro l
  induction l with
  | nil => intro a; exact mono_const _
  | cons i l ih =>
    intro a
    simp only [List.foldlM_cons]
    exact mono_bind (hf a i) fun b => ih b

theorem mono_draw (env : DEnv T P N G S) (n : ℕ) (avoid : List ℕ) : Mono (fun fuel => env.draw n avoid fuel) := by
  intro fuel
  induction fuel with
  | zero => intro fuel' w r w' _ hr h; cases h; exact absurd rfl hr
  | succ fuel ih =>
    intro fuel' w r w' hle hr h
    obtain ⟨f, rfl⟩ : ∃ f, fuel' = f + 1 := ⟨fuel' - 1, by omega⟩
    simp only [draw] at h ⊢
    rw [bind_eq] at h ⊢
    rcases hmw : env.index n w with ⟨e | a, w1⟩
    · rw [hmw] at h; exact h
    · rw [hmw] at h
      dsimp only at h ⊢
      cases hav : avoid.contains a with
      | true => rw [hav] at h; exact ih f w1 r w' (by omega) hr h
      | false => rw [hav] at h; exact h

theorem mono_optimize (env : DEnv T P N G S) (bounds : Fin N → T × T) (n : ℕ) (cp : P) (w : T) (iters : ℕ) :
    Mono (fun fuel => env.optimize fuel bounds n cp w iters) := by
  unfold optimize
  refine mono_bind (mono_const _) fun _ => mono_bind (mono_const _) fun _ => mono_bind (mono_const _) fun _ =>
    mono_bind (mono_const _) fun p => mono_bind (mono_foldlM (fun q t => ?_) _ _) fun q => mono_const _
  unfold iteration
  exact mono_bind (mono_draw env _ _) fun j => mono_bind (mono_draw env _ _) fun k => mono_bind (mono_draw env _ _) fun l =>
    mono_const _

/-! ### The first slot -/

/-- If the comparator never prefers anything to `y`, and `y` comes first, then `y` wins the knockout stage. -/
theorem knockout_first {y : Pt T N} (hy : ∀ a s, (env.compare a y s).1 ≠ .ok true) : ∀ (len : ℕ) {pop : List (Pt T N)}
    (_ : pop.length = len) (_ : pop[0]? = some y) {x : Pt T N} {s s' : DEWorld T N G S}
    (_ : env.knockout pop s = (.ok x, s')), x = y := by
  intro len
  induction len using Nat.strongRecOn with
  | _ len ih =>
    intro pop hl h0 x s s' h
    rw [knockout] at h
    by_cases hlen : pop.length > 1
    · rw [if_pos hlen] at h
      simp only [hl] at h hlen
      obtain ⟨p1, s1, h1, h⟩ := Proc.bind_ok h
      have key : ∀ (i : ℕ) (_ : i ≤ len / 2) (p1 : List (Pt T N)) (s1 : DEWorld T N G S),
          (List.range i).foldlM (env.knockoutGame len (len / 2)) pop s = (.ok p1, s1) → p1.length = len ∧ p1[0]? = some y := by
        intro i
        induction i with
        | zero => intro _ p1 s1 h; obtain ⟨rfl, rfl⟩ := Proc.pure_ok h; exact ⟨hl, h0⟩
        | succ i ih =>
          intro hi p2 s2 h
          rw [List.range_succ, List.foldlM_append] at h
          obtain ⟨p1, s1, h1, h⟩ := Proc.bind_ok h
          obtain ⟨l1, l2⟩ := ih (by omega) p1 s1 h1
          rw [List.foldlM_cons] at h
          obtain ⟨p3, s3, h2, h⟩ := Proc.bind_ok h
          obtain ⟨rfl, rfl⟩ := Proc.pure_ok h
          obtain ⟨a, b, ans, _, hb, _, k2, k3, k4, _, _⟩ := game_ok l1 (by omega) h2
          refine ⟨k3, ?_⟩
          have e1 : p3[0]? = (p3.take (len / 2))[0]? := (List.getElem?_take_of_lt (by omega)).symm
          rw [e1, k4]
          have e2 : (p1.take (len / 2))[0]? = some y := by rw [List.getElem?_take_of_lt (by omega)]; exact l2
          rcases Nat.eq_zero_or_pos i with rfl | hpos
          · rw [l2] at hb
            cases hb
            obtain ⟨s0, hs⟩ := k2 _ (List.mem_singleton.2 rfl)
            cases ans with
            | true => exact absurd hs (hy a s0)
            | false =>
              rw [List.getElem?_set_self (by rw [List.length_take]; omega)]
              rfl
          · rw [List.getElem?_set_ne (by omega)]
            exact e2
      obtain ⟨k1, k2⟩ := key (len / 2) (le_refl _) p1 s1 h1
      refine ih _ ?_ rfl ?_ h
      · rw [List.length_take]; omega
      · rw [List.getElem?_take_of_lt (by omega)]; exact k2
    · rw [if_neg hlen] at h
      obtain ⟨h', rfl⟩ := ofRes_ok h
      have := getIdx_ok h'
      rw [h0] at this
      exact (Option.some.inj this).symm

end DEnv

end Magnesia
