import Verif.Spec.DE
import Verif.Proof.DynLin
import Verif.Proof.DynLoop

/-!
# Runs of the optimizer (helper lemmas)
-/

namespace Magnesia

set_option linter.unusedSectionVars false

open RZero ROne

variable {W α β : Type}

namespace Proc

theorem bind_eq (m : Proc W α) (f : α → Proc W β) (w : W) : (m >>= f) w =
    match m w with
    | (.ok a, w') => f a w'
    | (.error e, w') => (.error e, w') := rfl

theorem pure_eq (a : α) (w : W) : (pure a : Proc W α) w = (.ok a, w) := rfl

instance : LawfulMonad (Proc W) := LawfulMonad.mk'
  (id_map := fun x => by
    funext w
    show (match x w with | (.ok a, w') => (Except.ok a, w') | (.error e, w') => (.error e, w')) = x w
    rcases x w with ⟨_ | _, _⟩ <;> rfl)
  (pure_bind := fun x f => rfl)
  (bind_assoc := fun x f g => by
    funext w
    simp only [bind_eq]
    rcases x w with ⟨_ | _, _⟩ <;> rfl)

theorem bind_ok {m : Proc W α} {f : α → Proc W β} {w w' : W} {b : β} (h : (m >>= f) w = (.ok b, w')) :
    ∃ a w1, m w = (.ok a, w1) ∧ f a w1 = (.ok b, w') := by
  rw [bind_eq] at h
  rcases hm : m w with ⟨_ | a, w1⟩
  · rw [hm] at h; cases h
  · rw [hm] at h; exact ⟨a, w1, rfl, h⟩

theorem pure_ok {a b : α} {w w' : W} (h : (pure a : Proc W α) w = (.ok b, w')) : a = b ∧ w = w' := by
  cases h; exact ⟨rfl, rfl⟩

theorem ofRes_ok {x : Res α} {b : α} {w w' : W} (h : (ofRes x : Proc W α) w = (.ok b, w')) : x = .ok b ∧ w = w' := by
  cases h; exact ⟨rfl, rfl⟩

theorem assert_ok {b : Bool} {w w' : W} {u : Unit} (h : (assert b : Proc W Unit) w = (.ok u, w')) : b = true ∧ w = w' := by
  cases b with
  | true => cases h; exact ⟨rfl, rfl⟩
  | false => cases h

theorem fromFn_inv {κ : Type} {L : W → κ} : ∀ {n : ℕ} {f : Fin n → Proc W α} {Q : Fin n → α → Prop}
    (_ : ∀ i w x w', f i w = (.ok x, w') → Q i x ∧ L w' = L w) {v : Fin n → α} {w w' : W}
    (_ : fromFnM n f w = (.ok v, w')), (∀ i, Q i (v i)) ∧ L w' = L w := by
  intro n
  induction n with
  | zero =>
    intro f Q _ v w w' h
    obtain ⟨_, rfl⟩ := pure_ok h
    exact ⟨fun i => i.elim0, rfl⟩
  | succ n ih =>
    intro f Q hf v w w' h
    obtain ⟨x, w1, h1, h⟩ := bind_ok h
    obtain ⟨xs, w2, h2, h⟩ := bind_ok h
    obtain ⟨rfl, rfl⟩ := pure_ok h
    obtain ⟨q1, l1⟩ := hf 0 _ _ _ h1
    obtain ⟨q2, l2⟩ := ih (Q := fun i => Q i.succ) (fun i => hf i.succ) h2
    refine ⟨fun i => ?_, l2.trans l1⟩
    refine Fin.cases ?_ (fun i => ?_) i
    · exact q1
    · exact q2 i

theorem mapM_inv {κ ι : Type} {L : W → κ} {f : ι → Proc W α} {Q : α → Prop}
    (hf : ∀ i w x w', f i w = (.ok x, w') → Q x ∧ L w' = L w) : ∀ {l : List ι} {v : List α} {w w' : W}
    (_ : l.mapM f w = (.ok v, w')), v.length = l.length ∧ (∀ x ∈ v, Q x) ∧ L w' = L w := by
  intro l
  induction l with
  | nil =>
    intro v w w' h
    rw [List.mapM_nil] at h
    obtain ⟨rfl, rfl⟩ := pure_ok h
    exact ⟨rfl, by simp, rfl⟩
  | cons a l ih =>
    intro v w w' h
    rw [List.mapM_cons] at h
    obtain ⟨x, w1, h1, h⟩ := bind_ok h
    obtain ⟨xs, w2, h2, h⟩ := bind_ok h
    obtain ⟨rfl, rfl⟩ := pure_ok h
    obtain ⟨q1, l1⟩ := hf _ _ _ _ h1
    obtain ⟨e2, q2, l2⟩ := ih h2
    refine ⟨by simp [e2], ?_, l2.trans l1⟩
    intro y hy
    rcases List.mem_cons.1 hy with rfl | hy
    · exact q1
    · exact q2 y hy

end Proc

namespace DEnv

variable {T P G S : Type} {N n : ℕ} {env : DEnv T P N G S}

open Proc

section Draws
variable [RPartialOrd P] [RZero P] [ROne P] [RPartialOrd T]

theorem index_ok (hc : env.RandContract) {k : ℕ} {w w' : DEWorld T N G S} (h : env.index n w = (.ok k, w')) :
    k < n ∧ w'.log = w.log ∧ w'.cmp = w.cmp := by
  unfold index at h
  obtain ⟨h1, h2⟩ := Prod.mk.inj h
  subst h2
  exact ⟨hc.index_range _ _ _ h1, rfl, rfl⟩

theorem uniform_ok (hc : env.RandContract) {lo hi x : T} {w w' : DEWorld T N G S}
    (h : env.uniform lo hi w = (.ok x, w')) :
    (RPartialOrd.le lo x = true ∧ RPartialOrd.lt x hi = true) ∧ w'.log = w.log := by
  unfold uniform at h
  obtain ⟨h1, h2⟩ := Prod.mk.inj h
  subst h2
  exact ⟨hc.uniform_range _ _ _ _ h1, rfl⟩

theorem unit_ok (hc : env.RandContract) {u : P} {w w' : DEWorld T N G S} (h : env.unit w = (.ok u, w')) :
    (RPartialOrd.lt u (zero : P) = false ∧ RPartialOrd.lt u (one : P) = true) ∧ w'.log = w.log := by
  unfold unit at h
  obtain ⟨h1, h2⟩ := Prod.mk.inj h
  subst h2
  cases h1
  exact ⟨hc.unit_range _, rfl⟩

omit [RPartialOrd P] [RZero P] [ROne P] [RPartialOrd T] in
theorem cmp_ok {a b : Pt T N} {ans : Bool} {w w' : DEWorld T N G S} (h : env.cmp a b w = (.ok ans, w')) :
    w'.log = w.log ++ [⟨a, b, ans⟩] ∧ ∃ s, (env.compare a b s).1 = .ok ans := by
  unfold cmp at h
  obtain ⟨h1, h2⟩ := Prod.mk.inj h
  subst h2
  rw [h1]
  exact ⟨rfl, w.cmp, h1⟩

theorem draw_ok (hc : env.RandContract) {avoid : List ℕ} : ∀ {fuel : ℕ} {j : ℕ} {w w' : DEWorld T N G S}
    (_ : env.draw n avoid fuel w = (.ok j, w')), j < n ∧ j ∉ avoid ∧ w'.log = w.log := by
  intro fuel
  induction fuel with
  | zero => intro j w w' h; cases h
  | succ fuel ih =>
    intro j w w' h
    obtain ⟨k, w1, h1, h⟩ := Proc.bind_ok h
    obtain ⟨h2, h3, _⟩ := index_ok hc h1
    cases hk : avoid.contains k with
    | true =>
      rw [hk] at h
      obtain ⟨h4, h5, h6⟩ := ih h
      exact ⟨h4, h5, h6.trans h3⟩
    | false =>
      rw [hk] at h
      obtain ⟨rfl, rfl⟩ := Proc.pure_ok h
      exact ⟨h2, by simpa using hk, h3⟩

omit [RPartialOrd P] [RZero P] [ROne P] [RPartialOrd T] in
/-- The coordinates of an initial point are drawn one after the other. -/
theorem drawPoint {gen : T → T → G → Res T × G} : ∀ {M : ℕ} {b : Fin M → T × T} {v : Fin M → T} {s s' : DEWorld T N G S}
    (_ : fromFnM (m := Proc (DEWorld T N G S)) M (fun i => fun w => ((gen (b i).1 (b i).2 w.rng).1,
      ({ w with rng := (gen (b i).1 (b i).2 w.rng).2 } : DEWorld T N G S))) s = (.ok v, s')),
    (∀ c : Fin M, (gen (b c).1 (b c).2 (coordState gen b c s.rng)).1 = .ok (v c)) ∧
      s'.rng = coordState gen b M s.rng := by
  intro M
  induction M with
  | zero =>
    intro b v s s' h
    obtain ⟨_, rfl⟩ := Proc.pure_ok h
    exact ⟨fun c => c.elim0, rfl⟩
  | succ M ih =>
    intro b v s s' h
    obtain ⟨x, s1, h1, h⟩ := Proc.bind_ok h
    obtain ⟨xs, s2, h2, h⟩ := Proc.bind_ok h
    obtain ⟨rfl, rfl⟩ := Proc.pure_ok h
    obtain ⟨h3, h4⟩ := Prod.mk.inj h1
    subst h4
    obtain ⟨h5, h6⟩ := ih (b := fun i => b i.succ) h2
    have hco : ∀ (c : ℕ) (g : G), coordState gen b (c + 1) g =
        coordState gen (fun i : Fin M => b i.succ) c (gen (b 0).1 (b 0).2 g).2 := by
      intro c g
      unfold coordState
      rw [List.finRange_succ, List.take_succ_cons, List.foldl_cons, ← List.map_take, List.foldl_map]
    refine ⟨fun c => ?_, ?_⟩
    · refine Fin.cases ?_ (fun c => ?_) c
      · exact h3
      · have := h5 c
        rw [Fin.val_succ, hco]
        exact this
    · rw [h6, hco]

omit [RPartialOrd P] [RZero P] [ROne P] [RPartialOrd T] in
theorem drawPopulation {bounds : Fin N → T × T} : ∀ {k : ℕ} {v : List (Pt T N)} {s s' : DEWorld T N G S}
    (_ : (List.range k).mapM (fun _ => fromFnM N (fun i => env.uniform (bounds i).1 (bounds i).2)) s = (.ok v, s')),
    s'.rng = (coordState env.genUniform bounds N)^[k] s.rng ∧ ∀ (i : ℕ) (x : Pt T N), v[i]? = some x →
      ∀ c : Fin N, (env.genUniform (bounds c).1 (bounds c).2
        (coordState env.genUniform bounds c ((coordState env.genUniform bounds N)^[i] s.rng))).1 = .ok (x c) := by
  intro k
  induction k with
  | zero =>
    intro v s s' h
    obtain ⟨rfl, rfl⟩ := Proc.pure_ok h
    exact ⟨rfl, by simp⟩
  | succ k ih =>
    intro v s s' h
    rw [List.range_succ, List.mapM_append] at h
    obtain ⟨v1, s1, h1, h⟩ := Proc.bind_ok h
    obtain ⟨v2, s2, h2, h⟩ := Proc.bind_ok h
    obtain ⟨rfl, rfl⟩ := Proc.pure_ok h
    obtain ⟨i1, i2⟩ := ih h1
    rw [List.mapM_cons] at h2
    obtain ⟨x, s3, h3, h2⟩ := Proc.bind_ok h2
    obtain ⟨xs, s4, h4, h2⟩ := Proc.bind_ok h2
    obtain ⟨rfl, rfl⟩ := Proc.pure_ok h2
    rw [List.mapM_nil] at h4
    obtain ⟨rfl, rfl⟩ := Proc.pure_ok h4
    obtain ⟨d1, d2⟩ := drawPoint (gen := env.genUniform) (b := bounds) h3
    have hl : v1.length = k := by
      have := (mapM_inv (f := fun _ : ℕ => fromFnM N (fun i => env.uniform (bounds i).1 (bounds i).2)) (L := fun _ => ())
        (Q := fun _ => True) (fun _ _ _ _ _ => ⟨trivial, rfl⟩) h1).1
      simpa using this
    refine ⟨by rw [d2, i1, Function.iterate_succ_apply'], fun i y hy c => ?_⟩
    rcases Nat.lt_or_ge i k with hi | hi
    · rw [List.getElem?_append_left (by omega)] at hy
      exact i2 i y hy c
    · rw [List.getElem?_append_right (by omega)] at hy
      obtain ⟨rfl, rfl⟩ : i = k ∧ x = y := by
        rcases Nat.eq_or_lt_of_le hi with rfl | h
        · rw [hl, Nat.sub_self] at hy
          simpa using hy
        · rw [hl, List.getElem?_eq_none (by simp; omega)] at hy
          cases hy
      rw [← i1]
      exact d1 c

variable [RAdd T T T] [RSub T T T] [RMul T T T]

theorem trial_ok (hc : env.RandContract) {pop : Fin n → Pt T N} {cp : P} {w : T} {i j k l : Fin n} {r : Fin N}
    {x : Pt T N} {s s' : DEWorld T N G S} (h : env.trial (List.ofFn pop) cp w i j k l r s = (.ok x, s')) :
    (∃ mutated : Fin N → Bool, mutated r = true ∧
      (∀ c, mutated c = true → (do RAdd.add (pop j c) (← RMul.mul (← RSub.sub (pop k c) (pop l c)) w)) = .ok (x c)) ∧
      (∀ c, mutated c = false → x c = pop i c) ∧
      ∀ c, c ≠ r → ∃ u : P, RPartialOrd.lt u (zero : P) = false ∧ RPartialOrd.lt u (one : P) = true ∧
        mutated c = RPartialOrd.lt u cp) ∧ s'.log = s.log := by
  unfold trial at h
  have key := fromFn_inv (L := DEWorld.log) (Q := fun (c : Fin N) (y : T) => ∃ b : Bool, (c = r → b = true) ∧
    (b = true → (do RAdd.add (pop j c) (← RMul.mul (← RSub.sub (pop k c) (pop l c)) w)) = .ok y) ∧
    (b = false → y = pop i c) ∧
    (c ≠ r → ∃ u : P, RPartialOrd.lt u (zero : P) = false ∧ RPartialOrd.lt u (one : P) = true ∧
        b = RPartialOrd.lt u cp)) ?_ h
  · obtain ⟨h1, h2⟩ := key
    choose m hm1 hm2 hm3 hm4 using h1
    exact ⟨⟨m, hm1 r rfl, hm2, hm3, hm4⟩, h2⟩
  · intro c s0 y s2 h
    obtain ⟨b, s1, h1, h⟩ := Proc.bind_ok h
    have hb : (c = r → b = true) ∧ (c ≠ r → ∃ u : P, RPartialOrd.lt u (zero : P) = false ∧
        RPartialOrd.lt u (one : P) = true ∧ b = RPartialOrd.lt u cp) ∧ s1.log = s0.log := by
      unfold mutates at h1
      by_cases hcr : c = r
      · rw [if_pos (congrArg Fin.val hcr)] at h1
        obtain ⟨rfl, rfl⟩ := Proc.pure_ok h1
        exact ⟨fun _ => rfl, fun h => absurd hcr h, rfl⟩
      · rw [if_neg (fun e => hcr (Fin.ext e))] at h1
        obtain ⟨u, s3, h2, h1⟩ := Proc.bind_ok h1
        obtain ⟨rfl, rfl⟩ := Proc.pure_ok h1
        obtain ⟨h3, h4⟩ := unit_ok hc h2
        exact ⟨fun h => absurd h hcr, fun _ => ⟨u, h3.1, h3.2, rfl⟩, h4⟩
    obtain ⟨hb1, hb2, hb3⟩ := hb
    cases b with
    | true =>
      rw [if_pos rfl, getIdx_ofFn, getIdx_ofFn, getIdx_ofFn] at h
      obtain ⟨h4, rfl⟩ := ofRes_ok h
      exact ⟨⟨true, hb1, fun _ => h4, (fun h => by cases h), hb2⟩, hb3⟩
    | false =>
      rw [if_neg (by simp), getIdx_ofFn] at h
      obtain ⟨h4, rfl⟩ := ofRes_ok h
      cases h4
      exact ⟨⟨false, hb1, (fun h => by cases h), fun _ => rfl, hb2⟩, hb3⟩

theorem iteration_ok (hc : env.RandContract) {fuel : ℕ} {pop : Fin n → Pt T N} {cp : P} {w : T} {i : Fin n}
    {pop' : List (Pt T N)} {s s' : DEWorld T N G S}
    (h : env.iteration fuel cp w n (List.ofFn pop) i s = (.ok pop', s')) :
    ∃ (x : Pt T N) (ans : Bool), IsTrial cp w pop i x ∧
      pop' = List.ofFn (if ans then Function.update pop i x else pop) ∧
      s'.log = s.log ++ [⟨x, pop i, ans⟩] ∧ env.Honest [⟨x, pop i, ans⟩] := by
  unfold iteration at h
  obtain ⟨j, s1, h1, h⟩ := Proc.bind_ok h
  obtain ⟨k, s2, h2, h⟩ := Proc.bind_ok h
  obtain ⟨l, s3, h3, h⟩ := Proc.bind_ok h
  obtain ⟨r, s4, h4, h⟩ := Proc.bind_ok h
  obtain ⟨x, s5, h5, h⟩ := Proc.bind_ok h
  obtain ⟨xi, s6, h6, h⟩ := Proc.bind_ok h
  obtain ⟨ans, s7, h7, h⟩ := Proc.bind_ok h
  obtain ⟨j1, j2, j3⟩ := draw_ok hc h1
  obtain ⟨k1, k2, k3⟩ := draw_ok hc h2
  obtain ⟨l1, l2, l3⟩ := draw_ok hc h3
  obtain ⟨r1, r3, _⟩ := index_ok hc h4
  obtain ⟨⟨m, m1, m2, m3, m4⟩, x3⟩ := trial_ok hc (j := ⟨j, j1⟩) (k := ⟨k, k1⟩) (l := ⟨l, l1⟩) (r := ⟨r, r1⟩) h5
  rw [getIdx_ofFn] at h6
  obtain ⟨h6, rfl⟩ := ofRes_ok h6
  cases h6
  obtain ⟨c1, c2⟩ := cmp_ok h7
  have hlog : s7.log = s.log ++ [⟨x, pop i, ans⟩] := by rw [c1, x3, r3, l3, k3, j3]
  have hon : env.Honest [⟨x, pop i, ans⟩] := by
    intro c hc
    rw [List.mem_singleton] at hc
    subst hc
    exact c2
  have htr : IsTrial cp w pop i x := by
    refine ⟨⟨j, j1⟩, ⟨k, k1⟩, ⟨l, l1⟩, ⟨r, r1⟩, m, ?_, m1, m2, m3, m4⟩
    simp only [List.nodup_cons, List.mem_cons, List.not_mem_nil, or_false, not_or, not_false_eq_true, List.nodup_nil,
      and_true, Fin.ext_iff] at j2 k2 l2 ⊢
    exact ⟨⟨fun e => j2 e.symm, fun e => k2.1 e.symm, fun e => l2.1 e.symm⟩, ⟨fun e => k2.2 e.symm,
      fun e => l2.2.1 e.symm⟩, fun e => l2.2.2 e.symm⟩
  cases ans with
  | true =>
    rw [if_pos rfl, updAt_vofFn] at h
    obtain ⟨h8, rfl⟩ := ofRes_ok h
    refine ⟨x, true, htr, ?_, hlog, hon⟩
    obtain ⟨_, h9⟩ := toRes_ok h8
    rw [← h9]; rfl
  | false =>
    rw [if_neg (by simp)] at h
    obtain ⟨rfl, rfl⟩ := Proc.pure_ok h
    exact ⟨x, false, htr, rfl, hlog, hon⟩

omit [RPartialOrd P] [RZero P] [ROne P] [RPartialOrd T] [RAdd T T T] [RSub T T T] [RMul T T T] in
theorem Honest.append {a b : List (Call T N)} (ha : env.Honest a) (hb : env.Honest b) : env.Honest (a ++ b) := by
  intro c hc
  rcases List.mem_append.1 hc with h | h
  · exact ha c h
  · exact hb c h

/-- The main loop. -/
theorem loop_ok (hc : env.RandContract) (hn : 0 < n) {fuel : ℕ} {pop : Fin n → Pt T N} {cp : P} {w : T} :
    ∀ {iters : ℕ} {pop' : List (Pt T N)} {s s' : DEWorld T N G S}
      (_ : (List.range iters).foldlM (fun pop t => env.iteration fuel cp w n pop (t % n)) (List.ofFn pop) s =
        (.ok pop', s')),
    ∃ R : DERun T N n, R.pop 0 = pop ∧ pop' = List.ofFn (R.pop iters) ∧
      (∀ t < iters, IsTrial cp w (R.pop t) (slot hn t) (R.trial t)) ∧
      (∀ t < iters, R.pop (t + 1) = if R.answer t then Function.update (R.pop t) (slot hn t) (R.trial t) else R.pop t) ∧
      s'.log = s.log ++ (List.range iters).map (fun t => ⟨R.trial t, R.pop t (slot hn t), R.answer t⟩) ∧
      env.Honest ((List.range iters).map (fun t => ⟨R.trial t, R.pop t (slot hn t), R.answer t⟩)) := by
  intro iters
  induction iters with
  | zero =>
    intro pop' s s' h
    obtain ⟨rfl, rfl⟩ := Proc.pure_ok h
    refine ⟨⟨fun _ => pop, fun _ => pop ⟨0, hn⟩, fun _ => false, []⟩, rfl, rfl, ?_, ?_, ?_, ?_⟩
    · intro t ht; omega
    · intro t ht; omega
    · simp
    · intro c hc; simp at hc
  | succ iters ih =>
    intro pop' s s' h
    rw [List.range_succ, List.foldlM_append] at h
    obtain ⟨p1, s1, h1, h⟩ := Proc.bind_ok h
    obtain ⟨R, r0, rfl, r1, r2, r3, r4⟩ := ih h1
    rw [List.foldlM_cons] at h
    obtain ⟨p2, s2, h2, h⟩ := Proc.bind_ok h
    obtain ⟨rfl, rfl⟩ := Proc.pure_ok h
    obtain ⟨x, ans, t1, t2, t3, t4⟩ := iteration_ok hc (i := slot hn iters) h2
    let R' : DERun T N n := ⟨Function.update R.pop (iters + 1)
        (if ans then Function.update (R.pop iters) (slot hn iters) x else R.pop iters),
      Function.update R.trial iters x, Function.update R.answer iters ans, []⟩
    have e1 : ∀ t ≤ iters, R'.pop t = R.pop t := fun t ht => Function.update_of_ne (by omega) _ _
    have e2 : ∀ t < iters, R'.trial t = R.trial t := fun t ht => Function.update_of_ne (by omega) _ _
    have e3 : ∀ t < iters, R'.answer t = R.answer t := fun t ht => Function.update_of_ne (by omega) _ _
    have e4 : R'.trial iters = x := Function.update_self _ _ _
    have e5 : R'.answer iters = ans := Function.update_self _ _ _
    have e6 : R'.pop (iters + 1) = if ans then Function.update (R.pop iters) (slot hn iters) x else R.pop iters :=
      Function.update_self _ _ _
    have ec : (List.range (iters + 1)).map (fun t => (⟨R'.trial t, R'.pop t (slot hn t), R'.answer t⟩ : Call T N)) =
        (List.range iters).map (fun t => (⟨R.trial t, R.pop t (slot hn t), R.answer t⟩ : Call T N)) ++
          [⟨x, R.pop iters (slot hn iters), ans⟩] := by
      rw [List.range_succ, List.map_append]
      congr 1
      · refine List.map_congr_left fun t ht => ?_
        have ht' : t < iters := by simpa using ht
        rw [e1 t (by omega), e2 t ht', e3 t ht']
      · simp [e4, e5, e1 iters (le_refl _)]
    refine ⟨R', (e1 0 (by omega)).trans r0, ?_, ?_, ?_, ?_, ?_⟩
    · rw [e6]; exact t2
    · intro t ht
      rcases Nat.lt_succ_iff_lt_or_eq.1 ht with h | rfl
      · rw [e1 t (by omega), e2 t h]; exact r1 t h
      · rw [e1 t (le_refl _), e4]; exact t1
    · intro t ht
      rcases Nat.lt_succ_iff_lt_or_eq.1 ht with h | rfl
      · rw [e1 t (by omega), e2 t h, e3 t h, e1 (t + 1) (by omega)]; exact r2 t h
      · rw [e1 t (le_refl _), e4, e5, e6]
    · rw [ec, t3, r3, List.append_assoc]
    · rw [ec]; exact r4.append t4

end Draws

/-! ### The knockout stage -/

theorem set_swap {α : Type} {l : List α} {i : ℕ} {b c : α} (h : l[i]? = some b) :
    (b ::ₘ ((l.set i c : List α) : Multiset α)) = c ::ₘ (l : Multiset α) := by
  induction l generalizing i with
  | nil => simp at h
  | cons a l ih =>
    cases i with
    | zero =>
      simp at h; subst h
      simp only [List.set_cons_zero, ← Multiset.cons_coe]
      exact Multiset.cons_swap _ _ _
    | succ i =>
      simp at h
      simp only [List.set_cons_succ, ← Multiset.cons_coe]
      rw [Multiset.cons_swap, ih h, Multiset.cons_swap]

theorem getIdx_ok {l : List α} {i : ℕ} {x : α} (h : getIdx l i = .ok x) : l[i]? = some x := getIdx_eq.1 h

theorem setRes_ok {l l' : List α} {i : ℕ} {x : α} (h : (updAt l i (fun _ => .done x)).toRes = .ok l') :
    l' = l.set i x ∧ i < l.length := by
  obtain ⟨h1, h2⟩ := toRes_ok h
  unfold updAt at h1 h2
  cases hi : l[i]? with
  | none => rw [hi] at h1; cases h1
  | some y =>
    rw [hi] at h2
    exact ⟨h2.symm, (List.getElem?_eq_some_iff.1 hi).1⟩

/-- One game of the knockout stage. -/
theorem game_ok {len : ℕ} {pop pop' : List (Pt T N)} {i : ℕ} {s s' : DEWorld T N G S} (hl : pop.length = len)
    (hi : i < len / 2) (h : env.knockoutGame len (len / 2) pop i s = (.ok pop', s')) :
    ∃ (a b : Pt T N) (ans : Bool), pop[len / 2 + i]? = some a ∧ pop[i]? = some b ∧
      s'.log = s.log ++ [⟨a, b, ans⟩] ∧ env.Honest [⟨a, b, ans⟩] ∧ pop'.length = len ∧
      pop'.take (len / 2) = (pop.take (len / 2)).set i (if ans then a else b) ∧
      pop'.drop (len / 2 + (i + 1)) = pop.drop (len / 2 + (i + 1)) ∧
      (len % 2 = 1 → pop'[len / 2]? = pop'[len - 1]?) := by
  unfold knockoutGame at h
  obtain ⟨a, s1, h1, h⟩ := Proc.bind_ok h
  replace h1 := ofRes_ok h1
  obtain ⟨h1, rfl⟩ := h1
  obtain ⟨b, s2, h2, h⟩ := Proc.bind_ok h
  replace h2 := ofRes_ok h2
  obtain ⟨h2, rfl⟩ := h2
  obtain ⟨ans, s3, h3, h⟩ := Proc.bind_ok h
  obtain ⟨p1, s4, h4, h⟩ := Proc.bind_ok h
  obtain ⟨c1, c2⟩ := cmp_ok h3
  have ha := getIdx_ok h1
  have hb := getIdx_ok h2
  replace h4 := ofRes_ok h4
  obtain ⟨h4, rfl⟩ := h4
  have hp1 : p1 = pop.set i (if ans then a else b) := by
    unfold takeOver at h4
    cases ans with
    | true =>
      rw [if_pos rfl, h1] at h4
      exact (setRes_ok h4).1
    | false =>
      rw [if_neg (by simp)] at h4
      cases h4
      obtain ⟨h5, h6⟩ := List.getElem?_eq_some_iff.1 hb
      subst h6
      simp
  have hon : env.Honest [⟨a, b, ans⟩] := by
    intro c hc
    rw [List.mem_singleton] at hc
    subst hc
    exact c2
  have hl1 : p1.length = len := by rw [hp1]; simp [hl]
  have htake : p1.take (len / 2) = (pop.take (len / 2)).set i (if ans then a else b) := by
    rw [hp1, List.take_set]
  have hdrop : p1.drop (len / 2 + (i + 1)) = pop.drop (len / 2 + (i + 1)) := by
    rw [hp1, List.drop_set_of_lt (by omega)]
  by_cases hodd : len % 2 = 1
  · rw [if_pos hodd] at h
    obtain ⟨hh, rfl⟩ := ofRes_ok h
    cases hx : getIdx p1 (len - 1) with
    | error e => rw [hx] at hh; cases hh
    | ok x =>
      rw [hx] at hh
      obtain ⟨h5, h6⟩ := setRes_ok hh
      refine ⟨a, b, ans, ha, hb, c1, hon, by rw [h5]; simp [hl1], ?_, ?_, fun _ => ?_⟩
      · rw [h5, List.take_set_of_le (le_refl _), htake]
      · rw [h5, List.drop_set_of_lt (by omega), hdrop]
      · rw [h5, List.getElem?_set_self h6, List.getElem?_set_ne (by omega), getIdx_ok hx]
  · rw [if_neg hodd] at h
    obtain ⟨rfl, rfl⟩ := Proc.pure_ok h
    exact ⟨a, b, ans, ha, hb, c1, hon, hl1, htake, hdrop, fun h => absurd h hodd⟩

/-- One round of the knockout stage, up to game `i`. -/
theorem round_ok {len : ℕ} {pop : List (Pt T N)} (hl : pop.length = len) : ∀ {i : ℕ} (_ : i ≤ len / 2)
    {pop' : List (Pt T N)} {s s' : DEWorld T N G S}
    (_ : (List.range i).foldlM (env.knockoutGame len (len / 2)) pop s = (.ok pop', s')),
    pop'.length = len ∧ (0 < i → len % 2 = 1 → pop'[len / 2]? = pop'[len - 1]?) ∧
    ∃ cs, s'.log = s.log ++ cs ∧ env.Honest cs ∧
      ∀ calls x, Knockout (↑(pop'.take (len / 2) ++ pop'.drop (len / 2 + i))) calls x →
        Knockout (↑pop) (cs ++ calls) x := by
  intro i
  induction i with
  | zero =>
    intro _ pop' s s' h
    obtain ⟨rfl, rfl⟩ := Proc.pure_ok h
    refine ⟨hl, fun h => absurd h (lt_irrefl 0), [], by simp, fun c hc => by simp at hc, fun calls x h => ?_⟩
    simpa using h
  | succ i ih =>
    intro hi pop' s s' h
    rw [List.range_succ, List.foldlM_append] at h
    obtain ⟨p1, s1, h1, h⟩ := Proc.bind_ok h
    obtain ⟨l1, _, cs, g1, g2, g3⟩ := ih (by omega) h1
    rw [List.foldlM_cons] at h
    obtain ⟨p2, s2, h2, h⟩ := Proc.bind_ok h
    obtain ⟨rfl, rfl⟩ := Proc.pure_ok h
    obtain ⟨a, b, ans, ha, hb, k1, k2, k3, k4, k5, k6⟩ := game_ok l1 (by omega) h2
    refine ⟨k3, fun _ => k6, cs ++ [⟨a, b, ans⟩], by rw [k1, g1, List.append_assoc], g2.append k2, ?_⟩
    intro calls x hx
    rw [List.append_assoc]
    refine g3 _ _ ?_
    have hb' : (p1.take (len / 2))[i]? = some b := by rw [List.getElem?_take_of_lt (by omega)]; exact hb
    have hd : p1.drop (len / 2 + i) = a :: p1.drop (len / 2 + (i + 1)) := by
      obtain ⟨h5, h6⟩ := List.getElem?_eq_some_iff.1 ha
      rw [List.drop_eq_getElem_cons h5, h6]; rfl
    have hm : ((p1.take (len / 2) ++ p1.drop (len / 2 + i) : List (Pt T N)) : Multiset (Pt T N)) =
        a ::ₘ b ::ₘ (↑((p1.take (len / 2)).eraseIdx i ++ p1.drop (len / 2 + (i + 1))) : Multiset (Pt T N)) := by
      have h7 : i < (p1.take (len / 2)).length := (List.getElem?_eq_some_iff.1 hb').1
      have h8 : (p1.take (len / 2))[i] = b := (List.getElem?_eq_some_iff.1 hb').2
      have h9 := List.getElem_cons_eraseIdx_perm h7
      rw [h8] at h9
      rw [hd]
      show _ = ((a :: b :: _ : List (Pt T N)) : Multiset (Pt T N))
      rw [Multiset.coe_eq_coe]
      refine (List.perm_middle).trans (List.Perm.cons _ ?_)
      exact (List.Perm.append_right _ h9.symm)
    have hm' : ((p2.take (len / 2) ++ p2.drop (len / 2 + (i + 1)) : List (Pt T N)) : Multiset (Pt T N)) =
        (if ans then a else b) ::ₘ
          (↑((p1.take (len / 2)).eraseIdx i ++ p1.drop (len / 2 + (i + 1))) : Multiset (Pt T N)) := by
      rw [k4, k5]
      show _ = (((if ans then a else b) :: _ : List (Pt T N)) : Multiset (Pt T N))
      rw [Multiset.coe_eq_coe]
      have h7 : i < ((p1.take (len / 2)).set i (if ans then a else b)).length := by
        rw [List.length_set]; exact (List.getElem?_eq_some_iff.1 hb').1
      have h9 := List.getElem_cons_eraseIdx_perm h7
      rw [List.getElem_set_self, List.eraseIdx_set_eq] at h9
      exact (List.Perm.append_right _ h9.symm)
    rw [hm]
    rw [hm'] at hx
    exact Knockout.game a b ans _ calls x hx

theorem knockout_ok : ∀ (len : ℕ) {pop : List (Pt T N)} (_ : pop.length = len) {x : Pt T N} {s s' : DEWorld T N G S}
    (_ : env.knockout pop s = (.ok x, s')),
    ∃ cs, s'.log = s.log ++ cs ∧ env.Honest cs ∧ Knockout (↑pop) cs x := by
  intro len
  induction len using Nat.strongRecOn with
  | _ len ih =>
    intro pop hl x s s' h
    rw [knockout] at h
    by_cases hlen : pop.length > 1
    · rw [if_pos hlen] at h
      simp only [hl] at h hlen
      obtain ⟨p1, s1, h1, h⟩ := Proc.bind_ok h
      obtain ⟨l1, l2, cs, g1, g2, g3⟩ := round_ok hl (le_refl _) h1
      have hlt : (p1.take ((len + 1) / 2)).length < len := by rw [List.length_take]; omega
      obtain ⟨ds, d1, d2, d3⟩ := ih _ hlt rfl h
      refine ⟨cs ++ ds, by rw [d1, g1, List.append_assoc], g2.append d2, g3 _ _ ?_⟩
      have : p1.take (len / 2) ++ p1.drop (len / 2 + len / 2) = p1.take ((len + 1) / 2) := by
        by_cases hodd : len % 2 = 1
        · have e1 : (len + 1) / 2 = len / 2 + 1 := by omega
          have e2 : len / 2 + len / 2 = len - 1 := by omega
          have e3 := l2 (by omega) hodd
          have h5 : len / 2 < p1.length := by omega
          have h6 : len - 1 < p1.length := by omega
          rw [List.getElem?_eq_getElem h5, List.getElem?_eq_getElem h6, Option.some.injEq] at e3
          rw [e1, e2, List.take_succ_eq_append_getElem h5, e3, List.drop_eq_getElem_cons h6,
            List.drop_eq_nil_of_le (by omega)]
        · have e1 : (len + 1) / 2 = len / 2 := by omega
          rw [e1, List.drop_eq_nil_of_le (by omega), List.append_nil]
      rw [this]
      exact d3
    · rw [if_neg hlen] at h
      obtain ⟨h0, rfl⟩ := ofRes_ok h
      have hx := getIdx_ok h0
      have : pop = [x] := by
        match pop, hlen, hx with
        | [], _, hx => simp at hx
        | [y], _, hx => simp at hx; rw [hx]
        | _ :: _ :: _, hlen, _ => simp at hlen
      subst this
      exact ⟨[], by simp, fun c hc => by simp at hc, Knockout.winner x⟩

variable [RPartialOrd P] [RZero P] [ROne P] [RPartialOrd T] [FromI8 T] [RAdd T T T] [RSub T T T] [RMul T T T]

/-- Every run that returns is explained. -/
theorem optimize_ok (hc : env.RandContract) {fuel : ℕ} {bounds : Fin N → T × T} {cp : P} {w : T} {iters : ℕ}
    {x : Pt T N} {s s' : DEWorld T N G S} (h : env.optimize fuel bounds n cp w iters s = (.ok x, s')) :
    ∃ (hn : 0 < n) (R : DERun T N n) (calls : List (Call T N)), s'.log = s.log ++ calls ∧ env.Honest calls ∧
      env.Drawn bounds s.rng (R.pop 0) ∧ R.Explains hn bounds cp w iters calls x ∧
      ∃ s1, env.knockout (List.ofFn (R.pop iters)) s1 = (.ok x, s') := by
  unfold optimize at h
  obtain ⟨_, s1, h1, h⟩ := Proc.bind_ok h
  obtain ⟨_, s2, h2, h⟩ := Proc.bind_ok h
  obtain ⟨_, s3, h3, h⟩ := Proc.bind_ok h
  obtain ⟨a1, rfl⟩ := assert_ok h1
  obtain ⟨_, rfl⟩ := assert_ok h2
  obtain ⟨_, rfl⟩ := assert_ok h3
  obtain ⟨p0, s4, h4, h⟩ := Proc.bind_ok h
  obtain ⟨p1, s5, h5, h⟩ := Proc.bind_ok h
  have hn4 : 4 ≤ n := by simpa using a1
  have hn : 0 < n := by omega
  obtain ⟨m1, m2, m3⟩ := mapM_inv (f := fun _ : ℕ => fromFnM N (fun i => env.uniform (bounds i).1 (bounds i).2))
    (L := DEWorld.log) (Q := fun x : Pt T N => ∀ c,
      RPartialOrd.le (bounds c).1 (x c) = true ∧ RPartialOrd.lt (x c) (bounds c).2 = true)
    (fun _ w x w' h => fromFn_inv (f := fun i => env.uniform (bounds i).1 (bounds i).2)
      (Q := fun (c : Fin N) (y : T) => RPartialOrd.le (bounds c).1 y = true ∧ RPartialOrd.lt y (bounds c).2 = true)
      (fun i w x w' h => uniform_ok hc h) h) h4
  have hlen : p0.length = n := by simpa using m1
  obtain ⟨pop, rfl⟩ : ∃ pop : Fin n → Pt T N, p0 = List.ofFn pop := by
    subst hlen
    exact ⟨fun i => p0[i], List.ofFn_getElem.symm⟩
  rw [hlen] at h5
  have hdr := (drawPopulation h4).2
  obtain ⟨R, r0, rfl, r1, r2, r3, r4⟩ := loop_ok hc hn h5
  obtain ⟨cs, k1, k2, k3⟩ := knockout_ok _ rfl h
  refine ⟨hn, ⟨R.pop, R.trial, R.answer, cs⟩,
    (List.range iters).map (fun t => ⟨R.trial t, R.pop t (slot hn t), R.answer t⟩) ++ cs,
    by rw [k1, r3, m3, List.append_assoc], r4.append k2, ?_, ⟨?_, r1, r2, rfl, ?_⟩, s5, h⟩
  · intro t c
    show _ = Except.ok (R.pop 0 t c)
    rw [r0]
    exact hdr t (pop t) (by simp) c
  · intro t c
    show RPartialOrd.le (bounds c).1 (R.pop 0 t c) = true ∧ RPartialOrd.lt (R.pop 0 t c) (bounds c).2 = true
    rw [r0]
    exact m2 (pop t) (by simp [List.mem_ofFn]) c
  · have : (Finset.univ.val.map (R.pop iters)) = (↑(List.ofFn (R.pop iters)) : Multiset (Pt T N)) := by
      rw [List.ofFn_eq_map, ← Multiset.map_coe]
      rfl
    show Knockout (Finset.univ.val.map (R.pop iters)) cs x
    rw [this]
    exact k3

end DEnv

end Magnesia
