import Verif.Model.SMatrix
import Verif.Model.Polynomial
import Mathlib.Tactic.Ring

/-!
# Loops (helper lemmas)

Counter-carrying closures become index functions; loops over distinct cells become pointwise updates.
-/

namespace Magnesia

variable {α β T σ ι κ : Type}

theorem arrMap_run {n : Nat} : ∀ {k : Nat} {body : StateT Nat Res T} {b : Nat → Res T}
    (_ : ∀ k, body.run k = (do let x ← b k; pure (x, k + 1))),
    (arrMap (m := StateT Nat Res) n body).run k = (do let v ← fromFnM n (fun i => b (k + i)); pure (v, k + n)) := by
  induction n with
  | zero => intro k body b h; simp [arrMap, fromFnM]
  | succ n ih =>
    intro k body b h
    have ih' := @ih (k + 1) body b h
    simp only [arrMap] at ih' ⊢
    simp only [fromFnM, StateT.run_bind, h, bind_assoc, pure_bind, ih', StateT.run_pure]
    simp [Nat.add_assoc, Nat.add_comm 1, Nat.add_left_comm]

theorem arrMap_run_id {n : Nat} : ∀ {k : Nat} {body : StateM Nat T} {b : Nat → T}
    (_ : ∀ k, StateT.run (m := Id) body k = (b k, k + 1)),
    StateT.run (m := Id) (arrMap (m := StateM Nat) n body) k = ((fun i => b (k + i) : Fin n → T), k + n) := by
  induction n with
  | zero =>
    intro k body b h
    simp only [arrMap, fromFnM, StateT.run_pure, Nat.add_zero]
    refine Prod.ext ?_ rfl
    funext i; exact i.elim0
  | succ n ih =>
    intro k body b h
    have ih' := @ih (k + 1) body b h
    simp only [arrMap] at ih' ⊢
    simp only [fromFnM, StateT.run_bind, StateT.run_pure]
    show ((Fin.cons (StateT.run (m := Id) body k).1
        (StateT.run (m := Id) (fromFnM n fun _ => body) (StateT.run (m := Id) body k).2).1 : Fin (n + 1) → T),
      (StateT.run (m := Id) (fromFnM n fun _ => body) (StateT.run (m := Id) body k).2).2) = _
    rw [h k, ih']
    refine Prod.ext ?_ (by show k + 1 + n = _; ring)
    funext i
    refine Fin.cases ?_ (fun i => ?_) i
    · rfl
    · show b (k + 1 + i) = b (k + (i.succ : Fin (n+1)))
      rw [Fin.val_succ]; congr 1; ring

theorem fromFnM_id {n : Nat} (f : Fin n → T) : fromFnM (m := Id) n f = f := by
  induction n with
  | zero => funext i; exact i.elim0
  | succ n ih =>
    show (Fin.cons (f 0) (fromFnM (m := Id) n (fun i => f i.succ)) : Fin (n + 1) → T) = f
    rw [ih]
    funext i
    refine Fin.cases ?_ (fun i => ?_) i <;> simp

theorem fromFnM_ok_iff {n : Nat} {f : Fin n → Res T} {v : Fin n → T} :
    fromFnM n f = .ok v ↔ ∀ i, f i = .ok (v i) := by
  induction n with
  | zero =>
    constructor
    · intro _ i; exact i.elim0
    · intro _; simp only [fromFnM, pure, Except.pure]; congr 1; funext i; exact i.elim0
  | succ n ih =>
    simp only [fromFnM, bind, Except.bind]
    constructor
    · intro h i
      cases h0 : f 0 with
      | error e => simp [h0] at h
      | ok x =>
        cases h1 : fromFnM n (fun i => f i.succ) with
        | error e => simp [h0, h1] at h
        | ok xs =>
          simp only [h0, h1, pure, Except.pure, Except.ok.injEq] at h
          subst h
          refine Fin.cases ?_ (fun i => ?_) i
          · simpa using h0
          · simpa using ih.1 h1 i
    · intro h
      have h1 : fromFnM n (fun i => f i.succ) = .ok (fun i => v i.succ) := ih.2 (fun i => h i.succ)
      simp only [h 0, h1, pure, Except.pure]
      congr 1
      funext i
      refine Fin.cases ?_ (fun i => ?_) i <;> simp

theorem mapM_ok_iff {f : α → Res β} : ∀ {l : List α} {v : List β},
    l.mapM f = .ok v ↔ v.length = l.length ∧ ∀ (i : Nat) a, l[i]? = some a → ∃ b, v[i]? = some b ∧ f a = .ok b := by
  intro l
  induction l with
  | nil => intro v; simp [pure, Except.pure, eq_comm]
  | cons x l ih =>
    intro v
    simp only [List.mapM_cons, bind, Except.bind, pure, Except.pure]
    constructor
    · intro h
      cases h0 : f x with
      | error e => simp [h0] at h
      | ok y =>
        cases h1 : l.mapM f with
        | error e => simp [h0, h1] at h
        | ok ys =>
          simp only [h0, h1, Except.ok.injEq] at h
          subst h
          obtain ⟨hl, hi⟩ := ih.1 h1
          refine ⟨by simp [hl], ?_⟩
          intro i a hia
          cases i with
          | zero => simp at hia; subst hia; exact ⟨y, by simp, h0⟩
          | succ i => simpa using hi i a (by simpa using hia)
    · rintro ⟨hl, hi⟩
      cases v with
      | nil => simp at hl
      | cons y ys =>
        obtain ⟨b, hb, hf⟩ := hi 0 x (by simp)
        simp at hb; subst hb
        have : l.mapM f = .ok ys := ih.2 ⟨by simpa using hl, fun i a hia => by
          simpa using hi (i + 1) a (by simpa using hia)⟩
        simp [hf, this]

theorem forEach_append (l l' : List ι) (f : ι → σ → Upd σ) (s : σ) :
    forEach (l ++ l') f s = (forEach l f s).andThen (forEach l' f) := by
  induction l generalizing s with
  | nil => simp [forEach, Upd.andThen]
  | cons i l ih =>
    simp only [List.cons_append, forEach]
    rcases h : f i s with ⟨v, _ | e⟩ <;> simp [Upd.andThen, ih]

theorem forEach_map {g : κ → ι} (l : List κ) (f : ι → σ → Upd σ) (s : σ) :
    forEach (l.map g) f s = forEach l (fun k => f (g k)) s := by
  induction l generalizing s with
  | nil => rfl
  | cons i l ih =>
    simp only [List.map_cons, forEach]
    congr 1
    funext s
    exact ih s

/-- A loop nest is one loop over the pairs. -/
theorem forEach_flatMap (l : List κ) (g : κ → List ι) (f : κ → ι → σ → Upd σ) (s : σ) :
    forEach l (fun k s => forEach (g k) (f k) s) s =
      forEach (l.flatMap (fun k => (g k).map (fun i => (k, i)))) (fun ki => f ki.1 ki.2) s := by
  induction l generalizing s with
  | nil => rfl
  | cons k l ih =>
    simp only [List.flatMap_cons, forEach, forEach_append, forEach_map]
    congr 1
    funext s
    exact ih s

/-- Loop body `body` acts on cell `i` (read by `get`) by `g i`, and leaves all other cells alone. -/
structure CellLoop {C : Type} (get : σ → ι → C) (l : List ι) (body : ι → σ → Upd σ) (g : ι → C → Upd C)
    (Inv : σ → Prop) : Prop where
  inv : ∀ i ∈ l, ∀ s, Inv s → Inv (body i s).val
  panic : ∀ i ∈ l, ∀ s, Inv s → (body i s).panic = (g i (get s i)).panic
  self : ∀ i ∈ l, ∀ s, Inv s → get (body i s).val i = (g i (get s i)).val
  other : ∀ i ∈ l, ∀ s, Inv s → ∀ j, j ≠ i → get (body i s).val j = get s j

namespace CellLoop

variable {C : Type} {get : σ → ι → C} {l : List ι} {body : ι → σ → Upd σ} {g : ι → C → Upd C} {Inv : σ → Prop}

theorem tail {i : ι} (h : CellLoop get (i :: l) body g Inv) : CellLoop get l body g Inv :=
  ⟨fun j hj => h.inv j (by simp [hj]), fun j hj => h.panic j (by simp [hj]), fun j hj => h.self j (by simp [hj]),
    fun j hj => h.other j (by simp [hj])⟩

theorem inv_forEach (h : CellLoop get l body g Inv) (s : σ) (hs : Inv s) : Inv (forEach l body s).val := by
  induction l generalizing s with
  | nil => exact hs
  | cons i l ih =>
    have h1 := h.inv i (by simp) s hs
    simp only [forEach]
    rcases hb : body i s with ⟨v, _ | e⟩
    · simp only [Upd.andThen]; rw [hb] at h1; exact ih h.tail v h1
    · simpa [Upd.andThen, hb] using h1

/-- Normal completion: every visited cell holds its new value, no other cell changed. -/
theorem done (h : CellLoop get l body g Inv) (hn : l.Nodup) (s : σ) (hs : Inv s)
    (hp : (forEach l body s).panic = none) :
    (∀ i ∈ l, (g i (get s i)).panic = none ∧ get (forEach l body s).val i = (g i (get s i)).val) ∧
      ∀ j, j ∉ l → get (forEach l body s).val j = get s j := by
  induction l generalizing s with
  | nil => simp [forEach]
  | cons i l ih =>
    have h1 := h.inv i (by simp) s hs
    have h2 := h.panic i (by simp) s hs
    have h3 := h.self i (by simp) s hs
    have h4 := h.other i (by simp) s hs
    simp only [forEach] at hp ⊢
    rcases hb : body i s with ⟨v, _ | e⟩
    · rw [hb] at h1 h2 h3 h4 hp
      simp only [Upd.andThen] at hp ⊢
      obtain ⟨ha, hb'⟩ := ih h.tail hn.of_cons v h1 hp
      have hi : i ∉ l := (List.nodup_cons.1 hn).1
      refine ⟨?_, ?_⟩
      · intro j hj
        rcases List.mem_cons.1 hj with rfl | hj
        · exact ⟨h2.symm, by rw [hb' _ hi]; exact h3⟩
        · have hne : j ≠ i := fun e => hi (e ▸ hj)
          have := ha j hj
          have h5 := h4 j hne
          simp only at h5
          rwa [h5] at this
      · intro j hj
        simp only [List.mem_cons, not_or] at hj
        rw [hb' j hj.2]; exact h4 j hj.1
    · rw [hb] at hp; simp [Upd.andThen] at hp

/-- Panic: the cells visited before the failing one hold their new values, the failing cell holds whatever its own
update left there, all later cells are untouched. -/
theorem crash (h : CellLoop get l body g Inv) (hn : l.Nodup) (s : σ) (hs : Inv s) {e : Panic}
    (hp : (forEach l body s).panic = some e) :
    ∃ pre i post, l = pre ++ i :: post ∧
      (∀ j ∈ pre, (g j (get s j)).panic = none ∧ get (forEach l body s).val j = (g j (get s j)).val) ∧
      (g i (get s i)).panic = some e ∧ get (forEach l body s).val i = (g i (get s i)).val ∧
      ∀ j, j ∉ pre → j ≠ i → get (forEach l body s).val j = get s j := by
  induction l generalizing s with
  | nil => simp [forEach] at hp
  | cons i l ih =>
    have h1 := h.inv i (by simp) s hs
    have h2 := h.panic i (by simp) s hs
    have h3 := h.self i (by simp) s hs
    have h4 := h.other i (by simp) s hs
    simp only [forEach] at hp ⊢
    rcases hb : body i s with ⟨v, _ | e'⟩
    · rw [hb] at h1 h2 h3 h4 hp
      simp only [Upd.andThen] at hp ⊢
      obtain ⟨pre, k, post, hl, ha, hk, hk', ho⟩ := ih h.tail hn.of_cons v h1 hp
      have hi : i ∉ l := (List.nodup_cons.1 hn).1
      have hget : ∀ j, j ≠ i → get v j = get s j := fun j hj => h4 j hj
      have hki : k ≠ i := fun e => hi (by rw [hl]; simp [e])
      refine ⟨i :: pre, k, post, by simp [hl], ?_, ?_, ?_, ?_⟩
      · intro j hj
        rcases List.mem_cons.1 hj with rfl | hj
        · refine ⟨h2.symm, ?_⟩
          rw [ho]
          · exact h3
          · intro hc; exact hi (by rw [hl]; simp [hc])
          · exact fun e => hki e.symm
        · have hne : j ≠ i := fun e => hi (by rw [hl, ← e]; simp [hj])
          have := ha j hj
          rwa [hget j hne] at this
      · rwa [hget k hki] at hk
      · rw [hk', hget k hki]
      · intro j hj hjk
        simp only [List.mem_cons, not_or] at hj
        rw [ho j hj.2 hjk, hget j hj.1]
    · rw [hb] at hp h1 h2 h3 h4
      simp only [Upd.andThen, Option.some.injEq] at hp
      subst hp
      refine ⟨[], i, l, rfl, by simp, h2.symm, ?_, ?_⟩
      · simpa [Upd.andThen] using h3
      · intro j _ hj; simpa [Upd.andThen] using h4 j hj

/-- The loop completes if no cell update panics. -/
theorem total (h : CellLoop get l body g Inv) (hn : l.Nodup) (s : σ) (hs : Inv s)
    (hg : ∀ i ∈ l, (g i (get s i)).panic = none) : (forEach l body s).panic = none := by
  cases hp : (forEach l body s).panic with
  | none => rfl
  | some e =>
    obtain ⟨pre, i, post, hl, _, hi, _⟩ := h.crash hn s hs hp
    rw [hg i (by rw [hl]; simp)] at hi
    cases hi

end CellLoop

/-- An update of an optional cell: a missing cell is an index panic. -/
def liftO {T : Type} (f : T → Upd T) : Option T → Upd (Option T)
  | some x => (f x).into some
  | none => ⟨none, some .indexOutOfBounds⟩

theorem updAt_length (d : List T) (i : Nat) (f : T → Upd T) : (updAt d i f).val.length = d.length := by
  unfold updAt
  cases d[i]? <;> simp [Upd.into]

theorem updAt_panic (d : List T) (i : Nat) (f : T → Upd T) : (updAt d i f).panic = (liftO f d[i]?).panic := by
  unfold updAt
  cases d[i]? <;> simp [Upd.into, liftO]

theorem updAt_self (d : List T) (i : Nat) (f : T → Upd T) : (updAt d i f).val[i]? = (liftO f d[i]?).val := by
  unfold updAt
  cases h : d[i]? with
  | none => simp [liftO, h]
  | some x =>
    have hi : i < d.length := (List.getElem?_eq_some_iff.1 h).1
    simp [Upd.into, liftO, hi]

theorem updAt_other (d : List T) (i j : Nat) (f : T → Upd T) (h : j ≠ i) : (updAt d i f).val[j]? = d[j]? := by
  unfold updAt
  cases d[i]? with
  | none => rfl
  | some x => simp [Upd.into, h.symm]

end Magnesia
