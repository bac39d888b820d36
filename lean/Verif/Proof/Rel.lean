import Verif.Model.Core

/-!
# Simulation relations between computations over different element types (helper lemmas)

`s` says which panics of the source computation the target shares; whenever the source returns, the target returns the image.
`true` stands for all panics (the target does exactly the same), `false` for none.
-/

namespace Magnesia

/-- A set of panics. -/
abbrev Keep := Panic → Prop

instance : Coe Bool Keep := ⟨fun b _ => b = true⟩

variable {α β γ δ σ τ ι : Type} {s : Keep}

def ResRel (s : Keep) (f : α → β) (x : Res α) (y : Res β) : Prop :=
  match x with
  | .ok a => y = .ok (f a)
  | .error e => s e → y = .error e

def UpdRel (s : Keep) (f : σ → τ) (u : Upd σ) (u' : Upd τ) : Prop :=
  match u.panic with
  | none => u' = ⟨f u.val, none⟩
  | some e => s e → u' = ⟨f u.val, some e⟩

namespace ResRel

theorem ok {f : α → β} {a : α} {b : β} (h : b = f a) : ResRel s f (.ok a) (.ok b) := by simp [ResRel, h]

theorem pure {f : α → β} {a : α} {b : β} (h : b = f a) : ResRel s f (pure a) (pure b) := ok h

theorem error (f : α → β) (e : Panic) : ResRel s f (.error e) (.error e) := by simp [ResRel]

theorem bind {f : α → β} {g : γ → δ} {x : Res α} {y : Res β} {k : α → Res γ} {k' : β → Res δ}
    (h : ResRel s f x y) (hk : ∀ a, x = .ok a → ResRel s g (k a) (k' (f a))) : ResRel s g (x >>= k) (y >>= k') := by
  cases x with
  | ok a => simp only [ResRel] at h; subst h; exact hk a rfl
  | error e =>
    simp only [ResRel] at h
    intro hs
    rw [h hs]; rfl

theorem of_ok {f : α → β} {x : Res α} {y : Res β} {a : α} (h : ResRel s f x y) (hx : x = .ok a) : y = .ok (f a) := by
  subst hx; exact h

theorem weaken {f : α → β} {x : Res α} {y : Res β} (h : ResRel true f x y) : ResRel s f x y := by
  cases x with
  | ok a => exact h
  | error e => intro _; exact h rfl

/-- In exact mode a computation that cannot panic in the target cannot panic in the source. -/
theorem exists_ok {f : α → β} {x : Res α} {y : Res β} {b : β} (h : ResRel true f x y) (hy : y = .ok b) :
    ∃ a, x = .ok a ∧ f a = b := by
  cases x with
  | ok a => simp only [ResRel] at h; rw [h] at hy; exact ⟨a, rfl, Except.ok.inj hy⟩
  | error e => simp only [ResRel, forall_const] at h; rw [h] at hy; cases hy

theorem ite {f : α → β} {x x' : Res α} {y y' : Res β} {c : Prop} [Decidable c] (h : ResRel s f x y)
    (h' : ResRel s f x' y') : ResRel s f (if c then x else x') (if c then y else y') := by
  split <;> assumption

theorem foldlM {f : α → β} {g : ι → δ} {k : α → ι → Res α} {k' : β → δ → Res β}
    (hk : ∀ a i, ResRel s f (k a i) (k' (f a) (g i))) : ∀ (l : List ι) (a : α),
    ResRel s f (l.foldlM k a) ((l.map g).foldlM k' (f a))
  | [], a => by simpa using pure rfl
  | i :: l, a => by
    simp only [List.map_cons, List.foldlM_cons]
    exact bind (hk a i) (fun a' _ => foldlM hk l a')

theorem foldlM' {f : α → β} {k : α → ι → Res α} {k' : β → ι → Res β}
    (hk : ∀ a i, ResRel s f (k a i) (k' (f a) i)) (l : List ι) (a : α) :
    ResRel s f (l.foldlM k a) (l.foldlM k' (f a)) := by
  simpa using foldlM (g := id) hk l a

theorem mapM {f : α → β} {g : ι → δ} {k : ι → Res α} {k' : δ → Res β}
    (hk : ∀ i, ResRel s f (k i) (k' (g i))) : ∀ (l : List ι),
    ResRel s (List.map f) (l.mapM k) ((l.map g).mapM k')
  | [] => pure rfl
  | i :: l => by
    simp only [List.map_cons, List.mapM_cons]
    exact bind (hk i) (fun a' _ => bind (mapM hk l) (fun l' _ => pure rfl))

theorem mapM' {f : α → β} {k : ι → Res α} {k' : ι → Res β}
    (hk : ∀ i, ResRel s f (k i) (k' i)) (l : List ι) : ResRel s (List.map f) (l.mapM k) (l.mapM k') := by
  simpa using mapM (g := id) hk l

theorem fromFnM {f : α → β} : ∀ {n : Nat} {k : Fin n → Res α} {k' : Fin n → Res β},
    (∀ i, ResRel s f (k i) (k' i)) → ResRel s (fun v i => f (v i)) (fromFnM n k) (fromFnM n k')
  | 0, _, _, _ => pure (by funext i; exact i.elim0)
  | n + 1, k, k', hk => by
    simp only [Magnesia.fromFnM]
    refine bind (hk 0) (fun a _ => bind (fromFnM (fun i => hk i.succ)) (fun v _ => pure ?_))
    funext i
    refine Fin.cases ?_ (fun i => ?_) i <;> simp

theorem map {f : α → β} {g : γ → δ} {h : α → γ} {h' : β → δ} {x : Res α} {y : Res β} (r : ResRel s f x y)
    (e : ∀ a, h' (f a) = g (h a)) : ResRel s g (h <$> x) (h' <$> y) := by
  cases x with
  | ok a => simp only [ResRel] at r; subst r; simpa [ResRel, Functor.map, Except.map] using e a
  | error e => simp only [ResRel] at r; intro hs; rw [r hs]; rfl

end ResRel

namespace UpdRel

theorem done {f : σ → τ} {a : σ} {b : τ} (h : b = f a) : UpdRel s f (.done a) (.done b) := by simp [UpdRel, h]

theorem fail {f : σ → τ} {a : σ} {b : τ} {e : Panic} (h : b = f a) : UpdRel s f ⟨a, some e⟩ ⟨b, some e⟩ := by
  simp [UpdRel, h]

theorem toRes {f : σ → τ} {u : Upd σ} {u' : Upd τ} (h : UpdRel s f u u') : ResRel s f u.toRes u'.toRes := by
  obtain ⟨v, p⟩ := u
  cases p with
  | none => simp only [UpdRel] at h; subst h; simp [Upd.toRes, ResRel]
  | some e => simp only [UpdRel] at h; intro hs; rw [h hs]; rfl

theorem into {f : σ → τ} {g : α → β} {h : σ → α} {h' : τ → β} {u : Upd σ} {u' : Upd τ} (r : UpdRel s f u u')
    (e : ∀ a, h' (f a) = g (h a)) : UpdRel s g (u.into h) (u'.into h') := by
  obtain ⟨v, p⟩ := u
  cases p with
  | none => simp only [UpdRel] at r; subst r; simp [Upd.into, UpdRel, e]
  | some x => simp only [UpdRel] at r; simp only [UpdRel, Upd.into]; intro hs; rw [r hs]; simp [e]

theorem andThen {f : σ → τ} {u : Upd σ} {u' : Upd τ} {k : σ → Upd σ} {k' : τ → Upd τ} (h : UpdRel s f u u')
    (hk : ∀ a, UpdRel s f (k a) (k' (f a))) : UpdRel s f (u.andThen k) (u'.andThen k') := by
  obtain ⟨v, p⟩ := u
  cases p with
  | none => simp only [UpdRel] at h; subst h; simpa [Upd.andThen] using hk v
  | some x => simp only [UpdRel] at h; simp only [UpdRel, Upd.andThen]; intro hs; rw [h hs]

theorem ofRes {f : σ → τ} {a : σ} {b : τ} {x : Res σ} {y : Res τ} (h : ResRel s f x y) (hb : b = f a) :
    UpdRel s f (.ofRes a x) (.ofRes b y) := by
  cases x with
  | ok v => simp only [ResRel] at h; subst h; simp [Upd.ofRes, UpdRel]
  | error e => simp only [ResRel] at h; simp only [UpdRel, Upd.ofRes]; intro hs; rw [h hs]; simp [hb]

/-- Evaluate an operand first; if it panics the state is unchanged. -/
theorem withRes {f : α → β} {g : σ → τ} {x : Res α} {y : Res β} {a : σ} {k : α → Upd σ} {k' : β → Upd τ}
    (h : ResRel s f x y) (hk : ∀ v, UpdRel s g (k v) (k' (f v))) :
    UpdRel s g (Upd.withRes x a k) (Upd.withRes y (g a) k') := by
  cases x with
  | ok v => simp only [ResRel] at h; subst h; exact hk v
  | error e => simp only [ResRel] at h; simp only [UpdRel, Upd.withRes]; intro hs; rw [h hs]

theorem forEach {f : σ → τ} {g : ι → δ} {k : ι → σ → Upd σ} {k' : δ → τ → Upd τ}
    (hk : ∀ i a, UpdRel s f (k i a) (k' (g i) (f a))) : ∀ (l : List ι) (a : σ),
    UpdRel s f (forEach l k a) (forEach (l.map g) k' (f a))
  | [], a => by simpa [Magnesia.forEach] using done rfl
  | i :: l, a => by
    simp only [Magnesia.forEach, List.map_cons]
    exact andThen (hk i a) (fun a' => forEach hk l a')

theorem forEach' {f : σ → τ} {k : ι → σ → Upd σ} {k' : ι → τ → Upd τ}
    (hk : ∀ i a, UpdRel s f (k i a) (k' i (f a))) (l : List ι) (a : σ) :
    UpdRel s f (Magnesia.forEach l k a) (Magnesia.forEach l k' (f a)) := by
  simpa using forEach (g := id) hk l a

theorem updAt {f : α → β} {l : List α} {i : Nat} {k : α → Upd α} {k' : β → Upd β}
    (hk : ∀ x, UpdRel s f (k x) (k' (f x))) : UpdRel s (List.map f) (updAt l i k) (updAt (l.map f) i k') := by
  unfold Magnesia.updAt
  simp only [List.getElem?_map]
  cases l[i]? with
  | none => exact fail rfl
  | some x => exact into (hk x) (fun a => by simp)

theorem arrUpd {n : Nat} {f : α → β} {v : Fin n → α} {i : Fin n} {k : α → Upd α} {k' : β → Upd β}
    (hk : ∀ x, UpdRel s f (k x) (k' (f x))) :
    UpdRel s (fun (v : Fin n → α) i => f (v i)) (arrUpd v i k) (arrUpd (fun i => f (v i)) i k') := by
  unfold Magnesia.arrUpd
  refine into (hk (v i)) (fun a => ?_)
  funext j
  by_cases h : j = i
  · subst h; simp
  · simp [Function.update_of_ne h]

end UpdRel

theorem ResRel.getIdx {f : α → β} (l : List α) (i : Nat) : ResRel s f (getIdx l i) (Magnesia.getIdx (l.map f) i) := by
  unfold Magnesia.getIdx
  simp only [List.getElem?_map]
  cases l[i]? <;> simp [ResRel]

theorem ResRel.arrGet {f : α → β} {n : Nat} (v : Fin n → α) (i : Nat) :
    ResRel s f (arrGet v i) (Magnesia.arrGet (fun i => f (v i)) i) := by
  unfold Magnesia.arrGet
  split <;> simp [ResRel]

end Magnesia
