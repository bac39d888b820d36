import Verif.Spec.Tape
import Verif.Proof.ElemEff
import Verif.Proof.PolyExact
import Verif.Proof.Panics
import Verif.Proof.Elem

/-!
# Elements that are handles: lemmas
-/

namespace Magnesia

variable {W T S α β γ δ σ τ ι κ : Type} [Preorder W]

namespace Represents

variable {R : Represents W α β} {Q : Represents W γ δ} {I : Represents W ι κ}

/-! ## Lists, arrays and pairs of handles -/

/-- Lists of handles. -/
def list (R : Represents W T S) : Represents W (List T) (List S) :=
  ⟨fun w p q => List.Forall₂ (R.rel w) p q, fun h hp => hp.imp fun _ _ => R.mono h⟩

/-- Arrays of handles. -/
def arr (R : Represents W T S) (n : ℕ) : Represents W (Fin n → T) (Fin n → S) :=
  ⟨fun w u v => ∀ i, R.rel w (u i) (v i), fun h hp i => R.mono h (hp i)⟩

/-- Data without handles. -/
def data (ι : Type) : Represents W ι ι := ⟨fun _ i j => i = j, fun _ h => h⟩

/-- Pairs. -/
def prod (R : Represents W α β) (Q : Represents W γ δ) : Represents W (α × γ) (β × δ) :=
  ⟨fun w p q => R.rel w p.1 q.1 ∧ Q.rel w p.2 q.2, fun h hp => ⟨R.mono h hp.1, Q.mono h hp.2⟩⟩

theorem list_data (w : W) (l : List ι) : (data ι).list.rel w l l := by
  show List.Forall₂ (· = ·) l l
  rw [List.forall₂_eq_eq_eq]

/-! ## Rules -/

theorem Sim.pure {w : W} {x : α} {a : β} (h : R.rel w x a) : R.Sim (pure x) (.ok a) w := ⟨le_refl _, h⟩

theorem Sim.ofRes (w : W) (r : Res ι) : (data ι).Sim (Proc.ofRes r) r w := by
  refine ⟨le_refl _, ?_⟩
  cases r <;> rfl

theorem Sim.bind {w : W} {x : Proc W α} {r : Res β} {f : α → Proc W γ} {g : β → Res δ} (hx : R.Sim x r w)
    (hf : ∀ w' y b, w ≤ w' → R.rel w' y b → Q.Sim (f y) (g b) w') : Q.Sim (x >>= f) (r >>= g) w := by
  obtain ⟨h1, h2⟩ := hx
  unfold Sim
  rw [bind_apply]
  rcases hw : x w with ⟨e | y, w'⟩ <;> rw [hw] at h1 h2 <;> rcases r with e' | b
  · exact ⟨h1, h2⟩
  · exact h2.elim
  · exact h2.elim
  · obtain ⟨h3, h4⟩ := hf w' y b h1 h2
    exact ⟨h1.trans h3, h4⟩

theorem SimU.done {w : W} {x : α} {a : β} (h : R.rel w x a) : R.SimU (EUpd.done x) (.done a) w := ⟨le_refl _, h, rfl⟩

theorem SimU.toProc {w : W} {u : EUpd W α} {r : Upd β} (h : R.SimU u r w) : R.Sim u.toProc r.toRes w := by
  obtain ⟨h1, h2, h3⟩ := h
  refine ⟨h1, ?_⟩
  show match (u w).1.toRes, r.toRes with | .ok y, .ok b => R.rel (u w).2 y b | .error e, .error e' => e = e' | _, _ => False
  revert h2 h3
  generalize (u w).1 = v
  rcases v with ⟨y, _ | e⟩ <;> rcases r with ⟨b, _ | e'⟩ <;> intro h2 h3 <;> simp_all [Upd.toRes]

theorem Sim.ofProc {w : W} {x : Proc W α} {r : Res β} {y : α} {b : β} (hy : R.rel w y b) (h : R.Sim x r w) :
    R.SimU (EUpd.ofProc y x) (Upd.ofRes b r) w := by
  obtain ⟨h1, h2⟩ := h
  refine ⟨h1, ?_⟩
  show R.rel (x w).2 (Upd.ofRes y (x w).1).val _ ∧ (Upd.ofRes y (x w).1).panic = _
  have h3 := R.mono h1 hy
  revert h2
  generalize (x w).1 = v
  rcases v with e | y <;> rcases r with e' | b <;> intro h2
  · exact ⟨h3, congrArg some h2⟩
  · exact h2.elim
  · exact h2.elim
  · exact ⟨h2, rfl⟩

theorem SimU.into {w : W} {u : EUpd W α} {r : Upd β} {f : α → γ} {g : β → δ} (h : R.SimU u r w)
    (hf : ∀ w' y b, w ≤ w' → R.rel w' y b → Q.rel w' (f y) (g b)) : Q.SimU (u.into f) (r.into g) w :=
  ⟨h.1, hf _ _ _ h.1 h.2.1, h.2.2⟩

theorem SimU.andThen {w : W} {u : EUpd W α} {r : Upd β} {f : α → EUpd W α} {g : β → Upd β} (h : R.SimU u r w)
    (hf : ∀ w' y b, w ≤ w' → R.rel w' y b → R.SimU (f y) (g b) w') : R.SimU (u.andThen f) (r.andThen g) w := by
  obtain ⟨h1, h2, h3⟩ := h
  unfold SimU EUpd.andThen Upd.andThen
  rcases hw : u w with ⟨⟨y, _ | e⟩, w'⟩ <;> rw [hw] at h1 h2 h3 <;> rcases r with ⟨b, _ | e'⟩
  · obtain ⟨h4, h5⟩ := hf w' y b h1 h2
    exact ⟨h1.trans h4, h5⟩
  · cases h3
  · cases h3
  · exact ⟨h1, h2, h3⟩

theorem Sim.withProc {w : W} {x : Proc W α} {r : Res β} {s : γ} {s' : δ} {f : α → EUpd W γ} {g : β → Upd δ} (h : R.Sim x r w)
    (hs : Q.rel w s s') (hf : ∀ w' y b, w ≤ w' → R.rel w' y b → Q.SimU (f y) (g b) w') :
    Q.SimU (EUpd.withProc x s f) (Upd.withRes r s' g) w := by
  obtain ⟨h1, h2⟩ := h
  unfold SimU EUpd.withProc Upd.withRes
  rcases hw : x w with ⟨e | y, w'⟩ <;> rw [hw] at h1 h2 <;> rcases r with e' | b
  · exact ⟨h1, Q.mono h1 hs, congrArg some h2⟩
  · exact h2.elim
  · exact h2.elim
  · obtain ⟨h4, h5⟩ := hf w' y b h1 h2
    exact ⟨h1.trans h4, h5⟩

theorem forall₂_get {r : α → β → Prop} {l : List α} {l' : List β} (h : List.Forall₂ r l l') (i : ℕ) :
    match l[i]?, l'[i]? with | some x, some y => r x y | none, none => True | _, _ => False := by
  induction h generalizing i with
  | nil => trivial
  | cons h _ ih =>
    cases i with
    | zero => exact h
    | succ i => exact ih i

theorem forall₂_set {r : α → β → Prop} {l : List α} {l' : List β} (h : List.Forall₂ r l l') (i : ℕ) {x : α} {y : β} (hx : r x y) :
    List.Forall₂ r (l.set i x) (l'.set i y) := by
  induction h generalizing i with
  | nil => exact .nil
  | cons h h' ih =>
    cases i with
    | zero => exact .cons hx h'
    | succ i => exact .cons h (ih i)

theorem Sim.getIdx {w : W} {l : List α} {l' : List β} (h : R.list.rel w l l') (i : ℕ) :
    R.Sim (Proc.ofRes (Magnesia.getIdx l i)) (Magnesia.getIdx l' i) w := by
  have := forall₂_get h i
  unfold Magnesia.getIdx
  refine ⟨le_refl _, ?_⟩
  rcases hx : l[i]? with _ | x <;> rcases hy : l'[i]? with _ | y <;> simp only [hx, hy] at this <;> first | exact this | rfl

theorem SimU.updAt {w : W} {l : List α} {l' : List β} {i : ℕ} {f : α → EUpd W α} {g : β → Upd β} (hl : R.list.rel w l l')
    (hf : ∀ y b, R.rel w y b → R.SimU (f y) (g b) w) : R.list.SimU (EUpd.updAt l i f) (Magnesia.updAt l' i g) w := by
  have := forall₂_get hl i
  unfold EUpd.updAt Magnesia.updAt
  rcases hx : l[i]? with _ | x <;> rcases hy : l'[i]? with _ | y <;> simp only [hx, hy] at this
  · exact ⟨le_refl _, hl, rfl⟩
  · exact (hf x y this).into fun w' _ _ hw h => forall₂_set (R.list.mono hw hl) i h

theorem SimU.arrUpd {w : W} {n : ℕ} {v : Fin n → α} {v' : Fin n → β} {i : Fin n} {f : α → EUpd W α} {g : β → Upd β}
    (hv : (R.arr n).rel w v v') (hf : ∀ y b, R.rel w y b → R.SimU (f y) (g b) w) :
    (R.arr n).SimU (EUpd.arrUpd v i f) (Magnesia.arrUpd v' i g) w :=
  (hf _ _ (hv i)).into fun w' y b hw h j => by
    by_cases hj : j = i
    · subst hj; simpa using h
    · simpa [Function.update_of_ne hj] using R.mono hw (hv j)

theorem SimU.forEach {f : ι → α → EUpd W α} {g : κ → β → Upd β} : ∀ {w : W} {l : List ι} {l' : List κ} {s : α} {s' : β},
    I.list.rel w l l' → R.rel w s s' →
    (∀ w' i j y b, w ≤ w' → I.rel w' i j → R.rel w' y b → R.SimU (f i y) (g j b) w') →
    R.SimU (eForEach l f s) (Magnesia.forEach l' g s') w
  | _, [], [], _, _, _, hs, _ => ⟨le_refl _, hs, rfl⟩
  | _, [], _ :: _, _, _, hl, _, _ => nomatch hl
  | _, _ :: _, [], _, _, hl, _, _ => nomatch hl
  | w, i :: l, j :: l', s, s', hl, hs, h => by
    have e : eForEach (i :: l) f s = (f i s).andThen fun s => eForEach l f s := by
      funext w
      show (match f i s w with | (⟨s', none⟩, w') => _ | (⟨s', some e⟩, w') => _) = _
      unfold EUpd.andThen
      rcases f i s w with ⟨⟨s', _ | e⟩, w'⟩ <;> rfl
    rw [e]
    obtain ⟨h1, h2⟩ := List.forall₂_cons.1 hl
    exact (h w i j s s' (le_refl _) h1 hs).andThen fun w' y b hw hy => SimU.forEach (I.list.mono hw h2) hy
      fun w'' i j y b hw' => h w'' i j y b (hw.trans hw')

theorem Sim.fold {f : α → ι → Proc W α} {g : β → κ → Res β} : ∀ {w : W} {l : List ι} {l' : List κ} {s : α} {s' : β},
    I.list.rel w l l' → R.rel w s s' →
    (∀ w' i j y b, w ≤ w' → I.rel w' i j → R.rel w' y b → R.Sim (f y i) (g b j) w') →
    R.Sim (EOps.eFold f l s) (l'.foldlM g s') w
  | _, [], [], _, _, _, hs, _ => Sim.pure hs
  | _, [], _ :: _, _, _, hl, _, _ => nomatch hl
  | _, _ :: _, [], _, _, hl, _, _ => nomatch hl
  | w, i :: l, j :: l', s, s', hl, hs, h => by
    rw [List.foldlM_cons]
    obtain ⟨h1, h2⟩ := List.forall₂_cons.1 hl
    exact (h w i j s s' (le_refl _) h1 hs).bind fun w' y b hw hy => Sim.fold (I.list.mono hw h2) hy
      fun w'' i j y b hw' => h w'' i j y b (hw.trans hw')

theorem Sim.collect {f : ι → Proc W α} {g : κ → Res β} : ∀ {w : W} {l : List ι} {l' : List κ},
    I.list.rel w l l' → (∀ w' i j, w ≤ w' → I.rel w' i j → R.Sim (f i) (g j) w') → R.list.Sim (Magnesia.collect l f) (l'.mapM g) w
  | _, [], [], _, _ => Sim.pure (R := R.list) .nil
  | _, [], _ :: _, hl, _ => nomatch hl
  | _, _ :: _, [], hl, _ => nomatch hl
  | w, i :: l, j :: l', hl, h => by
    rw [List.mapM_cons]
    obtain ⟨h1, h2⟩ := List.forall₂_cons.1 hl
    exact (h w i j (le_refl _) h1).bind fun w' y b hw hy => (Sim.collect (I.list.mono hw h2) fun w'' i j hw' => h w'' i j (hw.trans hw')).bind
      fun w'' ys bs hw' hys => Sim.pure (R := R.list) (.cons (R.mono hw' hy) hys)

theorem Sim.fromFn : ∀ {n : ℕ} {w : W} {f : Fin n → Proc W α} {g : Fin n → Res β}, (∀ w' i, w ≤ w' → R.Sim (f i) (g i) w') →
    (R.arr n).Sim (fromFnM n f) (fromFnM n g) w
  | 0, _, _, _, _ => Sim.pure (R := R.arr 0) fun i => i.elim0
  | n + 1, w, f, g, h => (h w 0 (le_refl _)).bind fun w' y b hw hy =>
      (Sim.fromFn fun w'' i hw' => h w'' i.succ (hw.trans hw')).bind fun w'' ys bs hw' hys =>
        Sim.pure (R := R.arr (n + 1)) fun i => by
          refine Fin.cases ?_ (fun i => ?_) i
          · exact R.mono hw' hy
          · exact hys i

end Represents

/-! ## Shared by several functions -/

open Represents

variable {R : Represents W T S}

theorem Represents.list_zipIdx {w : W} {l : List T} {l' : List S} (h : R.list.rel w l l') (k : ℕ) :
    (R.prod (data ℕ)).list.rel w (l.zipIdx k) (l'.zipIdx k) := by
  change List.Forall₂ _ _ _ at h
  induction h generalizing k with
  | nil => exact .nil
  | cons h _ ih => exact .cons ⟨h, rfl⟩ (ih (k + 1))

theorem Represents.sim_both {w : W} {f g : Proc W T} {a b : Res S} (hf : R.Sim f a w) (hg : ∀ w', w ≤ w' → R.Sim g b w') :
    R.complex.Sim (EOps.complexBoth f g) (do let re ← a; let im ← b; pure ⟨re, im⟩) w :=
  hf.bind fun w' _ _ hw hy => (hg w' hw).bind fun _ _ _ hw' hz => Sim.pure (R := R.complex) ⟨R.mono hw' hy, hz⟩

theorem Represents.sim_cassign {op : T → T → EUpd W T} {op' : S → S → Upd S}
    (h : ∀ w x y a b, R.rel w x a → R.rel w y b → R.SimU (op x y) (op' a b) w) (w : W) (z u : Complex T) (z' u' : Complex S)
    (hz : R.complex.rel w z z') (hu : R.complex.rel w u u') :
    R.complex.SimU (EOps.complexAssign op z u) (((op' z'.re u'.re).into (fun re => { z' with re := re })).andThen fun z =>
      (op' z.im u'.im).into (fun im => { z with im := im })) w :=
  ((h w _ _ _ _ hz.1 hu.1).into (Q := R.complex) (f := fun re => { z with re := re }) (g := fun re => { z' with re := re }) fun _ _ _ hw hy => ⟨hy, R.mono hw hz.2⟩).andThen fun w' v v' hw hy =>
    (h w' _ _ _ _ hy.2 (R.mono hw hu.2)).into (Q := R.complex) (f := fun im => { v with im := im }) (g := fun im => { v' with im := im }) fun _ _ _ hw' hy' => ⟨R.mono hw' hy.1, hy'⟩

theorem Represents.sim_smap {r c : ℕ} {w : W} {f : Fin r → Fin c → Proc W T} {g : Fin r → Fin c → Res S}
    (h : ∀ w', w ≤ w' → ∀ i j, R.Sim (f i j) (g i j) w') :
    (R.smatrix r c).Sim (EOps.smatrixMap f) (do let a ← fromFnM r (fun i => fromFnM c (fun j => g i j)); pure ⟨a⟩) w :=
  (Sim.fromFn (R := R.arr c) fun _ i hw => Sim.fromFn (R := R) fun w'' j hw' => h w'' (hw.trans hw') i j).bind fun _ _ _ _ hy =>
    Sim.pure (R := R.smatrix r c) hy

theorem Represents.sim_sassign {r c : ℕ} {op : T → T → EUpd W T} {op' : S → S → Upd S}
    (h : ∀ w x y a b, R.rel w x a → R.rel w y b → R.SimU (op x y) (op' a b) w) (w : W) (a b : SMatrix T r c) (a' b' : SMatrix S r c)
    (ha : (R.smatrix r c).rel w a a') (hb : (R.smatrix r c).rel w b b') :
    (R.smatrix r c).SimU (EOps.smatrixAssign op a b) ((forEach (List.finRange r) (fun i a => arrUpd a i (fun lo =>
      forEach (List.finRange c) (fun j lo => arrUpd lo j (fun li => op' li (b'.val i j))) lo)) a'.val).into SMatrix.mk) w := by
  refine SimU.into (R := (R.arr c).arr r) (SimU.forEach (I := data (Fin r)) (list_data w _) ha ?_) (fun _ _ _ _ h => h)
  intro w₁ i _ y b h₁ hi hy
  cases hi
  refine SimU.arrUpd hy fun y b hyb => SimU.forEach (I := data (Fin c)) (list_data w₁ _) hyb ?_
  intro w₂ j _ y b h₂ hj hy
  cases hj
  exact SimU.arrUpd hy fun y b hyb => h w₂ _ _ _ _ hyb (R.mono (h₁.trans h₂) (hb i j))

/-! ## Tapes -/

section replay

variable [RZero S] [ROne S] [AddAssignRef S] [SubAssignRef S] [MulRefs S] [RNeg S] [RConj S] [RAdd S S S] [RSub S S S]
  [RMul S S S] [RAddAssign S S] [RSubAssign S S]

theorem Tape.push_rel (hS : OpsNeverPanic S) (inputs : ℕ → S) (t : Tape) (op : OpName) (x y : ℕ) (c : S)
    (h : ∀ l, replay inputs t.nodes [] = .ok l → OpName.apply (valueAt l x) (valueAt l y) op = .ok c) :
    (Tape.represents hS inputs).rel ⟨t.nodes ++ [.call op x y]⟩ t.nodes.length c := by
  obtain ⟨l, hl, hlen⟩ := replay_extends inputs hS t.nodes []
  rw [List.nil_append] at hl
  refine ⟨l ++ [c], ?_, ?_⟩
  · rw [replay_append, hl]
    show (OpName.apply (valueAt l x) (valueAt l y) op >>= fun v => replay inputs [] (l ++ [v])) = _
    rw [h l hl]; rfl
  · rw [← hlen, List.getElem?_append_right (le_refl _), Nat.sub_self]; rfl

theorem Tape.push_le (t : Tape) (n : Node) : t ≤ ⟨t.nodes ++ [n]⟩ := List.prefix_append _ _

theorem Tape.valueAt_of_rel {hS : OpsNeverPanic S} {inputs : ℕ → S} {t : Tape} {x : ℕ} {a : S}
    (h : (Tape.represents hS inputs).rel t x a) {l : List S} (hl : replay inputs t.nodes [] = .ok l) : valueAt l x = a := by
  obtain ⟨l', hl', hx⟩ := h
  rw [hl] at hl'
  cases hl'
  rw [valueAt, hx]; rfl

theorem Tape.sim_push (hS : OpsNeverPanic S) (inputs : ℕ → S) (t : Tape) (op : OpName) (x y : ℕ) (r : Res S)
    (h : ∀ l, replay inputs t.nodes [] = .ok l → OpName.apply (valueAt l x) (valueAt l y) op = r) :
    (Tape.represents hS inputs).Sim (Tape.push (.call op x y)) r t := by
  obtain ⟨l, hl, hlen⟩ := replay_extends inputs hS t.nodes []
  obtain ⟨c, hc⟩ := hS op (valueAt l x) (valueAt l y)
  obtain rfl : r = .ok c := by rw [← hc]; exact (h l hl).symm
  exact ⟨Tape.push_le t _, Tape.push_rel hS inputs t op x y c h⟩

theorem Tape.sim_pushAssign (hS : OpsNeverPanic S) (inputs : ℕ → S) (t : Tape) (op : OpName) (x y : ℕ) (u : Upd S)
    (h : ∀ l, replay inputs t.nodes [] = .ok l → OpName.apply (valueAt l x) (valueAt l y) op = u.toRes) :
    (Tape.represents hS inputs).SimU (Tape.pushAssign (.call op x y)) u t := by
  obtain ⟨l, hl, hlen⟩ := replay_extends inputs hS t.nodes []
  obtain ⟨c, hc⟩ := hS op (valueAt l x) (valueAt l y)
  have hu : u.toRes = .ok c := by rw [← hc]; exact (h l hl).symm
  obtain ⟨v, _ | e⟩ := u
  · cases hu
    exact ⟨Tape.push_le t _, Tape.push_rel hS inputs t op x y v h, rfl⟩
  · cases hu

theorem Tape.ops_simulates (hS : OpsNeverPanic S) (inputs : ℕ → S) : Tape.ops.Simulates (Tape.represents hS inputs) where
  zero t := Tape.sim_push hS inputs t _ _ _ _ fun _ _ => rfl
  one t := Tape.sim_push hS inputs t _ _ _ _ fun _ _ => rfl
  clone _ _ _ h := Sim.pure h
  addAssign t x y a b hx hy := Tape.sim_pushAssign hS inputs t _ _ _ _ fun _ hl => by
    rw [Tape.valueAt_of_rel hx hl, Tape.valueAt_of_rel hy hl]; rfl
  subAssign t x y a b hx hy := Tape.sim_pushAssign hS inputs t _ _ _ _ fun _ hl => by
    rw [Tape.valueAt_of_rel hx hl, Tape.valueAt_of_rel hy hl]; rfl
  mulRefs t x y a b hx hy := Tape.sim_push hS inputs t _ _ _ _ fun _ hl => by
    rw [Tape.valueAt_of_rel hx hl, Tape.valueAt_of_rel hy hl]; rfl
  neg t x a hx := Tape.sim_push hS inputs t _ _ _ _ fun _ hl => by rw [Tape.valueAt_of_rel hx hl]; rfl
  conj t x a hx := Tape.sim_push hS inputs t _ _ _ _ fun _ hl => by rw [Tape.valueAt_of_rel hx hl]; rfl
  add t x y a b hx hy := Tape.sim_push hS inputs t _ _ _ _ fun _ hl => by
    rw [Tape.valueAt_of_rel hx hl, Tape.valueAt_of_rel hy hl]; rfl
  sub t x y a b hx hy := Tape.sim_push hS inputs t _ _ _ _ fun _ hl => by
    rw [Tape.valueAt_of_rel hx hl, Tape.valueAt_of_rel hy hl]; rfl
  mul t x y a b hx hy := Tape.sim_push hS inputs t _ _ _ _ fun _ hl => by
    rw [Tape.valueAt_of_rel hx hl, Tape.valueAt_of_rel hy hl]; rfl
  addAssignV t x y a b hx hy := Tape.sim_pushAssign hS inputs t _ _ _ _ fun _ hl => by
    rw [Tape.valueAt_of_rel hx hl, Tape.valueAt_of_rel hy hl]; rfl
  subAssignV t x y a b hx hy := Tape.sim_pushAssign hS inputs t _ _ _ _ fun _ hl => by
    rw [Tape.valueAt_of_rel hx hl, Tape.valueAt_of_rel hy hl]; rfl

theorem replay_inputs (inputs : ℕ → S) : ∀ (ks : List ℕ) (d : List S), replay inputs (ks.map Node.input) d = .ok (d ++ ks.map inputs)
  | [], d => by rw [List.map_nil, List.map_nil, List.append_nil]; rfl
  | k :: ks, d => by
    show replay inputs (ks.map Node.input) (d ++ [inputs k]) = _
    rw [replay_inputs inputs ks, List.append_assoc]; rfl

theorem Tape.ofInputs_rel (hS : OpsNeverPanic S) (inputs : ℕ → S) {n k : ℕ} (hk : k < n) :
    (Tape.represents hS inputs).rel (Tape.ofInputs n) k (inputs k) :=
  ⟨(List.range n).map inputs, replay_inputs inputs (List.range n) [], by simp [hk]⟩

end replay

/-- Exact arithmetic never panics. -/
theorem opsNeverPanic_exact (R : Type) [Ring R] : OpsNeverPanic (Exact R) := fun op a b => by
  cases op <;> exact ⟨_, rfl⟩

end Magnesia
