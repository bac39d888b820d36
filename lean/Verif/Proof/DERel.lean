import Verif.Spec.DERel
import Verif.Proof.DESafe

/-!
# Comparing runs of the optimizer (helper lemmas)
-/

namespace Magnesia

set_option linter.unusedSectionVars false

open RZero ROne

variable {α β γ δ : Type}

namespace SameEnd

theorem bind {R : α → β → Prop} {Q : γ → δ → Prop} {x : Res α} {y : Res β} {f : α → Res γ} {f' : β → Res δ}
    (h : SameEnd R x y) (hf : ∀ a b, R a b → SameEnd Q (f a) (f' b)) : SameEnd Q (x >>= f) (y >>= f') := by
  cases x <;> cases y <;> simp only [SameEnd] at h
  · subst h; rfl
  · exact hf _ _ h

theorem getIdx {R : α → β → Prop} {l : List α} {l' : List β} (h : List.Forall₂ R l l') (i : ℕ) :
    SameEnd R (getIdx l i) (Magnesia.getIdx l' i) := by
  unfold Magnesia.getIdx
  induction h generalizing i with
  | nil => simp [SameEnd]
  | cons h _ ih =>
    cases i with
    | zero => simpa [SameEnd] using h
    | succ i => simpa using ih i

theorem forall₂_set {R : α → β → Prop} {l : List α} {l' : List β} (h : List.Forall₂ R l l') {x : α} {y : β} (hx : R x y)
    (i : ℕ) : List.Forall₂ R (l.set i x) (l'.set i y) := by
  induction h generalizing i with
  | nil => simp
  | cons h h' ih =>
    cases i with
    | zero => exact .cons hx h'
    | succ i => exact .cons h (ih i)

theorem set {R : α → β → Prop} {l : List α} {l' : List β} (h : List.Forall₂ R l l') {x : α} {y : β} (hx : R x y) (i : ℕ) :
    SameEnd (List.Forall₂ R) (updAt l i (fun _ => .done x)).toRes (updAt l' i (fun _ => .done y)).toRes := by
  have hl := h.length_eq
  by_cases hi : i < l.length
  · rw [DEnv.setRes_of_lt hi, DEnv.setRes_of_lt (hl ▸ hi)]
    exact forall₂_set h hx i
  · unfold updAt
    rw [List.getElem?_eq_none (by omega), List.getElem?_eq_none (by omega)]
    simp [SameEnd, Upd.toRes]

end SameEnd

namespace Proc

variable {W W' : Type}

/-- Related worlds lead to related outcomes and related worlds. -/
def Rel (RW : W → W' → Prop) (R : α → β → Prop) (m : Proc W α) (m' : Proc W' β) : Prop :=
  ∀ w w', RW w w' → SameEnd R (m w).1 (m' w').1 ∧ RW (m w).2 (m' w').2

namespace Rel

variable {RW : W → W' → Prop}

theorem pure {R : α → β → Prop} {a : α} {b : β} (h : R a b) : Rel RW R (Pure.pure a) (Pure.pure b) :=
  fun _ _ hw => ⟨h, hw⟩

theorem ofRes {R : α → β → Prop} {x : Res α} {y : Res β} (h : SameEnd R x y) : Rel RW R (Proc.ofRes x) (Proc.ofRes y) :=
  fun _ _ hw => ⟨h, hw⟩

theorem panic {R : α → β → Prop} (e : Panic) : Rel RW R (Proc.panic e) (Proc.panic e) := fun _ _ hw => ⟨rfl, hw⟩

theorem bind {R : α → β → Prop} {Q : γ → δ → Prop} {m : Proc W α} {m' : Proc W' β} {f : α → Proc W γ} {f' : β → Proc W' δ}
    (h : Rel RW R m m') (hf : ∀ a b, R a b → Rel RW Q (f a) (f' b)) : Rel RW Q (m >>= f) (m' >>= f') := by
  intro w w' hw
  have h1 := h w w' hw
  rw [bind_eq, bind_eq]
  rcases hm : m w with ⟨e | a, w1⟩ <;> rcases hm' : m' w' with ⟨e' | b, w1'⟩ <;> rw [hm, hm'] at h1
  · obtain ⟨h1, h2⟩ := h1
    have : e = e' := h1
    subst this
    exact ⟨rfl, h2⟩
  · exact h1.1.elim
  · exact h1.1.elim
  · exact hf a b h1.1 w1 w1' h1.2

theorem assert {b b' : Bool} (h : b = b') : Rel RW (fun _ _ => True) (Proc.assert b) (Proc.assert b') := by
  subst h
  unfold Proc.assert
  cases b
  · exact panic _
  · exact pure trivial

theorem fromFn : ∀ {n : ℕ} {R : Fin n → α → β → Prop} {f : Fin n → Proc W α} {f' : Fin n → Proc W' β},
    (∀ i, Rel RW (R i) (f i) (f' i)) → Rel RW (fun x y => ∀ i, R i (x i) (y i)) (fromFnM n f) (fromFnM n f') := by
  intro n
  induction n with
  | zero => intro R f f' _; exact pure fun i => i.elim0
  | succ n ih =>
    intro R f f' hf
    exact (hf 0).bind fun x y hxy => (ih fun i => hf i.succ).bind fun xs ys hs => pure fun i => by
      cases i using Fin.cases with
      | zero => exact hxy
      | succ i => exact hs i

theorem mapM {ι : Type} {R : α → β → Prop} {f : ι → Proc W α} {f' : ι → Proc W' β} (hf : ∀ i, Rel RW R (f i) (f' i)) :
    ∀ l : List ι, Rel RW (List.Forall₂ R) (l.mapM f) (l.mapM f') := by
  intro l
  induction l with
  | nil => rw [List.mapM_nil, List.mapM_nil]; exact pure .nil
  | cons a l ih =>
    rw [List.mapM_cons, List.mapM_cons]
    exact (hf a).bind fun x y h => ih.bind fun xs ys hs => pure (.cons h hs)

theorem foldlM {ι : Type} {R : α → β → Prop} {f : α → ι → Proc W α} {f' : β → ι → Proc W' β}
    (hf : ∀ a b i, R a b → Rel RW R (f a i) (f' b i)) : ∀ (l : List ι) {a : α} {b : β}, R a b →
    Rel RW R (l.foldlM f a) (l.foldlM f' b) := by
  intro l
  induction l with
  | nil => intro a b h; exact pure h
  | cons i l ih =>
    intro a b h
    rw [List.foldlM_cons, List.foldlM_cons]
    exact (hf a b i h).bind fun x y h => ih h

end Rel

end Proc

namespace DEnv

open Proc

variable {T T' P G G' S S' : Type} {N n : ℕ} {env : DEnv T P N G S} {env' : DEnv T' P N G' S'}
variable [RPartialOrd P] [RZero P] [ROne P] [RPartialOrd T] [FromI8 T] [RAdd T T T] [RSub T T T] [RMul T T T]
variable [RPartialOrd T'] [FromI8 T'] [RAdd T' T' T'] [RSub T' T' T'] [RMul T' T' T']
variable {R : Fin N → T → T' → Prop} {RG : G → G' → Prop} {RS : S → S' → Prop} {cp : P}
variable {bounds : Fin N → T × T} {bounds' : Fin N → T' × T'} {w : T} {w' : T'}

/-- Related worlds. -/
def WRel (R : Fin N → T → T' → Prop) (RG : G → G' → Prop) (RS : S → S' → Prop) (s : DEWorld T N G S) (s' : DEWorld T' N G' S') :
    Prop :=
  RG s.rng s'.rng ∧ RS s.cmp s'.cmp ∧ List.Forall₂ (CallRel R) s.log s'.log

theorem sameEnd_eq {x y : Res α} (h : x = y) : SameEnd (fun a b => a = b) x y := by
  subst h; cases x <;> rfl

theorem Alike.index_rel (h : env.Alike R RG RS env' bounds bounds' w w') (n : ℕ) :
    Rel (WRel R RG RS) (fun a b => a = b) (env.index n) (env'.index n) := fun _ _ ⟨h1, h2, h3⟩ =>
  ⟨sameEnd_eq (h.index n _ _ h1).1, (h.index n _ _ h1).2, h2, h3⟩

theorem Alike.unit_rel (h : env.Alike R RG RS env' bounds bounds' w w') :
    Rel (WRel R RG RS) (fun a b => a = b) env.unit env'.unit := fun _ _ ⟨h1, h2, h3⟩ =>
  ⟨(h.unit _ _ h1).1, (h.unit _ _ h1).2, h2, h3⟩

theorem Alike.uniform_rel (h : env.Alike R RG RS env' bounds bounds' w w') (c : Fin N) :
    Rel (WRel R RG RS) (R c) (env.uniform (bounds c).1 (bounds c).2) (env'.uniform (bounds' c).1 (bounds' c).2) :=
  fun _ _ ⟨h1, h2, h3⟩ => ⟨(h.uniform c _ _ h1).1, (h.uniform c _ _ h1).2, h2, h3⟩

theorem Alike.cmp_rel (h : env.Alike R RG RS env' bounds bounds' w w') {a b : Pt T N} {a' b' : Pt T' N} (ha : PtRel R a a')
    (hb : PtRel R b b') : Rel (WRel R RG RS) (fun a b => a = b) (env.cmp a b) (env'.cmp a' b') := by
  rintro s s' ⟨h1, h2, h3⟩
  obtain ⟨c1, c2⟩ := h.compare a b a' b' _ _ ha hb h2
  refine ⟨sameEnd_eq c1, h1, c2, ?_⟩
  show List.Forall₂ _ (match (env.compare a b s.cmp).1 with
    | .ok ans => s.log ++ [⟨a, b, ans⟩]
    | .error _ => s.log) (match (env'.compare a' b' s'.cmp).1 with
    | .ok ans => s'.log ++ [⟨a', b', ans⟩]
    | .error _ => s'.log)
  rw [← c1]
  cases (env.compare a b s.cmp).1 with
  | ok ans => exact List.rel_append h3 (.cons ⟨ha, hb, rfl⟩ .nil)
  | error e => exact h3

theorem Alike.draw_rel (h : env.Alike R RG RS env' bounds bounds' w w') (n : ℕ) (avoid : List ℕ) (fuel : ℕ) :
    Rel (WRel R RG RS) (fun a b => a = b) (env.draw n avoid fuel) (env'.draw n avoid fuel) := by
  induction fuel with
  | zero => exact .panic _
  | succ fuel ih =>
    refine (h.index_rel n).bind fun j j' hj => ?_
    subst hj
    cases avoid.contains j with
    | true => exact ih
    | false => exact .pure rfl

theorem Alike.trial_rel (h : env.Alike R RG RS env' bounds bounds' w w') {pop : List (Pt T N)} {pop' : List (Pt T' N)}
    (hp : List.Forall₂ (PtRel R) pop pop') (i j k l r : ℕ) :
    Rel (WRel R RG RS) (PtRel R) (env.trial pop cp w i j k l r) (env'.trial pop' cp w' i j k l r) := by
  unfold trial
  refine Rel.fromFn (R := R) fun c => ?_
  have hm : Rel (WRel R RG RS) (fun a b => a = b) (env.mutates cp c r) (env'.mutates cp c r) := by
    unfold mutates
    split
    · exact .pure rfl
    · exact h.unit_rel.bind fun u u' hu => .pure (by rw [hu])
  refine hm.bind fun b b' hb => ?_
  subst hb
  cases b with
  | true =>
    rw [if_pos rfl, if_pos rfl]
    exact .ofRes ((SameEnd.getIdx hp j).bind fun x x' hx => (SameEnd.getIdx hp k).bind fun y y' hy =>
      (SameEnd.getIdx hp l).bind fun z z' hz => h.arith c _ _ _ _ _ _ (hx c) (hy c) (hz c))
  | false =>
    rw [if_neg (by simp), if_neg (by simp)]
    exact .ofRes ((SameEnd.getIdx hp i).bind fun x x' hx => hx c)

theorem Alike.iteration_rel (h : env.Alike R RG RS env' bounds bounds' w w') (fuel : ℕ) {pop : List (Pt T N)}
    {pop' : List (Pt T' N)} (hp : List.Forall₂ (PtRel R) pop pop') (i : ℕ) :
    Rel (WRel R RG RS) (List.Forall₂ (PtRel R)) (env.iteration fuel cp w n pop i) (env'.iteration fuel cp w' n pop' i) := by
  unfold iteration
  refine (h.draw_rel _ _ _).bind fun j j' hj => ?_
  subst hj
  refine (h.draw_rel _ _ _).bind fun k k' hk => ?_
  subst hk
  refine (h.draw_rel _ _ _).bind fun l l' hl => ?_
  subst hl
  refine (h.index_rel _).bind fun r r' hr => ?_
  subst hr
  refine (h.trial_rel hp i j k l r).bind fun x x' hx => ?_
  refine (Rel.ofRes (SameEnd.getIdx hp i)).bind fun y y' hy => ?_
  refine (h.cmp_rel hx hy).bind fun b b' hb => ?_
  subst hb
  cases b with
  | true =>
    rw [if_pos rfl, if_pos rfl]
    exact .ofRes (SameEnd.set hp hx i)
  | false => exact .pure hp

theorem Alike.game_rel (h : env.Alike R RG RS env' bounds bounds' w w') (len half : ℕ) {pop : List (Pt T N)}
    {pop' : List (Pt T' N)} (hp : List.Forall₂ (PtRel R) pop pop') (i : ℕ) :
    Rel (WRel R RG RS) (List.Forall₂ (PtRel R)) (env.knockoutGame len half pop i) (env'.knockoutGame len half pop' i) := by
  unfold knockoutGame
  refine (Rel.ofRes (SameEnd.getIdx hp _)).bind fun x x' hx => ?_
  refine (Rel.ofRes (SameEnd.getIdx hp _)).bind fun y y' hy => ?_
  refine (h.cmp_rel hx hy).bind fun b b' hb => ?_
  subst hb
  have ht : SameEnd (List.Forall₂ (PtRel R)) (takeOver b half pop i) (takeOver b half pop' i) := by
    unfold takeOver
    cases b with
    | true =>
      rw [if_pos rfl, if_pos rfl]
      exact (SameEnd.getIdx hp _).bind fun x x' hx => SameEnd.set hp hx i
    | false => exact hp
  refine (Rel.ofRes ht).bind fun q q' hq => ?_
  split
  · exact .ofRes ((SameEnd.getIdx hq _).bind fun x x' hx => SameEnd.set hq hx _)
  · exact .pure hq

theorem Alike.knockout_rel (h : env.Alike R RG RS env' bounds bounds' w w') : ∀ (len : ℕ) {pop : List (Pt T N)}
    {pop' : List (Pt T' N)} (_ : pop.length = len) (_ : List.Forall₂ (PtRel R) pop pop'),
    Rel (WRel R RG RS) (PtRel R) (env.knockout pop) (env'.knockout pop') := by
  intro len
  induction len using Nat.strongRecOn with
  | _ len ih =>
    intro pop pop' hl hp
    rw [knockout, knockout, ← hp.length_eq]
    by_cases h1 : pop.length > 1
    · rw [if_pos h1, if_pos h1]
      refine (Rel.foldlM (fun a b i hab => h.game_rel _ _ hab i) _ hp).bind fun q q' hq => ?_
      refine ih _ ?_ rfl (List.forall₂_take _ hq)
      have := List.length_take_le ((pop.length + 1) / 2) q
      omega
    · rw [if_neg h1, if_neg h1]
      exact .ofRes (SameEnd.getIdx hp 0)

theorem Alike.optimize_rel (h : env.Alike R RG RS env' bounds bounds' w w') (fuel iters : ℕ) :
    Rel (WRel R RG RS) (PtRel R) (env.optimize fuel bounds n cp w iters) (env'.optimize fuel bounds' n cp w' iters) := by
  unfold optimize
  refine (Rel.assert rfl).bind fun _ _ _ => (Rel.assert rfl).bind fun _ _ _ => (Rel.assert h.weight).bind fun _ _ _ => ?_
  refine (Rel.mapM (R := PtRel R) (fun _ => Rel.fromFn (R := R) fun i => h.uniform_rel i) _).bind fun p p' hp => ?_
  rw [hp.length_eq]
  exact (Rel.foldlM (R := List.Forall₂ (PtRel R)) (f := fun pop t => env.iteration fuel cp w p'.length pop (t % p'.length))
    (f' := fun pop t => env'.iteration fuel cp w' p'.length pop (t % p'.length))
    (fun a b i hab => h.iteration_rel fuel hab _) _ hp).bind fun q q' hq => h.knockout_rel _ rfl hq

/-! ### Dependence on the comparator's answers only at the compared points -/

/-- If `m` returns, it only extends the log, and `m'` does the same as `m` if all new entries of the log have `A`. -/
def Local (A : Call T N → Prop) (m m' : Proc (DEWorld T N G S) α) : Prop :=
  ∀ w a w1, m w = (.ok a, w1) → ∃ l, w1.log = w.log ++ l ∧ ((∀ c ∈ l, A c) → m' w = (.ok a, w1))

namespace Local

variable {A : Call T N → Prop}

theorem pure (a : α) : Local (G := G) (S := S) A (Pure.pure a) (Pure.pure a) := by
  intro w b w1 h
  obtain ⟨rfl, rfl⟩ := Proc.pure_ok h
  exact ⟨[], by simp, fun _ => rfl⟩

theorem ofRes (x : Res α) : Local (G := G) (S := S) A (Proc.ofRes x) (Proc.ofRes x) := by
  intro w b w1 h
  obtain ⟨rfl, rfl⟩ := Proc.ofRes_ok h
  exact ⟨[], by simp, fun _ => rfl⟩

theorem silent {m : Proc (DEWorld T N G S) α} (h : ∀ w, (m w).2.log = w.log) : Local A m m := by
  intro w b w1 hm
  have := h w
  rw [hm] at this
  exact ⟨[], by simpa using this, fun _ => hm⟩

theorem bind {m m' : Proc (DEWorld T N G S) α} {f f' : α → Proc (DEWorld T N G S) β} (hm : Local A m m')
    (hf : ∀ a, Local A (f a) (f' a)) : Local A (m >>= f) (m' >>= f') := by
  intro w b w2 h
  obtain ⟨a, w1, h1, h2⟩ := Proc.bind_ok h
  obtain ⟨l1, e1, g1⟩ := hm _ _ _ h1
  obtain ⟨l2, e2, g2⟩ := hf a _ _ _ h2
  refine ⟨l1 ++ l2, by rw [e2, e1, List.append_assoc], fun hA => ?_⟩
  rw [Proc.bind_eq, g1 fun c hc => hA c (List.mem_append_left _ hc)]
  exact g2 fun c hc => hA c (List.mem_append_right _ hc)

theorem fromFn : ∀ {n : ℕ} {f f' : Fin n → Proc (DEWorld T N G S) α}, (∀ i, Local A (f i) (f' i)) →
    Local A (fromFnM n f) (fromFnM n f') := by
  intro n
  induction n with
  | zero => intro f f' _; exact pure _
  | succ n ih =>
    intro f f' hf
    exact (hf 0).bind fun x => (ih fun i => hf i.succ).bind fun xs => pure _

theorem mapM {ι : Type} {f f' : ι → Proc (DEWorld T N G S) α} (hf : ∀ i, Local A (f i) (f' i)) :
    ∀ l : List ι, Local A (l.mapM f) (l.mapM f') := by
  intro l
  induction l with
  | nil => rw [List.mapM_nil, List.mapM_nil]; exact pure _
  | cons a l ih =>
    rw [List.mapM_cons, List.mapM_cons]
    exact (hf a).bind fun x => ih.bind fun xs => pure _

theorem foldlM {ι : Type} {f f' : α → ι → Proc (DEWorld T N G S) α} (hf : ∀ a i, Local A (f a i) (f' a i)) :
    ∀ (l : List ι) (a : α), Local A (l.foldlM f a) (l.foldlM f' a) := by
  intro l
  induction l with
  | nil => intro a; exact pure a
  | cons i l ih =>
    intro a
    rw [List.foldlM_cons, List.foldlM_cons]
    exact (hf a i).bind fun x => ih x

end Local

variable {compare' : Pt T N → Pt T N → S → Res Bool × S}

/-- The comparator `compare'` treats the call the same. -/
def Agrees (env : DEnv T P N G S) (compare' : Pt T N → Pt T N → S → Res Bool × S) (c : Call T N) : Prop :=
  ∀ st, compare' c.a c.b st = env.compare c.a c.b st

theorem cmp_local (a b : Pt T N) : Local (env.Agrees compare') (env.cmp a b) ((env.withComparator compare').cmp a b) := by
  intro w ans w1 h
  have h0 : (env.compare a b w.cmp).1 = .ok ans := congrArg Prod.fst h
  obtain ⟨h1, _⟩ := cmp_ok h
  refine ⟨[⟨a, b, ans⟩], h1, fun hA => ?_⟩
  have := hA ⟨a, b, ans⟩ (by simp) w.cmp
  rw [← h]
  unfold cmp
  show ((compare' a b w.cmp).1, _) = _
  simp only [withComparator]
  rw [this]

theorem draw_local {A : Call T N → Prop} (n : ℕ) (avoid : List ℕ) (fuel : ℕ) :
    Local A (env.draw n avoid fuel) ((env.withComparator compare').draw n avoid fuel) := by
  induction fuel with
  | zero => intro w a w1 h; cases h
  | succ fuel ih =>
    refine Local.bind (Local.silent fun w => rfl) fun j => ?_
    cases avoid.contains j with
    | true => exact ih
    | false => exact Local.pure _

theorem trial_local {A : Call T N → Prop} (pop : List (Pt T N)) (cp : P) (w : T) (i j k l r : ℕ) :
    Local A (env.trial pop cp w i j k l r) ((env.withComparator compare').trial pop cp w i j k l r) := by
  unfold trial
  refine Local.fromFn fun c => ?_
  have hm : Local A (env.mutates cp c r) ((env.withComparator compare').mutates cp c r) := by
    unfold mutates
    split
    · exact .pure _
    · exact Local.bind (Local.silent fun w => rfl) fun u => .pure _
  refine hm.bind fun b => ?_
  cases b <;> exact .ofRes _

theorem iteration_local (fuel : ℕ) (pop : List (Pt T N)) (cp : P) (w : T) (i : ℕ) :
    Local (env.Agrees compare') (env.iteration fuel cp w n pop i) ((env.withComparator compare').iteration fuel cp w n pop i) := by
  unfold iteration
  refine (draw_local _ _ _).bind fun j => (draw_local _ _ _).bind fun k => (draw_local _ _ _).bind fun l => ?_
  refine Local.bind (Local.silent fun w => rfl) fun r => (trial_local pop cp w i j k l r).bind fun x => ?_
  refine (Local.ofRes _).bind fun y => (cmp_local _ _).bind fun b => ?_
  cases b
  · exact .pure _
  · exact .ofRes _

theorem knockout_local : ∀ (len : ℕ) (pop : List (Pt T N)) (_ : pop.length = len),
    Local (env.Agrees compare') (env.knockout pop) ((env.withComparator compare').knockout pop) := by
  intro len
  induction len using Nat.strongRecOn with
  | _ len ih =>
    intro pop hl
    rw [knockout, knockout]
    by_cases h1 : pop.length > 1
    · rw [if_pos h1, if_pos h1]
      refine (Local.foldlM (fun a i => ?_) _ _).bind fun q => ih _ ?_ _ rfl
      · unfold knockoutGame
        refine (Local.ofRes _).bind fun x => (Local.ofRes _).bind fun y => (cmp_local _ _).bind fun b =>
          (Local.ofRes _).bind fun q => ?_
        split
        · exact .ofRes _
        · exact .pure _
      · have := List.length_take_le ((pop.length + 1) / 2) q
        omega
    · rw [if_neg h1, if_neg h1]
      exact .ofRes _

theorem optimize_local (fuel iters : ℕ) (bounds : Fin N → T × T) (cp : P) (w : T) :
    Local (env.Agrees compare') (env.optimize fuel bounds n cp w iters)
      ((env.withComparator compare').optimize fuel bounds n cp w iters) := by
  have ha : ∀ b, Local (G := G) (S := S) (env.Agrees compare') (Proc.assert b) (Proc.assert b) := fun b => by
    cases b
    · intro w a w1 h; cases h
    · exact .pure _
  unfold optimize
  refine (ha _).bind fun _ => (ha _).bind fun _ => (ha _).bind fun _ => ?_
  refine (Local.mapM (fun _ => Local.fromFn fun i => Local.silent fun w => rfl) _).bind fun p => ?_
  exact (Local.foldlM (f := fun pop t => env.iteration fuel cp w p.length pop (t % p.length))
    (f' := fun pop t => (env.withComparator compare').iteration fuel cp w p.length pop (t % p.length))
    (fun a i => iteration_local fuel a cp w _) _ _).bind fun q => knockout_local _ _ rfl

/-! ### More iterations -/

/-- The main loop from some iteration on: the log is extended, and no slot gets worse. -/
theorem loop_monotone {better : Pt T N → Pt T N → Bool} (hc : env.RandContract) (hb : env.Compares better)
    (hw : StrictWeak better) (hn : 0 < n) {fuel : ℕ} : ∀ (l : List ℕ) {pop : Fin n → Pt T N} {pop' : List (Pt T N)}
      {s s' : DEWorld T N G S}
      (_ : l.foldlM (fun pop t => env.iteration fuel cp w n pop (t % n)) (List.ofFn pop) s = (.ok pop', s')),
    ∃ (q : Fin n → Pt T N) (calls : List (Call T N)), pop' = List.ofFn q ∧ s'.log = s.log ++ calls ∧
      ∀ i, better (pop i) (q i) = false := by
  have irr : ∀ a, better a a = false := fun a => by
    cases e : better a a with
    | false => rfl
    | true => rw [hw.asymm a a e] at e; cases e
  intro l
  induction l with
  | nil =>
    intro pop pop' s s' h
    obtain ⟨rfl, rfl⟩ := Proc.pure_ok h
    exact ⟨pop, [], rfl, by simp, fun i => irr _⟩
  | cons t l ih =>
    intro pop pop' s s' h
    rw [List.foldlM_cons] at h
    obtain ⟨p1, s1, h1, h⟩ := Proc.bind_ok h
    obtain ⟨x, ans, t1, rfl, t3, t4⟩ := iteration_ok hc (i := slot hn t) h1
    obtain ⟨q, calls, rfl, q2, q3⟩ := ih h
    refine ⟨q, _ :: calls, rfl, by rw [q2, t3, List.append_assoc]; rfl, fun i => hw.negTrans _ _ _ ?_ (q3 i)⟩
    obtain ⟨s0, hs⟩ := t4 ⟨x, pop (slot hn t), ans⟩ (by simp)
    rw [hb] at hs
    cases ans with
    | false => exact irr _
    | true =>
      rw [if_pos rfl]
      by_cases hi : i = slot hn t
      · rw [hi, Function.update_self]; exact hw.asymm _ _ (Except.ok.inj hs)
      · rw [Function.update_of_ne hi]; exact irr _

end DEnv

end Magnesia
