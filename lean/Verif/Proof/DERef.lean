import Verif.Proof.DERel

/-!
# Comparing runs of the optimizer that may panic differently (helper lemmas)
-/

namespace Magnesia

set_option linter.unusedSectionVars false

open RZero ROne

variable {α β γ δ : Type}

/-- If both computations return, the values are related; if `strict`, the second one returns whenever the first one does. -/
def EndsIf (strict : Bool) (R : α → β → Prop) : Res α → Res β → Prop
  | .ok a, .ok b => R a b
  | .ok _, .error _ => strict = false
  | .error _, _ => True

variable {strict : Bool}

namespace EndsIf

theorem bind {R : α → β → Prop} {Q : γ → δ → Prop} {x : Res α} {y : Res β} {f : α → Res γ} {f' : β → Res δ}
    (h : EndsIf strict R x y) (hf : ∀ a b, R a b → EndsIf strict Q (f a) (f' b)) : EndsIf strict Q (x >>= f) (y >>= f') := by
  cases x with
  | error e => trivial
  | ok a =>
    cases y with
    | ok b => exact hf _ _ h
    | error e =>
      show EndsIf strict Q (f a) (.error e)
      cases f a with
      | ok c => exact h
      | error e' => trivial

theorem ofSame {R : α → β → Prop} {x : Res α} {y : Res β} (h : SameEnd R x y) : EndsIf strict R x y := by
  cases x <;> cases y <;> first | exact h | trivial

end EndsIf

namespace Proc

variable {W W' : Type}

/-- Related worlds lead to related outcomes and, if both return, related worlds. -/
def Ref (strict : Bool) (RW : W → W' → Prop) (R : α → β → Prop) (m : Proc W α) (m' : Proc W' β) : Prop :=
  ∀ w w', RW w w' → EndsIf strict R (m w).1 (m' w').1 ∧
    ∀ a b, (m w).1 = .ok a → (m' w').1 = .ok b → RW (m w).2 (m' w').2

namespace Ref

variable {RW : W → W' → Prop}

theorem ofRel {R : α → β → Prop} {m : Proc W α} {m' : Proc W' β} (h : Rel RW R m m') : Ref strict RW R m m' :=
  fun w w' hw => ⟨.ofSame (h w w' hw).1, fun _ _ _ _ => (h w w' hw).2⟩

theorem pure {R : α → β → Prop} {a : α} {b : β} (h : R a b) : Ref strict RW R (Pure.pure a) (Pure.pure b) :=
  .ofRel (.pure h)

theorem ofRes {R : α → β → Prop} {x : Res α} {y : Res β} (h : EndsIf strict R x y) :
    Ref strict RW R (Proc.ofRes x) (Proc.ofRes y) := fun _ _ hw => ⟨h, fun _ _ _ _ => hw⟩

theorem bind {R : α → β → Prop} {Q : γ → δ → Prop} {m : Proc W α} {m' : Proc W' β} {f : α → Proc W γ} {f' : β → Proc W' δ}
    (h : Ref strict RW R m m') (hf : ∀ a b, R a b → Ref strict RW Q (f a) (f' b)) : Ref strict RW Q (m >>= f) (m' >>= f') := by
  intro w w' hw
  obtain ⟨h1, h2⟩ := h w w' hw
  rw [bind_eq, bind_eq]
  rcases hm : m w with ⟨e | a, w1⟩ <;> rcases hm' : m' w' with ⟨e' | b, w1'⟩ <;> rw [hm, hm'] at h1 h2
  · exact ⟨trivial, fun _ _ h => nomatch h⟩
  · exact ⟨trivial, fun _ _ h => nomatch h⟩
  · refine ⟨?_, fun _ _ _ h => nomatch h⟩
    show EndsIf strict Q (f a w1).1 (.error e')
    cases (f a w1).1 with
    | ok c => exact h1
    | error e' => trivial
  · exact hf a b h1 w1 w1' (h2 a b rfl rfl)

theorem fromFn : ∀ {n : ℕ} {R : Fin n → α → β → Prop} {f : Fin n → Proc W α} {f' : Fin n → Proc W' β},
    (∀ i, Ref strict RW (R i) (f i) (f' i)) → Ref strict RW (fun x y => ∀ i, R i (x i) (y i)) (fromFnM n f) (fromFnM n f') := by
  intro n
  induction n with
  | zero => intro R f f' _; exact pure fun i => i.elim0
  | succ n ih =>
    intro R f f' hf
    exact (hf 0).bind fun x y hxy => (ih fun i => hf i.succ).bind fun xs ys hs => pure fun i => by
      cases i using Fin.cases with
      | zero => exact hxy
      | succ i => exact hs i

theorem mapM {ι : Type} {R : α → β → Prop} {f : ι → Proc W α} {f' : ι → Proc W' β} (hf : ∀ i, Ref strict RW R (f i) (f' i)) :
    ∀ l : List ι, Ref strict RW (List.Forall₂ R) (l.mapM f) (l.mapM f') := by
  intro l
  induction l with
  | nil => rw [List.mapM_nil, List.mapM_nil]; exact pure .nil
  | cons a l ih =>
    rw [List.mapM_cons, List.mapM_cons]
    exact (hf a).bind fun x y h => ih.bind fun xs ys hs => pure (.cons h hs)

theorem foldlM {ι : Type} {R : α → β → Prop} {f : α → ι → Proc W α} {f' : β → ι → Proc W' β}
    (hf : ∀ a b i, R a b → Ref strict RW R (f a i) (f' b i)) : ∀ (l : List ι) {a : α} {b : β}, R a b →
    Ref strict RW R (l.foldlM f a) (l.foldlM f' b) := by
  intro l
  induction l with
  | nil => intro a b h; exact pure h
  | cons i l ih =>
    intro a b h
    rw [List.foldlM_cons, List.foldlM_cons]
    exact (hf a b i h).bind fun x y h => ih h

end Ref

end Proc

namespace DEnv

open Proc

variable {T T' P G G' S S' : Type} {N n : ℕ} {env : DEnv T P N G S} {env' : DEnv T' P N G' S'}
variable [RPartialOrd P] [RZero P] [ROne P] [RPartialOrd T] [FromI8 T] [RAdd T T T] [RSub T T T] [RMul T T T]
variable [RPartialOrd T'] [FromI8 T'] [RAdd T' T' T'] [RSub T' T' T'] [RMul T' T' T']
variable {R : Fin N → T → T' → Prop} {RG : G → G' → Prop} {RS : S → S' → Prop} {cp : P}
variable {bounds : Fin N → T × T} {bounds' : Fin N → T' × T'} {w : T} {w' : T'}

/-- Two settings that behave alike, except that drawing coordinates and arithmetic may panic differently. -/
structure Tracks (strict : Bool) (R : Fin N → T → T' → Prop) (RG : G → G' → Prop) (RS : S → S' → Prop)
    (env : DEnv T P N G S) (env' : DEnv T' P N G' S') (bounds : Fin N → T × T) (bounds' : Fin N → T' × T') (w : T) (w' : T') :
    Prop where
  weight : (RPartialOrd.le (FromI8.fromI8 0) w && RPartialOrd.le w (FromI8.fromI8 2)) =
    (RPartialOrd.le (FromI8.fromI8 0) w' && RPartialOrd.le w' (FromI8.fromI8 2))
  index : ∀ n g g', RG g g' → (env.genIndex n g).1 = (env'.genIndex n g').1 ∧ RG (env.genIndex n g).2 (env'.genIndex n g').2
  unit : ∀ g g', RG g g' → (env.genUnit g).1 = (env'.genUnit g').1 ∧ RG (env.genUnit g).2 (env'.genUnit g').2
  uniform : ∀ c g g', RG g g' →
    EndsIf strict (R c) (env.genUniform (bounds c).1 (bounds c).2 g).1 (env'.genUniform (bounds' c).1 (bounds' c).2 g').1 ∧
    RG (env.genUniform (bounds c).1 (bounds c).2 g).2 (env'.genUniform (bounds' c).1 (bounds' c).2 g').2
  arith : ∀ c (x y z : T) (x' y' z' : T'), R c x x' → R c y y' → R c z z' →
    EndsIf strict (R c) (do RAdd.add x (← RMul.mul (← RSub.sub y z) w)) (do RAdd.add x' (← RMul.mul (← RSub.sub y' z') w'))
  compare : ∀ a b a' b' s s', PtRel R a a' → PtRel R b b' → RS s s' →
    (env.compare a b s).1 = (env'.compare a' b' s').1 ∧ RS (env.compare a b s).2 (env'.compare a' b' s').2

theorem Tracks.index_ref (h : env.Tracks strict R RG RS env' bounds bounds' w w') (n : ℕ) :
    Ref strict (WRel R RG RS) (fun a b => a = b) (env.index n) (env'.index n) := .ofRel fun _ _ ⟨h1, h2, h3⟩ =>
  ⟨sameEnd_eq (h.index n _ _ h1).1, (h.index n _ _ h1).2, h2, h3⟩

theorem Tracks.unit_ref (h : env.Tracks strict R RG RS env' bounds bounds' w w') :
    Ref strict (WRel R RG RS) (fun a b => a = b) env.unit env'.unit := .ofRel fun _ _ ⟨h1, h2, h3⟩ =>
  ⟨(h.unit _ _ h1).1, (h.unit _ _ h1).2, h2, h3⟩

theorem Tracks.uniform_ref (h : env.Tracks strict R RG RS env' bounds bounds' w w') (c : Fin N) :
    Ref strict (WRel R RG RS) (R c) (env.uniform (bounds c).1 (bounds c).2) (env'.uniform (bounds' c).1 (bounds' c).2) :=
  fun _ _ ⟨h1, h2, h3⟩ => ⟨(h.uniform c _ _ h1).1, fun _ _ _ _ => ⟨(h.uniform c _ _ h1).2, h2, h3⟩⟩

theorem Tracks.cmp_ref (h : env.Tracks strict R RG RS env' bounds bounds' w w') {a b : Pt T N} {a' b' : Pt T' N} (ha : PtRel R a a')
    (hb : PtRel R b b') : Ref strict (WRel R RG RS) (fun a b => a = b) (env.cmp a b) (env'.cmp a' b') := by
  refine .ofRel ?_
  rintro s s' ⟨h1, h2, h3⟩
  obtain ⟨c1, c2⟩ := h.compare a b a' b' _ _ ha hb h2
  refine ⟨sameEnd_eq c1, h1, c2, ?_⟩
  show List.Forall₂ _ (match (env.compare a b s.cmp).1 with
    | .ok ans => s.log ++ [⟨a, b, ans⟩]
    | .error _ => s.log) (match (env'.compare a' b' s'.cmp).1 with
    | .ok ans => s'.log ++ [⟨a', b', ans⟩]
    | .error _ => s'.log)
  rw [← c1]
  cases (env.compare a b s.cmp).1 with
  | ok ans => exact List.rel_append h3 (.cons ⟨ha, hb, rfl⟩ .nil)
  | error e => exact h3

theorem Tracks.draw_ref (h : env.Tracks strict R RG RS env' bounds bounds' w w') (n : ℕ) (avoid : List ℕ) (fuel : ℕ) :
    Ref strict (WRel R RG RS) (fun a b => a = b) (env.draw n avoid fuel) (env'.draw n avoid fuel) := by
  induction fuel with
  | zero => exact .ofRel (.panic _)
  | succ fuel ih =>
    refine (h.index_ref n).bind fun j j' hj => ?_
    subst hj
    cases avoid.contains j with
    | true => exact ih
    | false => exact .pure rfl

theorem Tracks.trial_ref (h : env.Tracks strict R RG RS env' bounds bounds' w w') {pop : List (Pt T N)} {pop' : List (Pt T' N)}
    (hp : List.Forall₂ (PtRel R) pop pop') (i j k l r : ℕ) :
    Ref strict (WRel R RG RS) (PtRel R) (env.trial pop cp w i j k l r) (env'.trial pop' cp w' i j k l r) := by
  unfold trial
  refine Ref.fromFn (R := R) fun c => ?_
  have hm : Ref strict (WRel R RG RS) (fun a b => a = b) (env.mutates cp c r) (env'.mutates cp c r) := by
    unfold mutates
    split
    · exact .pure rfl
    · exact h.unit_ref.bind fun u u' hu => .pure (by rw [hu])
  refine hm.bind fun b b' hb => ?_
  subst hb
  cases b with
  | true =>
    rw [if_pos rfl, if_pos rfl]
    exact .ofRes ((EndsIf.ofSame (SameEnd.getIdx hp j)).bind fun x x' hx => (EndsIf.ofSame (SameEnd.getIdx hp k)).bind fun y y' hy =>
      (EndsIf.ofSame (SameEnd.getIdx hp l)).bind fun z z' hz => h.arith c _ _ _ _ _ _ (hx c) (hy c) (hz c))
  | false =>
    rw [if_neg (by simp), if_neg (by simp)]
    exact .ofRes ((EndsIf.ofSame (SameEnd.getIdx hp i)).bind fun x x' hx => hx c)

theorem Tracks.iteration_ref (h : env.Tracks strict R RG RS env' bounds bounds' w w') (fuel : ℕ) {pop : List (Pt T N)}
    {pop' : List (Pt T' N)} (hp : List.Forall₂ (PtRel R) pop pop') (i : ℕ) :
    Ref strict (WRel R RG RS) (List.Forall₂ (PtRel R)) (env.iteration fuel cp w n pop i) (env'.iteration fuel cp w' n pop' i) := by
  unfold iteration
  refine (h.draw_ref _ _ _).bind fun j j' hj => ?_
  subst hj
  refine (h.draw_ref _ _ _).bind fun k k' hk => ?_
  subst hk
  refine (h.draw_ref _ _ _).bind fun l l' hl => ?_
  subst hl
  refine (h.index_ref _).bind fun r r' hr => ?_
  subst hr
  refine (h.trial_ref hp i j k l r).bind fun x x' hx => ?_
  refine (Ref.ofRel (Rel.ofRes (SameEnd.getIdx hp i))).bind fun y y' hy => ?_
  refine (h.cmp_ref hx hy).bind fun b b' hb => ?_
  subst hb
  cases b with
  | true =>
    rw [if_pos rfl, if_pos rfl]
    exact .ofRel (.ofRes (SameEnd.set hp hx i))
  | false => exact .pure hp

theorem Tracks.game_ref (h : env.Tracks strict R RG RS env' bounds bounds' w w') (len half : ℕ) {pop : List (Pt T N)}
    {pop' : List (Pt T' N)} (hp : List.Forall₂ (PtRel R) pop pop') (i : ℕ) :
    Ref strict (WRel R RG RS) (List.Forall₂ (PtRel R)) (env.knockoutGame len half pop i) (env'.knockoutGame len half pop' i) := by
  unfold knockoutGame
  refine (Ref.ofRel (Rel.ofRes (SameEnd.getIdx hp _))).bind fun x x' hx => ?_
  refine (Ref.ofRel (Rel.ofRes (SameEnd.getIdx hp _))).bind fun y y' hy => ?_
  refine (h.cmp_ref hx hy).bind fun b b' hb => ?_
  subst hb
  have ht : SameEnd (List.Forall₂ (PtRel R)) (takeOver b half pop i) (takeOver b half pop' i) := by
    unfold takeOver
    cases b with
    | true =>
      rw [if_pos rfl, if_pos rfl]
      exact (SameEnd.getIdx hp _).bind fun x x' hx => SameEnd.set hp hx i
    | false => exact hp
  refine (Ref.ofRel (Rel.ofRes ht)).bind fun q q' hq => ?_
  split
  · exact .ofRel (.ofRes ((SameEnd.getIdx hq _).bind fun x x' hx => SameEnd.set hq hx _))
  · exact .pure hq

theorem Tracks.knockout_ref (h : env.Tracks strict R RG RS env' bounds bounds' w w') : ∀ (len : ℕ) {pop : List (Pt T N)}
    {pop' : List (Pt T' N)} (_ : pop.length = len) (_ : List.Forall₂ (PtRel R) pop pop'),
    Ref strict (WRel R RG RS) (PtRel R) (env.knockout pop) (env'.knockout pop') := by
  intro len
  induction len using Nat.strongRecOn with
  | _ len ih =>
    intro pop pop' hl hp
    rw [knockout, knockout, ← hp.length_eq]
    by_cases h1 : pop.length > 1
    · rw [if_pos h1, if_pos h1]
      refine (Ref.foldlM (fun a b i hab => h.game_ref _ _ hab i) _ hp).bind fun q q' hq => ?_
      refine ih _ ?_ rfl (List.forall₂_take _ hq)
      have := List.length_take_le ((pop.length + 1) / 2) q
      omega
    · rw [if_neg h1, if_neg h1]
      exact .ofRel (.ofRes (SameEnd.getIdx hp 0))

theorem Tracks.optimize_ref (h : env.Tracks strict R RG RS env' bounds bounds' w w') (fuel iters : ℕ) :
    Ref strict (WRel R RG RS) (PtRel R) (env.optimize fuel bounds n cp w iters) (env'.optimize fuel bounds' n cp w' iters) := by
  unfold optimize
  refine (Ref.ofRel (Rel.assert rfl)).bind fun _ _ _ => (Ref.ofRel (Rel.assert rfl)).bind fun _ _ _ =>
    (Ref.ofRel (Rel.assert h.weight)).bind fun _ _ _ => ?_
  refine (Ref.mapM (R := PtRel R) (fun _ => Ref.fromFn (R := R) fun i => h.uniform_ref i) _).bind fun p p' hp => ?_
  rw [hp.length_eq]
  exact (Ref.foldlM (R := List.Forall₂ (PtRel R)) (f := fun pop t => env.iteration fuel cp w p'.length pop (t % p'.length))
    (f' := fun pop t => env'.iteration fuel cp w' p'.length pop (t % p'.length))
    (fun a b i hab => h.iteration_ref fuel hab _) _ hp).bind fun q q' hq => h.knockout_ref _ rfl hq

end DEnv

end Magnesia
