import Verif.Spec.DEGrid
import Verif.Proof.DERel

/-!
# Runs that behave alike as long as the population is confined (helper lemmas)
-/

namespace Magnesia

set_option linter.unusedSectionVars false

open RZero ROne

namespace DEnv

open Proc

variable {T T' P G G' S S' : Type} {N n : ℕ} {env : DEnv T P N G S} {env' : DEnv T' P N G' S'}
variable [RPartialOrd P] [RZero P] [ROne P] [RPartialOrd T] [FromI8 T] [RAdd T T T] [RSub T T T] [RMul T T T]
variable [RPartialOrd T'] [FromI8 T'] [RAdd T' T' T'] [RSub T' T' T'] [RMul T' T' T']
variable {R Q : Fin N → T → T' → Prop} {RG : G → G' → Prop} {RS : S → S' → Prop} {cp : P}
variable {bounds : Fin N → T × T} {bounds' : Fin N → T' × T'} {w : T} {w' : T'}

theorem AlikeWithin.index_rel (h : env.AlikeWithin R Q RG RS env' bounds bounds' w w') (n : ℕ) :
    Rel (WRel Q RG RS) (fun a b => a = b) (env.index n) (env'.index n) := fun _ _ ⟨h1, h2, h3⟩ =>
  ⟨sameEnd_eq (h.index n _ _ h1).1, (h.index n _ _ h1).2, h2, h3⟩

theorem AlikeWithin.unit_rel (h : env.AlikeWithin R Q RG RS env' bounds bounds' w w') :
    Rel (WRel Q RG RS) (fun a b => a = b) env.unit env'.unit := fun _ _ ⟨h1, h2, h3⟩ =>
  ⟨(h.unit _ _ h1).1, (h.unit _ _ h1).2, h2, h3⟩

theorem AlikeWithin.uniform_rel (h : env.AlikeWithin R Q RG RS env' bounds bounds' w w') (c : Fin N) :
    Rel (WRel Q RG RS) (R c) (env.uniform (bounds c).1 (bounds c).2) (env'.uniform (bounds' c).1 (bounds' c).2) :=
  fun _ _ ⟨h1, h2, h3⟩ => ⟨(h.uniform c _ _ h1).1, (h.uniform c _ _ h1).2, h2, h3⟩

theorem AlikeWithin.cmp_rel (h : env.AlikeWithin R Q RG RS env' bounds bounds' w w') {a b : Pt T N} {a' b' : Pt T' N} (ha : PtRel Q a a')
    (hb : PtRel R b b') : Rel (WRel Q RG RS) (fun x y => x = y ∧ (x = true → PtRel R a a')) (env.cmp a b) (env'.cmp a' b') := by
  rintro s s' ⟨h1, h2, h3⟩
  obtain ⟨c1, c2, c3⟩ := h.compare a b a' b' _ _ ha hb h2
  refine ⟨?_, h1, c2, ?_⟩
  · show SameEnd _ (env.compare a b s.cmp).1 (env'.compare a' b' s'.cmp).1
    rw [← c1]
    cases hr : (env.compare a b s.cmp).1 with
    | ok ans => exact ⟨rfl, fun ht => c3 (by rw [hr, ht])⟩
    | error e => rfl
  show List.Forall₂ _ (match (env.compare a b s.cmp).1 with
    | .ok ans => s.log ++ [⟨a, b, ans⟩]
    | .error _ => s.log) (match (env'.compare a' b' s'.cmp).1 with
    | .ok ans => s'.log ++ [⟨a', b', ans⟩]
    | .error _ => s'.log)
  rw [← c1]
  cases (env.compare a b s.cmp).1 with
  | ok ans => exact List.rel_append h3 (.cons ⟨ha, fun c => h.wider c _ _ (hb c), rfl⟩ .nil)
  | error e => exact h3

theorem AlikeWithin.draw_rel (h : env.AlikeWithin R Q RG RS env' bounds bounds' w w') (n : ℕ) (avoid : List ℕ) (fuel : ℕ) :
    Rel (WRel Q RG RS) (fun a b => a = b) (env.draw n avoid fuel) (env'.draw n avoid fuel) := by
  induction fuel with
  | zero => exact .panic _
  | succ fuel ih =>
    refine (h.index_rel n).bind fun j j' hj => ?_
    subst hj
    cases avoid.contains j with
    | true => exact ih
    | false => exact .pure rfl

theorem AlikeWithin.trial_rel (h : env.AlikeWithin R Q RG RS env' bounds bounds' w w') {pop : List (Pt T N)} {pop' : List (Pt T' N)}
    (hp : List.Forall₂ (PtRel R) pop pop') (i j k l r : ℕ) :
    Rel (WRel Q RG RS) (PtRel Q) (env.trial pop cp w i j k l r) (env'.trial pop' cp w' i j k l r) := by
  unfold trial
  refine Rel.fromFn (R := Q) fun c => ?_
  have hm : Rel (WRel Q RG RS) (fun a b => a = b) (env.mutates cp c r) (env'.mutates cp c r) := by
    unfold mutates
    split
    · exact .pure rfl
    · exact h.unit_rel.bind fun u u' hu => .pure (by rw [hu])
  refine hm.bind fun b b' hb => ?_
  subst hb
  cases b with
  | true =>
    rw [if_pos rfl, if_pos rfl]
    exact .ofRes ((SameEnd.getIdx hp j).bind fun x x' hx => (SameEnd.getIdx hp k).bind fun y y' hy =>
      (SameEnd.getIdx hp l).bind fun z z' hz => h.arith c _ _ _ _ _ _ (hx c) (hy c) (hz c))
  | false =>
    rw [if_neg (by simp), if_neg (by simp)]
    exact .ofRes ((SameEnd.getIdx hp i).bind fun x x' hx => h.wider c _ _ (hx c))

theorem AlikeWithin.iteration_rel (h : env.AlikeWithin R Q RG RS env' bounds bounds' w w') (fuel : ℕ) {pop : List (Pt T N)}
    {pop' : List (Pt T' N)} (hp : List.Forall₂ (PtRel R) pop pop') (i : ℕ) :
    Rel (WRel Q RG RS) (List.Forall₂ (PtRel R)) (env.iteration fuel cp w n pop i) (env'.iteration fuel cp w' n pop' i) := by
  unfold iteration
  refine (h.draw_rel _ _ _).bind fun j j' hj => ?_
  subst hj
  refine (h.draw_rel _ _ _).bind fun k k' hk => ?_
  subst hk
  refine (h.draw_rel _ _ _).bind fun l l' hl => ?_
  subst hl
  refine (h.index_rel _).bind fun r r' hr => ?_
  subst hr
  refine (h.trial_rel hp i j k l r).bind fun x x' hx => ?_
  refine (Rel.ofRes (SameEnd.getIdx hp i)).bind fun y y' hy => ?_
  refine (h.cmp_rel hx hy).bind fun b b' ⟨hb, hin⟩ => ?_
  subst hb
  cases b with
  | true =>
    rw [if_pos rfl, if_pos rfl]
    exact .ofRes (SameEnd.set hp (hin rfl) i)
  | false => exact .pure hp

theorem AlikeWithin.game_rel (h : env.AlikeWithin R Q RG RS env' bounds bounds' w w') (len half : ℕ) {pop : List (Pt T N)}
    {pop' : List (Pt T' N)} (hp : List.Forall₂ (PtRel R) pop pop') (i : ℕ) :
    Rel (WRel Q RG RS) (List.Forall₂ (PtRel R)) (env.knockoutGame len half pop i) (env'.knockoutGame len half pop' i) := by
  unfold knockoutGame
  refine (Rel.ofRes (SameEnd.getIdx hp _)).bind fun x x' hx => ?_
  refine (Rel.ofRes (SameEnd.getIdx hp _)).bind fun y y' hy => ?_
  refine (h.cmp_rel (fun c => h.wider c _ _ (hx c)) hy).bind fun b b' ⟨hb, _⟩ => ?_
  subst hb
  have ht : SameEnd (List.Forall₂ (PtRel R)) (takeOver b half pop i) (takeOver b half pop' i) := by
    unfold takeOver
    cases b with
    | true =>
      rw [if_pos rfl, if_pos rfl]
      exact (SameEnd.getIdx hp _).bind fun x x' hx => SameEnd.set hp hx i
    | false => exact hp
  refine (Rel.ofRes ht).bind fun q q' hq => ?_
  split
  · exact .ofRes ((SameEnd.getIdx hq _).bind fun x x' hx => SameEnd.set hq hx _)
  · exact .pure hq

theorem AlikeWithin.knockout_rel (h : env.AlikeWithin R Q RG RS env' bounds bounds' w w') : ∀ (len : ℕ) {pop : List (Pt T N)}
    {pop' : List (Pt T' N)} (_ : pop.length = len) (_ : List.Forall₂ (PtRel R) pop pop'),
    Rel (WRel Q RG RS) (PtRel R) (env.knockout pop) (env'.knockout pop') := by
  intro len
  induction len using Nat.strongRecOn with
  | _ len ih =>
    intro pop pop' hl hp
    rw [knockout, knockout, ← hp.length_eq]
    by_cases h1 : pop.length > 1
    · rw [if_pos h1, if_pos h1]
      refine (Rel.foldlM (fun a b i hab => h.game_rel _ _ hab i) _ hp).bind fun q q' hq => ?_
      refine ih _ ?_ rfl (List.forall₂_take _ hq)
      have := List.length_take_le ((pop.length + 1) / 2) q
      omega
    · rw [if_neg h1, if_neg h1]
      exact .ofRes (SameEnd.getIdx hp 0)

theorem AlikeWithin.optimize_rel (h : env.AlikeWithin R Q RG RS env' bounds bounds' w w') (fuel iters : ℕ) :
    Rel (WRel Q RG RS) (PtRel R) (env.optimize fuel bounds n cp w iters) (env'.optimize fuel bounds' n cp w' iters) := by
  unfold optimize
  refine (Rel.assert rfl).bind fun _ _ _ => (Rel.assert rfl).bind fun _ _ _ => (Rel.assert h.weight).bind fun _ _ _ => ?_
  refine (Rel.mapM (R := PtRel R) (fun _ => Rel.fromFn (R := R) fun i => h.uniform_rel i) _).bind fun p p' hp => ?_
  rw [hp.length_eq]
  exact (Rel.foldlM (R := List.Forall₂ (PtRel R)) (f := fun pop t => env.iteration fuel cp w p'.length pop (t % p'.length))
    (f' := fun pop t => env'.iteration fuel cp w' p'.length pop (t % p'.length))
    (fun a b i hab => h.iteration_rel fuel hab _) _ hp).bind fun q q' hq => h.knockout_rel _ rfl hq

end DEnv

end Magnesia
