import Verif.Spec.Generic
import Verif.Proof.ProgramRel
import Verif.Proof.Track

/-!
# Exchanging the element type (helper lemmas)
-/

namespace Magnesia

open RZero ROne

variable {T T' : Type} [RRing T] [RAdd T T T] [RSub T T T] [RMul T T T] [RAddAssign T T] [RSubAssign T T] [RConj T]
    [RRing T'] [RAdd T' T' T'] [RSub T' T' T'] [RMul T' T' T'] [RAddAssign T' T'] [RSubAssign T' T'] [RConj T']

/-- A pair of related values. -/
def Related {R : T → T' → Prop} (_ : Respects R) := {p : T × T' // R p.1 p.2}

namespace Related

variable {R : T → T' → Prop} {h : Respects R}

def fst (x : Related h) : T := x.1.1
def snd (x : Related h) : T' := x.1.2

def both : (x : Res T) → (y : Res T') → SameEnd R x y → Res (Related h)
  | .ok a, .ok b, e => .ok ⟨(a, b), e⟩
  | .error e, _, _ => .error e
  | .ok _, .error e, _ => .error e

def bothU (u : Upd T) (u' : Upd T') (e : SameUpd R u u') : Upd (Related h) := ⟨⟨(u.val, u'.val), e.2⟩, u.panic⟩

instance : RZero (Related h) := ⟨⟨(zero, zero), h.zero⟩⟩
instance : ROne (Related h) := ⟨⟨(one, one), h.one⟩⟩
instance : AddAssignRef (Related h) := ⟨fun a b => bothU _ _ (h.addAssignRef _ _ _ _ a.2 b.2)⟩
instance : SubAssignRef (Related h) := ⟨fun a b => bothU _ _ (h.subAssignRef _ _ _ _ a.2 b.2)⟩
instance : MulRefs (Related h) := ⟨fun a b => both _ _ (h.mulRefs _ _ _ _ a.2 b.2)⟩
instance : RNeg (Related h) := ⟨fun a => both _ _ (h.neg _ _ a.2)⟩
instance : RPartialEq (Related h) := ⟨fun _ _ => false⟩
instance : RRing (Related h) where
instance : RAdd (Related h) (Related h) (Related h) := ⟨fun a b => both _ _ (h.add _ _ _ _ a.2 b.2)⟩
instance : RSub (Related h) (Related h) (Related h) := ⟨fun a b => both _ _ (h.sub _ _ _ _ a.2 b.2)⟩
instance : RMul (Related h) (Related h) (Related h) := ⟨fun a b => both _ _ (h.mul _ _ _ _ a.2 b.2)⟩
instance : RAddAssign (Related h) (Related h) := ⟨fun a b => bothU _ _ (h.addAssign _ _ _ _ a.2 b.2)⟩
instance : RSubAssign (Related h) (Related h) := ⟨fun a b => bothU _ _ (h.subAssign _ _ _ _ a.2 b.2)⟩
instance : RConj (Related h) := ⟨fun a => both _ _ (h.conj _ _ a.2)⟩

theorem both_fst {x : Res T} {y : Res T'} (e : SameEnd R x y) : ResRel true fst (both (h := h) x y e) x := by
  rcases x with _ | a <;> rcases y with _ | b
  · exact ResRel.error _ _
  · cases e
  · cases e
  · exact ResRel.ok rfl

theorem both_snd {x : Res T} {y : Res T'} (e : SameEnd R x y) : ResRel true snd (both (h := h) x y e) y := by
  rcases x with e1 | a <;> rcases y with e2 | b
  · obtain rfl : e1 = e2 := e
    exact ResRel.error _ _
  · cases e
  · cases e
  · exact ResRel.ok rfl

theorem bothU_fst {u : Upd T} {u' : Upd T'} (e : SameUpd R u u') : UpdRel true fst (bothU (h := h) u u' e) u := by
  rcases u with ⟨v, _ | p⟩
  · rfl
  · exact fun _ => rfl

theorem bothU_snd {u : Upd T} {u' : Upd T'} (e : SameUpd R u u') : UpdRel true snd (bothU (h := h) u u' e) u' := by
  rcases u with ⟨v, _ | p⟩ <;> rcases u' with ⟨v', _ | p'⟩
  · rfl
  · cases e.1
  · cases e.1
  · obtain rfl : p = p' := by simpa using e.1
    exact fun _ => rfl

theorem hom_fst : Hom true (fst : Related h → T) :=
  ⟨rfl, rfl, fun _ _ => bothU_fst _, fun _ _ => bothU_fst _, fun _ _ => both_fst _, fun _ => both_fst _⟩
theorem hom_snd : Hom true (snd : Related h → T') :=
  ⟨rfl, rfl, fun _ _ => bothU_snd _, fun _ _ => bothU_snd _, fun _ _ => both_snd _, fun _ => both_snd _⟩
theorem homV_fst : HomV true (fst : Related h → T) :=
  ⟨rfl, fun _ _ => both_fst _, fun _ _ => both_fst _, fun _ _ => both_fst _, fun _ _ => bothU_fst _, fun _ _ => bothU_fst _⟩
theorem homV_snd : HomV true (snd : Related h → T') :=
  ⟨rfl, fun _ _ => both_snd _, fun _ _ => both_snd _, fun _ _ => both_snd _, fun _ _ => bothU_snd _, fun _ _ => bothU_snd _⟩

theorem run_both (pr : Profile) {Γ : ℕ → Ty} (hΓ : ∀ i, (Γ i).IsData) {ty : Ty} (hty : ty.IsData) (p : Prog Γ ty)
    (z : (i : ℕ) → (Γ i).type (Related h)) :
    p.run pr (fun i => (Γ i).map fst (hΓ i) (z i)) = (p.run pr z).map (ty.map fst hty) ∧
    p.run pr (fun i => (Γ i).map snd (hΓ i) (z i)) = (p.run pr z).map (ty.map snd hty) := by
  exact ⟨Prog.run_map hom_fst homV_fst (fun _ => both_fst _) pr hΓ z hty p,
    Prog.run_map hom_snd homV_snd (fun _ => both_snd _) pr hΓ z hty p⟩

end Related

end Magnesia
