import Verif.Spec.DE

/-!
# When two runs of the optimizer correspond to each other
-/

namespace Magnesia

/-- Two computations end the same way: both return, and the values are related by `R`, or both panic with the same
panic. -/
def SameEnd {α β : Type} (R : α → β → Prop) : Res α → Res β → Prop
  | .ok a, .ok b => R a b
  | .error e, .error e' => e = e'
  | _, _ => False

variable {T T' P G G' S S' : Type} {N : ℕ}

/-- Points whose coordinates are related, coordinate by coordinate (the relation may differ from coordinate to
coordinate). -/
def PtRel (R : Fin N → T → T' → Prop) (x : Pt T N) (y : Pt T' N) : Prop := ∀ c, R c (x c) (y c)

/-- Two comparator calls on related points with the same answer. -/
def CallRel (R : Fin N → T → T' → Prop) (x : Call T N) (y : Call T' N) : Prop :=
  PtRel R x.a y.a ∧ PtRel R x.b y.b ∧ x.answer = y.answer

/-- Two environments (generator, comparator) together with bounds and weights behave alike as long as coordinates are
related by `R`, generator states by `RG` and comparator states by `RS`. -/
structure DEnv.Alike [RPartialOrd T] [FromI8 T] [RAdd T T T] [RSub T T T] [RMul T T T]
    [RPartialOrd T'] [FromI8 T'] [RAdd T' T' T'] [RSub T' T' T'] [RMul T' T' T']
    (R : Fin N → T → T' → Prop) (RG : G → G' → Prop) (RS : S → S' → Prop)
    (env : DEnv T P N G S) (env' : DEnv T' P N G' S') (bounds : Fin N → T × T) (bounds' : Fin N → T' × T') (w : T) (w' : T') :
    Prop where
  /-- Both weights are acceptable or none is. -/
  weight : (RPartialOrd.le (FromI8.fromI8 0) w && RPartialOrd.le w (FromI8.fromI8 2)) =
    (RPartialOrd.le (FromI8.fromI8 0) w' && RPartialOrd.le w' (FromI8.fromI8 2))
  index : ∀ n g g', RG g g' → (env.genIndex n g).1 = (env'.genIndex n g').1 ∧ RG (env.genIndex n g).2 (env'.genIndex n g').2
  unit : ∀ g g', RG g g' → (env.genUnit g).1 = (env'.genUnit g').1 ∧ RG (env.genUnit g).2 (env'.genUnit g').2
  uniform : ∀ c g g', RG g g' →
    SameEnd (R c) (env.genUniform (bounds c).1 (bounds c).2 g).1 (env'.genUniform (bounds' c).1 (bounds' c).2 g').1 ∧
    RG (env.genUniform (bounds c).1 (bounds c).2 g).2 (env'.genUniform (bounds' c).1 (bounds' c).2 g').2
  arith : ∀ c (x y z : T) (x' y' z' : T'), R c x x' → R c y y' → R c z z' →
    SameEnd (R c) (do RAdd.add x (← RMul.mul (← RSub.sub y z) w)) (do RAdd.add x' (← RMul.mul (← RSub.sub y' z') w'))
  compare : ∀ a b a' b' s s', PtRel R a a' → PtRel R b b' → RS s s' →
    (env.compare a b s).1 = (env'.compare a' b' s').1 ∧ RS (env.compare a b s).2 (env'.compare a' b' s').2

/-- The same generator with another comparator. -/
def DEnv.withComparator (env : DEnv T P N G S) (compare : Pt T N → Pt T N → S' → Res Bool × S') : DEnv T P N G S' where
  genIndex := env.genIndex
  genUniform := env.genUniform
  genUnit := env.genUnit
  compare := compare

end Magnesia
