import Verif.Spec.DERel
import Verif.Spec.Scale
import Verif.Spec.IeeeSame
import Verif.Model.DEIeee

/-!
# Specification of the optimizer part of property C80: changing units
-/

namespace Magnesia

variable {F : Fmt} {P G G' S S' : Type} {N : ℕ}

/-- `i8: Into<T>` for trapping arithmetic. -/
instance {ud : Bool} : FromI8 (Trap F ud) :=
  ⟨fun z => if h : (FromI8.fromI8 z : Ieee F).Finite then ⟨_, h⟩ else RZero.zero⟩

/-- The same generator and comparator, with panics if a coordinate is not finite. The arithmetic of the optimizer on `Trap F true`
panics on overflow and underflow: a run that returns is a run without these exceptions. -/
def DEnv.trapped (env : DEnv (Ieee F) P N G S) : DEnv (Trap F true) P N G S where
  genIndex := env.genIndex
  genUniform lo hi g := ((env.genUniform lo.val hi.val g).1.bind Trap.retF, (env.genUniform lo.val hi.val g).2)
  genUnit := env.genUnit
  compare a b := env.compare (fun c => (a c).val) (fun c => (b c).val)

/-- Two generators and comparators behave alike on points with coordinates related by `R`: they deliver the same indices and
crossover numbers and related coordinates, and compare related points alike. -/
structure DEnv.Corresponds {T T' : Type} (R : Fin N → T → T' → Prop) (RG : G → G' → Prop) (RS : S → S' → Prop)
    (env : DEnv T P N G S) (env' : DEnv T' P N G' S') (bounds : Fin N → T × T) (bounds' : Fin N → T' × T') : Prop where
  index : ∀ n g g', RG g g' → (env.genIndex n g).1 = (env'.genIndex n g').1 ∧ RG (env.genIndex n g).2 (env'.genIndex n g').2
  unit : ∀ g g', RG g g' → (env.genUnit g).1 = (env'.genUnit g').1 ∧ RG (env.genUnit g).2 (env'.genUnit g').2
  uniform : ∀ c g g', RG g g' →
    SameEnd (R c) (env.genUniform (bounds c).1 (bounds c).2 g).1 (env'.genUniform (bounds' c).1 (bounds' c).2 g').1 ∧
    RG (env.genUniform (bounds c).1 (bounds c).2 g).2 (env'.genUniform (bounds' c).1 (bounds' c).2 g').2
  compare : ∀ a b a' b' s s', PtRel R a a' → PtRel R b b' → RS s s' →
    (env.compare a b s).1 = (env'.compare a' b' s').1 ∧ RS (env.compare a b s).2 (env'.compare a' b' s').2

/-- A point of trapping arithmetic as a point of `f32` or `f64`. -/
def Pt.vals {ud : Bool} (x : Pt (Trap F ud) N) : Pt (Ieee F) N := fun c => (x c).val

/-- A comparator call. -/
def Call.vals {ud : Bool} (c : Call (Trap F ud) N) : Call (Ieee F) N := ⟨Pt.vals c.a, Pt.vals c.b, c.answer⟩

/-- The mirror image of a number if `m`, up to the sign of a zero. -/
def Ieee.Mirrored (m : Bool) (x y : Ieee F) : Prop := y.Same (if m then x.neg else x)

end Magnesia
