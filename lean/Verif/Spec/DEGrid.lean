import Verif.Spec.DERel
import Verif.Spec.Ieee
import Verif.Model.DEIeee

/-!
# Searching on a grid
-/

namespace Magnesia

variable {T T' P G G' S S' : Type} {N : ℕ} {F : Fmt}

/-- The floating point number `x` is `z · 2 ^ k`, and `z` is one of the integers `-B .. B`. -/
def Ieee.OnGrid (k : ℤ) (B : ℕ) (x : Ieee F) (z : ℤ) : Prop := x.Finite ∧ x.value = z * 2 ^ k ∧ |z| ≤ B

/-- Two settings behave alike as long as population members are related by `R`: the arithmetic takes them to trials
related by the wider `Q`, and a comparator that prefers a trial to a member does so only if the trial is related by `R`
again. -/
structure DEnv.AlikeWithin [RPartialOrd T] [FromI8 T] [RAdd T T T] [RSub T T T] [RMul T T T]
    [RPartialOrd T'] [FromI8 T'] [RAdd T' T' T'] [RSub T' T' T'] [RMul T' T' T']
    (R Q : Fin N → T → T' → Prop) (RG : G → G' → Prop) (RS : S → S' → Prop)
    (env : DEnv T P N G S) (env' : DEnv T' P N G' S') (bounds : Fin N → T × T) (bounds' : Fin N → T' × T') (w : T) (w' : T') :
    Prop where
  weight : (RPartialOrd.le (FromI8.fromI8 0) w && RPartialOrd.le w (FromI8.fromI8 2)) =
    (RPartialOrd.le (FromI8.fromI8 0) w' && RPartialOrd.le w' (FromI8.fromI8 2))
  index : ∀ n g g', RG g g' → (env.genIndex n g).1 = (env'.genIndex n g').1 ∧ RG (env.genIndex n g).2 (env'.genIndex n g').2
  unit : ∀ g g', RG g g' → (env.genUnit g).1 = (env'.genUnit g').1 ∧ RG (env.genUnit g).2 (env'.genUnit g').2
  uniform : ∀ c g g', RG g g' →
    SameEnd (R c) (env.genUniform (bounds c).1 (bounds c).2 g).1 (env'.genUniform (bounds' c).1 (bounds' c).2 g').1 ∧
    RG (env.genUniform (bounds c).1 (bounds c).2 g).2 (env'.genUniform (bounds' c).1 (bounds' c).2 g').2
  wider : ∀ c x x', R c x x' → Q c x x'
  arith : ∀ c (x y z : T) (x' y' z' : T'), R c x x' → R c y y' → R c z z' →
    SameEnd (Q c) (do RAdd.add x (← RMul.mul (← RSub.sub y z) w)) (do RAdd.add x' (← RMul.mul (← RSub.sub y' z') w'))
  compare : ∀ a b a' b' s s', PtRel Q a a' → PtRel R b b' → RS s s' →
    (env.compare a b s).1 = (env'.compare a' b' s').1 ∧ RS (env.compare a b s).2 (env'.compare a' b' s').2 ∧
      ((env.compare a b s).1 = .ok true → PtRel R a a')

/-- A floating point setting and an integer setting pose the same search problem on the grid of the points with
coordinates `z c · 2 ^ k c`: the same draws, the same answers for trials with `|z c| ≤ 5 B` and members with `|z c| ≤ B`, and
a trial outside the box `|z c| ≤ B` is never preferred to a member inside. -/
structure DEnv.SameSearch (k : Fin N → ℤ) (B : ℕ) (env : DEnv (Ieee F) P N G S) (env' : DEnv (Exact ℤ) P N G S)
    (bounds : Fin N → Ieee F × Ieee F) (bounds' : Fin N → Exact ℤ × Exact ℤ) : Prop where
  index : ∀ n g, env.genIndex n g = env'.genIndex n g
  unit : ∀ g, env.genUnit g = env'.genUnit g
  uniform : ∀ c g,
    SameEnd (fun x z => x.OnGrid (k c) B z.val) (env.genUniform (bounds c).1 (bounds c).2 g).1
      (env'.genUniform (bounds' c).1 (bounds' c).2 g).1 ∧
    (env.genUniform (bounds c).1 (bounds c).2 g).2 = (env'.genUniform (bounds' c).1 (bounds' c).2 g).2
  compare : ∀ (a b : Pt (Ieee F) N) (a' b' : Pt (Exact ℤ) N) s, (∀ c, (a c).OnGrid (k c) (5 * B) (a' c).val) →
    (∀ c, (b c).OnGrid (k c) B (b' c).val) → env.compare a b s = env'.compare a' b' s
  inside : ∀ (a b : Pt (Exact ℤ) N) s, (∀ c, |(b c).val| ≤ B) → (env'.compare a b s).1 = .ok true → ∀ c, |(a c).val| ≤ B

/-- The exponents of the grid suit the format: neither underflow nor overflow. -/
def Fmt.Grid (F : Fmt) (k : ℤ) (B : ℕ) : Prop := F.emin - (F.p - 1) ≤ k ∧ k + F.p ≤ F.emax ∧ 5 * B ≤ 2 ^ F.p

end Magnesia
