import Verif.Spec.Program
import Verif.Proof.DynRel

/-!
# Every program is parametric in the element type (helper lemmas)
-/

namespace Magnesia

open RZero ROne

attribute [local instance] Nest.rring

variable {T T' : Type} {s : Keep} {f : T → T'}

theorem Nest.hom [RRing T] [RRing T'] (h : Hom s f) : (t : Nest) → @Hom _ _ (t.rring T) (t.rring T') s (t.map f)
  | .scalar => h
  | .complex t => @Hom.complex _ _ _ _ (t.rring T) (t.rring T') (Nest.hom h t)
  | .poly t => @Hom.poly _ _ _ _ (t.rring T) (t.rring T') (Nest.hom h t)
  | .matrix _ t => @Hom.matrix _ _ _ _ (t.rring T) (t.rring T') _ (Nest.hom h t)

/-- The logical relation at each type. -/
def Ty.Rel (s : Keep) (f : T → T') : (ty : Ty) → ty.type T → ty.type T' → Prop
  | .ring t => fun a b => b = t.map f a
  | .svec _ t => fun a b => b = SVector.map (t.map f) a
  | .smat _ _ t => fun a b => b = SMatrix.map (t.map f) a
  | .vexpr => VRel s f
  | .mexpr => MRel s f
  | .dvec => fun a b => b = DVector.map f a
  | .dmat => fun a b => b = DMatrix.map f a

theorem Ty.rel_iff (ty : Ty) (hd : ty.IsData) (a : ty.type T) (b : ty.type T') :
    ty.Rel s f a b ↔ b = ty.map f hd a := by
  cases ty <;> first | exact hd.elim | exact Iff.rfl

/-- For two machines. -/
theorem Prog.run_rel_profiles [RRing T] [RAdd T T T] [RSub T T T] [RMul T T T] [RAddAssign T T] [RSubAssign T T] [RConj T]
    [RRing T'] [RAdd T' T' T'] [RSub T' T' T'] [RMul T' T' T'] [RAddAssign T' T'] [RSubAssign T' T'] [RConj T']
    (h : Hom s f) (hv : HomV s f) (hc : ∀ a : T, ResRel s f (RConj.conj a) (RConj.conj (f a)))
    {pr pr' : Profile} (hp : pr.Rel s pr') {Γ : ℕ → Ty} (env : (i : ℕ) → (Γ i).type T) (env' : (i : ℕ) → (Γ i).type T')
    (henv : ∀ i, (Γ i).Rel s f (env i) (env' i)) {ty : Ty} (p : Prog Γ ty) :
    ResR s (ty.Rel s f) (p.run pr env) (p.run pr' env') := by
  induction p with
  | input i => exact ResR.ok (henv i)
  | zero t => exact ResR.ok ((Nest.hom h t).zero.symm)
  | one t => exact ResR.ok ((Nest.hom h t).one.symm)
  | @addAssign t a b iha ihb =>
    refine ResR.bind iha fun x _ hx => ResR.bind ihb fun y _ hy => ?_
    cases hx; cases hy
    exact ((Nest.hom h t).add x y).toRes.toR
  | @subAssign t a b iha ihb =>
    refine ResR.bind iha fun x _ hx => ResR.bind ihb fun y _ hy => ?_
    cases hx; cases hy
    exact ((Nest.hom h t).sub x y).toRes.toR
  | @mulRefs t a b iha ihb =>
    refine ResR.bind iha fun x _ hx => ResR.bind ihb fun y _ hy => ?_
    cases hx; cases hy
    exact ((Nest.hom h t).mul x y).toR
  | @neg t a iha =>
    refine ResR.bind iha fun x _ hx => ?_
    cases hx
    exact ((Nest.hom h t).neg x).toR
  | cNew a b iha ihb =>
    refine ResR.bind iha fun x _ hx => ResR.bind ihb fun y _ hy => ?_
    cases hx; cases hy
    exact ResR.ok rfl
  | cRe z ih =>
    refine ResR.bind ih fun x _ hx => ?_
    cases hx
    exact ResR.ok rfl
  | cIm z ih =>
    refine ResR.bind ih fun x _ hx => ?_
    cases hx
    exact ResR.ok rfl
  | @cConj t z ih =>
    refine ResR.bind ih fun x _ hx => ?_
    cases hx
    exact (@Hom.cconj _ _ _ _ (t.rring T) (t.rring T') (Nest.hom h t) x).toR
  | @cSqrNorm t z ih =>
    refine ResR.bind ih fun x _ hx => ?_
    cases hx
    exact (@Hom.sqrNorm _ _ _ _ (t.rring T) (t.rring T') (Nest.hom h t) x).toR
  | @cMulScalar t z x ih ihx =>
    refine ResR.bind ih fun x _ hx => ResR.bind ihx fun y _ hy => ?_
    cases hx; cases hy
    exact (@Hom.cmulScalar _ _ _ _ (t.rring T) (t.rring T') (Nest.hom h t) x y).toR
  | @cMulAssign t z x ih ihx =>
    refine ResR.bind ih fun x _ hx => ResR.bind ihx fun y _ hy => ?_
    cases hx; cases hy
    exact (@Hom.cmulAssign _ _ _ _ (t.rring T) (t.rring T') (Nest.hom h t) x y).toRes.toR
  | @pFrom t n c ih =>
    refine ResR.bind (ResR.fromFnM ih) fun v w hw => ResR.ok ?_
    have : w = fun i => t.map f (v i) := funext hw
    subst this
    exact congrArg Poly.mk (List.map_ofFn (f := v) (g := t.map f)).symm
  | @pEval t z x ih ihx =>
    refine ResR.bind ih fun x _ hx => ResR.bind ihx fun y _ hy => ?_
    cases hx; cases hy
    exact (@Hom.peval _ _ _ _ (t.rring T) (t.rring T') (Nest.hom h t) x y).toR
  | @pAdd t z x ih ihx =>
    refine ResR.bind ih fun x _ hx => ResR.bind ihx fun y _ hy => ?_
    cases hx; cases hy
    exact (@Hom.padd _ _ _ _ (t.rring T) (t.rring T') (Nest.hom h t) x y).toR
  | @pAddAssign t z x ih ihx =>
    refine ResR.bind ih fun x _ hx => ResR.bind ihx fun y _ hy => ?_
    cases hx; cases hy
    exact (@Hom.paddAssignV _ _ _ _ (t.rring T) (t.rring T') (Nest.hom h t) x y).toRes.toR
  | @pSub t z x ih ihx =>
    refine ResR.bind ih fun x _ hx => ResR.bind ihx fun y _ hy => ?_
    cases hx; cases hy
    exact (@Hom.psub _ _ _ _ (t.rring T) (t.rring T') (Nest.hom h t) x y).toR
  | @pSubAssign t z x ih ihx =>
    refine ResR.bind ih fun x _ hx => ResR.bind ihx fun y _ hy => ?_
    cases hx; cases hy
    exact (@Hom.psubAssignV _ _ _ _ (t.rring T) (t.rring T') (Nest.hom h t) x y).toRes.toR
  | @pMulAssign t z x ih ihx =>
    refine ResR.bind ih fun x _ hx => ResR.bind ihx fun y _ hy => ?_
    cases hx; cases hy
    exact (@Hom.pmulAssign _ _ _ _ (t.rring T) (t.rring T') (Nest.hom h t) x y).toRes.toR
  | @vFrom t n c ih =>
    refine ResR.bind (ResR.fromFnM ih) fun v w hw => ResR.ok ?_
    have : w = fun i => t.map f (v i) := funext hw
    subst this
    rfl
  | vZero n t => exact ResR.ok (@Hom.vzero _ _ _ _ (t.rring T) (t.rring T') _ (Nest.hom h t)).symm
  | @vAdd n t z x ih ihx =>
    refine ResR.bind ih fun x _ hx => ResR.bind ihx fun y _ hy => ?_
    cases hx; cases hy
    exact (@Hom.vadd _ _ _ _ (t.rring T) (t.rring T') _ (Nest.hom h t) x y).toRes.toR
  | @vSub n t z x ih ihx =>
    refine ResR.bind ih fun x _ hx => ResR.bind ihx fun y _ hy => ?_
    cases hx; cases hy
    exact (@Hom.vsub _ _ _ _ (t.rring T) (t.rring T') _ (Nest.hom h t) x y).toRes.toR
  | @vDot n t z x ih ihx =>
    refine ResR.bind ih fun x _ hx => ResR.bind ihx fun y _ hy => ?_
    cases hx; cases hy
    exact (@Hom.vdot _ _ _ _ (t.rring T) (t.rring T') _ (Nest.hom h t) x y).toR
  | @vMulScalar n t z x ih ihx =>
    refine ResR.bind ih fun x _ hx => ResR.bind ihx fun y _ hy => ?_
    cases hx; cases hy
    exact (@Hom.vmulAssign _ _ _ _ (t.rring T) (t.rring T') _ (Nest.hom h t) x y).toRes.toR
  | @vIndex n t z i ih =>
    refine ResR.bind ih fun x _ hx => ?_
    cases hx
    exact (ResRel.arrGet x.val i).toR
  | @mFrom t r c a ih =>
    refine ResR.bind (ResR.fromFnM fun i => ResR.fromFnM (ih i)) fun v w hw => ResR.ok ?_
    have : w = fun i j => t.map f (v i j) := by funext i j; exact hw i j
    subst this
    rfl
  | mZero r c t => exact ResR.ok (@Hom.mzero _ _ _ _ (t.rring T) (t.rring T') _ _ (Nest.hom h t)).symm
  | mOne r c t => exact ResR.ok (@Hom.mone _ _ _ _ (t.rring T) (t.rring T') _ _ (Nest.hom h t)).symm
  | @mAdd r c t z x ih ihx =>
    refine ResR.bind ih fun x _ hx => ResR.bind ihx fun y _ hy => ?_
    cases hx; cases hy
    exact (@Hom.madd _ _ _ _ (t.rring T) (t.rring T') _ _ (Nest.hom h t) x y).toRes.toR
  | @mSub r c t z x ih ihx =>
    refine ResR.bind ih fun x _ hx => ResR.bind ihx fun y _ hy => ?_
    cases hx; cases hy
    exact (@Hom.msub _ _ _ _ (t.rring T) (t.rring T') _ _ (Nest.hom h t) x y).toRes.toR
  | @mNeg r c t z ih =>
    refine ResR.bind ih fun x _ hx => ?_
    cases hx
    exact (@Hom.mneg _ _ _ _ (t.rring T) (t.rring T') _ _ (Nest.hom h t) x).toR
  | @mMul l m n t z x ih ihx =>
    refine ResR.bind ih fun x _ hx => ResR.bind ihx fun y _ hy => ?_
    cases hx; cases hy
    exact (@Hom.mmul _ _ _ _ (t.rring T) (t.rring T') _ _ _ (Nest.hom h t) x y).toR
  | @mMulVec m n t z x ih ihx =>
    refine ResR.bind ih fun x _ hx => ResR.bind ihx fun y _ hy => ?_
    cases hx; cases hy
    exact (@Hom.mmulVec _ _ _ _ (t.rring T) (t.rring T') _ _ (Nest.hom h t) x y).toR
  | mOfSquare a ih => exact ih
  | mToSquare a ih => exact ih
  | slice n c ih =>
    refine ResR.bind (ResR.fromFnM ih) fun v w hw => ResR.ok ?_
    have : w = fun i => f (v i) := funext hw
    subst this
    have := VRel.slice (s := s) (f := f) (List.ofFn v)
    have e : List.ofFn (fun i => f (v i)) = List.map f (List.ofFn v) := (List.map_ofFn (f := v) (g := f)).symm
    exact e ▸ this
  | makeV n e ih => exact ResR.ok (VRel.make fun i => (ih i).toF)
  | vref v ih =>
    refine ResR.bind ih fun x _ hx => ?_
    cases hx
    exact ResR.ok (VRel.ofDVector x)
  | veAdd a b iha ihb => exact ResR.bind iha fun x _ hx => ResR.bind ihb fun y _ hy => VRel.add hv hx hy
  | veSub a b iha ihb => exact ResR.bind iha fun x _ hx => ResR.bind ihb fun y _ hy => VRel.sub hv hx hy
  | veMulElemwise a b iha ihb =>
    exact ResR.bind iha fun x _ hx => ResR.bind ihb fun y _ hy => VRel.mulElemwise hv hx hy
  | veConj a ih => exact ResR.bind ih fun x _ hx => ResR.ok (VRel.conj hc hx)
  | veDiag a ih => exact ResR.bind ih fun x _ hx => ResR.ok (VRel.diag h.zero hx)
  | veEval a ih => exact ResR.bind ih fun x _ hx => hx.eval.toR
  | veEntry a i ih => exact ResR.bind ih fun x _ hx => (hx.entry i).toR
  | dvIndex v i ih =>
    refine ResR.bind ih fun x _ hx => ?_
    cases hx
    exact (ResRel.getIdx x.data i).toR
  | dvSet v i x ihv ihx =>
    refine ResR.bind ihv fun x _ hx => ResR.bind ihx fun y _ hy => ?_
    cases hx; cases hy
    exact (UpdRel.dvSet x i y).toRes.toR
  | dvAddAssign v e ihv ihe =>
    refine ResR.bind ihv fun x _ hx => ResR.bind ihe fun y _ hy => ?_
    cases hx
    exact (UpdRel.dvAddAssign hv x hy).toRes.toR
  | dvSubAssign v e ihv ihe =>
    refine ResR.bind ihv fun x _ hx => ResR.bind ihe fun y _ hy => ?_
    cases hx
    exact (UpdRel.dvSubAssign hv x hy).toRes.toR
  | dvDot u v ihu ihv =>
    refine ResR.bind ihu fun x _ hx => ResR.bind ihv fun y _ hy => ?_
    cases hx; cases hy
    exact (ResRel.dvDot hv hc x y).toR
  | array r c a ih =>
    refine ResR.bind (ResR.fromFnM fun i => ResR.fromFnM (ih i)) fun v w hw => ResR.ok ?_
    have : w = fun i j => f (v i j) := by funext i j; exact hw i j
    subst this
    exact MRel.array v
  | makeM r c e ih => exact ResR.ok (MRel.make fun i j => (ih i j).toF)
  | mref m ih =>
    refine ResR.bind ih fun x _ hx => ?_
    cases hx
    exact ResR.ok (MRel.ofDMatrix hp x)
  | meAdd a b iha ihb => exact ResR.bind iha fun x _ hx => ResR.bind ihb fun y _ hy => MRel.add hv hx hy
  | meSub a b iha ihb => exact ResR.bind iha fun x _ hx => ResR.bind ihb fun y _ hy => MRel.sub hv hx hy
  | meMulElemwise a b iha ihb =>
    exact ResR.bind iha fun x _ hx => ResR.bind ihb fun y _ hy => MRel.mulElemwise hv hx hy
  | meT a ih => exact ResR.bind ih fun x _ hx => ResR.ok (MRel.t hx)
  | meH a ih => exact ResR.bind ih fun x _ hx => ResR.ok (MRel.h hc hx)
  | meDiag a ih => exact ResR.bind ih fun x _ hx => ResR.ok (MRel.diag hx)
  | meEval a ih => exact ResR.bind ih fun x _ hx => hx.eval.toR
  | meEntry a i j ih => exact ResR.bind ih fun x _ hx => (hx.entry i j).toR
  | dmMul a b iha ihb =>
    refine ResR.bind iha fun x _ hx => ResR.bind ihb fun y _ hy => ?_
    cases hx; cases hy
    exact MRel.dmul hv hp x y
  | dmIndex m i j ih =>
    refine ResR.bind ih fun x _ hx => ?_
    cases hx
    exact (ResRel.dmEntry hp x i j).toR
  | dmSet m i j x ihm ihx =>
    refine ResR.bind ihm fun x _ hx => ResR.bind ihx fun y _ hy => ?_
    cases hx; cases hy
    exact (UpdRel.dmSet hp x i j y).toRes.toR
  | dmAddAssign m e ihm ihe =>
    refine ResR.bind ihm fun x _ hx => ResR.bind ihe fun y _ hy => ?_
    cases hx
    exact (UpdRel.dmAssign hp x hy hv.addAssign).toRes.toR
  | dmSubAssign m e ihm ihe =>
    refine ResR.bind ihm fun x _ hx => ResR.bind ihe fun y _ hy => ?_
    cases hx
    exact (UpdRel.dmAssign hp x hy hv.subAssign).toRes.toR

theorem Prog.run_rel [RRing T] [RAdd T T T] [RSub T T T] [RMul T T T] [RAddAssign T T] [RSubAssign T T] [RConj T]
    [RRing T'] [RAdd T' T' T'] [RSub T' T' T'] [RMul T' T' T'] [RAddAssign T' T'] [RSubAssign T' T'] [RConj T']
    (h : Hom s f) (hv : HomV s f) (hc : ∀ a : T, ResRel s f (RConj.conj a) (RConj.conj (f a)))
    (pr : Profile) {Γ : ℕ → Ty} (env : (i : ℕ) → (Γ i).type T) (env' : (i : ℕ) → (Γ i).type T')
    (henv : ∀ i, (Γ i).Rel s f (env i) (env' i)) {ty : Ty} (p : Prog Γ ty) :
    ResR s (ty.Rel s f) (p.run pr env) (p.run pr env') := p.run_rel_profiles h hv hc (Profile.Rel.refl pr) env env' henv

end Magnesia
