import Verif.Spec.Program
import Verif.Proof.Panics

/-!
# Panics of programs over element types that never panic (helper lemmas)
-/

namespace Magnesia

open RZero ROne

attribute [local instance] Nest.rring

variable {α β T : Type} {P : Panic → Prop}

/-- Every panic satisfies `P`, every result `G`. -/
def ResG (P : Panic → Prop) (G : α → Prop) (x : Res α) : Prop :=
  match x with
  | .ok a => G a
  | .error e => P e

theorem ResG.bind {G : α → Prop} {H : β → Prop} {x : Res α} {k : α → Res β} (h : ResG P G x)
    (hk : ∀ a, G a → ResG P H (k a)) : ResG P H (x >>= k) := by
  cases x with
  | ok a => exact hk a h
  | error e => exact h

theorem ResG.ok {G : α → Prop} {a : α} (h : G a) : ResG P G (.ok a) := h

theorem ResPan.toG {x : Res α} (h : ResPan P x) : ResG P (fun _ => True) x := by
  cases x with
  | ok a => trivial
  | error e => exact h e rfl

theorem ResG.pan {G : α → Prop} {x : Res α} (h : ResG P G x) : ResPan P x := by
  intro e he
  subst he
  exact h

theorem NeverPanics.nest [RRing T] (h : NeverPanics T) : (t : Nest) → NeverPanics (t.type T)
  | .scalar => h
  | .complex t => (NeverPanics.nest h t).complex
  | .poly t => (NeverPanics.nest h t).poly
  | .matrix _ t => (NeverPanics.nest h t).matrix

structure VGood (P : Panic → Prop) (e : VExpr T) : Prop where
  entry : ∀ i, ResPan P (e.entry i)
  eval : ResPan P e.eval

structure MGood (P : Panic → Prop) (e : MExpr T) : Prop where
  entry : ∀ i j, ResPan P (e.entry i j)
  eval : ResPan P e.eval

def Ty.Good (P : Panic → Prop) : (ty : Ty) → ty.type T → Prop
  | .vexpr => VGood P
  | .mexpr => MGood P
  | .ring _ => fun _ => True
  | .svec _ _ => fun _ => True
  | .smat _ _ _ => fun _ => True
  | .dvec => fun _ => True
  | .dmat => fun _ => True

theorem VGood.make {n : ℕ} {e : ℕ → Res T} (h : ∀ i, ResPan P (e i)) : VGood P (makeVectorExpr n e) :=
  ⟨h, ResPan.bind (ResPan.mapM _ fun i _ => h i) fun _ _ => ResPan.pure _⟩

theorem MGood.make {r c : ℕ} {e : ℕ → ℕ → Res T} (h : ∀ i j, ResPan P (e i j)) : MGood P (makeMatrixExpr r c e) :=
  ⟨h, ResPan.bind (ResPan.mapM _ fun _ _ => h _ _) fun _ _ => ResPan.pure _⟩

section
variable (hidx : P .indexOutOfBounds) (has : P .assertFailed)
include hidx

theorem pan_getIdx (l : List α) (i : ℕ) : ResPan P (getIdx l i) := by
  intro e h
  unfold getIdx at h
  split at h
  · cases h
  · cases h; exact hidx

theorem pan_arrGet {n : ℕ} (v : Fin n → α) (i : ℕ) : ResPan P (arrGet v i) := by
  intro e h
  unfold arrGet at h
  split at h
  · cases h
  · cases h; exact hidx

theorem pan_updAt (d : List α) (i : ℕ) {f : α → Upd α} (h : ∀ x, UpdPan P (f x)) : UpdPan P (updAt d i f) := by
  intro e he
  unfold updAt at he
  split at he
  · exact h _ _ he
  · cases he; exact hidx

omit hidx in
theorem pan_flatIndex {p : Profile} (hp : p.checked = false) (c i j : ℕ) : ResPan P (DMatrix.flatIndex p c i j) := by
  have : ∀ x, ResPan P (p.usize x) := by
    intro x e h
    unfold Profile.usize at h
    rw [hp] at h
    split at h <;> cases h
  exact ResPan.bind (this _) fun _ _ => this _

theorem pan_dmEntry {p : Profile} (hp : p.checked = false) (m : DMatrix T) (i j : ℕ) : ResPan P (m.entry p i j) :=
  ResPan.bind (pan_flatIndex hp _ _ _) fun _ _ => pan_getIdx hidx _ _

omit hidx in
theorem pan_forEach {σ ι : Type} {f : ι → σ → Upd σ} (l : List ι) (h : ∀ i s, UpdPan P (f i s)) (s : σ) :
    UpdPan P (forEach l f s) := by
  induction l generalizing s with
  | nil => exact UpdPan.done s
  | cons i l ih => exact UpdPan.andThen (h i s) fun _ => ih _

end

theorem pan_assertEq (has : P .assertFailed) (a b : ℕ) : ResPan P (assertEq a b) := by
  intro e h
  unfold assertEq at h
  split at h
  · cases h
  · cases h; exact has

theorem ResPan.of_ok {x : Res α} (h : ∃ a, x = .ok a) : ResPan P x := by
  obtain ⟨a, rfl⟩ := h
  exact ResPan.ok a

theorem UpdPan.of_done {σ : Type} {u : Upd σ} (h : u.panic = none) : UpdPan P u := by
  intro e he
  rw [h] at he
  cases he

/-- Over an element type that never panics and without overflow checks, only index and shape panics are possible. -/
theorem Prog.run_good [RRing T] [RAdd T T T] [RSub T T T] [RMul T T T] [RAddAssign T T] [RSubAssign T T] [RConj T]
    (hn : NeverPanics T) (hv : NeverPanicsV T) (hc : ∀ a : T, ∃ b, RConj.conj a = .ok b)
    (hidx : P .indexOutOfBounds) (has : P .assertFailed)
    {pr : Profile} (hp : pr.checked = false) {Γ : ℕ → Ty} (env : (i : ℕ) → (Γ i).type T)
    (henv : ∀ i, (Γ i).Good P (env i)) {ty : Ty} (p : Prog Γ ty) : ResG P (ty.Good P) (p.run pr env) := by
  have F : ∀ {t : Nest} {α : Type} {x : Res α}, ResPan (ElementPanic (t.type T)) x → ResG P (fun _ => True) x :=
    fun {t} _ _ h => (h.mono fun e he => ((hn.nest t).noElementPanic e he).elim).toG
  induction p with
  | input i => exact ResG.ok (henv i)
  | zero t => trivial
  | one t => trivial
  | @addAssign t a b iha ihb =>
    exact ResG.bind iha fun x _ => ResG.bind ihb fun y _ => F (t := t) (pan_add (T := t.type T) x y).toRes
  | @subAssign t a b iha ihb =>
    exact ResG.bind iha fun x _ => ResG.bind ihb fun y _ => F (t := t) (pan_sub (T := t.type T) x y).toRes
  | @mulRefs t a b iha ihb =>
    exact ResG.bind iha fun x _ => ResG.bind ihb fun y _ => F (t := t) (pan_mul (T := t.type T) x y)
  | @neg t a iha => exact ResG.bind iha fun x _ => F (t := t) (pan_neg (T := t.type T) x)
  | cNew a b iha ihb => exact ResG.bind iha fun x _ => ResG.bind ihb fun y _ => trivial
  | cRe z ih => exact ResG.bind ih fun x _ => trivial
  | cIm z ih => exact ResG.bind ih fun x _ => trivial
  | @cConj t z ih => exact ResG.bind ih fun x _ => F (t := t) (pan_cconj (T := t.type T) x)
  | @cSqrNorm t z ih => exact ResG.bind ih fun x _ => F (t := t) (pan_sqrNorm (T := t.type T) x)
  | @cMulScalar t z x ih ihx =>
    refine ResG.bind ih fun x _ => ResG.bind ihx fun y _ => F (t := t) ?_
    exact (pan_mul (T := t.type T) _ _).bind fun _ _ => (pan_mul (T := t.type T) _ _).bind fun _ _ => ResPan.pure _
  | @cMulAssign t z x ih ihx =>
    exact ResG.bind ih fun x _ => ResG.bind ihx fun y _ =>
      F (t := t) (UpdPan.ofRes (pan_cmul (T := t.type T) x y)).toRes
  | @pFrom t n c ih => exact ResG.bind (ResPan.fromFnM fun i => (ih i).pan).toG fun v _ => trivial
  | @pEval t z x ih ihx =>
    exact ResG.bind ih fun x _ => ResG.bind ihx fun y _ => F (t := t) (pan_eval (T := t.type T) x y)
  | @pAdd t z x ih ihx =>
    exact ResG.bind ih fun x _ => ResG.bind ihx fun y _ => F (t := t) (pan_padd (T := t.type T) x y)
  | @pAddAssign t z x ih ihx =>
    exact ResG.bind ih fun x _ => ResG.bind ihx fun y _ => F (t := t) (pan_paddAssignV (T := t.type T) x y).toRes
  | @pSub t z x ih ihx =>
    exact ResG.bind ih fun x _ => ResG.bind ihx fun y _ => F (t := t) (pan_psub (T := t.type T) x y)
  | @pSubAssign t z x ih ihx =>
    exact ResG.bind ih fun x _ => ResG.bind ihx fun y _ => F (t := t) (pan_psubAssignV (T := t.type T) x y).toRes
  | @pMulAssign t z x ih ihx =>
    exact ResG.bind ih fun x _ => ResG.bind ihx fun y _ => F (t := t) (pan_pmulAssign (T := t.type T) x y).toRes
  | @vFrom t n c ih => exact ResG.bind (ResPan.fromFnM fun i => (ih i).pan).toG fun v _ => trivial
  | vZero n t => trivial
  | @vAdd n t z x ih ihx =>
    exact ResG.bind ih fun x _ => ResG.bind ihx fun y _ => F (t := t) (pan_vadd (T := t.type T) x y).toRes
  | @vSub n t z x ih ihx =>
    exact ResG.bind ih fun x _ => ResG.bind ihx fun y _ => F (t := t) (pan_vsub (T := t.type T) x y).toRes
  | @vDot n t z x ih ihx =>
    exact ResG.bind ih fun x _ => ResG.bind ihx fun y _ => F (t := t) (pan_vdot (T := t.type T) x y)
  | @vMulScalar n t z x ih ihx =>
    exact ResG.bind ih fun x _ => ResG.bind ihx fun y _ => F (t := t) (pan_vmul (T := t.type T) x y).toRes
  | @vIndex n t z i ih => exact ResG.bind ih fun x _ => (pan_arrGet hidx _ _).toG
  | @mFrom t r c a ih =>
    exact ResG.bind (ResPan.fromFnM fun i => ResPan.fromFnM fun j => (ih i j).pan).toG fun v _ => trivial
  | mZero r c t => trivial
  | mOne r c t => trivial
  | @mAdd r c t z x ih ihx =>
    exact ResG.bind ih fun x _ => ResG.bind ihx fun y _ => F (t := t) (pan_madd (T := t.type T) x y).toRes
  | @mSub r c t z x ih ihx =>
    exact ResG.bind ih fun x _ => ResG.bind ihx fun y _ => F (t := t) (pan_msub (T := t.type T) x y).toRes
  | @mNeg r c t z ih => exact ResG.bind ih fun x _ => F (t := t) (pan_mneg (T := t.type T) x)
  | @mMul l m n t z x ih ihx =>
    exact ResG.bind ih fun x _ => ResG.bind ihx fun y _ => F (t := t) (pan_mmul (T := t.type T) x y)
  | @mMulVec m n t z x ih ihx =>
    exact ResG.bind ih fun x _ => ResG.bind ihx fun y _ => F (t := t) (pan_mmulVec (T := t.type T) x y)
  | mOfSquare a ih => exact ih
  | mToSquare a ih => exact ih
  | slice n c ih =>
    refine ResG.bind (ResPan.fromFnM fun i => (ih i).pan).toG fun v _ => ?_
    exact (⟨fun i => pan_getIdx hidx _ _, ResPan.ok _⟩ : VGood P (sliceExpr _))
  | makeV n e ih => exact (VGood.make fun i => (ih i).pan : VGood P _)
  | vref v ih =>
    refine ResG.bind ih fun x _ => ?_
    exact (⟨fun i => pan_getIdx hidx _ _, ResPan.ok _⟩ : VGood P (DVector.asExpr _))
  | veAdd a b iha ihb =>
    refine ResG.bind iha fun x hx => ResG.bind ihb fun y hy => ?_
    refine ResG.bind (pan_assertEq has _ _).toG fun _ _ => ?_
    exact (VGood.make (n := VExpr.len x) (e := fun i => do RAdd.add (← VExpr.entry x i) (← VExpr.entry y i)) fun i =>
      (hx.entry i).bind fun _ _ => (hy.entry i).bind fun _ _ => ResPan.of_ok (hv.add _ _) : VGood P _)
  | veSub a b iha ihb =>
    refine ResG.bind iha fun x hx => ResG.bind ihb fun y hy => ?_
    refine ResG.bind (pan_assertEq has _ _).toG fun _ _ => ?_
    exact (VGood.make (n := VExpr.len x) (e := fun i => do RSub.sub (← VExpr.entry x i) (← VExpr.entry y i)) fun i =>
      (hx.entry i).bind fun _ _ => (hy.entry i).bind fun _ _ => ResPan.of_ok (hv.sub _ _) : VGood P _)
  | veMulElemwise a b iha ihb =>
    refine ResG.bind iha fun x hx => ResG.bind ihb fun y hy => ?_
    refine ResG.bind (G := VGood P) (ResG.bind (pan_assertEq has _ _).toG fun _ _ => ?_) fun z hz => ?_
    · exact VGood.make fun i => (hx.entry i).bind fun _ _ => (hy.entry i).bind fun _ _ => ResPan.pure _
    · exact (VGood.make fun i => (hz.entry i).bind fun xy _ => ResPan.of_ok (hv.mul _ _) : VGood P _)
  | veConj a ih =>
    refine ResG.bind ih fun x hx => ?_
    exact (VGood.make fun i => (hx.entry i).bind fun _ _ => ResPan.of_ok (hc _) : VGood P _)
  | veDiag a ih =>
    refine ResG.bind ih fun x hx => ?_
    refine (MGood.make fun i j => ?_ : MGood P _)
    split
    · exact hx.entry i
    · exact ResPan.ok _
  | veEval a ih => exact ResG.bind ih fun x hx => hx.eval.toG
  | veEntry a i ih => exact ResG.bind ih fun x hx => (hx.entry i).toG
  | dvIndex v i ih => exact ResG.bind ih fun x _ => (pan_getIdx hidx _ _).toG
  | dvSet v i x ihv ihx =>
    exact ResG.bind ihv fun x _ => ResG.bind ihx fun y _ =>
      (UpdPan.into (pan_updAt hidx _ _ fun _ => UpdPan.done _)).toRes.toG
  | dvAddAssign v e ihv ihe =>
    refine ResG.bind ihv fun x _ => ResG.bind ihe fun y hy => (UpdPan.into (pan_forEach _ (fun i d => ?_) _)).toRes.toG
    exact pan_updAt hidx _ _ fun _ => UpdPan.withRes (hy.entry i) fun _ _ => UpdPan.of_done (hv.addAssign _ _)
  | dvSubAssign v e ihv ihe =>
    refine ResG.bind ihv fun x _ => ResG.bind ihe fun y hy => (UpdPan.into (pan_forEach _ (fun i d => ?_) _)).toRes.toG
    exact pan_updAt hidx _ _ fun _ => UpdPan.withRes (hy.entry i) fun _ _ => UpdPan.of_done (hv.subAssign _ _)
  | dvDot u v ihu ihv =>
    refine ResG.bind ihu fun x _ => ResG.bind ihv fun y _ => (ResPan.foldlM _ (fun acc xy _ => ?_) _).toG
    exact (ResPan.of_ok (hc _)).bind fun _ _ => (ResPan.of_ok (hv.mul _ _)).bind fun _ _ => ResPan.of_ok (hv.add _ _)
  | array r c a ih =>
    refine ResG.bind (ResPan.fromFnM fun i => ResPan.fromFnM fun j => (ih i j).pan).toG fun v _ => ?_
    exact (⟨fun i j => (pan_arrGet hidx _ _).bind fun _ _ => pan_arrGet hidx _ _, ResPan.ok _⟩ : MGood P (arrayExpr _))
  | makeM r c e ih => exact (MGood.make fun i j => (ih i j).pan : MGood P _)
  | mref m ih =>
    refine ResG.bind ih fun x _ => ?_
    exact (⟨fun i j => pan_dmEntry hidx hp _ _ _, ResPan.ok _⟩ : MGood P (DMatrix.asExpr _ _))
  | meAdd a b iha ihb =>
    refine ResG.bind iha fun x hx => ResG.bind ihb fun y hy => ?_
    refine ResG.bind (pan_assertEq has _ _).toG fun _ _ => ResG.bind (pan_assertEq has _ _).toG fun _ _ => ?_
    exact (MGood.make (r := MExpr.numRows x) (c := MExpr.numCols x)
      (e := fun i j => do RAdd.add (← MExpr.entry x i j) (← MExpr.entry y i j)) fun i j =>
      (hx.entry i j).bind fun _ _ => (hy.entry i j).bind fun _ _ => ResPan.of_ok (hv.add _ _) : MGood P _)
  | meSub a b iha ihb =>
    refine ResG.bind iha fun x hx => ResG.bind ihb fun y hy => ?_
    refine ResG.bind (pan_assertEq has _ _).toG fun _ _ => ResG.bind (pan_assertEq has _ _).toG fun _ _ => ?_
    exact (MGood.make (r := MExpr.numRows x) (c := MExpr.numCols x)
      (e := fun i j => do RSub.sub (← MExpr.entry x i j) (← MExpr.entry y i j)) fun i j =>
      (hx.entry i j).bind fun _ _ => (hy.entry i j).bind fun _ _ => ResPan.of_ok (hv.sub _ _) : MGood P _)
  | meMulElemwise a b iha ihb =>
    refine ResG.bind iha fun x hx => ResG.bind ihb fun y hy => ?_
    refine ResG.bind (G := MGood P) (ResG.bind (pan_assertEq has _ _).toG fun _ _ =>
      ResG.bind (pan_assertEq has _ _).toG fun _ _ => ?_) fun z hz => ?_
    · exact MGood.make fun i j => (hx.entry i j).bind fun _ _ => (hy.entry i j).bind fun _ _ => ResPan.pure _
    · exact (MGood.make fun i j => (hz.entry i j).bind fun xy _ => ResPan.of_ok (hv.mul _ _) : MGood P _)
  | meT a ih => exact ResG.bind ih fun x hx => (MGood.make fun i j => hx.entry j i : MGood P _)
  | meH a ih =>
    refine ResG.bind ih fun x hx => ?_
    exact (MGood.make fun i j => (hx.entry j i).bind fun _ _ => ResPan.of_ok (hc _) : MGood P _)
  | meDiag a ih => exact ResG.bind ih fun x hx => (VGood.make fun i => hx.entry i i : VGood P _)
  | meEval a ih => exact ResG.bind ih fun x hx => hx.eval.toG
  | meEntry a i j ih => exact ResG.bind ih fun x hx => (hx.entry i j).toG
  | dmMul a b iha ihb =>
    refine ResG.bind iha fun x _ => ResG.bind ihb fun y _ => ?_
    refine ResG.bind (pan_assertEq has _ _).toG fun _ _ => ?_
    refine (MGood.make (r := DMatrix.numRows x) (c := DMatrix.numCols y) (e := DMatrix.mulEntry pr x y) fun i j => ?_ :
      MGood P _)
    refine (pan_dmEntry hidx hp _ _ _).bind fun _ _ => (pan_dmEntry hidx hp _ _ _).bind fun _ _ =>
      (ResPan.of_ok (hv.mul _ _)).bind fun _ _ => ResPan.foldlM _ (fun _ _ _ => ?_) _
    exact (pan_dmEntry hidx hp _ _ _).bind fun _ _ => (pan_dmEntry hidx hp _ _ _).bind fun _ _ =>
      (ResPan.of_ok (hv.mul _ _)).bind fun _ _ => (UpdPan.of_done (hv.addAssign _ _)).toRes
  | dmIndex m i j ih => exact ResG.bind ih fun x _ => (pan_dmEntry hidx hp x i j).toG
  | dmSet m i j x ihm ihx =>
    refine ResG.bind ihm fun x _ => ResG.bind ihx fun y _ => (UpdPan.withRes (pan_flatIndex hp _ _ _) fun _ _ => ?_).toRes.toG
    exact UpdPan.into (pan_updAt hidx _ _ fun _ => UpdPan.done _)
  | dmAddAssign m e ihm ihe =>
    refine ResG.bind ihm fun x _ => ResG.bind ihe fun y hy =>
      (UpdPan.into (pan_forEach _ (fun i d => pan_forEach _ (fun j d => ?_) _) _)).toRes.toG
    exact UpdPan.withRes (pan_flatIndex hp _ _ _) fun _ _ => pan_updAt hidx _ _ fun _ =>
      UpdPan.withRes (hy.entry i j) fun _ _ => UpdPan.of_done (hv.addAssign _ _)
  | dmSubAssign m e ihm ihe =>
    refine ResG.bind ihm fun x _ => ResG.bind ihe fun y hy =>
      (UpdPan.into (pan_forEach _ (fun i d => pan_forEach _ (fun j d => ?_) _) _)).toRes.toG
    exact UpdPan.withRes (pan_flatIndex hp _ _ _) fun _ _ => pan_updAt hidx _ _ fun _ =>
      UpdPan.withRes (hy.entry i j) fun _ _ => UpdPan.of_done (hv.subAssign _ _)

end Magnesia
