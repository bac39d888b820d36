import Verif.Spec.Maps
import Verif.Proof.Rel
import Verif.Proof.Loops

/-!
# Parametricity of the library in the element type (helper lemmas)

If `f : T → T'` commutes with the element operations (in the sense of `ResRel s` / `UpdRel s`), it commutes with every
container operation.
-/

namespace Magnesia

open RZero ROne MulRefs

structure Hom {T T' : Type} [RRing T] [RRing T'] (s : Keep) (f : T → T') : Prop where
  zero : f zero = zero
  one : f one = one
  add : ∀ a b, UpdRel s f (AddAssignRef.addAssign a b) (AddAssignRef.addAssign (f a) (f b))
  sub : ∀ a b, UpdRel s f (SubAssignRef.subAssign a b) (SubAssignRef.subAssign (f a) (f b))
  mul : ∀ a b, ResRel s f (mulRefs a b) (mulRefs (f a) (f b))
  neg : ∀ a, ResRel s f (RNeg.neg a) (RNeg.neg (f a))

structure HomV {T T' : Type} [RZero T] [RAdd T T T] [RSub T T T] [RMul T T T] [RAddAssign T T] [RSubAssign T T]
    [RZero T'] [RAdd T' T' T'] [RSub T' T' T'] [RMul T' T' T'] [RAddAssign T' T'] [RSubAssign T' T']
    (s : Keep) (f : T → T') : Prop where
  zero : f zero = zero
  add : ∀ a b, ResRel s f (RAdd.add a b) (RAdd.add (f a) (f b))
  sub : ∀ a b, ResRel s f (RSub.sub a b) (RSub.sub (f a) (f b))
  mul : ∀ a b, ResRel s f (RMul.mul a b) (RMul.mul (f a) (f b))
  addAssign : ∀ a b, UpdRel s f (RAddAssign.addAssign a b) (RAddAssign.addAssign (f a) (f b))
  subAssign : ∀ a b, UpdRel s f (RSubAssign.subAssign a b) (RSubAssign.subAssign (f a) (f b))

variable {T T' : Type} {s : Keep} {f : T → T'}

/-! ## Complex -/
section Complex
variable [RRing T] [RRing T']

theorem Hom.sqrNorm (h : Hom s f) (z : Complex T) : ResRel s f z.sqrNorm (z.map f).sqrNorm :=
  (h.mul _ _).bind fun _ _ => (h.mul _ _).bind fun _ _ => (h.add _ _).toRes

theorem Hom.cconj (h : Hom s f) (z : Complex T) : ResRel s (Complex.map f) z.conj (z.map f).conj :=
  (h.neg _).bind fun _ _ => .pure rfl

theorem Hom.cmul (h : Hom s f) (a b : Complex T) :
    ResRel s (Complex.map f) (Complex.mulRef a b) (Complex.mulRef (a.map f) (b.map f)) :=
  (h.mul _ _).bind fun _ _ => (h.mul _ _).bind fun _ _ => (h.mul _ _).bind fun _ _ => (h.mul _ _).bind fun _ _ =>
    (h.sub _ _).toRes.bind fun _ _ => (h.add _ _).toRes.bind fun _ _ => .pure rfl

theorem Hom.cmulScalar (h : Hom s f) (a : Complex T) (x : T) :
    ResRel s (Complex.map f) (a.mulScalar x) ((a.map f).mulScalar (f x)) :=
  (h.mul _ _).bind fun _ _ => (h.mul _ _).bind fun _ _ => .pure rfl

theorem Hom.cadd (h : Hom s f) (a b : Complex T) :
    UpdRel s (Complex.map f) (Complex.addAssignRef a b) (Complex.addAssignRef (a.map f) (b.map f)) :=
  UpdRel.andThen (UpdRel.into (h.add _ _) fun _ => rfl) fun _ => UpdRel.into (h.add _ _) fun _ => rfl

theorem Hom.csub (h : Hom s f) (a b : Complex T) :
    UpdRel s (Complex.map f) (Complex.subAssignRef a b) (Complex.subAssignRef (a.map f) (b.map f)) :=
  UpdRel.andThen (UpdRel.into (h.sub _ _) fun _ => rfl) fun _ => UpdRel.into (h.sub _ _) fun _ => rfl

theorem Hom.cneg (h : Hom s f) (a : Complex T) :
    ResRel s (Complex.map f) (Complex.neg a) (Complex.neg (a.map f)) :=
  (h.neg _).bind fun _ _ => (h.neg _).bind fun _ _ => .pure rfl

theorem Hom.cmulAssign (h : Hom s f) (a b : Complex T) :
    UpdRel s (Complex.map f) (Complex.mulAssign a b) (Complex.mulAssign (a.map f) (b.map f)) :=
  UpdRel.ofRes (h.cmul a b) rfl

/-- Complex numbers over a simulated element type are simulated. -/
theorem Hom.complex (h : Hom s f) : Hom s (Complex.map f) where
  zero := by
    show Complex.mk (f RZero.zero) (f RZero.zero) = ⟨RZero.zero, RZero.zero⟩
    rw [h.zero]
  one := by
    show Complex.mk (f ROne.one) (f RZero.zero) = ⟨ROne.one, RZero.zero⟩
    rw [h.zero, h.one]
  add := h.cadd
  sub := h.csub
  mul := h.cmul
  neg := h.cneg

end Complex

/-! ## Polynomial -/
section Poly
variable [RRing T] [RRing T']

theorem Hom.peval (h : Hom s f) (p : Poly T) (x : T) : ResRel s f (p.eval x) ((p.map f).eval (f x)) := by
  unfold Poly.eval Poly.evalRef Poly.map
  rw [← List.map_reverse, ← h.zero]
  refine ResRel.foldlM (fun y a => ?_) _ _
  refine ResRel.bind (h.mul _ _) fun p _ => ?_
  exact (h.add _ _).toRes

theorem Hom.padd (h : Hom s f) (p q : Poly T) :
    ResRel s (Poly.map f) (p.add q) ((p.map f).add (q.map f)) := by
  have key : ∀ p q : Poly T, ¬ p.a.length < q.a.length →
      ResRel s (Poly.map f) (p.add q) ((p.map f).add (q.map f)) := by
    intro p q hlt
    have hlt' : ¬ (p.map f).a.length < (q.map f).a.length := by simpa [Poly.map] using hlt
    rw [Poly.add, Poly.add.eq_def (p.map f), if_neg hlt, if_neg hlt']
    refine UpdRel.toRes (UpdRel.into (f := List.map f) ?_ fun _ => rfl)
    have : (q.map f).a.zipIdx = q.a.zipIdx.map (fun xi => (f xi.1, xi.2)) := by
      simp [Poly.map, List.zipIdx_map, Prod.map]
    rw [this]
    refine UpdRel.forEach (fun xi a => ?_) _ _
    obtain ⟨x, i⟩ := xi
    refine UpdRel.updAt fun y => ?_
    exact h.add _ _
  by_cases hlt : p.a.length < q.a.length
  · have hlt' : (p.map f).a.length < (q.map f).a.length := by simpa [Poly.map] using hlt
    rw [Poly.add, Poly.add.eq_def (p.map f), if_pos hlt, if_pos hlt']
    exact key q p (by omega)
  · exact key p q hlt

theorem Hom.paddAssignV (h : Hom s f) (p q : Poly T) :
    UpdRel s (Poly.map f) (p.addAssignV q) ((p.map f).addAssignV (q.map f)) := by
  refine UpdRel.into (f := List.map f) ?_ fun _ => rfl
  have : (q.map f).a.zipIdx = q.a.zipIdx.map (fun xi => (f xi.1, xi.2)) := by
    simp [Poly.map, List.zipIdx_map, Prod.map]
  rw [this]
  refine UpdRel.forEach (fun xi a => ?_) _ _
  simp only [Poly.map, List.length_map]
  split
  · exact UpdRel.updAt fun y => h.add _ _
  · exact .done (by simp)

theorem Hom.resize (h : Hom s f) (p q : Poly T) :
    (if (p.map f).a.length < (q.map f).a.length then Poly.resizeZero (p.map f).a (q.map f).a.length else (p.map f).a) =
      List.map f (if p.a.length < q.a.length then Poly.resizeZero p.a q.a.length else p.a) := by
  have e : (p.map f).a.length < (q.map f).a.length ↔ p.a.length < q.a.length := by simp [Poly.map]
  by_cases hlt : p.a.length < q.a.length
  · rw [if_pos hlt, if_pos (e.2 hlt)]; simp [Poly.resizeZero, h.zero, Poly.map]
  · rw [if_neg hlt, if_neg (e.not.2 hlt)]; rfl

theorem Hom.paddAssignRef (h : Hom s f) (p q : Poly T) :
    UpdRel s (Poly.map f) (p.addAssignRef q) ((p.map f).addAssignRef (q.map f)) := by
  unfold Poly.addAssignRef
  refine UpdRel.into (f := List.map f) ?_ fun _ => rfl
  rw [h.resize, show (q.map f).a.length = q.a.length by simp [Poly.map]]
  refine UpdRel.forEach' (fun i a => ?_) _ _
  refine UpdRel.updAt fun y => ?_
  refine UpdRel.withRes (ResRel.getIdx q.a i) fun x => ?_
  exact h.add _ _

theorem Hom.psubAssignRef (h : Hom s f) (p q : Poly T) :
    UpdRel s (Poly.map f) (p.subAssignRef q) ((p.map f).subAssignRef (q.map f)) := by
  unfold Poly.subAssignRef
  refine UpdRel.into (f := List.map f) ?_ fun _ => rfl
  rw [h.resize, show (q.map f).a.length = q.a.length by simp [Poly.map]]
  refine UpdRel.forEach' (fun i a => ?_) _ _
  refine UpdRel.updAt fun y => ?_
  refine UpdRel.withRes (ResRel.getIdx q.a i) fun x => ?_
  exact h.sub _ _

theorem Hom.pneg (h : Hom s f) (p : Poly T) : ResRel s (Poly.map f) p.neg (p.map f).neg :=
  (ResRel.mapM h.neg _).bind fun _ _ => .pure rfl

theorem Hom.psub (h : Hom s f) (p q : Poly T) : ResRel s (Poly.map f) (p.sub q) ((p.map f).sub (q.map f)) :=
  (h.pneg q).bind fun _ _ => h.padd _ _

theorem Hom.psubAssignV (h : Hom s f) (p q : Poly T) :
    UpdRel s (Poly.map f) (p.subAssignV q) ((p.map f).subAssignV (q.map f)) :=
  UpdRel.withRes (h.pneg q) fun _ => h.paddAssignV _ _

theorem Hom.pmul (h : Hom s f) (p q : Poly T) :
    ResRel s (Poly.map f) (p.mulRef q) ((p.map f).mulRef (q.map f)) := by
  unfold Poly.mulRef
  simp only [Poly.map, List.isEmpty_map]
  split
  · exact .ok rfl
  · refine UpdRel.toRes (UpdRel.into (f := List.map f) ?_ fun _ => rfl)
    simp only [List.length_map]
    rw [show List.replicate (p.a.length + q.a.length - 1) (RZero.zero : T') =
      List.map f (List.replicate (p.a.length + q.a.length - 1) RZero.zero) by simp [h.zero]]
    refine UpdRel.forEach' (fun i a => ?_) _ _
    refine UpdRel.forEach' (fun j a => ?_) _ _
    refine UpdRel.withRes (f := f) ?_ fun x => UpdRel.updAt fun y => h.add _ _
    exact (ResRel.getIdx _ _).bind fun _ _ => (ResRel.getIdx _ _).bind fun _ _ => h.mul _ _

theorem Hom.pmulAssign (h : Hom s f) (p q : Poly T) :
    UpdRel s (Poly.map f) (p.mulAssign q) ((p.map f).mulAssign (q.map f)) :=
  UpdRel.ofRes (h.pmul p q) rfl

/-- Polynomials over a simulated element type are simulated. -/
theorem Hom.poly (h : Hom s f) : Hom s (Poly.map f) where
  zero := rfl
  one := by
    show Poly.mk [f ROne.one] = ⟨[ROne.one]⟩
    rw [h.one]
  add := h.paddAssignRef
  sub := h.psubAssignRef
  mul := h.pmul
  neg := h.pneg

end Poly

/-! ## SVector -/
section SVector
variable [RRing T] [RRing T'] {n : Nat}

theorem Hom.vadd (h : Hom s f) (u v : SVector T n) :
    UpdRel s (SVector.map f) (u.addAssignRef v) ((u.map f).addAssignRef (v.map f)) := by
  refine UpdRel.into (f := fun (v : Fin n → T) i => f (v i)) (UpdRel.forEach' (fun i a => ?_) _ _) fun _ => rfl
  refine UpdRel.arrUpd fun x => ?_
  exact h.add _ _

theorem Hom.vsub (h : Hom s f) (u v : SVector T n) :
    UpdRel s (SVector.map f) (u.subAssignRef v) ((u.map f).subAssignRef (v.map f)) := by
  refine UpdRel.into (f := fun (v : Fin n → T) i => f (v i)) (UpdRel.forEach' (fun i a => ?_) _ _) fun _ => rfl
  refine UpdRel.arrUpd fun x => ?_
  exact h.sub _ _

theorem Hom.vdot (h : Hom s f) (u v : SVector T n) : ResRel s f (u.dotRef v) ((u.map f).dotRef (v.map f)) := by
  unfold SVector.dotRef
  rw [← h.zero]
  refine ResRel.foldlM' (fun a i => ?_) _ _
  refine ResRel.bind (h.mul _ _) fun p _ => ?_
  exact (h.add _ _).toRes

theorem Hom.vmulAssign (h : Hom s f) (u : SVector T n) (x : T) :
    UpdRel s (SVector.map f) (u.mulAssignRef x) ((u.map f).mulAssignRef (f x)) := by
  refine UpdRel.into (f := fun (v : Fin n → T) i => f (v i)) (UpdRel.forEach' (fun i a => ?_) _ _) fun _ => rfl
  refine UpdRel.arrUpd fun x => ?_
  exact UpdRel.ofRes (h.mul _ _) rfl

omit [RRing T] [RRing T'] in
theorem vzero_val [RZero T] : (RZero.zero : SVector T n).val = fun _ => zero := fromFnM_id _

theorem Hom.vzero (h : Hom s f) : SVector.map f (RZero.zero : SVector T n) = RZero.zero := by
  apply SVector.ext
  funext i
  simp [SVector.map, vzero_val, h.zero]

end SVector

/-! ## SMatrix -/

/-- The counters of the closures in `Mul for &SMatrix` count row and column. -/
theorem SMatrix.mulRef_eq [RZero T] [AddAssignRef T] [MulRefs T] {L M N : Nat} (a : SMatrix T L M)
    (b : SMatrix T M N) : a.mulRef b = (do
      let v ← fromFnM L (fun l => fromFnM N (fun n => (List.range M).foldlM (fun sum m => do
        let prod ← mulRefs (← SMatrix.at2 a.val l m) (← SMatrix.at2 b.val m n)
        (AddAssignRef.addAssign sum prod).toRes) (zero : T)))
      pure ⟨v⟩) := by
  unfold SMatrix.mulRef
  rw [arrMap_run (b := fun l => fromFnM N (fun n => (List.range M).foldlM (fun sum m => do
        let prod ← mulRefs (← SMatrix.at2 a.val l m) (← SMatrix.at2 b.val m n)
        (AddAssignRef.addAssign sum prod).toRes) (zero : T)))]
  · simp
  · intro l
    simp only [StateT.run_bind, StateT.run_get, pure_bind]
    rw [arrMap_run (b := fun n => (List.range M).foldlM (fun sum m => do
        let prod ← mulRefs (← SMatrix.at2 a.val l m) (← SMatrix.at2 b.val m n)
        (AddAssignRef.addAssign sum prod).toRes) (zero : T))]
    · simp [StateT.run_monadLift, StateT.run_set]
    · intro n
      simp [StateT.run_monadLift, StateT.run_set]

theorem SMatrix.mulVec_eq [RZero T] [AddAssignRef T] [MulRefs T] {M N : Nat} (a : SMatrix T M N)
    (v : SVector T N) : a.mulVec v = (do
      let w ← fromFnM M (fun i => (List.finRange N).foldlM (fun sum j => do
        let prod ← mulRefs (a.val i j) (v.val j)
        (AddAssignRef.addAssign sum prod).toRes) (zero : T))
      pure ⟨w⟩) := by
  unfold SMatrix.mulVec
  rw [arrMap_run (b := fun i => do
      let row ← arrGet a.val i
      (List.finRange N).foldlM (fun sum j => do
        let prod ← mulRefs (row j) (v.val j)
        (AddAssignRef.addAssign sum prod).toRes) (zero : T))]
  · simp [SVector.fromArray, arrGet]
    rfl
  · intro i
    simp [StateT.run_monadLift, StateT.run_set]

theorem SMatrix.zero_val [RZero T] {r c : Nat} : (RZero.zero : SMatrix T r c).val = fun _ _ => zero := by
  show arrMap (m := Id) r (arrMap (m := Id) c (zero : T)) = _
  unfold arrMap
  rw [fromFnM_id, fromFnM_id]

theorem SMatrix.one_val [RZero T] [ROne T] {r c : Nat} :
    (ROne.one : SMatrix T r c).val = fun (i : Fin r) (j : Fin c) => if (i : Nat) = (j : Nat) then one else zero := by
  show (StateT.run (m := Id) (arrMap (m := StateM Nat) r _) 0).1 = _
  rw [arrMap_run_id (b := fun m => (fun j : Fin c => if m = (j : Nat) then (one : T) else zero))]
  · simp
  · intro m
    refine Prod.ext ?_ rfl
    show (StateT.run (m := Id) (arrMap (m := StateM Nat) c _) 0).1 = _
    rw [arrMap_run_id (b := fun n => if m = n then (one : T) else zero)]
    · simp
    · intro n; rfl

section SMatrix
variable [RRing T] [RRing T'] {r c L M N : Nat}

theorem Hom.madd (h : Hom s f) (a b : SMatrix T r c) :
    UpdRel s (SMatrix.map f) (a.addAssignRef b) ((a.map f).addAssignRef (b.map f)) := by
  refine UpdRel.into (f := fun (a : Fin r → Fin c → T) i j => f (a i j)) (UpdRel.forEach' (fun i x => ?_) _ _)
    fun _ => rfl
  refine UpdRel.arrUpd (f := fun (row : Fin c → T) j => f (row j)) fun row => ?_
  refine UpdRel.forEach' (fun j row => ?_) _ _
  refine UpdRel.arrUpd fun x => ?_
  exact h.add _ _

theorem Hom.msub (h : Hom s f) (a b : SMatrix T r c) :
    UpdRel s (SMatrix.map f) (a.subAssignRef b) ((a.map f).subAssignRef (b.map f)) := by
  refine UpdRel.into (f := fun (a : Fin r → Fin c → T) i j => f (a i j)) (UpdRel.forEach' (fun i x => ?_) _ _)
    fun _ => rfl
  refine UpdRel.arrUpd (f := fun (row : Fin c → T) j => f (row j)) fun row => ?_
  refine UpdRel.forEach' (fun j row => ?_) _ _
  refine UpdRel.arrUpd fun x => ?_
  exact h.sub _ _

omit [RRing T] [RRing T'] in
theorem ResRel.at2 (a : Fin r → Fin c → T) (i j : Nat) :
    ResRel s f (SMatrix.at2 a i j) (SMatrix.at2 (fun i j => f (a i j)) i j) :=
  ResRel.bind (ResRel.arrGet (f := fun (row : Fin c → T) j => f (row j)) a i) fun _ _ => ResRel.arrGet _ _

theorem Hom.mmul (h : Hom s f) (a : SMatrix T L M) (b : SMatrix T M N) :
    ResRel s (SMatrix.map f) (a.mulRef b) ((a.map f).mulRef (b.map f)) := by
  rw [SMatrix.mulRef_eq, SMatrix.mulRef_eq, ← h.zero]
  refine ResRel.bind (f := fun (a : Fin L → Fin N → T) i j => f (a i j)) ?_ fun _ _ => .pure rfl
  refine ResRel.fromFnM fun l => ResRel.fromFnM fun n => ResRel.foldlM' (fun x m => ?_) _ _
  exact (ResRel.at2 _ _ _).bind fun _ _ => (ResRel.at2 _ _ _).bind fun _ _ => (h.mul _ _).bind fun _ _ =>
    (h.add _ _).toRes

theorem Hom.mmulVec (h : Hom s f) (a : SMatrix T M N) (v : SVector T N) :
    ResRel s (SVector.map f) (a.mulVec v) ((a.map f).mulVec (v.map f)) := by
  rw [SMatrix.mulVec_eq, SMatrix.mulVec_eq, ← h.zero]
  refine ResRel.bind (f := fun (a : Fin M → T) i => f (a i)) ?_ fun _ _ => .pure rfl
  refine ResRel.fromFnM fun l => ResRel.foldlM' (fun x m => ?_) _ _
  exact (h.mul _ _).bind fun _ _ => (h.add _ _).toRes

theorem Hom.mneg (h : Hom s f) (a : SMatrix T r c) :
    ResRel s (SMatrix.map f) a.neg (a.map f).neg :=
  ResRel.bind (f := fun (a : Fin r → Fin c → T) i j => f (a i j))
    (ResRel.fromFnM fun _ => ResRel.fromFnM fun _ => h.neg _) fun _ _ => .pure rfl

theorem Hom.mmulAssign (h : Hom s f) (a : SMatrix T M N) (b : SMatrix T N N) :
    UpdRel s (SMatrix.map f) (a.mulAssignRef b) ((a.map f).mulAssignRef (b.map f)) :=
  UpdRel.ofRes (h.mmul a b) rfl

theorem Hom.mzero (h : Hom s f) : SMatrix.map f (RZero.zero : SMatrix T r c) = RZero.zero := by
  apply SMatrix.ext
  funext i j
  simp [SMatrix.map, SMatrix.zero_val, h.zero]

theorem Hom.mone (h : Hom s f) : SMatrix.map f (ROne.one : SMatrix T r c) = ROne.one := by
  apply SMatrix.ext
  funext i j
  simp only [SMatrix.map, SMatrix.one_val]
  split <;> simp [h.zero, h.one]

/-- Square matrices over a simulated element type are simulated. -/
theorem Hom.matrix (h : Hom s f) : Hom s (SMatrix.map f : SMatrix T N N → SMatrix T' N N) where
  zero := h.mzero
  one := h.mone
  add := h.madd
  sub := h.msub
  mul := h.mmul
  neg := h.mneg

end SMatrix

end Magnesia
