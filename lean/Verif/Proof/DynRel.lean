import Verif.Proof.Hom

/-!
# Parametricity of the dynamic vectors and matrices (helper lemmas)
-/

set_option linter.unusedSectionVars false

namespace Magnesia

open RZero ROne

variable {α β γ δ T T' : Type} {s : Keep} {f : T → T'}

/-- Relational version of `ResRel`. -/
def ResR (s : Keep) (R : α → β → Prop) (x : Res α) (y : Res β) : Prop :=
  match x with
  | .ok a => ∃ b, y = .ok b ∧ R a b
  | .error e => s e → y = .error e

theorem ResRel.toR {f : α → β} {x : Res α} {y : Res β} (h : ResRel s f x y) : ResR s (fun a b => b = f a) x y := by
  cases x with
  | ok a => exact ⟨f a, h, rfl⟩
  | error e => exact h

theorem ResR.toF {f : α → β} {x : Res α} {y : Res β} (h : ResR s (fun a b => b = f a) x y) : ResRel s f x y := by
  cases x with
  | ok a => obtain ⟨b, hb, rfl⟩ := h; exact hb
  | error e => exact h

theorem ResR.ok {R : α → β → Prop} {a : α} {b : β} (h : R a b) : ResR s R (.ok a) (.ok b) := ⟨b, rfl, h⟩

theorem ResR.bind {R : α → β → Prop} {S : γ → δ → Prop} {x : Res α} {y : Res β} {k : α → Res γ} {k' : β → Res δ}
    (h : ResR s R x y) (hk : ∀ a b, R a b → ResR s S (k a) (k' b)) : ResR s S (x >>= k) (y >>= k') := by
  cases x with
  | ok a => obtain ⟨b, rfl, hb⟩ := h; exact hk a b hb
  | error e =>
    intro hs
    have := h hs
    rw [this]; rfl

theorem ResR.fromFnM {R : α → β → Prop} : ∀ {n : Nat} {k : Fin n → Res α} {k' : Fin n → Res β},
    (∀ i, ResR s R (k i) (k' i)) → ResR s (fun v w => ∀ i, R (v i) (w i)) (fromFnM n k) (fromFnM n k')
  | 0, _, _, _ => ResR.ok (fun i => i.elim0)
  | n + 1, k, k', hk => by
    simp only [Magnesia.fromFnM]
    refine bind (hk 0) fun a b hab => bind (fromFnM (fun i => hk i.succ)) fun v w hvw => ResR.ok fun i => ?_
    refine Fin.cases ?_ (fun i => ?_) i
    · simpa using hab
    · simpa using hvw i

theorem ResR.mono {R S : α → β → Prop} {x : Res α} {y : Res β} (h : ResR s R x y) (hRS : ∀ a b, R a b → S a b) :
    ResR s S x y := by
  cases x with
  | ok a => obtain ⟨b, hb, hr⟩ := h; exact ⟨b, hb, hRS _ _ hr⟩
  | error e => exact h

/-- Expressions are related if they have the same shape and related entries and values. -/
structure VRel (s : Keep) (f : T → T') (e : VExpr T) (e' : VExpr T') : Prop where
  len : e'.len = e.len
  entry : ∀ i, ResRel s f (e.entry i) (e'.entry i)
  eval : ResRel s (DVector.map f) e.eval e'.eval

structure MRel (s : Keep) (f : T → T') (e : MExpr T) (e' : MExpr T') : Prop where
  rows : e'.numRows = e.numRows
  cols : e'.numCols = e.numCols
  entry : ∀ i j, ResRel s f (e.entry i j) (e'.entry i j)
  eval : ResRel s (DMatrix.map f) e.eval e'.eval

theorem ResRel.vDefaultEval {n : ℕ} {e : ℕ → Res T} {e' : ℕ → Res T'} (h : ∀ i, ResRel s f (e i) (e' i)) :
    ResRel s (DVector.map f) (VExpr.defaultEval n e) (VExpr.defaultEval n e') :=
  ResRel.bind (ResRel.mapM' h _) fun _ _ => .pure rfl

theorem ResRel.mDefaultEval {r c : ℕ} {e : ℕ → ℕ → Res T} {e' : ℕ → ℕ → Res T'}
    (h : ∀ i j, ResRel s f (e i j) (e' i j)) :
    ResRel s (DMatrix.map f) (MExpr.defaultEval r c e) (MExpr.defaultEval r c e') := by
  refine ResRel.bind (ResRel.mapM' (f := f) (fun rc => ?_) _) fun _ _ => .pure rfl
  exact h _ _

theorem VRel.make {n : ℕ} {e : ℕ → Res T} {e' : ℕ → Res T'} (h : ∀ i, ResRel s f (e i) (e' i)) :
    VRel s f (makeVectorExpr n e) (makeVectorExpr n e') := ⟨rfl, h, ResRel.vDefaultEval h⟩

theorem MRel.make {r c : ℕ} {e : ℕ → ℕ → Res T} {e' : ℕ → ℕ → Res T'} (h : ∀ i j, ResRel s f (e i j) (e' i j)) :
    MRel s f (makeMatrixExpr r c e) (makeMatrixExpr r c e') := ⟨rfl, rfl, h, ResRel.mDefaultEval h⟩

theorem VRel.slice (l : List T) : VRel s f (sliceExpr l) (sliceExpr (l.map f)) :=
  ⟨by simp [sliceExpr], fun i => ResRel.getIdx _ _, ResRel.ok rfl⟩

theorem VRel.ofDVector (v : DVector T) : VRel s f v.asExpr (v.map f).asExpr :=
  ⟨by simp [DVector.asExpr, DVector.map], fun i => ResRel.getIdx _ _, ResRel.ok rfl⟩

/-- Index computations that succeed on one machine succeed on the other. -/
def Profile.Rel (s : Keep) (p p' : Profile) : Prop := ∀ x, ResRel s id (p.usize x) (p'.usize x)

theorem Profile.Rel.refl (p : Profile) : p.Rel s p := fun x => by
  cases p.usize x with
  | ok a => rfl
  | error e => intro _; rfl

theorem ResRel.flatIndex {p p' : Profile} (hp : p.Rel s p') (c i j : ℕ) :
    ResRel s id (DMatrix.flatIndex p c i j) (DMatrix.flatIndex p' c i j) :=
  ResRel.bind (hp _) fun _ _ => hp _

theorem ResRel.dmEntry {p p' : Profile} (hp : p.Rel s p') (m : DMatrix T) (i j : ℕ) :
    ResRel s f (m.entry p i j) ((m.map f).entry p' i j) :=
  ResRel.bind (ResRel.flatIndex hp _ _ _) fun _ _ => ResRel.getIdx _ _

theorem MRel.ofDMatrix {p p' : Profile} (hp : p.Rel s p') (m : DMatrix T) : MRel s f (m.asExpr p) ((m.map f).asExpr p') :=
  ⟨rfl, rfl, ResRel.dmEntry hp m, ResRel.ok rfl⟩

theorem MRel.array {r c : ℕ} (a : Fin r → Fin c → T) :
    MRel s f (arrayExpr a) (arrayExpr (fun i j => f (a i j))) := by
  refine ⟨rfl, rfl, fun i j => ResRel.bind (ResRel.arrGet (f := fun (row : Fin c → T) j => f (row j)) a i)
    fun _ _ => ResRel.arrGet _ _, ResRel.ok ?_⟩
  simp [DMatrix.map, List.map_flatMap]
  rfl

variable {e₁ e₂ : VExpr T} {e₁' e₂' : VExpr T'} {m₁ m₂ : MExpr T} {m₁' m₂' : MExpr T'}

theorem assertEq_R {a b a' b' : ℕ} (ha : a' = a) (hb : b' = b) : ResR s (fun _ _ => True) (assertEq a b) (assertEq a' b') := by
  subst ha hb
  unfold assertEq
  split
  · exact ResR.ok trivial
  · intro _; rfl

section
variable [RRing T] [RAdd T T T] [RSub T T T] [RMul T T T] [RAddAssign T T] [RSubAssign T T]
    [RRing T'] [RAdd T' T' T'] [RSub T' T' T'] [RMul T' T' T'] [RAddAssign T' T'] [RSubAssign T' T']

theorem VRel.add (h : HomV s f) (h₁ : VRel s f e₁ e₁') (h₂ : VRel s f e₂ e₂') :
    ResR s (VRel s f) (e₁.add e₂) (e₁'.add e₂') := by
  refine ResR.bind (assertEq_R h₁.len h₂.len) fun _ _ _ => ResR.ok ?_
  have : ∀ i, ResRel s f (VExpr.addExpr (V := T) e₁ e₂ |>.entry i) (VExpr.addExpr (V := T') e₁' e₂' |>.entry i) := fun i =>
    ResRel.bind (h₁.entry i) fun a _ => ResRel.bind (h₂.entry i) fun b _ => h.add a b
  exact ⟨h₁.len, this, by simp only [VExpr.addExpr, h₁.len]; exact ResRel.vDefaultEval this⟩

theorem VRel.sub (h : HomV s f) (h₁ : VRel s f e₁ e₁') (h₂ : VRel s f e₂ e₂') :
    ResR s (VRel s f) (e₁.sub e₂) (e₁'.sub e₂') := by
  refine ResR.bind (assertEq_R h₁.len h₂.len) fun _ _ _ => ResR.ok ?_
  have : ∀ i, ResRel s f (VExpr.subExpr (V := T) e₁ e₂ |>.entry i) (VExpr.subExpr (V := T') e₁' e₂' |>.entry i) := fun i =>
    ResRel.bind (h₁.entry i) fun a _ => ResRel.bind (h₂.entry i) fun b _ => h.sub a b
  exact ⟨h₁.len, this, by simp only [VExpr.subExpr, h₁.len]; exact ResRel.vDefaultEval this⟩

theorem VRel.mulElemwise (h : HomV s f) (h₁ : VRel s f e₁ e₁') (h₂ : VRel s f e₂ e₂') :
    ResR s (VRel s f) (e₁.mulElemwise e₂) (e₁'.mulElemwise e₂') := by
  refine ResR.bind (R := VRel s (fun xy : T × T => (f xy.1, f xy.2))) ?_ fun z z' hz => ResR.ok ?_
  · refine ResR.bind (assertEq_R h₁.len h₂.len) fun _ _ _ => ResR.ok ?_
    rw [h₁.len]
    refine VRel.make fun i => ?_
    exact ResRel.bind (h₁.entry i) fun a _ => ResRel.bind (h₂.entry i) fun b _ => ResRel.pure rfl
  · unfold VExpr.map
    rw [hz.len]
    refine VRel.make fun i => ?_
    exact ResRel.bind (hz.entry i) fun xy _ => h.mul _ _

theorem VRel.diag (hz : f zero = zero) (h₁ : VRel s f e₁ e₁') : MRel s f e₁.diag e₁'.diag := by
  unfold VExpr.diag
  rw [h₁.len]
  refine MRel.make fun i j => ?_
  split
  · exact h₁.entry i
  · exact ResRel.ok hz.symm

theorem MRel.add (h : HomV s f) (h₁ : MRel s f m₁ m₁') (h₂ : MRel s f m₂ m₂') :
    ResR s (MRel s f) (m₁.add m₂) (m₁'.add m₂') := by
  refine ResR.bind (assertEq_R h₁.rows h₂.rows) fun _ _ _ => ResR.bind (assertEq_R h₁.cols h₂.cols) fun _ _ _ => ResR.ok ?_
  have : ∀ i j, ResRel s f (MExpr.addExpr (V := T) m₁ m₂ |>.entry i j) (MExpr.addExpr (V := T') m₁' m₂' |>.entry i j) := fun i j =>
    ResRel.bind (h₁.entry i j) fun a _ => ResRel.bind (h₂.entry i j) fun b _ => h.add a b
  exact ⟨h₁.rows, h₁.cols, this, by simp only [MExpr.addExpr, h₁.rows, h₁.cols]; exact ResRel.mDefaultEval this⟩

theorem MRel.sub (h : HomV s f) (h₁ : MRel s f m₁ m₁') (h₂ : MRel s f m₂ m₂') :
    ResR s (MRel s f) (m₁.sub m₂) (m₁'.sub m₂') := by
  refine ResR.bind (assertEq_R h₁.rows h₂.rows) fun _ _ _ => ResR.bind (assertEq_R h₁.cols h₂.cols) fun _ _ _ => ResR.ok ?_
  have : ∀ i j, ResRel s f (MExpr.subExpr (V := T) m₁ m₂ |>.entry i j) (MExpr.subExpr (V := T') m₁' m₂' |>.entry i j) := fun i j =>
    ResRel.bind (h₁.entry i j) fun a _ => ResRel.bind (h₂.entry i j) fun b _ => h.sub a b
  exact ⟨h₁.rows, h₁.cols, this, by simp only [MExpr.subExpr, h₁.rows, h₁.cols]; exact ResRel.mDefaultEval this⟩

theorem MRel.mulElemwise (h : HomV s f) (h₁ : MRel s f m₁ m₁') (h₂ : MRel s f m₂ m₂') :
    ResR s (MRel s f) (m₁.mulElemwise m₂) (m₁'.mulElemwise m₂') := by
  refine ResR.bind (R := MRel s (fun xy : T × T => (f xy.1, f xy.2))) ?_ fun z z' hz => ResR.ok ?_
  · refine ResR.bind (assertEq_R h₁.rows h₂.rows) fun _ _ _ => ResR.bind (assertEq_R h₁.cols h₂.cols) fun _ _ _ => ResR.ok ?_
    rw [h₁.rows, h₁.cols]
    refine MRel.make fun i j => ?_
    exact ResRel.bind (h₁.entry i j) fun a _ => ResRel.bind (h₂.entry i j) fun b _ => ResRel.pure rfl
  · unfold MExpr.map
    rw [hz.rows, hz.cols]
    refine MRel.make fun i j => ?_
    exact ResRel.bind (hz.entry i j) fun xy _ => h.mul _ _

theorem MRel.dmul (h : HomV s f) {p p' : Profile} (hp : p.Rel s p') (a b : DMatrix T) :
    ResR s (MRel s f) (a.mul p b) ((a.map f).mul p' (b.map f)) := by
  refine ResR.bind (assertEq_R rfl rfl) fun _ _ _ => ResR.ok ?_
  have : ∀ i j, ResRel s f (DMatrix.mulEntry p a b i j) (DMatrix.mulEntry p' (a.map f) (b.map f) i j) := by
    intro i j
    refine ResRel.bind (ResRel.dmEntry hp a i 0) fun x _ => ResRel.bind (ResRel.dmEntry hp b 0 j) fun y _ =>
      ResRel.bind (h.mul x y) fun z _ => ?_
    refine ResRel.foldlM' (fun acc k => ?_) _ _
    refine ResRel.bind (ResRel.dmEntry hp a i k) fun x _ => ResRel.bind (ResRel.dmEntry hp b k j) fun y _ =>
      ResRel.bind (h.mul x y) fun z _ => ?_
    exact (h.addAssign _ _).toRes
  exact ⟨rfl, rfl, this, ResRel.mDefaultEval this⟩

theorem UpdRel.dvAddAssign (h : HomV s f) (v : DVector T) (h₁ : VRel s f e₁ e₁') :
    UpdRel s (DVector.map f) (v.addAssign e₁) ((v.map f).addAssign e₁') := by
  refine UpdRel.into (f := List.map f) ?_ fun _ => rfl
  simp only [DVector.map, List.length_map]
  refine UpdRel.forEach' (fun i d => ?_) _ _
  refine UpdRel.updAt fun x => ?_
  refine UpdRel.withRes (h₁.entry i) fun y => ?_
  exact h.addAssign _ _

theorem UpdRel.dvSubAssign (h : HomV s f) (v : DVector T) (h₁ : VRel s f e₁ e₁') :
    UpdRel s (DVector.map f) (v.subAssign e₁) ((v.map f).subAssign e₁') := by
  refine UpdRel.into (f := List.map f) ?_ fun _ => rfl
  simp only [DVector.map, List.length_map]
  refine UpdRel.forEach' (fun i d => ?_) _ _
  refine UpdRel.updAt fun x => ?_
  refine UpdRel.withRes (h₁.entry i) fun y => ?_
  exact h.subAssign _ _

omit [RRing T] [RAdd T T T] [RSub T T T] [RMul T T T] [RAddAssign T T] [RSubAssign T T]
    [RRing T'] [RAdd T' T' T'] [RSub T' T' T'] [RMul T' T' T'] [RAddAssign T' T'] [RSubAssign T' T'] in
theorem UpdRel.dmAssign {p p' : Profile} (hp : p.Rel s p') (m : DMatrix T) (h₁ : MRel s f m₁ m₁') {op : T → T → Upd T}
    {op' : T' → T' → Upd T'} (hop : ∀ a b, UpdRel s f (op a b) (op' (f a) (f b))) :
    UpdRel s (DMatrix.map f) (m.assignLoop p m₁ op) ((m.map f).assignLoop p' m₁' op') := by
  refine UpdRel.into (f := List.map f) ?_ fun _ => rfl
  refine UpdRel.forEach' (fun i d => ?_) _ _
  refine UpdRel.forEach' (fun j d => ?_) _ _
  refine UpdRel.withRes (ResRel.flatIndex hp _ _ _) fun k => ?_
  refine UpdRel.updAt fun x => ?_
  refine UpdRel.withRes (h₁.entry i j) fun y => ?_
  exact hop _ _

theorem ResRel.dvDot [RConj T] [RConj T'] (h : HomV s f) (hc : ∀ a, ResRel s f (RConj.conj a) (RConj.conj (f a)))
    (u v : DVector T) : ResRel s f (u.dotRef v) ((u.map f).dotRef (v.map f)) := by
  unfold DVector.dotRef
  rw [← h.zero]
  have : List.zip (u.map f).data (v.map f).data = (List.zip u.data v.data).map (fun xy => (f xy.1, f xy.2)) := by
    simp [DVector.map, List.zip_map, Prod.map]
  rw [this]
  refine ResRel.foldlM (fun acc xy => ?_) _ _
  refine ResRel.bind (hc _) fun a _ => ResRel.bind (h.mul a _) fun b _ => ?_
  exact h.add _ _

end

theorem VRel.conj [RConj T] [RConj T'] (hc : ∀ a, ResRel s f (RConj.conj a) (RConj.conj (f a))) (h₁ : VRel s f e₁ e₁') :
    VRel s f e₁.conj e₁'.conj := by
  unfold VExpr.conj VExpr.map
  rw [h₁.len]
  refine VRel.make fun i => ?_
  exact ResRel.bind (h₁.entry i) fun a _ => hc a

theorem MRel.t (h₁ : MRel s f m₁ m₁') : MRel s f m₁.t m₁'.t := by
  unfold MExpr.t
  rw [h₁.rows, h₁.cols]
  exact MRel.make fun i j => h₁.entry j i

theorem MRel.h [RConj T] [RConj T'] (hc : ∀ a, ResRel s f (RConj.conj a) (RConj.conj (f a))) (h₁ : MRel s f m₁ m₁') :
    MRel s f m₁.h m₁'.h := by
  unfold MExpr.h
  rw [h₁.rows, h₁.cols]
  refine MRel.make fun i j => ?_
  exact ResRel.bind (h₁.entry j i) fun a _ => hc a

theorem MRel.diag (h₁ : MRel s f m₁ m₁') : VRel s f m₁.diag m₁'.diag := by
  unfold MExpr.diag
  rw [h₁.rows, h₁.cols]
  exact VRel.make fun i => h₁.entry i i

theorem UpdRel.dvSet (v : DVector T) (i : ℕ) (x : T) :
    UpdRel s (DVector.map f) (v.indexSet i x) ((v.map f).indexSet i (f x)) := by
  refine UpdRel.into (f := List.map f) ?_ fun _ => rfl
  exact UpdRel.updAt fun y => UpdRel.done rfl

theorem UpdRel.dmSet {p p' : Profile} (hp : p.Rel s p') (m : DMatrix T) (i j : ℕ) (x : T) :
    UpdRel s (DMatrix.map f) (m.indexSet p i j x) ((m.map f).indexSet p' i j (f x)) := by
  refine UpdRel.withRes (ResRel.flatIndex hp _ _ _) fun k => ?_
  refine UpdRel.into (f := List.map f) ?_ fun _ => rfl
  exact UpdRel.updAt fun y => UpdRel.done rfl

end Magnesia
