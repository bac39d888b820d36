import Verif.Proof.ElemEff

/-!
# C91: element types whose operators have effects: which operators are called, how often and in which order
-/

namespace Magnesia

variable {W T E : Type}

section values

variable [RZero T] [ROne T] [AddAssignRef T] [SubAssignRef T] [MulRefs T] [RNeg T] [RConj T] [RAdd T T T] [RSub T T T]
  [RMul T T T] [RAddAssign T T] [RSubAssign T T]

private theorem tells_addLoop {o : EOps W T} (h : o.Computes) (p q : Poly T) : Tells (o.polyAddLoop p q)
    ((forEach q.a.zipIdx (fun (x, i) a => updAt a i (fun y => AddAssignRef.addAssign y x)) p.a).into Poly.mk).toRes :=
  ((TellsU.forEach (fun (xi : T × ℕ) a => TellsU.updAt (l := a) (i := xi.2) fun y => h.addAssign y xi.1) q.a.zipIdx p.a).into Poly.mk).toProc

private theorem tells_add {o : EOps W T} (h : o.Computes) (p q : Poly T) : Tells (o.polyAdd p q) (p.add q) := by
  rw [add_unfold, EOps.polyAdd]
  split
  · exact tells_addLoop h q p
  · exact tells_addLoop h p q

private theorem tells_addAssignV {o : EOps W T} (h : o.Computes) (p q : Poly T) : TellsU (o.polyAddAssignV p q) (p.addAssignV q) := by
  refine (TellsU.forEach (fun xi a => ?_) _ _).into _
  obtain ⟨x, i⟩ := xi
  dsimp only
  split
  · exact TellsU.updAt fun y => h.addAssign y x
  · exact TellsU.done _

private theorem tells_resize {o : EOps W T} (h : o.Computes) (l : List T) (n : ℕ) :
    TellsU (o.resizeZero l n) (.done (Poly.resizeZero l n)) := by
  have := TellsU.forEach (W := W) (f := fun (_ : ℕ) l => EUpd.withProc o.zero l (fun x => EUpd.done (l ++ [x])))
    (g := fun _ a => Upd.withRes (.ok RZero.zero) a fun x => .done (a ++ [x]))
    (fun _ a => h.zero.withProc fun x => TellsU.done _) (List.range (n - l.length)) l
  rwa [push_loop, List.length_range] at this

private theorem tells_assignRef {o : EOps W T} (h : o.Computes) {op : T → T → EUpd W T} {op' : T → T → Upd T}
    (hop : ∀ x y, TellsU (op x y) (op' x y)) (p q : Poly T) : TellsU (o.polyAssignRef op p q)
      ((forEach (List.range q.a.length) (fun i a =>
        updAt a i (fun y => Upd.withRes (getIdx q.a i) y (fun x => op' y x)))
          (if p.a.length < q.a.length then Poly.resizeZero p.a q.a.length else p.a)).into Poly.mk) := by
  refine TellsU.into _ ?_
  have h1 : TellsU (if p.a.length < q.a.length then o.resizeZero p.a q.a.length else EUpd.done p.a)
      (.done (if p.a.length < q.a.length then Poly.resizeZero p.a q.a.length else p.a)) := by
    split
    · exact tells_resize h _ _
    · exact TellsU.done _
  exact h1.andThen fun a => TellsU.forEach (fun i a => TellsU.updAt fun y => (Tells.ofRes _).withProc fun x => hop y x) _ a

private theorem tells_neg {o : EOps W T} (h : o.Computes) (p : Poly T) : Tells (o.polyNeg p) p.neg :=
  (Tells.collect h.neg _).bind fun _ => Tells.pure _

private theorem tells_vecZero {o : EOps W T} (h : o.Computes) (n : ℕ) : Tells (o.vecZero n) (.ok (List.replicate (n + 1) RZero.zero)) := by
  have := h.zero.bind (f := fun z => do
      let l ← collect (List.range n) (fun _ => o.clone z)
      pure (l ++ [z])) (g := fun z => (List.range n).mapM (fun _ => .ok z) >>= fun l => .ok (l ++ [z]))
    fun z => (Tells.collect (fun _ => h.clone z) _).bind fun l => Tells.pure _
  rw [show ((Except.ok RZero.zero : Res T) >>= fun z => (List.range n).mapM (m := Res) (fun _ => .ok z) >>= fun l => .ok (l ++ [z])) =
    .ok (List.replicate (n + 1) RZero.zero) by
      show ((List.range n).mapM (m := Res) (fun _ => .ok RZero.zero) >>= fun l => .ok (l ++ [RZero.zero])) = _
      rw [mapM_ok, List.length_range, List.replicate_succ']; rfl] at this
  exact this

private theorem tells_mul {o : EOps W T} (h : o.Computes) (p q : Poly T) : Tells (o.polyMul p q) (p.mulRef q) := by
  unfold EOps.polyMul Poly.mulRef
  split
  · exact Tells.pure _
  · rename_i hne
    have hl : p.a.length + q.a.length - 1 - 1 + 1 = p.a.length + q.a.length - 1 := by
      rcases hp : p.a with _ | ⟨x, l⟩
      · simp [hp] at hne
      · rcases hq : q.a with _ | ⟨y, l'⟩
        · simp [hq] at hne
        · simp only [List.length_cons]; omega
    have h1 := (tells_vecZero h (p.a.length + q.a.length - 1 - 1)).bind (f := fun a =>
      ((eForEach (List.range p.a.length) (fun i a =>
        eForEach (List.range q.a.length) (fun j a =>
          EUpd.withProc (do
              let x ← Proc.ofRes (getIdx p.a i)
              let y ← Proc.ofRes (getIdx q.a j)
              o.mulRefs x y) a
            (fun prod => EUpd.updAt a (i + j) (fun y => o.addAssign y prod))) a) a).into Poly.fromCoefficients).toProc)
      fun a => ((TellsU.forEach (fun i a => TellsU.forEach (fun j a =>
        ((Tells.ofRes _).bind fun x => (Tells.ofRes _).bind fun y => h.mulRefs x y).withProc fun prod =>
          TellsU.updAt fun y => h.addAssign y prod) _ a) _ a).into _).toProc
    rw [hl] at h1
    exact h1

/-- Polynomials: every operator over an instrumented element type returns, leaves behind or panics with what it does over the element
type without effects. -/
theorem C91_values_polynomial {o : EOps W T} (h : o.Computes) (p q : Poly T) (x : T) :
    Tells (o.polyEval p x) (p.eval x) ∧ Tells (o.polyAdd p q) (p.add q) ∧ TellsU (o.polyAddAssignV p q) (p.addAssignV q) ∧
    TellsU (o.polyAddAssignRef p q) (p.addAssignRef q) ∧ Tells (o.polyNeg p) p.neg ∧ Tells (o.polySub p q) (p.sub q) ∧
    TellsU (o.polySubAssignV p q) (p.subAssignV q) ∧ TellsU (o.polySubAssignRef p q) (p.subAssignRef q) ∧
    Tells (o.polyMul p q) (p.mulRef q) :=
  ⟨h.zero.bind fun y => Tells.fold (fun y a => (h.mulRefs y x).bind fun y' => (h.addAssign y' a).toProc) _ y,
    tells_add h p q, tells_addAssignV h p q, tells_assignRef h h.addAssign p q, tells_neg h p,
    (tells_neg h q).bind fun n => tells_add h p n, (tells_neg h q).withProc fun n => tells_addAssignV h p n,
    tells_assignRef h h.subAssign p q, tells_mul h p q⟩

private theorem tells_sqrNorm {o : EOps W T} (h : o.Computes) (z : Complex T) : Tells (o.sqrNorm z) z.sqrNorm :=
  (h.mulRefs _ _).bind fun _ => (h.mulRefs _ _).bind fun _ => (h.addAssign _ _).toProc

private theorem tells_cmul {o : EOps W T} (h : o.Computes) (z w : Complex T) : Tells (o.complexMul z w) (z.mulRef w) :=
  (h.mulRefs _ _).bind fun _ => (h.mulRefs _ _).bind fun _ => (h.mulRefs _ _).bind fun _ => (h.mulRefs _ _).bind fun _ =>
    (h.subAssign _ _).toProc.bind fun _ => (h.addAssign _ _).toProc.bind fun _ => Tells.pure _

/-- Complex numbers over an instrumented element type are an instrumented element type; so are the squared norm, the product with a
scalar and the quotient (`div`: the instrumented `DivRefs`). -/
theorem C91_values_complex {o : EOps W T} (h : o.Computes) : o.complex.Computes ∧
    (∀ z : Complex T, Tells (o.sqrNorm z) z.sqrNorm) ∧ (∀ (z : Complex T) (x : T), Tells (o.complexMulScalar z x) (z.mulScalar x)) ∧
    ∀ [DivRefs T] (div : T → T → Proc W T), (∀ x y, Tells (div x y) (DivRefs.divRefs x y)) →
      ∀ z w : Complex T, Tells (o.complexDiv div z w) (z.divRef w) :=
  ⟨{  zero := tells_both h.zero h.zero
      one := tells_both h.one h.zero
      clone := fun z => tells_both (h.clone z.re) (h.clone z.im)
      addAssign := tells_cassign h.addAssign
      subAssign := tells_cassign h.subAssign
      mulRefs := tells_cmul h
      neg := fun z => tells_both (h.neg z.re) (h.neg z.im)
      conj := fun z => tells_both (Tells.pure z.re) (h.neg z.im)
      add := fun z w => tells_both (h.add z.re w.re) (h.add z.im w.im)
      sub := fun z w => tells_both (h.sub z.re w.re) (h.sub z.im w.im)
      mul := tells_cmul h
      addAssignV := tells_cassign h.addAssignV
      subAssignV := tells_cassign h.subAssignV },
    tells_sqrNorm h, fun _ _ => tells_both (h.mulRefs _ _) (h.mulRefs _ _), fun {_} _ hd _ w =>
    h.one.bind fun _ => (tells_sqrNorm h w).bind fun _ => (hd _ _).bind fun _ =>
      (h.mulRefs _ _).bind fun _ => (h.mulRefs _ _).bind fun _ => (h.mulRefs _ _).bind fun _ => (h.mulRefs _ _).bind fun _ =>
      (h.addAssign _ _).toProc.bind fun _ => (h.subAssign _ _).toProc.bind fun _ => tells_both (h.mulRefs _ _) (h.mulRefs _ _)⟩

private theorem tells_dotLoop {o : EOps W T} (h : o.Computes) {ι : Type} (l : List ι) (u v : ι → T) :
    Tells (o.dotLoop l u v) (l.foldlM (fun sum i => do
      let prod ← MulRefs.mulRefs (u i) (v i)
      (AddAssignRef.addAssign sum prod).toRes) RZero.zero) :=
  h.zero.bind fun _ => Tells.fold (fun _ _ => (h.mulRefs _ _).bind fun _ => (h.addAssign _ _).toProc) _ _

/-- Static vectors over an instrumented element type. -/
theorem C91_values_svector {o : EOps W T} (h : o.Computes) {n : ℕ} (u v : SVector T n) (x : T) :
    Tells (o.svectorDot u v) (u.dot v) ∧ TellsU (EOps.svectorAssign o.addAssign u v) (u.addAssignRef v) ∧
    TellsU (EOps.svectorAssign o.subAssign u v) (u.subAssignRef v) ∧ TellsU (o.svectorMulAssign u x) (u.mulAssignRef x) :=
  ⟨tells_dotLoop h _ _ _, (TellsU.forEach (fun i _ => TellsU.arrUpd fun s => h.addAssign s (v.val i)) _ _).into _,
    (TellsU.forEach (fun i _ => TellsU.arrUpd fun s => h.subAssign s (v.val i)) _ _).into _,
    (TellsU.forEach (fun _ _ => TellsU.arrUpd fun s => (h.mulRefs s x).ofProc s) _ _).into _⟩

private theorem tells_smul {o : EOps W T} (h : o.Computes) {l m n : ℕ} (a : SMatrix T l m) (b : SMatrix T m n) :
    Tells (o.smatrixMul a b) (a.mulRef b) := by
  rw [SMatrix.mulRef_eq]
  simp only [foldlM_at2]
  exact tells_smap fun i k => tells_dotLoop h _ _ _

/-- Static matrices: square matrices over an instrumented element type are an instrumented element type; so are sums, differences and
products of matrices of any shape and products with vectors. -/
theorem C91_values_smatrix {o : EOps W T} (h : o.Computes) : (∀ n, (o.smatrix n).Computes) ∧
    (∀ {r c : ℕ} (a b : SMatrix T r c), TellsU (EOps.smatrixAssign o.addAssign a b) (a.addAssignRef b) ∧
      TellsU (EOps.smatrixAssign o.subAssign a b) (a.subAssignRef b)) ∧
    (∀ {l m n : ℕ} (a : SMatrix T l m) (b : SMatrix T m n), Tells (o.smatrixMul a b) (a.mulRef b)) ∧
    ∀ {m n : ℕ} (a : SMatrix T m n) (v : SVector T n), Tells (o.smatrixMulVec a v) (a.mulVec v) := by
  refine ⟨fun n => ?_, fun a b => ⟨tells_sassign h.addAssign a b, tells_sassign h.subAssign a b⟩, tells_smul h, fun a v => ?_⟩
  · exact {
      zero := by rw [← smatrix_zero_eq]; exact tells_smap fun _ _ => h.zero
      one := by
        rw [← smatrix_one_eq]
        refine tells_smap fun i j => ?_
        split
        · exact h.one
        · exact h.zero
      clone := fun a => by
        have := tells_smap fun i j => h.clone (a.val i j)
        simp only [fromFnM_pure] at this
        exact this
      addAssign := tells_sassign h.addAssign
      subAssign := tells_sassign h.subAssign
      mulRefs := tells_smul h
      neg := fun a => tells_smap fun i j => h.neg (a.val i j)
      conj := fun a => tells_smap fun i j => h.conj (a.val i j)
      add := fun a b => (tells_sassign h.addAssign a b).toProc
      sub := fun a b => (tells_sassign h.subAssign a b).toProc
      mul := tells_smul h
      addAssignV := tells_sassign h.addAssign
      subAssignV := tells_sassign h.subAssign }
  · rw [SMatrix.mulVec_eq]
    exact (Tells.fromFn fun i => tells_dotLoop h _ _ _).bind fun _ => Tells.pure _

private theorem tells_entry {o : EOps W T} (h : o.Computes) (p : Profile) (a : DMatrix T) (row col : ℕ) :
    Tells (o.dmatrixEntry p a row col) (a.entry p row col) := by
  have := (Tells.ofRes (W := W) (a.entry p row col)).bind fun x => h.clone x
  rwa [show (a.entry p row col >>= fun x => .ok x) = a.entry p row col by cases a.entry p row col <;> rfl] at this

private theorem tells_mulEntry {o : EOps W T} (h : o.Computes) (p : Profile) (a b : DMatrix T) (row col : ℕ) :
    Tells (o.dmatrixMulEntry p a b row col) (a.mulEntry p b row col) :=
  (tells_entry h p a row 0).bind fun x => (tells_entry h p b 0 col).bind fun y => (h.mul x y).bind fun sum =>
    Tells.fold (fun sum i => (tells_entry h p a row i).bind fun x => (tells_entry h p b i col).bind fun y =>
      (h.mul x y).bind fun prod => (h.addAssignV sum prod).toProc) _ sum

/-- Dynamic vectors and matrices: inner products and evaluated matrix products over an instrumented element type. -/
theorem C91_values_dynamic {o : EOps W T} (h : o.Computes) : (∀ u v : DVector T, Tells (o.dvectorDot u v) (u.dot v)) ∧
    ∀ (p : Profile) (a b : DMatrix T), Tells (o.dmatrixMulEval p a b) (do (← a.mul p b).eval) := by
  refine ⟨fun u v => h.zero.bind fun acc => Tells.fold (fun acc (lr : T × T) => (h.clone lr.1).bind fun l => (h.conj l).bind fun l =>
    (h.clone lr.2).bind fun r => (h.mul l r).bind fun prod => h.add acc prod) _ acc, fun p a b => ?_⟩
  have h1 : Tells (W := W) (o.dmatrixMulEval p a b) (assertEq a.numCols b.numRows >>= fun _ =>
      MExpr.defaultEval a.numRows b.numCols (a.mulEntry p b)) :=
    (Tells.ofRes _).bind fun _ => (Tells.collect (fun rc : ℕ × ℕ => tells_mulEntry h p a b rc.1 rc.2) _).bind fun d =>
      Tells.pure (⟨d, a.numRows, b.numCols⟩ : DMatrix T)
  rw [show (do (← a.mul (O := T) p b).eval) = (assertEq a.numCols b.numRows >>= fun _ =>
      MExpr.defaultEval a.numRows b.numCols (a.mulEntry p b)) by
    unfold DMatrix.mul; cases assertEq a.numCols b.numRows <;> rfl]
  exact h1

end values

section logs

variable {log : W → List E} {c : OpCosts E} {o : EOps W T}

private theorem charges_addLoop (h : o.Metered log c) (p q : Poly T) : Charges log (o.polyAddLoop p q) (rep q.a.length c.addAssign) := by
  have := ((ChargesU.forEach (log := log) (c := fun _ => c.addAssign) (fun (xi : T × ℕ) a => ChargesU.updAt (v := a) (i := xi.2)
    fun y => h.addAssign y xi.1) q.a.zipIdx p.a).into Poly.mk).toProc
  rwa [flatMap_const, List.length_zipIdx] at this

private theorem charges_add (h : o.Metered log c) (p q : Poly T) :
    Charges log (o.polyAdd p q) (rep (min p.a.length q.a.length) c.addAssign) := by
  unfold EOps.polyAdd
  split
  · rw [Nat.min_eq_left (by omega)]; exact charges_addLoop h q p
  · rw [Nat.min_eq_right (by omega)]; exact charges_addLoop h p q

private theorem charges_addAssignV (h : o.Metered log c) (p q : Poly T) :
    ChargesU log (o.polyAddAssignV p q) (rep (min p.a.length q.a.length) c.addAssign) := by
  have := (ChargesU.forEach (log := log) (c := fun xi : T × ℕ => if xi.2 < p.a.length then c.addAssign else [])
    (f := fun xi a => if xi.2 < p.a.length then EUpd.updAt a xi.2 (fun y => o.addAssign y xi.1) else EUpd.done (a ++ [xi.1]))
    (fun xi a => by
      split
      · exact ChargesU.updAt fun y => h.addAssign y xi.1
      · exact ChargesU.done _ _) q.a.zipIdx p.a).into Poly.mk
  rwa [flatMap_zipIdx_lt, Nat.sub_zero] at this

private theorem charges_assignRef (h : o.Metered log c) {op : T → T → EUpd W T} {d : List E} (hop : ∀ x y, ChargesU log (op x y) d)
    (p q : Poly T) : ChargesU log (o.polyAssignRef op p q) (rep (q.a.length - p.a.length) c.zero ++ rep q.a.length d) := by
  refine ChargesU.into _ (ChargesU.andThen (l := rep (q.a.length - p.a.length) c.zero) ?_ fun a => ?_)
  · split
    · have := ChargesU.forEach (log := log) (c := fun _ => c.zero)
        (f := fun (_ : ℕ) l => EUpd.withProc o.zero l (fun x => EUpd.done (l ++ [x])))
        (fun _ l => by
          have := h.zero.withProc (s := l) (f := fun x => EUpd.done (l ++ [x])) fun x => ChargesU.done log (l ++ [x])
          rwa [List.append_nil] at this) (List.range (q.a.length - p.a.length)) p.a
      rwa [flatMap_const, List.length_range] at this
    · rw [Nat.sub_eq_zero_of_le (by omega), rep_zero]; exact ChargesU.done _ _
  · have := ChargesU.forEach (log := log) (c := fun _ => d)
      (f := fun (i : ℕ) a => EUpd.updAt a i (fun y => EUpd.withProc (Proc.ofRes (getIdx q.a i)) y (fun x => op y x)))
      (fun i a => ChargesU.updAt fun y => (Charges.ofRes log (getIdx q.a i)).withProc fun x => hop y x) (List.range q.a.length) a
    rwa [flatMap_const, List.length_range] at this

private theorem charges_neg (h : o.Metered log c) (p : Poly T) : Charges log (o.polyNeg p) (rep p.a.length c.neg) := by
  have := (Charges.collect h.neg p.a).bind_pure (f := Poly.mk)
  rwa [flatMap_const] at this

/-- A computation that returns something of a known length: the log of what follows may depend on it. -/
private theorem Charges.bind_of {log : W → List E} {α β : Type} {x : Proc W α} {f : α → Proc W β} {l l' : List E} {P : α → Prop}
    (hx : Charges log x l) (hP : ∀ w y, (x w).1 = .ok y → P y) (hf : ∀ a, P a → Charges log (f a) l') :
    Charges log (x >>= f) (l ++ l') := by
  intro w
  obtain ⟨h1, p, h2, h3⟩ := hx w
  have hP := hP w
  rw [bind_apply]
  rcases hw : x w with ⟨a | a, w'⟩ <;> rw [hw] at h1 h3 hP
  · exact ⟨fun ⟨y, hy⟩ => (nomatch hy), p, h2.trans (List.prefix_append _ _), h3⟩
  · obtain ⟨h4, q, h5, h6⟩ := hf a (hP a rfl) w'
    have h7 := h1 ⟨a, rfl⟩
    dsimp only at h7
    refine ⟨fun hy => ?_, l ++ q, (List.prefix_append_right_inj _).2 h5, ?_⟩
    · show log (f a w').2 = _
      rw [h4 hy, h7, List.append_assoc]
    · show log (f a w').2 = _
      rw [h6, h7, List.append_assoc]

private theorem Charges.withProc_of {log : W → List E} {α σ : Type} {x : Proc W α} {s : σ} {f : α → EUpd W σ} {l l' : List E}
    {P : α → Prop} (hx : Charges log x l) (hP : ∀ w y, (x w).1 = .ok y → P y) (hf : ∀ a, P a → ChargesU log (f a) l') :
    ChargesU log (EUpd.withProc x s f) (l ++ l') := by
  intro w
  obtain ⟨h1, p, h2, h3⟩ := hx w
  have hP := hP w
  unfold EUpd.withProc
  rcases hw : x w with ⟨a | a, w'⟩ <;> rw [hw] at h1 h3 hP
  · exact ⟨fun hy => (nomatch hy), p, h2.trans (List.prefix_append _ _), h3⟩
  · obtain ⟨h4, q, h5, h6⟩ := hf a (hP a rfl) w'
    have h7 := h1 ⟨a, rfl⟩
    dsimp only at h7
    refine ⟨fun hy => ?_, l ++ q, (List.prefix_append_right_inj _).2 h5, ?_⟩
    · show log (f a w').2 = _
      rw [h4 hy, h7, List.append_assoc]
    · show log (f a w').2 = _
      rw [h6, h7, List.append_assoc]

private theorem collect_length {α ι : Type} (f : ι → Proc W α) : ∀ (l : List ι) (w : W) (ys : List α), (collect l f w).1 = .ok ys →
    ys.length = l.length
  | [], _, ys, h => by cases h; rfl
  | i :: l, w, ys, h => by
    unfold collect at h
    rw [bind_apply] at h
    rcases hx : f i w with ⟨e | x, w'⟩ <;> rw [hx] at h
    · cases h
    · dsimp only at h
      rw [bind_apply] at h
      rcases hc : collect l f w' with ⟨e | xs, w''⟩ <;> rw [hc] at h
      · cases h
      · cases h
        rw [List.length_cons, List.length_cons, collect_length f l w' xs (by rw [hc])]

private theorem neg_length (p : Poly T) (w : W) (n : Poly T) (h : (o.polyNeg p w).1 = .ok n) : n.a.length = p.a.length := by
  unfold EOps.polyNeg at h
  rw [bind_apply] at h
  rcases hc : collect p.a o.neg w with ⟨e | xs, w'⟩ <;> rw [hc] at h
  · cases h
  · cases h
    exact collect_length o.neg p.a w xs (by rw [hc])

private theorem charges_vecZero (h : o.Metered log c) (n : ℕ) : Charges log (o.vecZero n) (c.zero ++ rep n c.clone) := by
  refine h.zero.bind fun z => ?_
  have := (Charges.collect (fun _ => h.clone z) (List.range n)).bind_pure (f := fun l => l ++ [z])
  rwa [flatMap_const, List.length_range] at this

private theorem charges_mul (h : o.Metered log c) (p q : Poly T) : Charges log (o.polyMul p q) (if p.a = [] ∨ q.a = [] then [] else
    c.zero ++ rep (p.a.length + q.a.length - 2) c.clone ++ rep (p.a.length * q.a.length) (c.mulRefs ++ c.addAssign)) := by
  unfold EOps.polyMul
  simp only [Bool.or_eq_true, List.isEmpty_iff]
  split
  · exact Charges.pure _ _
  · refine (charges_vecZero h _).bind fun a => ?_
    have := ((ChargesU.forEach (log := log) (c := fun _ => (List.range q.a.length).flatMap fun _ => c.mulRefs ++ c.addAssign)
      (f := fun i a => eForEach (List.range q.a.length) (fun j a =>
        EUpd.withProc (do
            let x ← Proc.ofRes (getIdx p.a i)
            let y ← Proc.ofRes (getIdx q.a j)
            o.mulRefs x y) a
          (fun prod => EUpd.updAt a (i + j) (fun y => o.addAssign y prod))) a)
      (fun i a => ChargesU.forEach (fun j a => Charges.withProc ((Charges.ofRes log _).bind fun x => (Charges.ofRes log _).bind fun y =>
        h.mulRefs x y) fun prod => ChargesU.updAt fun y => h.addAssign y prod) _ a) (List.range p.a.length) a).into
          Poly.fromCoefficients).toProc
    rw [flatMap_const, flatMap_const, List.length_range, List.length_range, rep_rep] at this
    exact this

/-- Polynomials: which operators of the element type are called, in order. (`p + q` adds the shorter polynomial to the longer one, so it
needs `min` additions; `p += &q` first fills up with zeros and always needs `len q`.) Nothing depends on the values of the coefficients. -/
theorem C91_log_polynomial (h : o.Metered log c) (p q : Poly T) (x : T) :
    Charges log (o.polyEval p x) (c.zero ++ rep p.a.length (c.mulRefs ++ c.addAssign)) ∧
    Charges log (o.polyAdd p q) (rep (min p.a.length q.a.length) c.addAssign) ∧
    ChargesU log (o.polyAddAssignV p q) (rep (min p.a.length q.a.length) c.addAssign) ∧
    ChargesU log (o.polyAddAssignRef p q) (rep (q.a.length - p.a.length) c.zero ++ rep q.a.length c.addAssign) ∧
    Charges log (o.polyNeg p) (rep p.a.length c.neg) ∧
    Charges log (o.polySub p q) (rep q.a.length c.neg ++ rep (min p.a.length q.a.length) c.addAssign) ∧
    ChargesU log (o.polySubAssignV p q) (rep q.a.length c.neg ++ rep (min p.a.length q.a.length) c.addAssign) ∧
    ChargesU log (o.polySubAssignRef p q) (rep (q.a.length - p.a.length) c.zero ++ rep q.a.length c.subAssign) ∧
    Charges log (o.polyMul p q) (if p.a = [] ∨ q.a = [] then [] else
      c.zero ++ rep (p.a.length + q.a.length - 2) c.clone ++ rep (p.a.length * q.a.length) (c.mulRefs ++ c.addAssign)) := by
  refine ⟨h.zero.bind fun y => ?_, charges_add h p q, charges_addAssignV h p q, charges_assignRef h h.addAssign p q, charges_neg h p,
    (charges_neg h q).bind_of (neg_length q) fun n hn => hn ▸ charges_add h p n,
    (charges_neg h q).withProc_of (neg_length q) fun n hn => hn ▸ charges_addAssignV h p n,
    charges_assignRef h h.subAssign p q, charges_mul h p q⟩
  have := Charges.fold (log := log) (c := fun _ => c.mulRefs ++ c.addAssign) (f := fun y a => do
    let y' ← o.mulRefs y x
    (o.addAssign y' a).toProc) (fun y a => (h.mulRefs y x).bind fun y' => (h.addAssign y' a).toProc) p.a.reverse y
  rwa [flatMap_const, List.length_reverse] at this

private theorem charges_both {f g : Proc W T} {a b : List E} (hf : Charges log f a) (hg : Charges log g b) :
    Charges log (EOps.complexBoth f g) (a ++ b) := hf.bind fun _ => hg.bind_pure

private theorem charges_sqrNorm (h : o.Metered log c) (z : Complex T) :
    Charges log (o.sqrNorm z) (c.mulRefs ++ (c.mulRefs ++ c.addAssign)) :=
  (h.mulRefs _ _).bind fun _ => (h.mulRefs _ _).bind fun _ => (h.addAssign _ _).toProc

private theorem charges_cmul (h : o.Metered log c) (z w : Complex T) : Charges log (o.complexMul z w)
    (c.mulRefs ++ c.mulRefs ++ c.mulRefs ++ c.mulRefs ++ c.subAssign ++ c.addAssign) := by
  simp only [List.append_assoc]
  exact (h.mulRefs _ _).bind fun _ => (h.mulRefs _ _).bind fun _ => (h.mulRefs _ _).bind fun _ => (h.mulRefs _ _).bind fun _ =>
    (h.subAssign _ _).toProc.bind fun _ => (h.addAssign _ _).toProc.bind_pure

private theorem charges_cassign {op : T → T → EUpd W T} {d : List E} (h : ∀ x y, ChargesU log (op x y) d) (z w : Complex T) :
    ChargesU log (EOps.complexAssign op z w) (d ++ d) := ((h _ _).into _).andThen fun _ => (h _ _).into _

/-- Complex numbers: which operators of the element type are called, in order (`OpCosts.complex`); the quotient takes one `one()`, three
operations for the squared norm of the divisor, one division, six more products, one `+=` and one `-=`. -/
theorem C91_log_complex (h : o.Metered log c) : o.complex.Metered log c.complex ∧
    (∀ z : Complex T, Charges log (o.sqrNorm z) (c.mulRefs ++ c.mulRefs ++ c.addAssign)) ∧
    (∀ (z : Complex T) (x : T), Charges log (o.complexMulScalar z x) (c.mulRefs ++ c.mulRefs)) ∧
    ∀ (div : T → T → Proc W T) (d : List E), (∀ x y, Charges log (div x y) d) → ∀ z w : Complex T, Charges log (o.complexDiv div z w)
      (c.one ++ c.mulRefs ++ c.mulRefs ++ c.addAssign ++ d ++ c.mulRefs ++ c.mulRefs ++ c.mulRefs ++ c.mulRefs ++ c.addAssign ++
        c.subAssign ++ c.mulRefs ++ c.mulRefs) := by
  refine ⟨?_, fun z => ?_, fun z x => charges_both (h.mulRefs _ _) (h.mulRefs _ _), fun div d hd z w => ?_⟩
  · exact {
      zero := charges_both h.zero h.zero
      one := charges_both h.one h.zero
      clone := fun z => charges_both (h.clone z.re) (h.clone z.im)
      addAssign := charges_cassign h.addAssign
      subAssign := charges_cassign h.subAssign
      mulRefs := charges_cmul h
      neg := fun z => charges_both (h.neg z.re) (h.neg z.im)
      conj := fun z => charges_both (Charges.pure log z.re) (h.neg z.im)
      add := fun z w => charges_both (h.add z.re w.re) (h.add z.im w.im)
      sub := fun z w => charges_both (h.sub z.re w.re) (h.sub z.im w.im)
      mul := charges_cmul h
      addAssignV := charges_cassign h.addAssignV
      subAssignV := charges_cassign h.subAssignV }
  · rw [List.append_assoc]; exact charges_sqrNorm h z
  · have := h.one.bind (f := fun i => do
        let n ← o.sqrNorm w
        let rcp ← div i n
        let p1 ← o.mulRefs z.re w.re
        let p2 ← o.mulRefs z.im w.re
        let p3 ← o.mulRefs z.re w.im
        let p4 ← o.mulRefs z.im w.im
        let p1 ← (o.addAssign p1 p4).toProc
        let p2 ← (o.subAssign p2 p3).toProc
        EOps.complexBoth (o.mulRefs p1 rcp) (o.mulRefs p2 rcp)) fun i => (charges_sqrNorm h w).bind fun n => (hd i n).bind fun _ =>
      (h.mulRefs _ _).bind fun _ => (h.mulRefs _ _).bind fun _ => (h.mulRefs _ _).bind fun _ => (h.mulRefs _ _).bind fun _ =>
      (h.addAssign _ _).toProc.bind fun _ => (h.subAssign _ _).toProc.bind fun _ => charges_both (h.mulRefs _ _) (h.mulRefs _ _)
    simp only [List.append_assoc] at this ⊢
    exact this

private theorem charges_dotLoop (h : o.Metered log c) {ι : Type} (l : List ι) (u v : ι → T) :
    Charges log (o.dotLoop l u v) (c.dot l.length) := by
  refine h.zero.bind fun s => ?_
  have := Charges.fold (log := log) (c := fun _ => c.mulRefs ++ c.addAssign) (f := fun sum i => do
    let prod ← o.mulRefs (u i) (v i)
    (o.addAssign sum prod).toProc) (fun _ _ => (h.mulRefs _ _).bind fun _ => (h.addAssign _ _).toProc) l s
  rwa [flatMap_const] at this

/-- Static vectors: which operators of the element type are called, in order. -/
theorem C91_log_svector (h : o.Metered log c) {n : ℕ} (u v : SVector T n) (x : T) :
    Charges log (o.svectorDot u v) (c.zero ++ rep n (c.mulRefs ++ c.addAssign)) ∧
    ChargesU log (EOps.svectorAssign o.addAssign u v) (rep n c.addAssign) ∧
    ChargesU log (EOps.svectorAssign o.subAssign u v) (rep n c.subAssign) ∧ ChargesU log (o.svectorMulAssign u x) (rep n c.mulRefs) := by
  have key : ∀ (f : Fin n → T → EUpd W T) (d : List E), (∀ i s, ChargesU log (f i s) d) →
      ChargesU log ((eForEach (List.finRange n) (fun i a => EUpd.arrUpd a i (f i)) u.val).into SVector.mk) (rep n d) := by
    intro f d hf
    have := (ChargesU.forEach (log := log) (c := fun _ => d) (f := fun i a => EUpd.arrUpd a i (f i))
      (fun i a => ChargesU.arrUpd fun s => hf i s) (List.finRange n) u.val).into SVector.mk
    rwa [flatMap_const, List.length_finRange] at this
  refine ⟨?_, key _ _ fun i s => h.addAssign s _, key _ _ fun i s => h.subAssign s _, key _ _ fun i s => (h.mulRefs s x).ofProc s⟩
  have := charges_dotLoop h (List.finRange n) u.val v.val
  rwa [List.length_finRange] at this

private theorem charges_smap {r k : ℕ} {f : Fin r → Fin k → Proc W T} {d : List E} (h : ∀ i j, Charges log (f i j) d) :
    Charges log (EOps.smatrixMap f) (rep (r * k) d) := by
  have := (Charges.fromFn (log := log) fun i => Charges.fromFn fun j => h i j).bind_pure (f := fun a => (⟨a⟩ : SMatrix T r k))
  rwa [flatMap_const, flatMap_const, List.length_finRange, List.length_finRange, rep_rep] at this

private theorem charges_sassign {r k : ℕ} {op : T → T → EUpd W T} {d : List E} (h : ∀ x y, ChargesU log (op x y) d)
    (a b : SMatrix T r k) : ChargesU log (EOps.smatrixAssign op a b) (rep (r * k) d) := by
  have := (ChargesU.forEach (log := log) (c := fun _ => (List.finRange k).flatMap fun _ => d)
    (f := fun i a => EUpd.arrUpd a i (fun lo =>
      eForEach (List.finRange k) (fun j lo => EUpd.arrUpd lo j (fun li => op li (b.val i j))) lo))
    (fun i a => ChargesU.arrUpd fun lo => ChargesU.forEach (fun j lo => ChargesU.arrUpd fun li => h li _) _ lo) (List.finRange r)
    a.val).into SMatrix.mk
  rwa [flatMap_const, flatMap_const, List.length_finRange, List.length_finRange, rep_rep] at this

private theorem charges_smul (h : o.Metered log c) {l m n : ℕ} (a : SMatrix T l m) (b : SMatrix T m n) :
    Charges log (o.smatrixMul a b) (rep (l * n) (c.dot m)) :=
  charges_smap fun i k => by
    have := charges_dotLoop h (List.finRange m) (fun j => a.val i j) (fun j => b.val j k)
    rwa [List.length_finRange] at this

/-- Static matrices: which operators of the element type are called, in order (`OpCosts.smatrix` for square matrices as an element type). -/
theorem C91_log_smatrix (h : o.Metered log c) : (∀ n, (o.smatrix n).Metered log (c.smatrix n)) ∧
    (∀ {r k : ℕ} (a b : SMatrix T r k), ChargesU log (EOps.smatrixAssign o.addAssign a b) (rep (r * k) c.addAssign) ∧
      ChargesU log (EOps.smatrixAssign o.subAssign a b) (rep (r * k) c.subAssign)) ∧
    (∀ {l m n : ℕ} (a : SMatrix T l m) (b : SMatrix T m n),
      Charges log (o.smatrixMul a b) (rep (l * n) (c.zero ++ rep m (c.mulRefs ++ c.addAssign)))) ∧
    ∀ {m n : ℕ} (a : SMatrix T m n) (v : SVector T n),
      Charges log (o.smatrixMulVec a v) (rep m (c.zero ++ rep n (c.mulRefs ++ c.addAssign))) := by
  refine ⟨fun n => ?_, fun a b => ⟨charges_sassign h.addAssign a b, charges_sassign h.subAssign a b⟩, charges_smul h, fun a v => ?_⟩
  · exact {
      zero := charges_smap fun _ _ => h.zero
      one := (Charges.fromFn fun i => Charges.fromFn fun j => by
        by_cases e : i = j
        · simp only [if_pos e]; exact h.one
        · simp only [if_neg e]; exact h.zero).bind_pure
      clone := fun a => charges_smap fun i j => h.clone _
      addAssign := charges_sassign h.addAssign
      subAssign := charges_sassign h.subAssign
      mulRefs := charges_smul h
      neg := fun a => charges_smap fun i j => h.neg _
      conj := fun a => charges_smap fun i j => h.conj _
      add := fun a b => (charges_sassign h.addAssign a b).toProc
      sub := fun a b => (charges_sassign h.subAssign a b).toProc
      mul := charges_smul h
      addAssignV := charges_sassign h.addAssign
      subAssignV := charges_sassign h.subAssign }
  · rename_i m n
    have := (Charges.fromFn (log := log) fun i => charges_dotLoop h (List.finRange n) (fun j => a.val i j) v.val).bind_pure
      (f := SVector.fromArray)
    rwa [flatMap_const, List.length_finRange, List.length_finRange] at this

/-- Dynamic vectors and matrices: which operators of the element type are called, in order. The inner product clones both entries and
conjugates the left one; every entry of a matrix product clones its operands, and starts with a product instead of `zero()`. -/
theorem C91_log_dynamic (h : o.Metered log c) :
    (∀ u v : DVector T, Charges log (o.dvectorDot u v)
      (c.zero ++ rep (min u.data.length v.data.length) (c.clone ++ c.conj ++ c.clone ++ c.mul ++ c.add))) ∧
    ∀ (p : Profile) (a b : DMatrix T), Charges log (o.dmatrixMulEval p a b) (rep (a.numRows * b.numCols)
      (c.clone ++ c.clone ++ c.mul ++ rep (a.numCols - 1) (c.clone ++ c.clone ++ c.mul ++ c.addAssignV))) := by
  constructor
  · intro u v
    refine h.zero.bind fun acc => ?_
    have := Charges.fold (log := log) (c := fun _ => c.clone ++ (c.conj ++ (c.clone ++ (c.mul ++ c.add))))
      (f := fun acc (lr : T × T) => do
        let l ← o.clone lr.1
        let l ← o.conj l
        let r ← o.clone lr.2
        let prod ← o.mul l r
        o.add acc prod) (fun acc lr => (h.clone lr.1).bind fun l => (h.conj l).bind fun l => (h.clone lr.2).bind fun r =>
        (h.mul l r).bind fun prod => h.add acc prod) (List.zip u.data v.data) acc
    rw [flatMap_const, List.length_zip] at this
    simp only [List.append_assoc]
    exact this
  · intro p a b
    have hent : ∀ (m : DMatrix T) row col, Charges log (o.dmatrixEntry p m row col) c.clone := fun m row col =>
      (Charges.ofRes log _).bind fun x => h.clone x
    have hmul : ∀ row col, Charges log (o.dmatrixMulEntry p a b row col)
        (c.clone ++ (c.clone ++ (c.mul ++ rep (a.numCols - 1) (c.clone ++ (c.clone ++ (c.mul ++ c.addAssignV)))))) := by
      intro row col
      refine (hent a row 0).bind fun x => (hent b 0 col).bind fun y => (h.mul x y).bind fun sum => ?_
      have := Charges.fold (log := log) (c := fun _ => c.clone ++ (c.clone ++ (c.mul ++ c.addAssignV)))
        (f := fun sum i => do
          let x ← o.dmatrixEntry p a row i
          let y ← o.dmatrixEntry p b i col
          let prod ← o.mul x y
          (o.addAssignV sum prod).toProc) (fun sum i => (hent a row i).bind fun x => (hent b i col).bind fun y =>
          (h.mul x y).bind fun prod => (h.addAssignV sum prod).toProc) (List.range' 1 (a.numCols - 1)) sum
      rwa [flatMap_const, List.length_range'] at this
    have := (Charges.ofRes log (assertEq a.numCols b.numRows)).bind fun _ => (Charges.collect (fun rc : ℕ × ℕ => hmul rc.1 rc.2)
      ((List.range a.numRows).flatMap (fun r => (List.range b.numCols).map (fun c => (r, c))))).bind_pure
        (f := fun d => (⟨d, a.numRows, b.numCols⟩ : DMatrix T))
    rw [flatMap_const, List.length_flatMap] at this
    simp only [List.length_map, List.length_range, List.map_const', List.sum_replicate, smul_eq_mul, List.nil_append,
      List.append_assoc] at this ⊢
    exact this

end logs

section counts

variable (T) [RZero T] [ROne T] [AddAssignRef T] [SubAssignRef T] [MulRefs T] [RNeg T] [RConj T] [RAdd T T T] [RSub T T T]
  [RMul T T T] [RAddAssign T T] [RSubAssign T T]

private theorem charges_logged {α : Type} (e : OpName) (x : Res α) : Charges id (Proc.logged e x) [e] :=
  fun _ => ⟨fun _ => rfl, [e], List.prefix_refl _, rfl⟩

private theorem chargesU_logged {σ : Type} (e : OpName) (u : Upd σ) : ChargesU id (EUpd.logged e u) [e] :=
  fun _ => ⟨fun _ => rfl, [e], List.prefix_refl _, rfl⟩

/-- Operators that write their names to a log are an instrumentation, for every element type. -/
theorem C91_logged : (EOps.logged T).Computes ∧ (EOps.logged T).Metered id OpName.costs :=
  ⟨⟨fun _ => rfl, fun _ => rfl, fun _ _ => rfl, fun _ _ _ => rfl, fun _ _ _ => rfl, fun _ _ _ => rfl, fun _ _ => rfl, fun _ _ => rfl,
      fun _ _ _ => rfl, fun _ _ _ => rfl, fun _ _ _ => rfl, fun _ _ _ => rfl, fun _ _ _ => rfl⟩,
    ⟨charges_logged _ _, charges_logged _ _, fun _ => charges_logged _ _, fun _ _ => chargesU_logged _ _, fun _ _ => chargesU_logged _ _,
      fun _ _ => charges_logged _ _, fun _ => charges_logged _ _, fun _ => charges_logged _ _, fun _ _ => charges_logged _ _,
      fun _ _ => charges_logged _ _, fun _ _ => charges_logged _ _, fun _ _ => chargesU_logged _ _, fun _ _ => chargesU_logged _ _⟩⟩

variable {T}

private theorem count_of {α : Type} {x : Proc (List OpName) α} {l : List OpName} (h : Charges id x l) {y : α} {w : List OpName}
    (hy : x [] = (.ok y, w)) : w = l := by
  have := (h []).1 ⟨y, by rw [hy]⟩
  rw [hy] at this
  exact this

/-- How many multiplications and additions an evaluation, a product of polynomials, a product of matrices, and the same for complex
numbers take. -/
theorem C91_counts (w : List OpName) :
    (∀ (p : Poly T) (x y : T), (EOps.logged T).polyEval p x [] = (.ok y, w) →
      w.count .mulRefs = p.a.length ∧ w.count .addAssign = p.a.length) ∧
    (∀ p q r : Poly T, (EOps.logged T).polyMul p q [] = (.ok r, w) →
      w.count .mulRefs = p.a.length * q.a.length ∧ w.count .addAssign = p.a.length * q.a.length) ∧
    (∀ {l m n : ℕ} (a : SMatrix T l m) (b : SMatrix T m n) (d : SMatrix T l n), (EOps.logged T).smatrixMul a b [] = (.ok d, w) →
      w.count .mulRefs = l * n * m ∧ w.count .addAssign = l * n * m) ∧
    (∀ (pr : Profile) (a b d : DMatrix T), (EOps.logged T).dmatrixMulEval pr a b [] = (.ok d, w) →
      w.count .mul = a.numRows * b.numCols * (1 + (a.numCols - 1)) ∧ w.count .addAssignV = a.numRows * b.numCols * (a.numCols - 1)) ∧
    (∀ (p : Poly (Complex T)) (x y : Complex T), (EOps.logged T).complex.polyEval p x [] = (.ok y, w) →
      w.count .mulRefs = p.a.length * 4 ∧ w.count .addAssign = p.a.length * 3 ∧ w.count .subAssign = p.a.length) ∧
    (∀ {l m n : ℕ} (a : SMatrix (Complex T) l m) (b : SMatrix (Complex T) m n) (d : SMatrix (Complex T) l n),
      (EOps.logged T).complex.smatrixMul a b [] = (.ok d, w) → w.count .mulRefs = l * n * (m * 4)) := by
  have hm := (C91_logged T).2
  have hc := (C91_log_complex hm).1
  refine ⟨fun p x y h => ?_, fun p q r h => ?_, fun a b d h => ?_, fun pr a b d h => ?_, fun p x y h => ?_, fun a b d h => ?_⟩
  · rw [count_of (C91_log_polynomial hm p p x).1 h]
    simp [count_rep, OpName.costs]
  · rw [count_of (C91_log_polynomial hm p q RZero.zero).2.2.2.2.2.2.2.2 h]
    split
    · rename_i h0
      rcases h0 with h0 | h0 <;> simp [h0]
    · simp [count_rep, OpName.costs]
  · rw [count_of ((C91_log_smatrix hm).2.2.1 a b) h]
    simp [count_rep, OpName.costs]
  · rw [count_of ((C91_log_dynamic hm).2 pr a b) h]
    simp [count_rep, OpName.costs]
    exact Or.inl (Nat.add_comm _ _)
  · rw [count_of (C91_log_polynomial hc p p x).1 h]
    simp [count_rep, OpName.costs, OpCosts.complex]
  · rw [count_of ((C91_log_smatrix hc).2.2.1 a b) h]
    simp [count_rep, OpName.costs, OpCosts.complex]

end counts

end Magnesia
