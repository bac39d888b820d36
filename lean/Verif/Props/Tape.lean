import Verif.Proof.Tape

/-!
# C92: element types that are handles into a mutable world; record once, replay anywhere
-/

namespace Magnesia

open Represents

variable {W T S : Type}

section simulation

variable [Preorder W] [RZero S] [ROne S] [AddAssignRef S] [SubAssignRef S] [MulRefs S] [RNeg S] [RConj S] [RAdd S S S] [RSub S S S]
  [RMul S S S] [RAddAssign S S] [RSubAssign S S] {o : EOps W T} {R : Represents W T S}

private theorem sim_addLoop (h : o.Simulates R) {w : W} {p q : Poly T} {p' q' : Poly S} (hp : R.poly.rel w p p') (hq : R.poly.rel w q q') :
    R.poly.Sim (o.polyAddLoop p q)
      ((forEach q'.a.zipIdx (fun (x, i) a => updAt a i (fun y => AddAssignRef.addAssign y x)) p'.a).into Poly.mk).toRes w := by
  refine SimU.toProc (SimU.into (R := R.list) (SimU.forEach (I := R.prod (data ℕ)) (list_zipIdx hq 0) hp ?_) fun _ _ _ _ h => h)
  rintro w' ⟨x, i⟩ ⟨x', i'⟩ y b hw ⟨hx, rfl⟩ hy
  exact SimU.updAt hy fun y b hyb => h.addAssign w' _ _ _ _ hyb hx

private theorem sim_add (h : o.Simulates R) {w : W} {p q : Poly T} {p' q' : Poly S} (hp : R.poly.rel w p p') (hq : R.poly.rel w q q') :
    R.poly.Sim (o.polyAdd p q) (p'.add q') w := by
  rw [add_unfold, EOps.polyAdd, List.Forall₂.length_eq hp, List.Forall₂.length_eq hq]
  split
  · exact sim_addLoop h hq hp
  · exact sim_addLoop h hp hq

private theorem sim_addAssignV (h : o.Simulates R) {w : W} {p q : Poly T} {p' q' : Poly S} (hp : R.poly.rel w p p')
    (hq : R.poly.rel w q q') : R.poly.SimU (o.polyAddAssignV p q) (p'.addAssignV q') w := by
  refine SimU.into (R := R.list) (SimU.forEach (I := R.prod (data ℕ)) (list_zipIdx hq 0) hp ?_) fun _ _ _ _ h => h
  rintro w' ⟨x, i⟩ ⟨x', i'⟩ y b hw ⟨hx, rfl⟩ hy
  dsimp only
  rw [List.Forall₂.length_eq hp]
  split
  · exact SimU.updAt hy fun y b hyb => h.addAssign w' _ _ _ _ hyb hx
  · exact SimU.done (R := R.list) (List.rel_append hy (.cons hx .nil))

private theorem sim_resize (h : o.Simulates R) {w : W} {l : List T} {l' : List S} (hl : R.list.rel w l l') (n : ℕ) :
    R.list.SimU (o.resizeZero l n) (.done (Poly.resizeZero l' n)) w := by
  have := SimU.forEach (I := data ℕ) (R := R.list) (f := fun (_ : ℕ) l => EUpd.withProc o.zero l (fun x => EUpd.done (l ++ [x])))
    (g := fun _ a => Upd.withRes (.ok RZero.zero) a fun x => .done (a ++ [x])) (list_data w (List.range (n - l.length))) hl
    fun w' _ _ y b _ _ hy => (h.zero w').withProc hy fun w'' x c hw' hx =>
      SimU.done (R := R.list) (List.rel_append (R.list.mono hw' hy) (.cons hx .nil))
  rw [push_loop, List.length_range, List.Forall₂.length_eq hl] at this
  unfold EOps.resizeZero
  rw [List.Forall₂.length_eq hl]
  exact this

private theorem sim_assignRef (h : o.Simulates R) {op : T → T → EUpd W T} {op' : S → S → Upd S}
    (hop : ∀ w x y a b, R.rel w x a → R.rel w y b → R.SimU (op x y) (op' a b) w) {w : W} {p q : Poly T} {p' q' : Poly S}
    (hp : R.poly.rel w p p') (hq : R.poly.rel w q q') : R.poly.SimU (o.polyAssignRef op p q)
      ((forEach (List.range q'.a.length) (fun i a =>
        updAt a i (fun y => Upd.withRes (getIdx q'.a i) y (fun x => op' y x)))
          (if p'.a.length < q'.a.length then Poly.resizeZero p'.a q'.a.length else p'.a)).into Poly.mk) w := by
  refine SimU.into (R := R.list) ?_ fun _ _ _ _ h => h
  rw [List.Forall₂.length_eq hp, List.Forall₂.length_eq hq]
  have h1 : R.list.SimU (if p'.a.length < q'.a.length then o.resizeZero p.a q'.a.length else EUpd.done p.a)
      (.done (if p'.a.length < q'.a.length then Poly.resizeZero p'.a q'.a.length else p'.a)) w := by
    split
    · exact sim_resize h hp _
    · exact SimU.done (R := R.list) hp
  exact h1.andThen fun w' y b hw hy => SimU.forEach (I := data ℕ) (list_data w' _) hy fun w'' i j y b hw' hij hy => by
    cases hij
    exact SimU.updAt hy fun y b hyb => (Sim.getIdx (R := R) (R.list.mono (hw.trans hw') hq) i).withProc hyb fun w₃ x c hw₃ hx =>
      hop w₃ _ _ _ _ (R.mono hw₃ hyb) hx

private theorem sim_neg (h : o.Simulates R) {w : W} {p : Poly T} {p' : Poly S} (hp : R.poly.rel w p p') :
    R.poly.Sim (o.polyNeg p) p'.neg w :=
  (Sim.collect (I := R) (R := R) hp fun w' _ _ _ hx => h.neg w' _ _ hx).bind fun _ _ _ _ hy => Sim.pure (R := R.poly) hy

private theorem sim_vecZero (h : o.Simulates R) (w : W) (n : ℕ) :
    R.list.Sim (o.vecZero n) (.ok (List.replicate (n + 1) RZero.zero)) w := by
  have := (h.zero w).bind (Q := R.list) (f := fun z => do
      let l ← collect (List.range n) (fun _ => o.clone z)
      pure (l ++ [z])) (g := fun z => (List.range n).mapM (fun _ => .ok z) >>= fun l => .ok (l ++ [z]))
    fun w' z b hw hz => (Sim.collect (I := data ℕ) (R := R) (list_data w' _) fun w'' _ _ hw' _ => h.clone w'' z b (R.mono hw' hz)).bind
      fun w'' l l' hw' hl => Sim.pure (R := R.list) (List.rel_append hl (.cons (R.mono hw' hz) .nil))
  rw [show ((Except.ok RZero.zero : Res S) >>= fun z => (List.range n).mapM (m := Res) (fun _ => .ok z) >>= fun l => .ok (l ++ [z])) =
    .ok (List.replicate (n + 1) RZero.zero) by
      show ((List.range n).mapM (m := Res) (fun _ => .ok RZero.zero) >>= fun l => .ok (l ++ [RZero.zero])) = _
      rw [mapM_ok, List.length_range, List.replicate_succ']; rfl] at this
  exact this

private theorem sim_mul (h : o.Simulates R) {w : W} {p q : Poly T} {p' q' : Poly S} (hp : R.poly.rel w p p') (hq : R.poly.rel w q q') :
    R.poly.Sim (o.polyMul p q) (p'.mulRef q') w := by
  unfold EOps.polyMul Poly.mulRef
  have hpl := List.Forall₂.length_eq hp
  have hql := List.Forall₂.length_eq hq
  have e : (p.a.isEmpty || q.a.isEmpty) = (p'.a.isEmpty || q'.a.isEmpty) := by
    rw [Bool.eq_iff_iff]
    simp only [Bool.or_eq_true, List.isEmpty_iff, ← List.length_eq_zero_iff, hpl, hql]
  rw [e, hpl, hql]
  split
  · exact Sim.pure (R := R.poly) .nil
  · rename_i hne
    have hl : p'.a.length + q'.a.length - 1 - 1 + 1 = p'.a.length + q'.a.length - 1 := by
      simp only [Bool.or_eq_true, List.isEmpty_iff, ← List.length_eq_zero_iff] at hne
      omega
    have h1 := (sim_vecZero h w (p'.a.length + q'.a.length - 1 - 1)).bind (Q := R.poly)
      (f := fun a => ((eForEach (List.range p'.a.length) (fun i a =>
        eForEach (List.range q'.a.length) (fun j a =>
          EUpd.withProc (do
              let x ← Proc.ofRes (getIdx p.a i)
              let y ← Proc.ofRes (getIdx q.a j)
              o.mulRefs x y) a
            (fun prod => EUpd.updAt a (i + j) (fun y => o.addAssign y prod))) a) a).into Poly.fromCoefficients).toProc)
      fun w' a a' hw ha => (SimU.into (R := R.list) (Q := R.poly) (g := Poly.fromCoefficients)
        (SimU.forEach (I := data ℕ) (list_data w' _) ha fun w₁ i _ y b hw₁ hi hy => by
          cases hi
          exact SimU.forEach (I := data ℕ) (list_data w₁ _) hy fun w₂ j _ y b hw₂ hj hy => by
            cases hj
            have hle := hw.trans (hw₁.trans hw₂)
            exact ((Sim.getIdx (R := R) (R.list.mono hle hp) i).bind fun w₃ x c hw₃ hx =>
              (Sim.getIdx (R := R) (R.list.mono (hle.trans hw₃) hq) j).bind fun w₄ y d hw₄ hy =>
                h.mulRefs w₄ _ _ _ _ (R.mono hw₄ hx) hy).withProc hy fun w₃ prod c hw₃ hprod =>
                  SimU.updAt (R.list.mono hw₃ hy) fun y b hyb => h.addAssign w₃ _ _ _ _ hyb hprod)
        fun _ _ _ _ h => h).toProc
    rw [hl] at h1
    exact h1

/-- Polynomials of handles: every operator does to the represented polynomials what it does to polynomials over `S`. -/
theorem C92_polynomial (h : o.Simulates R) {w : W} {p q : Poly T} {p' q' : Poly S} {x : T} {a : S} (hp : R.poly.rel w p p')
    (hq : R.poly.rel w q q') (hx : R.rel w x a) :
    R.Sim (o.polyEval p x) (p'.eval a) w ∧ R.poly.Sim (o.polyAdd p q) (p'.add q') w ∧
    R.poly.SimU (o.polyAddAssignV p q) (p'.addAssignV q') w ∧ R.poly.SimU (o.polyAddAssignRef p q) (p'.addAssignRef q') w ∧
    R.poly.Sim (o.polyNeg p) p'.neg w ∧ R.poly.Sim (o.polySub p q) (p'.sub q') w ∧
    R.poly.SimU (o.polySubAssignV p q) (p'.subAssignV q') w ∧ R.poly.SimU (o.polySubAssignRef p q) (p'.subAssignRef q') w ∧
    R.poly.Sim (o.polyMul p q) (p'.mulRef q') w :=
  ⟨(h.zero w).bind fun _ _ _ hw hy => Sim.fold (I := R) (R.list.mono hw (List.rel_reverse hp)) hy fun w₁ _ _ _ _ hw₁ hij hy =>
      (h.mulRefs w₁ _ _ _ _ hy (R.mono (hw.trans hw₁) hx)).bind fun w₂ _ _ hw₂ hy' =>
        (h.addAssign w₂ _ _ _ _ hy' (R.mono hw₂ hij)).toProc,
    sim_add h hp hq, sim_addAssignV h hp hq, sim_assignRef h h.addAssign hp hq, sim_neg h hp,
    (sim_neg h hq).bind fun _ _ _ hw hn => sim_add h (R.poly.mono hw hp) hn,
    (sim_neg h hq).withProc hp fun _ _ _ hw hn => sim_addAssignV h (R.poly.mono hw hp) hn,
    sim_assignRef h h.subAssign hp hq, sim_mul h hp hq⟩

private theorem sim_sqrNorm (h : o.Simulates R) (w : W) {z : Complex T} {z' : Complex S} (hz : R.complex.rel w z z') :
    R.Sim (o.sqrNorm z) z'.sqrNorm w :=
  (h.mulRefs w _ _ _ _ hz.1 hz.1).bind fun w₁ _ _ h₁ y₁ =>
    (h.mulRefs w₁ _ _ _ _ (R.mono h₁ hz.2) (R.mono h₁ hz.2)).bind fun w₂ _ _ h₂ y₂ => (h.addAssign w₂ _ _ _ _ (R.mono h₂ y₁) y₂).toProc

private theorem sim_cmul (h : o.Simulates R) (w : W) (z u : Complex T) (z' u' : Complex S)
    (hz : R.complex.rel w z z') (hu : R.complex.rel w u u') : R.complex.Sim (o.complexMul z u) (z'.mulRef u') w :=
  (h.mulRefs w _ _ _ _ hz.1 hu.1).bind fun w₁ _ _ h₁ y₁ =>
  (h.mulRefs w₁ _ _ _ _ (R.mono h₁ hz.1) (R.mono h₁ hu.2)).bind fun w₂ _ _ h₂ y₂ =>
  (h.mulRefs w₂ _ _ _ _ (R.mono (h₁.trans h₂) hz.2) (R.mono (h₁.trans h₂) hu.1)).bind fun w₃ _ _ h₃ y₃ =>
  (h.mulRefs w₃ _ _ _ _ (R.mono ((h₁.trans h₂).trans h₃) hz.2) (R.mono ((h₁.trans h₂).trans h₃) hu.2)).bind fun w₄ _ _ h₄ y₄ =>
  (h.subAssign w₄ _ _ _ _ (R.mono ((h₂.trans h₃).trans h₄) y₁) y₄).toProc.bind fun w₅ _ _ h₅ y₅ =>
  (h.addAssign w₅ _ _ _ _ (R.mono ((h₃.trans h₄).trans h₅) y₂) (R.mono (h₄.trans h₅) y₃)).toProc.bind fun _ _ _ h₆ y₆ =>
    Sim.pure (R := R.complex) ⟨R.mono h₆ y₅, y₆⟩

/-- Complex numbers of handles behave like handles of complex numbers; so do the squared norm, the product with a scalar and the
quotient. -/
theorem C92_complex (h : o.Simulates R) : o.complex.Simulates R.complex ∧
    (∀ (w : W) (z : Complex T) (z' : Complex S), R.complex.rel w z z' → R.Sim (o.sqrNorm z) z'.sqrNorm w) ∧
    (∀ (w : W) (z : Complex T) (z' : Complex S) (x : T) (a : S), R.complex.rel w z z' → R.rel w x a →
      R.complex.Sim (o.complexMulScalar z x) (z'.mulScalar a) w) ∧
    ∀ [DivRefs S] (div : T → T → Proc W T), (∀ w x y a b, R.rel w x a → R.rel w y b → R.Sim (div x y) (DivRefs.divRefs a b) w) →
      ∀ (w : W) (z u : Complex T) (z' u' : Complex S), R.complex.rel w z z' → R.complex.rel w u u' →
        R.complex.Sim (o.complexDiv div z u) (z'.divRef u') w := by
  refine ⟨?_, fun w z z' hz => sim_sqrNorm h w hz, fun w z z' x a hz hx => sim_both (h.mulRefs w _ _ _ _ hz.1 hx) fun w' hw =>
    h.mulRefs w' _ _ _ _ (R.mono hw hz.2) (R.mono hw hx), ?_⟩
  · exact {
      zero := fun w => sim_both (h.zero w) fun w' _ => h.zero w'
      one := fun w => sim_both (h.one w) fun w' _ => h.zero w'
      clone := fun w z z' hz => sim_both (h.clone w _ _ hz.1) fun w' hw => h.clone w' _ _ (R.mono hw hz.2)
      addAssign := sim_cassign h.addAssign
      subAssign := sim_cassign h.subAssign
      mulRefs := sim_cmul h
      neg := fun w z z' hz => sim_both (h.neg w _ _ hz.1) fun w' hw => h.neg w' _ _ (R.mono hw hz.2)
      conj := fun w z z' hz => sim_both (Sim.pure hz.1) fun w' hw => h.neg w' _ _ (R.mono hw hz.2)
      add := fun w z u z' u' hz hu => sim_both (h.add w _ _ _ _ hz.1 hu.1) fun w' hw => h.add w' _ _ _ _ (R.mono hw hz.2) (R.mono hw hu.2)
      sub := fun w z u z' u' hz hu => sim_both (h.sub w _ _ _ _ hz.1 hu.1) fun w' hw => h.sub w' _ _ _ _ (R.mono hw hz.2) (R.mono hw hu.2)
      mul := sim_cmul h
      addAssignV := sim_cassign h.addAssignV
      subAssignV := sim_cassign h.subAssignV }
  · intro _ div hd w z u z' u' hz hu
    exact (h.one w).bind fun w₁ _ _ h₁ y₁ =>
      (sim_sqrNorm h w₁ (R.complex.mono h₁ hu)).bind fun w₂ _ _ h₂ y₂ =>
      (hd w₂ _ _ _ _ (R.mono h₂ y₁) y₂).bind fun w₃ _ _ h₃ y₃ =>
      have hz := R.complex.mono ((h₁.trans h₂).trans h₃) hz
      have hu := R.complex.mono ((h₁.trans h₂).trans h₃) hu
      (h.mulRefs w₃ _ _ _ _ hz.1 hu.1).bind fun w₄ _ _ h₄ y₄ =>
      (h.mulRefs w₄ _ _ _ _ (R.mono h₄ hz.2) (R.mono h₄ hu.1)).bind fun w₅ _ _ h₅ y₅ =>
      (h.mulRefs w₅ _ _ _ _ (R.mono (h₄.trans h₅) hz.1) (R.mono (h₄.trans h₅) hu.2)).bind fun w₆ _ _ h₆ y₆ =>
      (h.mulRefs w₆ _ _ _ _ (R.mono ((h₄.trans h₅).trans h₆) hz.2) (R.mono ((h₄.trans h₅).trans h₆) hu.2)).bind fun w₇ _ _ h₇ y₇ =>
      (h.addAssign w₇ _ _ _ _ (R.mono ((h₅.trans h₆).trans h₇) y₄) y₇).toProc.bind fun w₈ _ _ h₈ y₈ =>
      (h.subAssign w₈ _ _ _ _ (R.mono ((h₆.trans h₇).trans h₈) y₅) (R.mono (h₇.trans h₈) y₆)).toProc.bind fun w₉ _ _ h₉ y₉ =>
      have h39 := ((h₄.trans h₅).trans (h₆.trans h₇)).trans (h₈.trans h₉)
      sim_both (h.mulRefs w₉ _ _ _ _ (R.mono h₉ y₈) (R.mono h39 y₃)) fun w' hw =>
        h.mulRefs w' _ _ _ _ (R.mono hw y₉) (R.mono (h39.trans hw) y₃)

private theorem sim_dotLoop (h : o.Simulates R) {ι : Type} (w : W) (l : List ι) {u v : ι → T} {u' v' : ι → S}
    (hu : ∀ i, R.rel w (u i) (u' i)) (hv : ∀ i, R.rel w (v i) (v' i)) :
    R.Sim (o.dotLoop l u v) (l.foldlM (fun sum i => do
      let prod ← MulRefs.mulRefs (u' i) (v' i)
      (AddAssignRef.addAssign sum prod).toRes) RZero.zero) w :=
  (h.zero w).bind fun w₁ _ _ h₁ y₁ => Sim.fold (I := data ι) (list_data w₁ l) y₁ fun w₂ i j s s' h₂ hij hs => by
    cases hij
    exact (h.mulRefs w₂ _ _ _ _ (R.mono (h₁.trans h₂) (hu i)) (R.mono (h₁.trans h₂) (hv i))).bind fun w₃ _ _ h₃ y₃ =>
      (h.addAssign w₃ _ _ _ _ (R.mono h₃ hs) y₃).toProc

/-- Static vectors of handles. -/
theorem C92_svector (h : o.Simulates R) {n : ℕ} {w : W} {u v : SVector T n} {u' v' : SVector S n} {x : T} {a : S}
    (hu : (R.svector n).rel w u u') (hv : (R.svector n).rel w v v') (hx : R.rel w x a) :
    R.Sim (o.svectorDot u v) (u'.dot v') w ∧ (R.svector n).SimU (EOps.svectorAssign o.addAssign u v) (u'.addAssignRef v') w ∧
    (R.svector n).SimU (EOps.svectorAssign o.subAssign u v) (u'.subAssignRef v') w ∧
    (R.svector n).SimU (o.svectorMulAssign u x) (u'.mulAssignRef a) w := by
  refine ⟨sim_dotLoop h w _ hu hv, ?_, ?_, ?_⟩ <;>
    refine SimU.into (R := R.arr n) (SimU.forEach (I := data (Fin n)) (list_data w _) hu ?_) (fun _ _ _ _ h => h) <;>
    intro w' i j y b hw hij hy <;> cases hij <;> refine SimU.arrUpd hy fun y b hyb => ?_
  · exact h.addAssign w' _ _ _ _ hyb (R.mono hw (hv i))
  · exact h.subAssign w' _ _ _ _ hyb (R.mono hw (hv i))
  · exact (h.mulRefs w' _ _ _ _ hyb (R.mono hw hx)).ofProc hyb

private theorem sim_smul (h : o.Simulates R) {l m n : ℕ} (w : W) (a : SMatrix T l m) (b : SMatrix T m n) (a' : SMatrix S l m)
    (b' : SMatrix S m n) (ha : (R.smatrix l m).rel w a a') (hb : (R.smatrix m n).rel w b b') :
    (R.smatrix l n).Sim (o.smatrixMul a b) (a'.mulRef b') w := by
  rw [SMatrix.mulRef_eq]
  simp only [foldlM_at2]
  exact sim_smap fun w' hw i k => sim_dotLoop h w' _ (fun j => R.mono hw (ha i j)) fun j => R.mono hw (hb j k)

/-- Static matrices of handles: square matrices of handles behave like handles of square matrices; so do sums, differences and products
of matrices of any shape and products with vectors. -/
theorem C92_smatrix (h : o.Simulates R) : (∀ n, (o.smatrix n).Simulates (R.smatrix n n)) ∧
    (∀ {r c : ℕ} (w : W) (a b : SMatrix T r c) (a' b' : SMatrix S r c), (R.smatrix r c).rel w a a' → (R.smatrix r c).rel w b b' →
      (R.smatrix r c).SimU (EOps.smatrixAssign o.addAssign a b) (a'.addAssignRef b') w ∧
      (R.smatrix r c).SimU (EOps.smatrixAssign o.subAssign a b) (a'.subAssignRef b') w) ∧
    (∀ {l m n : ℕ} (w : W) (a : SMatrix T l m) (b : SMatrix T m n) (a' : SMatrix S l m) (b' : SMatrix S m n),
      (R.smatrix l m).rel w a a' → (R.smatrix m n).rel w b b' → (R.smatrix l n).Sim (o.smatrixMul a b) (a'.mulRef b') w) ∧
    ∀ {m n : ℕ} (w : W) (a : SMatrix T m n) (v : SVector T n) (a' : SMatrix S m n) (v' : SVector S n),
      (R.smatrix m n).rel w a a' → (R.svector n).rel w v v' → (R.svector m).Sim (o.smatrixMulVec a v) (a'.mulVec v') w := by
  refine ⟨fun n => ?_, fun w a b a' b' ha hb => ⟨sim_sassign h.addAssign w a b a' b' ha hb, sim_sassign h.subAssign w a b a' b' ha hb⟩,
    sim_smul h, fun w a v a' v' ha hv => ?_⟩
  · exact {
      zero := fun w => by rw [← smatrix_zero_eq]; exact sim_smap fun w' _ _ _ => h.zero w'
      one := fun w => by
        rw [← smatrix_one_eq]
        refine sim_smap fun w' _ i j => ?_
        split
        · exact h.one w'
        · exact h.zero w'
      clone := fun w a a' ha => by
        have := sim_smap (w := w) fun w' hw i j => h.clone w' (a.val i j) (a'.val i j) (R.mono hw (ha i j))
        simp only [fromFnM_pure] at this
        exact this
      addAssign := sim_sassign h.addAssign
      subAssign := sim_sassign h.subAssign
      mulRefs := sim_smul h
      neg := fun w a a' ha => sim_smap fun w' hw i j => h.neg w' _ _ (R.mono hw (ha i j))
      conj := fun w a a' ha => sim_smap fun w' hw i j => h.conj w' _ _ (R.mono hw (ha i j))
      add := fun w a b a' b' ha hb => (sim_sassign h.addAssign w a b a' b' ha hb).toProc
      sub := fun w a b a' b' ha hb => (sim_sassign h.subAssign w a b a' b' ha hb).toProc
      mul := sim_smul h
      addAssignV := sim_sassign h.addAssign
      subAssignV := sim_sassign h.subAssign }
  · rw [SMatrix.mulVec_eq]
    exact (Sim.fromFn (R := R) fun w' i hw => sim_dotLoop h w' _ (fun j => R.mono hw (ha i j)) fun j => R.mono hw (hv j)).bind
      fun _ _ _ _ hy => Sim.pure (R := R.svector _) hy

private theorem sim_entry (h : o.Simulates R) (pr : Profile) (w : W) {a : DMatrix T} {a' : DMatrix S} (ha : R.dmatrix.rel w a a')
    (row col : ℕ) : R.Sim (o.dmatrixEntry pr a row col) (a'.entry pr row col) w := by
  have h1 : R.Sim (Proc.ofRes (a.entry pr row col)) (a'.entry pr row col) w := by
    unfold DMatrix.entry
    rw [ha.2.2]
    cases DMatrix.flatIndex pr a'.numCols row col with
    | error e => exact ⟨le_refl _, rfl⟩
    | ok i => exact Sim.getIdx (R := R) ha.1 i
  have := h1.bind fun w' x b _ hx => h.clone w' x b hx
  rwa [show (a'.entry pr row col >>= fun x => .ok x) = a'.entry pr row col by cases a'.entry pr row col <;> rfl] at this

private theorem sim_mulEntry (h : o.Simulates R) (pr : Profile) (w : W) {a b : DMatrix T} {a' b' : DMatrix S}
    (ha : R.dmatrix.rel w a a') (hb : R.dmatrix.rel w b b') (row col : ℕ) :
    R.Sim (o.dmatrixMulEntry pr a b row col) (a'.mulEntry pr b' row col) w := by
  unfold EOps.dmatrixMulEntry
  rw [ha.2.2]
  refine (sim_entry h pr w ha row 0).bind fun w₁ _ _ h₁ y₁ => (sim_entry h pr w₁ (R.dmatrix.mono h₁ hb) 0 col).bind fun w₂ _ _ h₂ y₂ =>
    (h.mul w₂ _ _ _ _ (R.mono h₂ y₁) y₂).bind fun w₃ _ _ h₃ y₃ => Sim.fold (I := data ℕ) (list_data w₃ _) y₃ ?_
  intro w₄ i _ s s' h₄ hi hs
  cases hi
  have h04 := (h₁.trans h₂).trans (h₃.trans h₄)
  exact (sim_entry h pr w₄ (R.dmatrix.mono h04 ha) row i).bind fun w₅ _ _ h₅ y₅ =>
    (sim_entry h pr w₅ (R.dmatrix.mono (h04.trans h₅) hb) i col).bind fun w₆ _ _ h₆ y₆ =>
    (h.mul w₆ _ _ _ _ (R.mono h₆ y₅) y₆).bind fun w₇ _ _ h₇ y₇ =>
    (h.addAssignV w₇ _ _ _ _ (R.mono ((h₅.trans h₆).trans h₇) hs) y₇).toProc

/-- Dynamic vectors and matrices of handles: inner products and evaluated matrix products. -/
theorem C92_dynamic (h : o.Simulates R) :
    (∀ (w : W) (u v : DVector T) (u' v' : DVector S), R.dvector.rel w u u' → R.dvector.rel w v v' →
      R.Sim (o.dvectorDot u v) (u'.dot v') w) ∧
    ∀ (pr : Profile) (w : W) (a b : DMatrix T) (a' b' : DMatrix S), R.dmatrix.rel w a a' → R.dmatrix.rel w b b' →
      R.dmatrix.Sim (o.dmatrixMulEval pr a b) (do (← a'.mul pr b').eval) w := by
  refine ⟨fun w u v u' v' hu hv => (h.zero w).bind fun w₁ _ _ h₁ y₁ => Sim.fold (I := R.prod R) ?_ y₁ ?_, fun pr w a b a' b' ha hb => ?_⟩
  · have := (R.prod R).list.mono h₁ (x := List.zip u.data v.data) (a := List.zip u'.data v'.data) ?_
    · exact this
    · revert hu hv
      show List.Forall₂ _ _ _ → List.Forall₂ _ _ _ → List.Forall₂ _ _ _
      generalize u.data = l
      generalize u'.data = l'
      generalize v.data = m
      generalize v'.data = m'
      intro hl hm
      induction hl generalizing m m' with
      | nil => exact .nil
      | cons hx _ ih =>
        cases hm with
        | nil => exact .nil
        | cons hy hm => exact .cons ⟨hx, hy⟩ (ih _ _ hm)
  · rintro w₂ ⟨x, y⟩ ⟨x', y'⟩ s s' h₂ ⟨hx, hy⟩ hs
    exact (h.clone w₂ _ _ hx).bind fun w₃ _ _ h₃ y₃ => (h.conj w₃ _ _ y₃).bind fun w₄ _ _ h₄ y₄ =>
      (h.clone w₄ _ _ (R.mono (h₃.trans h₄) hy)).bind fun w₅ _ _ h₅ y₅ => (h.mul w₅ _ _ _ _ (R.mono h₅ y₄) y₅).bind fun w₆ _ _ h₆ y₆ =>
      h.add w₆ _ _ _ _ (R.mono ((h₃.trans h₄).trans (h₅.trans h₆)) hs) y₆
  · rw [show (do (← a'.mul (O := S) pr b').eval) = (assertEq a'.numCols b'.numRows >>= fun _ =>
      MExpr.defaultEval a'.numRows b'.numCols (a'.mulEntry pr b')) by
      unfold DMatrix.mul; cases assertEq a'.numCols b'.numRows <;> rfl]
    unfold EOps.dmatrixMulEval
    rw [ha.2.1, ha.2.2, hb.2.1, hb.2.2]
    refine (Sim.ofRes w _).bind fun w₁ _ _ h₁ _ => ?_
    exact (Sim.collect (I := data (ℕ × ℕ)) (R := R) (f := fun rc : ℕ × ℕ => o.dmatrixMulEntry pr a b rc.1 rc.2)
      (g := fun rc : ℕ × ℕ => a'.mulEntry pr b' rc.1 rc.2) (list_data w₁ _) fun w₂ i _ h₂ hi => by
        cases hi
        exact sim_mulEntry h pr w₂ (R.dmatrix.mono (h₁.trans h₂) ha) (R.dmatrix.mono (h₁.trans h₂) hb) _ _).bind
      fun w₃ _ _ h₃ y₃ => Sim.pure (R := R.dmatrix) ⟨y₃, rfl, rfl⟩

end simulation

/-- The operators that only write a tape simulate the operators of every element type that never panics, for all values of the inputs:
with the other theorems, everything recorded on a tape replays to what would have been computed directly. -/
theorem C92_tape {S : Type} [RZero S] [ROne S] [AddAssignRef S] [SubAssignRef S] [MulRefs S] [RNeg S] [RConj S] [RAdd S S S] [RSub S S S]
    [RMul S S S] [RAddAssign S S] [RSubAssign S S] (hS : OpsNeverPanic S) (inputs : ℕ → S) :
    Tape.ops.Simulates (Tape.represents hS inputs) := Tape.ops_simulates hS inputs

/-- Record once, replay anywhere: the evaluation of a polynomial of `n` coefficients (inputs `0, …, n - 1`) at a point (input `n`) is
recorded once; the tape, replayed over any element type that never panics with any coefficients and any point, gives what `eval` returns
there. -/
theorem C92_record_eval (n : ℕ) : ∃ (t : Tape) (y : ℕ), Tape.ops.polyEval ⟨List.range n⟩ n (Tape.ofInputs (n + 1)) = (.ok y, t) ∧
    ∀ (S : Type) [RZero S] [ROne S] [AddAssignRef S] [SubAssignRef S] [MulRefs S] [RNeg S] [RConj S] [RAdd S S S] [RSub S S S]
      [RMul S S S] [RAddAssign S S] [RSubAssign S S], OpsNeverPanic S → ∀ inputs : ℕ → S, ∃ l b, replay inputs t.nodes [] = .ok l ∧
        l[y]? = some b ∧ (⟨(List.range n).map inputs⟩ : Poly S).eval (inputs n) = .ok b := by
  have key : ∀ (S : Type) [RZero S] [ROne S] [AddAssignRef S] [SubAssignRef S] [MulRefs S] [RNeg S] [RConj S] [RAdd S S S] [RSub S S S]
      [RMul S S S] [RAddAssign S S] [RSubAssign S S] (hS : OpsNeverPanic S) (inputs : ℕ → S), (Tape.represents hS inputs).Sim
        (Tape.ops.polyEval ⟨List.range n⟩ n) ((⟨(List.range n).map inputs⟩ : Poly S).eval (inputs n)) (Tape.ofInputs (n + 1)) := by
    intro S _ _ _ _ _ _ _ _ _ _ _ _ hS inputs
    have hp : (Tape.represents hS inputs).poly.rel (Tape.ofInputs (n + 1)) ⟨List.range n⟩ ⟨(List.range n).map inputs⟩ :=
      List.forall₂_map_right_iff.2 (List.forall₂_same.2 fun k hk =>
        Tape.ofInputs_rel hS inputs (Nat.lt_succ_of_lt (List.mem_range.1 hk)))
    exact (C92_polynomial (C92_tape hS inputs) hp hp (Tape.ofInputs_rel hS inputs (Nat.lt_succ_self n))).1
  have hr : ∃ y, (Tape.ops.polyEval ⟨List.range n⟩ n (Tape.ofInputs (n + 1))).1 = .ok y := by
    have h2 := (key (Exact ℤ) (opsNeverPanic_exact ℤ) fun _ => ⟨0⟩).2
    rw [exact_eval] at h2
    rcases hx : (Tape.ops.polyEval ⟨List.range n⟩ n (Tape.ofInputs (n + 1))).1 with e | y
    · rw [hx] at h2; exact h2.elim
    · exact ⟨y, rfl⟩
  obtain ⟨y, hy⟩ := hr
  refine ⟨_, y, Prod.ext hy rfl, ?_⟩
  intro S _ _ _ _ _ _ _ _ _ _ _ _ hS inputs
  obtain ⟨-, h2⟩ := key S hS inputs
  rw [hy] at h2
  rcases hb : (⟨(List.range n).map inputs⟩ : Poly S).eval (inputs n) with e | b <;> rw [hb] at h2
  · exact h2.elim
  · obtain ⟨l, h3, h4⟩ := h2
    exact ⟨l, b, h3, h4, rfl⟩

/-- The same for products of matrices: `a` consists of the inputs `i m + j`, `b` of the inputs `l m + j n + k`. -/
theorem C92_record_matrix (l m n : ℕ) : ∃ (t : Tape) (c : SMatrix ℕ l n),
    Tape.ops.smatrixMul (⟨fun i j => i * m + j⟩ : SMatrix ℕ l m) (⟨fun j k => l * m + (j * n + k)⟩ : SMatrix ℕ m n)
      (Tape.ofInputs (l * m + m * n)) = (.ok c, t) ∧
    ∀ (S : Type) [RZero S] [ROne S] [AddAssignRef S] [SubAssignRef S] [MulRefs S] [RNeg S] [RConj S] [RAdd S S S] [RSub S S S]
      [RMul S S S] [RAddAssign S S] [RSubAssign S S], OpsNeverPanic S → ∀ inputs : ℕ → S, ∃ (v : List S) (d : SMatrix S l n),
        replay inputs t.nodes [] = .ok v ∧ (∀ i k, v[c.val i k]? = some (d.val i k)) ∧
        (⟨fun i j => inputs (i * m + j)⟩ : SMatrix S l m).mulRef (⟨fun j k => inputs (l * m + (j * n + k))⟩ : SMatrix S m n) = .ok d := by
  have key : ∀ (S : Type) [RZero S] [ROne S] [AddAssignRef S] [SubAssignRef S] [MulRefs S] [RNeg S] [RConj S] [RAdd S S S] [RSub S S S]
      [RMul S S S] [RAddAssign S S] [RSubAssign S S] (hS : OpsNeverPanic S) (inputs : ℕ → S),
      ((Tape.represents hS inputs).smatrix l n).Sim
        (Tape.ops.smatrixMul (⟨fun i j => i * m + j⟩ : SMatrix ℕ l m) (⟨fun j k => l * m + (j * n + k)⟩ : SMatrix ℕ m n))
        ((⟨fun i j => inputs (i * m + j)⟩ : SMatrix S l m).mulRef (⟨fun j k => inputs (l * m + (j * n + k))⟩ : SMatrix S m n))
        (Tape.ofInputs (l * m + m * n)) := by
    intro S _ _ _ _ _ _ _ _ _ _ _ _ hS inputs
    refine (C92_smatrix (C92_tape hS inputs)).2.2.1 _ _ _ _ _ (fun i j => Tape.ofInputs_rel hS inputs ?_)
      fun j k => Tape.ofInputs_rel hS inputs ?_
    · have h1 : (i : ℕ) * m + m ≤ l * m := by
        rw [← Nat.succ_mul]; exact Nat.mul_le_mul_right m i.isLt
      have := j.isLt
      show (i : ℕ) * m + j < _
      omega
    · have h1 : (j : ℕ) * n + n ≤ m * n := by
        rw [← Nat.succ_mul]; exact Nat.mul_le_mul_right n j.isLt
      have := k.isLt
      show l * m + ((j : ℕ) * n + k) < _
      omega
  have hr : ∃ c, (Tape.ops.smatrixMul (⟨fun i j => i * m + j⟩ : SMatrix ℕ l m) (⟨fun j k => l * m + (j * n + k)⟩ : SMatrix ℕ m n)
      (Tape.ofInputs (l * m + m * n))).1 = .ok c := by
    have h2 := (key (Exact ℤ) (opsNeverPanic_exact ℤ) fun _ => ⟨0⟩).2
    obtain ⟨d, hd⟩ := (pan_mmul (⟨fun _ _ => ⟨0⟩⟩ : SMatrix (Exact ℤ) l m) (⟨fun _ _ => ⟨0⟩⟩ : SMatrix (Exact ℤ) m n)).exists_ok
      neverPanics_exact.noElementPanic
    rw [hd] at h2
    rcases hx : (Tape.ops.smatrixMul (⟨fun i j => i * m + j⟩ : SMatrix ℕ l m) (⟨fun j k => l * m + (j * n + k)⟩ : SMatrix ℕ m n)
      (Tape.ofInputs (l * m + m * n))).1 with e | c
    · rw [hx] at h2; exact h2.elim
    · exact ⟨c, rfl⟩
  obtain ⟨c, hc⟩ := hr
  refine ⟨_, c, Prod.ext hc rfl, ?_⟩
  intro S _ _ _ _ _ _ _ _ _ _ _ _ hS inputs
  obtain ⟨-, h2⟩ := key S hS inputs
  rw [hc] at h2
  rcases hb : (⟨fun i j => inputs (i * m + j)⟩ : SMatrix S l m).mulRef (⟨fun j k => inputs (l * m + (j * n + k))⟩ : SMatrix S m n)
    with e | d <;> rw [hb] at h2
  · exact h2.elim
  · obtain ⟨v, hv, -⟩ := replay_extends inputs hS
      (Tape.ops.smatrixMul (⟨fun i j => i * m + j⟩ : SMatrix ℕ l m) (⟨fun j k => l * m + (j * n + k)⟩ : SMatrix ℕ m n)
        (Tape.ofInputs (l * m + m * n))).2.nodes []
    refine ⟨v, d, hv, fun i k => ?_, rfl⟩
    obtain ⟨v', h3, h4⟩ := h2 i k
    rw [hv] at h3
    cases h3
    exact h4

end Magnesia
