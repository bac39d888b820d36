import Verif.Spec.Tree
import Verif.Proof.DynLin

/-!
# Expression trees evaluate entry-wise (proofs)
-/

namespace Magnesia

open RZero ROne

variable {T U V : Type}

theorem sumTerms_eq {O : Type} [RAddAssign O O] (term : ℕ → Res O) (n : ℕ) :
    Tree.sumTerms term (n + 1) = (do
      let s ← term 0
      (List.range' 1 n).foldlM (fun s i => do
        let x ← term i
        (RAddAssign.addAssign s x).toRes) s) := by
  induction n with
  | zero => simp [Tree.sumTerms]
  | succ n ih =>
    show (do
      let s ← Tree.sumTerms term (n + 1)
      let x ← term (n + 1)
      (RAddAssign.addAssign s x).toRes) = _
    rw [ih, List.range'_concat]
    simp only [bind_assoc, List.foldlM_append, List.foldlM_cons, List.foldlM_nil, bind_pure, Nat.one_mul,
      Nat.add_comm 1 n]

theorem sumTerms_congr {O : Type} [RAddAssign O O] {f g : ℕ → Res O} {n : ℕ} (h : ∀ k < n, f k = g k) :
    Tree.sumTerms f n = Tree.sumTerms g n := by
  induction n using Nat.strongRecOn with
  | _ n ih =>
    match n with
    | 0 => rfl
    | 1 => exact h 0 (by omega)
    | n + 2 =>
      simp only [Tree.sumTerms]
      rw [ih (n + 1) (by omega) (fun k hk => h k (by omega)), h (n + 1) (by omega)]

theorem mulEntry_eq {O : Type} [RMul T T O] [RAddAssign O O] {p : Profile} {l m n : ℕ} (hp : p.Fits l m)
    (hp' : p.Fits m n) (a : Fin l → Fin m → T) (b : Fin m → Fin n → T) (i : Fin l) (j : Fin n) :
    DMatrix.mulEntry p (DMatrix.ofFn a) (DMatrix.ofFn b) i j =
      Tree.sumTerms (fun k => if h : k < m then RMul.mul (a i ⟨k, h⟩) (b ⟨k, h⟩ j) else .error .user) m := by
  unfold DMatrix.mulEntry
  cases m with
  | zero =>
    have h1 : (DMatrix.ofFn a).entry p i 0 = .error .indexOutOfBounds := by
      unfold DMatrix.entry
      show (DMatrix.flatIndex p 0 i 0 >>= fun k => _) = _
      rw [flatIndex_eq (by simp)]
      exact getIdx_oob (by show (DMatrix.ofFn a).data.length ≤ _; simp [DMatrix.ofFn])
    rw [h1]
    rfl
  | succ m =>
    rw [sumTerms_eq]
    have h0 : 0 < m + 1 := Nat.succ_pos m
    have e1 := entry_ofFn' hp a i.2 h0
    have e2 := entry_ofFn' hp' b h0 j.2
    rw [e1, e2, dif_pos h0]
    show (RMul.mul (a i ⟨0, h0⟩) (b ⟨0, h0⟩ j) >>= fun sum => _) = _
    congr 1
    funext sum
    have hc : (DMatrix.ofFn a).numCols - 1 = m := rfl
    rw [hc]
    have : ∀ (l' : List ℕ), (∀ k ∈ l', k < m + 1) → ∀ s : O,
        l'.foldlM (fun sum k => do
          let prod ← RMul.mul (← (DMatrix.ofFn a).entry p i k) (← (DMatrix.ofFn b).entry p k j)
          (RAddAssign.addAssign sum prod).toRes) s =
        l'.foldlM (fun s k => do
          let x ← (if h : k < m + 1 then RMul.mul (a i ⟨k, h⟩) (b ⟨k, h⟩ j) else .error .user)
          (RAddAssign.addAssign s x).toRes) s := by
      intro l'
      induction l' with
      | nil => intro _ s; rfl
      | cons k l' ih =>
        intro hk s
        have hk' := hk k (by simp)
        rw [List.foldlM_cons, List.foldlM_cons, entry_ofFn' hp a i.2 hk', entry_ofFn' hp' b hk' j.2, dif_pos hk']
        show ((RMul.mul (a i ⟨k, hk'⟩) (b ⟨k, hk'⟩ j) >>= fun prod => _) >>= fun s => _) = _
        congr 1
        funext s
        exact ih (fun k h => hk k (by simp [h])) s
    exact this _ (by simp [List.mem_range'_1]; omega) sum

namespace Tree

/-- The object built from `t` is what the specification says, and its `eval` is the default one. -/
def Good : {k : Kind} → Tree k T → k.Obj T → Prop
  | .vec, a, (e : VExpr T) => a.cols = 1 ∧ e.len = a.rows ∧ (∀ i < a.rows, e.entry i = a.entry i 0) ∧
      e.eval = VExpr.defaultEval e.len e.entry
  | .mat, a, (e : MExpr T) => (e.numRows = a.rows ∧ e.numCols = a.cols) ∧
      (∀ i < a.rows, ∀ j < a.cols, e.entry i j = a.entry i j) ∧
      e.eval = MExpr.defaultEval e.numRows e.numCols e.entry

theorem goodV {t : Tree .vec T} {e : VExpr T} : Good t e ↔ t.cols = 1 ∧ e.len = t.rows ∧
    (∀ i < t.rows, e.entry i = t.entry i 0) ∧ e.eval = VExpr.defaultEval e.len e.entry := Iff.rfl

theorem goodM {t : Tree .mat T} {e : MExpr T} : Good t e ↔ (e.numRows = t.rows ∧ e.numCols = t.cols) ∧
    (∀ i < t.rows, ∀ j < t.cols, e.entry i j = t.entry i j) ∧
    e.eval = MExpr.defaultEval e.numRows e.numCols e.entry := Iff.rfl

theorem eval_good_vec {t : Tree .vec T} {e : VExpr T} {v : DVector T} (h : Good t e) :
    e.eval = .ok v ↔ ∃ f : Fin t.rows → T, (∀ i : Fin t.rows, t.entry i 0 = .ok (f i)) ∧ v = DVector.ofFn f := by
  obtain ⟨_, h1, h2, h3⟩ := goodV.1 h
  rw [h3, h1, vdefaultEval_iff]
  constructor <;> rintro ⟨f, hf, hv⟩ <;> refine ⟨f, fun i => ?_, hv⟩
  · rw [← h2 i i.2]; exact hf i
  · rw [h2 i i.2]; exact hf i

theorem eval_good_mat {t : Tree .mat T} {e : MExpr T} {m : DMatrix T} (h : Good t e) :
    e.eval = .ok m ↔ ∃ f : Fin t.rows → Fin t.cols → T, (∀ (i : Fin t.rows) (j : Fin t.cols), t.entry i j = .ok (f i j)) ∧ m = DMatrix.ofFn f := by
  obtain ⟨⟨h1, h1'⟩, h2, h3⟩ := goodM.1 h
  rw [h3, h1, h1', mdefaultEval_iff]
  constructor <;> rintro ⟨f, hf, hv⟩ <;> refine ⟨f, fun i j => ?_, hv⟩
  · rw [← h2 i i.2 j j.2]; exact hf i j
  · rw [h2 i i.2 j j.2]; exact hf i j

theorem assertEq_ok {a b : ℕ} {u : Unit} (h : assertEq a b = .ok u) : a = b := by
  unfold assertEq at h
  by_contra hne
  simp [hne] at h

theorem assertEq_self (a : ℕ) : assertEq a a = .ok () := by simp [assertEq]

theorem dmatrix_defaultEval {p : Profile} {r c : ℕ} (hp : p.Fits r c) (f : Fin r → Fin c → T) :
    (.ok (DMatrix.ofFn f) : Res (DMatrix T)) = MExpr.defaultEval r c ((DMatrix.ofFn f).entry p) :=
  (mdefaultEval_iff.2 ⟨f, fun i j => entry_ofFn hp f i j, rfl⟩).symm

theorem build_good (p : Profile) {k : Kind} {T : Type} (t : Tree k T) : t.Fits p → ∀ o, t.build p = .ok o →
    t.WellShaped ∧ t.EvalsReturn ∧ Good t o := by
  induction t with
  | dvector v =>
    intro _ o h
    cases h
    refine ⟨trivial, trivial, rfl, rfl, fun _ _ => rfl, ?_⟩
    exact (vdefaultEval_iff.2 ⟨fun i => v.data[i], fun i => getIdx_eq.2 (by simp),
      congrArg DVector.mk List.ofFn_getElem.symm⟩).symm
  | slice s =>
    intro _ o h
    cases h
    refine ⟨trivial, trivial, rfl, rfl, fun _ _ => rfl, ?_⟩
    exact (vdefaultEval_iff.2 ⟨fun i => s[i], fun i => getIdx_eq.2 (by simp),
      congrArg DVector.mk List.ofFn_getElem.symm⟩).symm
  | makeV len f => intro _ o h; cases h; exact ⟨trivial, trivial, rfl, rfl, fun _ _ => rfl, rfl⟩
  | zerosV len => intro _ o h; cases h; exact ⟨trivial, trivial, rfl, rfl, fun _ _ => rfl, rfl⟩
  | onesV len => intro _ o h; cases h; exact ⟨trivial, trivial, rfl, rfl, fun _ _ => rfl, rfl⟩
  | sameV len x => intro _ o h; cases h; exact ⟨trivial, trivial, rfl, rfl, fun _ _ => rfl, rfl⟩
  | evalV e ih =>
    intro hf o h
    obtain ⟨a, h1, h⟩ := bind_ok h
    obtain ⟨v, h2, h⟩ := bind_ok h
    cases pure_ok h
    obtain ⟨w, er, g⟩ := ih hf a h1
    obtain ⟨f, hf, rfl⟩ := (eval_good_vec g).1 h2
    obtain ⟨gc, gr, ge, gd⟩ := goodV.1 g
    refine ⟨w, ⟨er, fun i hi j hj => ?_⟩, gc, List.length_ofFn, fun i hi => ?_, ?_⟩
    · have : j = 0 := by have := gc; omega
      subst this
      exact ⟨_, hf ⟨i, hi⟩⟩
    · have hi' : i < rows e := hi
      show getIdx (List.ofFn f) i = e.entry i 0
      rw [hf ⟨i, hi'⟩]
      exact getIdx_ofFn f ⟨i, hi'⟩
    · have : (DVector.ofFn f).asExpr.len = rows e := by simp [DVector.asExpr, DVector.ofFn]
      rw [this]
      exact (vdefaultEval_iff.2 ⟨f, fun i => getIdx_ofFn f i, rfl⟩).symm
  | mapV e f ih =>
    intro hf o h
    obtain ⟨a, h1, h⟩ := bind_ok h
    cases pure_ok h
    obtain ⟨w, er, g⟩ := ih hf a h1
    obtain ⟨gc, gr, ge, gd⟩ := goodV.1 g
    refine ⟨w, er, gc, gr, fun i hi => ?_, rfl⟩
    show (a.entry i >>= f) = (e.entry i 0 >>= f)
    rw [ge i hi]
  | conjV e ih =>
    intro hf o h
    obtain ⟨a, h1, h⟩ := bind_ok h
    cases pure_ok h
    obtain ⟨w, er, g⟩ := ih hf a h1
    obtain ⟨gc, gr, ge, gd⟩ := goodV.1 g
    refine ⟨w, er, gc, gr, fun i hi => ?_, rfl⟩
    show (a.entry i >>= RConj.conj) = (e.entry i 0 >>= RConj.conj)
    rw [ge i hi]
  | zipV a b iha ihb =>
    intro hf o h
    obtain ⟨x, h1, h⟩ := bind_ok h
    obtain ⟨y, h2, h⟩ := bind_ok h
    obtain ⟨wa, ea, ga⟩ := iha hf.1 x h1
    obtain ⟨wb, eb, gb⟩ := ihb hf.2 y h2
    obtain ⟨gc, gr, ge, gd⟩ := goodV.1 ga
    obtain ⟨gc', gr', ge', gd'⟩ := goodV.1 gb
    obtain ⟨u, h3, h⟩ := bind_ok h
    have hl := assertEq_ok h3
    rw [gr, gr'] at hl
    cases pure_ok h
    refine ⟨⟨wa, wb, Prod.ext hl (gc.trans gc'.symm)⟩, ⟨ea, eb⟩, gc, gr, fun i hi => ?_, rfl⟩
    show (do let x ← x.entry i; let y ← y.entry i; pure (x, y)) = _
    rw [ge i hi, ge' i (hl ▸ hi)]
    rfl
  | addV a b iha ihb =>
    intro hf o h
    obtain ⟨x, h1, h⟩ := bind_ok h
    obtain ⟨y, h2, h⟩ := bind_ok h
    obtain ⟨wa, ea, ga⟩ := iha hf.1 x h1
    obtain ⟨wb, eb, gb⟩ := ihb hf.2 y h2
    obtain ⟨gc, gr, ge, gd⟩ := goodV.1 ga
    obtain ⟨gc', gr', ge', gd'⟩ := goodV.1 gb
    obtain ⟨u, h3, h⟩ := bind_ok h
    have hl := assertEq_ok h3
    rw [gr, gr'] at hl
    cases pure_ok h
    refine ⟨⟨wa, wb, Prod.ext hl (gc.trans gc'.symm)⟩, ⟨ea, eb⟩, gc, gr, fun i hi => ?_, rfl⟩
    show (do RAdd.add (← x.entry i) (← y.entry i)) = _
    rw [ge i hi, ge' i (hl ▸ hi)]
    rfl
  | subV a b iha ihb =>
    intro hf o h
    obtain ⟨x, h1, h⟩ := bind_ok h
    obtain ⟨y, h2, h⟩ := bind_ok h
    obtain ⟨wa, ea, ga⟩ := iha hf.1 x h1
    obtain ⟨wb, eb, gb⟩ := ihb hf.2 y h2
    obtain ⟨gc, gr, ge, gd⟩ := goodV.1 ga
    obtain ⟨gc', gr', ge', gd'⟩ := goodV.1 gb
    obtain ⟨u, h3, h⟩ := bind_ok h
    have hl := assertEq_ok h3
    rw [gr, gr'] at hl
    cases pure_ok h
    refine ⟨⟨wa, wb, Prod.ext hl (gc.trans gc'.symm)⟩, ⟨ea, eb⟩, gc, gr, fun i hi => ?_, rfl⟩
    show (do RSub.sub (← x.entry i) (← y.entry i)) = _
    rw [ge i hi, ge' i (hl ▸ hi)]
    rfl
  | mulV a b iha ihb =>
    intro hf o h
    obtain ⟨x, h1, h⟩ := bind_ok h
    obtain ⟨y, h2, h⟩ := bind_ok h
    obtain ⟨wa, ea, ga⟩ := iha hf.1 x h1
    obtain ⟨wb, eb, gb⟩ := ihb hf.2 y h2
    obtain ⟨gc, gr, ge, gd⟩ := goodV.1 ga
    obtain ⟨gc', gr', ge', gd'⟩ := goodV.1 gb
    obtain ⟨z, h3, h⟩ := bind_ok h
    obtain ⟨u, h3, h4⟩ := bind_ok h3
    have hl := assertEq_ok h3
    rw [gr, gr'] at hl
    cases pure_ok h4
    cases pure_ok h
    refine ⟨⟨wa, wb, Prod.ext hl (gc.trans gc'.symm)⟩, ⟨ea, eb⟩, gc, gr, fun i hi => ?_, rfl⟩
    show ((do let x ← x.entry i; let y ← y.entry i; pure (x, y)) >>= fun xy => RMul.mul xy.1 xy.2) = _
    rw [ge i hi, ge' i (hl ▸ hi)]
    simp only [bind_assoc, pure_bind]
    rfl
  | divV a b iha ihb =>
    intro hf o h
    obtain ⟨x, h1, h⟩ := bind_ok h
    obtain ⟨y, h2, h⟩ := bind_ok h
    obtain ⟨wa, ea, ga⟩ := iha hf.1 x h1
    obtain ⟨wb, eb, gb⟩ := ihb hf.2 y h2
    obtain ⟨gc, gr, ge, gd⟩ := goodV.1 ga
    obtain ⟨gc', gr', ge', gd'⟩ := goodV.1 gb
    obtain ⟨z, h3, h⟩ := bind_ok h
    obtain ⟨u, h3, h4⟩ := bind_ok h3
    have hl := assertEq_ok h3
    rw [gr, gr'] at hl
    cases pure_ok h4
    cases pure_ok h
    refine ⟨⟨wa, wb, Prod.ext hl (gc.trans gc'.symm)⟩, ⟨ea, eb⟩, gc, gr, fun i hi => ?_, rfl⟩
    show ((do let x ← x.entry i; let y ← y.entry i; pure (x, y)) >>= fun xy => RDiv.div xy.1 xy.2) = _
    rw [ge i hi, ge' i (hl ▸ hi)]
    simp only [bind_assoc, pure_bind]
    rfl
  | diagOf m ih =>
    intro hf o h
    obtain ⟨a, h1, h⟩ := bind_ok h
    cases pure_ok h
    obtain ⟨w, er, g⟩ := ih hf a h1
    obtain ⟨⟨gr, gc⟩, ge, gd⟩ := goodM.1 g
    refine ⟨w, er, rfl, ?_, fun i hi => ?_, rfl⟩
    · show min a.numRows a.numCols = min m.rows m.cols
      rw [gr, gc]
    · have hi' : i < min m.rows m.cols := hi
      exact ge i (by omega) i (by omega)
  | dmatrix a =>
    intro hf o h
    cases h
    refine ⟨trivial, trivial, ⟨rfl, rfl⟩, fun i hi j hj => ?_, dmatrix_defaultEval hf a⟩
    show (DMatrix.ofFn a).entry p i j = Tree.entry.SMatrixEntry a i j
    rw [entry_ofFn' hf a hi hj]
    unfold Tree.entry.SMatrixEntry
    rw [dif_pos ⟨hi, hj⟩]
  | array a =>
    intro hf o h
    cases h
    have he : ∀ i j, (hi : i < _) → (hj : j < _) → (arrayExpr a).entry i j = .ok (a ⟨i, hi⟩ ⟨j, hj⟩) := by
      intro i j hi hj
      show (arrGet a i >>= fun x => arrGet x j) = _
      unfold arrGet
      rw [dif_pos hi]
      show arrGet (a ⟨i, hi⟩) j = _
      unfold arrGet
      rw [dif_pos hj]
    refine ⟨trivial, trivial, ⟨rfl, rfl⟩, fun i hi j hj => ?_, ?_⟩
    · rw [he i j hi hj]
      show _ = Tree.entry.SMatrixEntry a i j
      unfold Tree.entry.SMatrixEntry
      rw [dif_pos ⟨hi, hj⟩]
    · symm
      refine mdefaultEval_iff.2 ⟨a, fun i j => he i j i.2 j.2, ?_⟩
      unfold DMatrix.ofFn
      congr 1
      rw [List.flatMap_def, ← List.ofFn_eq_map]
      congr 1
      congr 1
      funext i
      exact (List.ofFn_eq_map).symm
  | makeM r c f => intro _ o h; cases h; exact ⟨trivial, trivial, ⟨rfl, rfl⟩, fun _ _ _ _ => rfl, rfl⟩
  | zerosM r c => intro _ o h; cases h; exact ⟨trivial, trivial, ⟨rfl, rfl⟩, fun _ _ _ _ => rfl, rfl⟩
  | onesM r c => intro _ o h; cases h; exact ⟨trivial, trivial, ⟨rfl, rfl⟩, fun _ _ _ _ => rfl, rfl⟩
  | sameM r c x => intro _ o h; cases h; exact ⟨trivial, trivial, ⟨rfl, rfl⟩, fun _ _ _ _ => rfl, rfl⟩
  | eye n => intro _ o h; cases h; exact ⟨trivial, trivial, ⟨rfl, rfl⟩, fun _ _ _ _ => rfl, rfl⟩
  | evalM e ih =>
    intro hf o h
    obtain ⟨a, h1, h⟩ := bind_ok h
    obtain ⟨v, h2, h⟩ := bind_ok h
    cases pure_ok h
    obtain ⟨w, er, g⟩ := ih hf.1 a h1
    obtain ⟨f, hfe, rfl⟩ := (eval_good_mat g).1 h2
    refine ⟨w, ⟨er, fun i hi j hj => ⟨_, hfe ⟨i, hi⟩ ⟨j, hj⟩⟩⟩, ⟨rfl, rfl⟩, fun i hi j hj => ?_,
      dmatrix_defaultEval hf.2 f⟩
    show (DMatrix.ofFn f).entry p i j = e.entry i j
    rw [entry_ofFn' hf.2 f hi hj]
    exact (hfe ⟨i, hi⟩ ⟨j, hj⟩).symm
  | mapM e f ih =>
    intro hf o h
    obtain ⟨a, h1, h⟩ := bind_ok h
    cases pure_ok h
    obtain ⟨w, er, g⟩ := ih hf a h1
    obtain ⟨gr, ge, gd⟩ := goodM.1 g
    refine ⟨w, er, gr, fun i hi j hj => ?_, rfl⟩
    show (a.entry i j >>= f) = (e.entry i j >>= f)
    rw [ge i hi j hj]
  | zipM a b iha ihb =>
    intro hf o h
    obtain ⟨x, h1, h⟩ := bind_ok h
    obtain ⟨y, h2, h⟩ := bind_ok h
    obtain ⟨wa, ea, ga⟩ := iha hf.1 x h1
    obtain ⟨wb, eb, gb⟩ := ihb hf.2 y h2
    obtain ⟨gr, ge, gd⟩ := goodM.1 ga
    obtain ⟨gr', ge', gd'⟩ := goodM.1 gb
    obtain ⟨u, h3, h⟩ := bind_ok h
    obtain ⟨u, h4, h⟩ := bind_ok h
    have hl := assertEq_ok h3
    have hl' := assertEq_ok h4
    rw [gr.1, gr'.1] at hl
    rw [gr.2, gr'.2] at hl'
    cases pure_ok h
    refine ⟨⟨wa, wb, Prod.ext hl hl'⟩, ⟨ea, eb⟩, gr, fun i hi j hj => ?_, rfl⟩
    show (do let x ← x.entry i j; let y ← y.entry i j; pure (x, y)) = _
    rw [ge i hi j hj, ge' i (hl ▸ hi) j (hl' ▸ hj)]
    rfl
  | addM a b iha ihb =>
    intro hf o h
    obtain ⟨x, h1, h⟩ := bind_ok h
    obtain ⟨y, h2, h⟩ := bind_ok h
    obtain ⟨wa, ea, ga⟩ := iha hf.1 x h1
    obtain ⟨wb, eb, gb⟩ := ihb hf.2 y h2
    obtain ⟨gr, ge, gd⟩ := goodM.1 ga
    obtain ⟨gr', ge', gd'⟩ := goodM.1 gb
    obtain ⟨u, h3, h⟩ := bind_ok h
    obtain ⟨u, h4, h⟩ := bind_ok h
    have hl := assertEq_ok h3
    have hl' := assertEq_ok h4
    rw [gr.1, gr'.1] at hl
    rw [gr.2, gr'.2] at hl'
    cases pure_ok h
    refine ⟨⟨wa, wb, Prod.ext hl hl'⟩, ⟨ea, eb⟩, gr, fun i hi j hj => ?_, rfl⟩
    show (do RAdd.add (← x.entry i j) (← y.entry i j)) = _
    rw [ge i hi j hj, ge' i (hl ▸ hi) j (hl' ▸ hj)]
    rfl
  | subM a b iha ihb =>
    intro hf o h
    obtain ⟨x, h1, h⟩ := bind_ok h
    obtain ⟨y, h2, h⟩ := bind_ok h
    obtain ⟨wa, ea, ga⟩ := iha hf.1 x h1
    obtain ⟨wb, eb, gb⟩ := ihb hf.2 y h2
    obtain ⟨gr, ge, gd⟩ := goodM.1 ga
    obtain ⟨gr', ge', gd'⟩ := goodM.1 gb
    obtain ⟨u, h3, h⟩ := bind_ok h
    obtain ⟨u, h4, h⟩ := bind_ok h
    have hl := assertEq_ok h3
    have hl' := assertEq_ok h4
    rw [gr.1, gr'.1] at hl
    rw [gr.2, gr'.2] at hl'
    cases pure_ok h
    refine ⟨⟨wa, wb, Prod.ext hl hl'⟩, ⟨ea, eb⟩, gr, fun i hi j hj => ?_, rfl⟩
    show (do RSub.sub (← x.entry i j) (← y.entry i j)) = _
    rw [ge i hi j hj, ge' i (hl ▸ hi) j (hl' ▸ hj)]
    rfl
  | mulM a b iha ihb =>
    intro hf o h
    obtain ⟨x, h1, h⟩ := bind_ok h
    obtain ⟨y, h2, h⟩ := bind_ok h
    obtain ⟨wa, ea, ga⟩ := iha hf.1 x h1
    obtain ⟨wb, eb, gb⟩ := ihb hf.2 y h2
    obtain ⟨gr, ge, gd⟩ := goodM.1 ga
    obtain ⟨gr', ge', gd'⟩ := goodM.1 gb
    obtain ⟨z, h3, h⟩ := bind_ok h
    obtain ⟨u, h3, h4⟩ := bind_ok h3
    obtain ⟨u, h5, h4⟩ := bind_ok h4
    have hl := assertEq_ok h3
    have hl' := assertEq_ok h5
    rw [gr.1, gr'.1] at hl
    rw [gr.2, gr'.2] at hl'
    cases pure_ok h4
    cases pure_ok h
    refine ⟨⟨wa, wb, Prod.ext hl hl'⟩, ⟨ea, eb⟩, gr, fun i hi j hj => ?_, rfl⟩
    show ((do let x ← x.entry i j; let y ← y.entry i j; pure (x, y)) >>= fun xy => RMul.mul xy.1 xy.2) = _
    rw [ge i hi j hj, ge' i (hl ▸ hi) j (hl' ▸ hj)]
    simp only [bind_assoc, pure_bind]
    rfl
  | divM a b iha ihb =>
    intro hf o h
    obtain ⟨x, h1, h⟩ := bind_ok h
    obtain ⟨y, h2, h⟩ := bind_ok h
    obtain ⟨wa, ea, ga⟩ := iha hf.1 x h1
    obtain ⟨wb, eb, gb⟩ := ihb hf.2 y h2
    obtain ⟨gr, ge, gd⟩ := goodM.1 ga
    obtain ⟨gr', ge', gd'⟩ := goodM.1 gb
    obtain ⟨z, h3, h⟩ := bind_ok h
    obtain ⟨u, h3, h4⟩ := bind_ok h3
    obtain ⟨u, h5, h4⟩ := bind_ok h4
    have hl := assertEq_ok h3
    have hl' := assertEq_ok h5
    rw [gr.1, gr'.1] at hl
    rw [gr.2, gr'.2] at hl'
    cases pure_ok h4
    cases pure_ok h
    refine ⟨⟨wa, wb, Prod.ext hl hl'⟩, ⟨ea, eb⟩, gr, fun i hi j hj => ?_, rfl⟩
    show ((do let x ← x.entry i j; let y ← y.entry i j; pure (x, y)) >>= fun xy => RDiv.div xy.1 xy.2) = _
    rw [ge i hi j hj, ge' i (hl ▸ hi) j (hl' ▸ hj)]
    simp only [bind_assoc, pure_bind]
    rfl
  | t e ih =>
    intro hf o h
    obtain ⟨a, h1, h⟩ := bind_ok h
    cases pure_ok h
    obtain ⟨w, er, g⟩ := ih hf a h1
    obtain ⟨gr, ge, gd⟩ := goodM.1 g
    exact ⟨w, er, ⟨gr.2, gr.1⟩, fun i hi j hj => ge j hj i hi, rfl⟩
  | h e ih =>
    intro hf o h
    obtain ⟨a, h1, h⟩ := bind_ok h
    cases pure_ok h
    obtain ⟨w, er, g⟩ := ih hf a h1
    obtain ⟨gr, ge, gd⟩ := goodM.1 g
    refine ⟨w, er, ⟨gr.2, gr.1⟩, fun i hi j hj => ?_, rfl⟩
    show (a.entry j i >>= RConj.conj) = (e.entry j i >>= RConj.conj)
    rw [ge j hj i hi]
  | diagM v ih =>
    intro hf o h
    obtain ⟨a, h1, h⟩ := bind_ok h
    cases pure_ok h
    obtain ⟨w, er, g⟩ := ih hf a h1
    obtain ⟨gc, gr, ge, gd⟩ := goodV.1 g
    refine ⟨w, er, ⟨gr, gr⟩, fun i hi j hj => ?_, rfl⟩
    show (if i = j then a.entry i else .ok zero) = (if i = j then v.entry i 0 else .ok zero)
    rw [ge i hi]
  | prod a b iha ihb =>
    intro hf o h
    obtain ⟨x, h1, h⟩ := bind_ok h
    obtain ⟨y, h2, h⟩ := bind_ok h
    obtain ⟨x', h3, h⟩ := bind_ok h
    obtain ⟨y', h4, h⟩ := bind_ok h
    obtain ⟨wa, ea, ga⟩ := iha hf.1.1 x h1
    obtain ⟨wb, eb, gb⟩ := ihb hf.2.1 x' h3
    obtain ⟨fa, hfa, rfl⟩ := (eval_good_mat ga).1 h2
    obtain ⟨fb, hfb, rfl⟩ := (eval_good_mat gb).1 h4
    obtain ⟨u, h5, h⟩ := bind_ok h
    have hl : a.cols = b.rows := assertEq_ok h5
    cases pure_ok h
    refine ⟨⟨wa, wb, hl⟩, ⟨⟨ea, fun i hi j hj => ⟨_, hfa ⟨i, hi⟩ ⟨j, hj⟩⟩⟩, eb, fun i hi j hj => ⟨_, hfb ⟨i, hi⟩ ⟨j, hj⟩⟩⟩,
      ⟨rfl, rfl⟩, fun i hi j hj => ?_, rfl⟩
    have hi' : i < a.rows := hi
    have hj' : j < b.cols := hj
    have key : ∀ (m' : ℕ) (hm : m' = a.cols) (fb' : Fin m' → Fin b.cols → _), p.Fits m' b.cols →
        (∀ (i : Fin m') (j : Fin b.cols), b.entry i j = .ok (fb' i j)) →
        DMatrix.mulEntry p (DMatrix.ofFn fa) (DMatrix.ofFn fb') i j =
          sumTerms (fun k => do RMul.mul (← a.entry i k) (← b.entry k j)) a.cols := by
      intro m' hm fb' hp' hfb'
      subst hm
      rw [mulEntry_eq hf.1.2 hp' fa fb' ⟨i, hi'⟩ ⟨j, hj'⟩]
      refine sumTerms_congr fun k hk => ?_
      have e1 := hfa ⟨i, hi'⟩ ⟨k, hk⟩
      have e2 := hfb' ⟨k, hk⟩ ⟨j, hj'⟩
      simp only at e1 e2
      rw [dif_pos hk, e1, e2]
      rfl
    exact key b.rows hl.symm fb hf.2.2 hfb

/-- The converse: a well-shaped tree whose intermediate evaluations return is constructed without panic. -/
theorem build_returns (p : Profile) {k : Kind} {T : Type} (t : Tree k T) : t.Fits p → t.WellShaped → t.EvalsReturn →
    Returns (t.build p) := by
  induction t with
  | dvector => exact fun _ _ _ => ⟨_, rfl⟩
  | slice => exact fun _ _ _ => ⟨_, rfl⟩
  | makeV => exact fun _ _ _ => ⟨_, rfl⟩
  | zerosV => exact fun _ _ _ => ⟨_, rfl⟩
  | onesV => exact fun _ _ _ => ⟨_, rfl⟩
  | sameV => exact fun _ _ _ => ⟨_, rfl⟩
  | dmatrix => exact fun _ _ _ => ⟨_, rfl⟩
  | array => exact fun _ _ _ => ⟨_, rfl⟩
  | makeM => exact fun _ _ _ => ⟨_, rfl⟩
  | zerosM => exact fun _ _ _ => ⟨_, rfl⟩
  | onesM => exact fun _ _ _ => ⟨_, rfl⟩
  | sameM => exact fun _ _ _ => ⟨_, rfl⟩
  | eye => exact fun _ _ _ => ⟨_, rfl⟩
  | mapV e f ih => exact fun f w r => (ih f w r).bind fun _ _ => ⟨_, rfl⟩
  | conjV e ih => exact fun f w r => (ih f w r).bind fun _ _ => ⟨_, rfl⟩
  | diagOf e ih => exact fun f w r => (ih f w r).bind fun _ _ => ⟨_, rfl⟩
  | mapM e f ih => exact fun f w r => (ih f w r).bind fun _ _ => ⟨_, rfl⟩
  | t e ih => exact fun f w r => (ih f w r).bind fun _ _ => ⟨_, rfl⟩
  | h e ih => exact fun f w r => (ih f w r).bind fun _ _ => ⟨_, rfl⟩
  | diagM e ih => exact fun f w r => (ih f w r).bind fun _ _ => ⟨_, rfl⟩
  | zipV a b iha ihb =>
    intro f w r
    refine (iha f.1 w.1 r.1).bind fun x hx => (ihb f.2 w.2.1 r.2).bind fun y hy => ?_
    have gx := goodV.1 (build_good p a f.1 x hx).2.2
    have gy := goodV.1 (build_good p b f.2 y hy).2.2
    have hl : x.len = y.len := by rw [gx.2.1, gy.2.1]; exact congrArg Prod.fst w.2.2
    exact ⟨_, by simp only [VExpr.zip, hl, assertEq_self]; rfl⟩
  | addV a b iha ihb =>
    intro f w r
    refine (iha f.1 w.1 r.1).bind fun x hx => (ihb f.2 w.2.1 r.2).bind fun y hy => ?_
    have gx := goodV.1 (build_good p a f.1 x hx).2.2
    have gy := goodV.1 (build_good p b f.2 y hy).2.2
    have hl : x.len = y.len := by rw [gx.2.1, gy.2.1]; exact congrArg Prod.fst w.2.2
    exact ⟨_, by simp only [VExpr.add, hl, assertEq_self]; rfl⟩
  | subV a b iha ihb =>
    intro f w r
    refine (iha f.1 w.1 r.1).bind fun x hx => (ihb f.2 w.2.1 r.2).bind fun y hy => ?_
    have gx := goodV.1 (build_good p a f.1 x hx).2.2
    have gy := goodV.1 (build_good p b f.2 y hy).2.2
    have hl : x.len = y.len := by rw [gx.2.1, gy.2.1]; exact congrArg Prod.fst w.2.2
    exact ⟨_, by simp only [VExpr.sub, hl, assertEq_self]; rfl⟩
  | mulV a b iha ihb =>
    intro f w r
    refine (iha f.1 w.1 r.1).bind fun x hx => (ihb f.2 w.2.1 r.2).bind fun y hy => ?_
    have gx := goodV.1 (build_good p a f.1 x hx).2.2
    have gy := goodV.1 (build_good p b f.2 y hy).2.2
    have hl : x.len = y.len := by rw [gx.2.1, gy.2.1]; exact congrArg Prod.fst w.2.2
    exact ⟨_, by simp only [VExpr.mulElemwise, VExpr.zip, hl, assertEq_self]; rfl⟩
  | divV a b iha ihb =>
    intro f w r
    refine (iha f.1 w.1 r.1).bind fun x hx => (ihb f.2 w.2.1 r.2).bind fun y hy => ?_
    have gx := goodV.1 (build_good p a f.1 x hx).2.2
    have gy := goodV.1 (build_good p b f.2 y hy).2.2
    have hl : x.len = y.len := by rw [gx.2.1, gy.2.1]; exact congrArg Prod.fst w.2.2
    exact ⟨_, by simp only [VExpr.divElemwise, VExpr.zip, hl, assertEq_self]; rfl⟩
  | zipM a b iha ihb =>
    intro f w r
    refine (iha f.1 w.1 r.1).bind fun x hx => (ihb f.2 w.2.1 r.2).bind fun y hy => ?_
    have gx := goodM.1 (build_good p a f.1 x hx).2.2
    have gy := goodM.1 (build_good p b f.2 y hy).2.2
    have hl : x.numRows = y.numRows := by rw [gx.1.1, gy.1.1]; exact congrArg Prod.fst w.2.2
    have hl' : x.numCols = y.numCols := by rw [gx.1.2, gy.1.2]; exact congrArg Prod.snd w.2.2
    exact ⟨_, by simp only [MExpr.zip, hl, hl', assertEq_self]; rfl⟩
  | addM a b iha ihb =>
    intro f w r
    refine (iha f.1 w.1 r.1).bind fun x hx => (ihb f.2 w.2.1 r.2).bind fun y hy => ?_
    have gx := goodM.1 (build_good p a f.1 x hx).2.2
    have gy := goodM.1 (build_good p b f.2 y hy).2.2
    have hl : x.numRows = y.numRows := by rw [gx.1.1, gy.1.1]; exact congrArg Prod.fst w.2.2
    have hl' : x.numCols = y.numCols := by rw [gx.1.2, gy.1.2]; exact congrArg Prod.snd w.2.2
    exact ⟨_, by simp only [MExpr.add, hl, hl', assertEq_self]; rfl⟩
  | subM a b iha ihb =>
    intro f w r
    refine (iha f.1 w.1 r.1).bind fun x hx => (ihb f.2 w.2.1 r.2).bind fun y hy => ?_
    have gx := goodM.1 (build_good p a f.1 x hx).2.2
    have gy := goodM.1 (build_good p b f.2 y hy).2.2
    have hl : x.numRows = y.numRows := by rw [gx.1.1, gy.1.1]; exact congrArg Prod.fst w.2.2
    have hl' : x.numCols = y.numCols := by rw [gx.1.2, gy.1.2]; exact congrArg Prod.snd w.2.2
    exact ⟨_, by simp only [MExpr.sub, hl, hl', assertEq_self]; rfl⟩
  | mulM a b iha ihb =>
    intro f w r
    refine (iha f.1 w.1 r.1).bind fun x hx => (ihb f.2 w.2.1 r.2).bind fun y hy => ?_
    have gx := goodM.1 (build_good p a f.1 x hx).2.2
    have gy := goodM.1 (build_good p b f.2 y hy).2.2
    have hl : x.numRows = y.numRows := by rw [gx.1.1, gy.1.1]; exact congrArg Prod.fst w.2.2
    have hl' : x.numCols = y.numCols := by rw [gx.1.2, gy.1.2]; exact congrArg Prod.snd w.2.2
    exact ⟨_, by simp only [MExpr.mulElemwise, MExpr.zip, hl, hl', assertEq_self]; rfl⟩
  | divM a b iha ihb =>
    intro f w r
    refine (iha f.1 w.1 r.1).bind fun x hx => (ihb f.2 w.2.1 r.2).bind fun y hy => ?_
    have gx := goodM.1 (build_good p a f.1 x hx).2.2
    have gy := goodM.1 (build_good p b f.2 y hy).2.2
    have hl : x.numRows = y.numRows := by rw [gx.1.1, gy.1.1]; exact congrArg Prod.fst w.2.2
    have hl' : x.numCols = y.numCols := by rw [gx.1.2, gy.1.2]; exact congrArg Prod.snd w.2.2
    exact ⟨_, by simp only [MExpr.divElemwise, MExpr.zip, hl, hl', assertEq_self]; rfl⟩
  | evalV e ih =>
    intro f w r
    refine (ih f w r.1).bind fun x hx => ?_
    have g := (build_good p e f x hx).2.2
    choose v hv using fun i : Fin e.rows => r.2 i i.2 0 (by rw [(goodV.1 g).1]; exact Nat.one_pos)
    have : Returns x.eval := ⟨_, (eval_good_vec g).2 ⟨v, hv, rfl⟩⟩
    exact this.bind fun _ _ => ⟨_, rfl⟩
  | evalM e ih =>
    intro f w r
    refine (ih f.1 w r.1).bind fun x hx => ?_
    have g := (build_good p e f.1 x hx).2.2
    choose v hv using fun (i : Fin e.rows) (j : Fin e.cols) => r.2 i i.2 j j.2
    have : Returns x.eval := ⟨_, (eval_good_mat g).2 ⟨v, hv, rfl⟩⟩
    exact this.bind fun _ _ => ⟨_, rfl⟩
  | prod a b iha ihb =>
    intro f w r
    refine (iha f.1.1 w.1 r.1.1).bind fun x hx => ?_
    have g := (build_good p a f.1.1 x hx).2.2
    choose v hv using fun (i : Fin a.rows) (j : Fin a.cols) => r.1.2 i i.2 j j.2
    have hxe : Returns x.eval := ⟨_, (eval_good_mat g).2 ⟨v, hv, rfl⟩⟩
    refine hxe.bind fun x' hx' => (ihb f.2.1 w.2.1 r.2.1).bind fun y hy => ?_
    have g' := (build_good p b f.2.1 y hy).2.2
    choose v' hv' using fun (i : Fin b.rows) (j : Fin b.cols) => r.2.2 i i.2 j j.2
    have hye : Returns y.eval := ⟨_, (eval_good_mat g').2 ⟨v', hv', rfl⟩⟩
    refine hye.bind fun y' hy' => ?_
    obtain ⟨fa, _, rfl⟩ := (eval_good_mat g).1 hx'
    obtain ⟨fb, _, rfl⟩ := (eval_good_mat g').1 hy'
    have hl : a.cols = b.rows := w.2.2
    have he : assertEq (DMatrix.ofFn fa).numCols (DMatrix.ofFn fb).numRows = .ok () := if_pos hl
    exact Returns.bind ⟨_, he⟩ fun _ _ => ⟨_, rfl⟩

end Tree
end Magnesia
