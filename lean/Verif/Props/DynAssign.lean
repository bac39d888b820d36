import Verif.Props.DynStore
import Verif.Props.SLinalg

/-!
# Properties C34, C35: compound assignment
-/

namespace Magnesia

open RZero ROne

variable {T U V : Type} {p : Profile} {r c n : ℕ}

/-! ## C34 -/
section C34

theorem cellOp_toRes (op : T → U → Upd T) (y : Res U) (x : T) :
    (cellOp op y x).toRes = (do (op x (← y)).toRes) := by cases y <;> rfl

theorem into_toRes_map {σ τ : Type} (u : Upd σ) (g : σ → τ) : (u.into g).toRes = (do pure (g (← u.toRes))) := by
  rcases u with ⟨v, _ | e⟩ <;> rfl

theorem vassign_toRes (op : T → U → Upd T) (e : ℕ → Res U) (f : Fin n → T) :
    ((forEach (List.range n) (fun index d => updAt d index (fun x => Upd.withRes (e index) x (fun y => op x y)))
      (List.ofFn f)).into DVector.mk).toRes =
    VExpr.defaultEval n (fun i => do
      let x ← getIdx (List.ofFn f) i
      let y ← e i
      (op x y).toRes) := by
  rw [vassign_eq, into_toRes_map, into_toRes_map, arrLoop_toRes, vdefaultEval_eq]
  simp only [cellOp_toRes, getIdx_ofFn, bind_assoc, pure_bind]
  rfl

/-- C34: if the lengths agree, `a += b` does exactly what `a = (&a + b).eval()` does: same result, and if one panics
the other panics the same way. `b` is an arbitrary vector expression. -/
theorem C34_vector_add [RAdd T U T] [RAddAssign T U]
    (hop : ∀ (x : T) (y : U), (RAddAssign.addAssign x y).toRes = RAdd.add x y) (a : DVector T) (b : VExpr U)
    (hl : a.data.length = b.len) : (a.addAssign b).toRes = (do (← (a.add b : Res (VExpr T))).eval) := by
  obtain ⟨n, f, rfl⟩ : ∃ (n : ℕ) (f : Fin n → T), a = DVector.ofFn f := ⟨_, exists_vofFn a⟩
  have h1 : ((DVector.ofFn f).add b : Res (VExpr T)) = .ok ((DVector.ofFn f).asExpr.addExpr b) := by
    unfold DVector.add VExpr.add
    rw [show assertEq (DVector.ofFn f).asExpr.len b.len = .ok () from if_pos hl]
    rfl
  rw [h1]
  unfold DVector.addAssign
  have h2 : (DVector.ofFn f).data.length = n := by simp [DVector.ofFn]
  rw [h2]
  refine (vassign_toRes _ _ f).trans ?_
  show _ = VExpr.defaultEval (DVector.ofFn f).data.length _
  rw [h2]
  simp only [hop]
  rfl

theorem C34_vector_sub [RSub T U T] [RSubAssign T U]
    (hop : ∀ (x : T) (y : U), (RSubAssign.subAssign x y).toRes = RSub.sub x y) (a : DVector T) (b : VExpr U)
    (hl : a.data.length = b.len) : (a.subAssign b).toRes = (do (← (a.sub b : Res (VExpr T))).eval) := by
  obtain ⟨n, f, rfl⟩ : ∃ (n : ℕ) (f : Fin n → T), a = DVector.ofFn f := ⟨_, exists_vofFn a⟩
  have h1 : ((DVector.ofFn f).sub b : Res (VExpr T)) = .ok ((DVector.ofFn f).asExpr.subExpr b) := by
    unfold DVector.sub VExpr.sub
    rw [show assertEq (DVector.ofFn f).asExpr.len b.len = .ok () from if_pos hl]
    rfl
  rw [h1]
  unfold DVector.subAssign
  have h2 : (DVector.ofFn f).data.length = n := by simp [DVector.ofFn]
  rw [h2]
  refine (vassign_toRes _ _ f).trans ?_
  show _ = VExpr.defaultEval (DVector.ofFn f).data.length _
  rw [h2]
  simp only [hop]
  rfl

theorem massign_toRes (hp : p.Fits r c) (op : T → U → Upd T) (e : MExpr U) (f : Fin r → Fin c → T) :
    ((DMatrix.ofFn f).assignLoop p e op).toRes =
    MExpr.defaultEval r c (fun i j => do
      let x ← (DMatrix.ofFn f).entry p i j
      let y ← e.entry i j
      (op x y).toRes) := by
  rw [massign_eq hp, into_toRes_map, arrLoop_toRes, mdefaultEval_eq]
  simp only [arrLoop_toRes, cellOp_toRes, entry_ofFn hp]
  rfl

/-- C34: the same for matrices of any shape. -/
theorem C34_matrix_add [RAdd T U T] [RAddAssign T U]
    (hop : ∀ (x : T) (y : U), (RAddAssign.addAssign x y).toRes = RAdd.add x y) (hp : p.Fits r c)
    (f : Fin r → Fin c → T) (b : MExpr U) (hr : r = b.numRows) (hc : c = b.numCols) :
    ((DMatrix.ofFn f).addAssign p b).toRes = (do (← ((DMatrix.ofFn f).add p b : Res (MExpr T))).eval) := by
  have h1 : ((DMatrix.ofFn f).add p b : Res (MExpr T)) = .ok (((DMatrix.ofFn f).asExpr p).addExpr b) := by
    unfold DMatrix.add MExpr.add
    rw [show assertEq ((DMatrix.ofFn f).asExpr p).numRows b.numRows = .ok () from if_pos hr,
      show assertEq ((DMatrix.ofFn f).asExpr p).numCols b.numCols = .ok () from if_pos hc]
    rfl
  rw [h1]
  refine (massign_toRes hp _ b f).trans ?_
  simp only [hop]
  rfl

theorem C34_matrix_sub [RSub T U T] [RSubAssign T U]
    (hop : ∀ (x : T) (y : U), (RSubAssign.subAssign x y).toRes = RSub.sub x y) (hp : p.Fits r c)
    (f : Fin r → Fin c → T) (b : MExpr U) (hr : r = b.numRows) (hc : c = b.numCols) :
    ((DMatrix.ofFn f).subAssign p b).toRes = (do (← ((DMatrix.ofFn f).sub p b : Res (MExpr T))).eval) := by
  have h1 : ((DMatrix.ofFn f).sub p b : Res (MExpr T)) = .ok (((DMatrix.ofFn f).asExpr p).subExpr b) := by
    unfold DMatrix.sub MExpr.sub
    rw [show assertEq ((DMatrix.ofFn f).asExpr p).numRows b.numRows = .ok () from if_pos hr,
      show assertEq ((DMatrix.ofFn f).asExpr p).numCols b.numCols = .ok () from if_pos hc]
    rfl
  rw [h1]
  refine (massign_toRes hp _ b f).trans ?_
  simp only [hop]
  rfl

/-- The hypothesis on the element operations holds for machine integers and for exact arithmetic. -/
example {w : ℕ} {chk : Bool} (x y : MInt w chk) : (RAddAssign.addAssign x y).toRes = (RAdd.add x y : Res (MInt w chk)) :=
  toRes_ofRes _ _

example (x y : Exact ℤ) : (RAddAssign.addAssign x y).toRes = (RAdd.add x y : Res (Exact ℤ)) := rfl

theorem vassign_congr {op : T → U → Upd T} {e e' : ℕ → Res U} {n : ℕ} (h : ∀ i < n, e i = e' i) (d : List T) :
    forEach (List.range n) (fun index d => updAt d index (fun x => Upd.withRes (e index) x (fun y => op x y))) d =
    forEach (List.range n) (fun index d => updAt d index (fun x => Upd.withRes (e' index) x (fun y => op x y))) d := by
  refine forEach_congr (fun i hi s => ?_) d
  rw [h i (by simpa using hi)]

/-- C34: a longer operand of a `DVector` compound assignment is silently truncated. -/
theorem C34_longer_operand_truncated [RAddAssign T U] [RSubAssign T U] (a : DVector T) (s extra : List U)
    (hs : s.length = a.data.length) :
    a.addAssign (sliceExpr (s ++ extra)) = a.addAssign (sliceExpr s) ∧
    a.subAssign (sliceExpr (s ++ extra)) = a.subAssign (sliceExpr s) := by
  have h : ∀ i < a.data.length, (sliceExpr (s ++ extra)).entry i = (sliceExpr s).entry i := by
    intro i hi
    show getIdx _ _ = getIdx _ _
    unfold getIdx
    rw [List.getElem?_append_left (by omega)]
  unfold DVector.addAssign DVector.subAssign
  exact ⟨by rw [vassign_congr h], by rw [vassign_congr h]⟩

/-- C34: a shorter operand panics (out of bounds, not "lengths differ"), unless an element operation panics first. -/
theorem C34_shorter_operand_panics [RAddAssign T U] (a : DVector T) (s : List U)
    (hs : s.length < a.data.length) (hop : ∀ (x : T) (y : U), (RAddAssign.addAssign x y).panic = none) :
    (a.addAssign (sliceExpr s)).panic = some .indexOutOfBounds := by
  obtain ⟨n, f, rfl⟩ : ∃ (n : ℕ) (f : Fin n → T), a = DVector.ofFn f := ⟨_, exists_vofFn a⟩
  have h2 : (DVector.ofFn f).data.length = n := by simp [DVector.ofFn]
  rw [h2] at hs
  have h1 : ((DVector.ofFn f).addAssign (sliceExpr s)).toRes = .error .indexOutOfBounds := by
    unfold DVector.addAssign
    rw [h2]
    refine (vassign_toRes _ _ f).trans ?_
    rw [vdefaultEval_eq, fromFnM_error ⟨s.length, hs⟩ (e := .indexOutOfBounds)]
    · rfl
    · show (getIdx (List.ofFn f) s.length >>= fun x => _) = _
      have := getIdx_ofFn f ⟨s.length, hs⟩
      simp only at this
      rw [this]
      show (getIdx s s.length >>= fun y => _) = _
      rw [getIdx_oob (le_refl _)]
      rfl
    · intro i hi
      have hi' : (i : ℕ) < s.length := hi
      rw [getIdx_ofFn f i]
      show Returns (getIdx s i >>= fun y => _)
      refine Returns.bind ⟨s[(i : ℕ)], getIdx_eq.2 (by simp [hi'])⟩ fun y _ => ⟨_, toRes_done (hop _ _)⟩
  unfold Upd.toRes at h1
  rcases hp : ((DVector.ofFn f).addAssign (sliceExpr s)).panic with _ | e
  · rw [hp] at h1; cases h1
  · rw [hp] at h1; cases h1; rfl

/-- C34: a `DMatrix` operand of the wrong shape `r' × c'` is read through the wrong row stride: whenever all flat
positions `i * c' + j` with `i < r`, `j < c` exist in it, `a += b` completes without a panic and position `(i, j)` gets
the element of `b` at row `(i * c' + j) / c'`, column `(i * c' + j) % c'`, instead of the mismatch being rejected (as
`&a + b` rejects it). -/
theorem C34_wrong_stride [RAdd T U T] [RAddAssign T U] {r' c' : ℕ} (hp : p.Fits r c) (hp' : p.Fits r' c')
    (f : Fin r → Fin c → T) (g : Fin r' → Fin c' → U)
    (hop : ∀ (x : T) (y : U), (RAddAssign.addAssign x y).panic = none) (hne : ¬ (r = r' ∧ c = c'))
    (hfit : ∀ i < r, ∀ j < c, i * c' + j < r' * c') :
    (∃ a : Fin r → Fin c → T, (DMatrix.ofFn f).addAssign p ((DMatrix.ofFn g).asExpr p) = .done (DMatrix.ofFn a) ∧
      ∀ (i : Fin r) (j : Fin c), ∃ (h1 : ((i : ℕ) * c' + j) / c' < r') (h2 : ((i : ℕ) * c' + j) % c' < c'),
        a i j = (RAddAssign.addAssign (f i j) (g ⟨_, h1⟩ ⟨_, h2⟩)).val) ∧
    ((DMatrix.ofFn f).add p ((DMatrix.ofFn g).asExpr p) : Res (MExpr T)) = .error .assertFailed := by
  constructor
  · have hidx : ∀ (i : Fin r) (j : Fin c), ∃ (h1 : ((i : ℕ) * c' + j) / c' < r') (h2 : ((i : ℕ) * c' + j) % c' < c'),
        (DMatrix.ofFn g).entry p i j = .ok (g ⟨_, h1⟩ ⟨_, h2⟩) := by
      intro i j
      have hlt := hfit i i.2 j j.2
      have hc0 : 0 < c' := by
        rcases Nat.eq_zero_or_pos c' with rfl | h0
        · simp at hlt
        · exact h0
      have h1 : ((i : ℕ) * c' + j) / c' < r' := (Nat.div_lt_iff_lt_mul hc0).2 hlt
      have h2 : ((i : ℕ) * c' + j) % c' < c' := Nat.mod_lt _ hc0
      refine ⟨h1, h2, ?_⟩
      unfold DMatrix.entry
      rw [show DMatrix.flatIndex p (DMatrix.ofFn g).numCols i j = .ok (i * c' + j) from
        flatIndex_eq (lt_of_lt_of_le hlt hp')]
      refine getIdx_eq.2 ?_
      have := getElem?_rows g ⟨_, h1⟩ ⟨_, h2⟩
      simp only [Nat.div_add_mod'] at this
      exact this
    choose h1 h2 h3 using hidx
    refine ⟨fun i j => (RAddAssign.addAssign (f i j) (g ⟨_, h1 i j⟩ ⟨_, h2 i j⟩)).val, ?_,
      fun i j => ⟨h1 i j, h2 i j, rfl⟩⟩
    have hres : ((DMatrix.ofFn f).addAssign p ((DMatrix.ofFn g).asExpr p)).toRes =
        .ok (DMatrix.ofFn fun i j => (RAddAssign.addAssign (f i j) (g ⟨_, h1 i j⟩ ⟨_, h2 i j⟩)).val) := by
      refine (massign_toRes hp _ _ f).trans (mdefaultEval_iff.2 ⟨_, fun i j => ?_, rfl⟩)
      rw [entry_ofFn hp]
      show ((DMatrix.ofFn g).entry p i j >>= fun y => _) = _
      rw [h3 i j]
      exact toRes_done (hop _ _)
    obtain ⟨h4, h5⟩ := toRes_ok hres
    rcases hu : (DMatrix.ofFn f).addAssign p ((DMatrix.ofFn g).asExpr p) with ⟨v, e⟩
    rw [hu] at h4 h5
    cases h4; cases h5; rfl
  · unfold DMatrix.add MExpr.add
    by_cases hr : r = r'
    · rw [show assertEq ((DMatrix.ofFn f).asExpr p).numRows ((DMatrix.ofFn g).asExpr p).numRows = .ok () from if_pos hr,
        show assertEq ((DMatrix.ofFn f).asExpr p).numCols ((DMatrix.ofFn g).asExpr p).numCols = .error .assertFailed from
          if_neg fun hc => hne ⟨hr, hc⟩]
      rfl
    · rw [show assertEq ((DMatrix.ofFn f).asExpr p).numRows ((DMatrix.ofFn g).asExpr p).numRows = .error .assertFailed from
          if_neg hr]
      rfl

/-- Adding a 3×1 matrix to a 2×2 matrix succeeds and uses the entries `[[1, 2], [2, 3]]`. -/
example : ((DMatrix.ofFn (fun (_ : Fin 2) (_ : Fin 2) => (⟨0⟩ : Exact ℤ))).addAssign x64d
    ((DMatrix.ofFn (fun (i : Fin 3) (_ : Fin 1) => (⟨i + 1⟩ : Exact ℤ))).asExpr x64d)).toRes.map
      (fun m => m.data.map Exact.val) = .ok [1, 2, 2, 3] := by decide +kernel

example : (∀ i < 2, ∀ j < 2, i * 1 + j < 3 * 1) ∧ ¬ (2 = 3 ∧ 2 = 1) := by decide

end C34

/-! ## C35 -/
section C35

theorem interrupted_arr {C : Type} (g : Fin n → C → Upd C) (v : Fin n → C) {e : Panic}
    (h : (forEach (List.finRange n) (fun i v => arrUpd v i (g i)) v).panic = some e) :
    InterruptedBy g v (forEach (List.finRange n) (fun i v => arrUpd v i (g i)) v).val e := by
  obtain ⟨k, h1, h2, h3, h4⟩ := arrLoop_crash g v h
  exact ⟨k, h3, h1, h2, h4⟩

theorem interrupted_mat (g : Fin r → Fin c → T → Upd T) (v : Fin r → Fin c → T) {e : Panic}
    (h : (forEach (List.finRange r) (fun i a => arrUpd a i (fun lo =>
      forEach (List.finRange c) (fun j lo => arrUpd lo j (g i j)) lo)) v).panic = some e) :
    InterruptedBy (fun ij : Fin r ×ₗ Fin c => g (ofLex ij).1 (ofLex ij).2) (cells v)
      (cells (forEach (List.finRange r) (fun i a => arrUpd a i (fun lo =>
        forEach (List.finRange c) (fun j lo => arrUpd lo j (g i j)) lo)) v).val) e := by
  obtain ⟨k, h1, h2, h3, h4⟩ := arrLoop_crash (fun i lo =>
    forEach (List.finRange c) (fun j lo => arrUpd lo j (g i j)) lo) v h
  obtain ⟨l, h5, h6, h7, h8⟩ := arrLoop_crash (g k) (v k) h1
  refine ⟨toLex (k, l), fun ij hij => ?_, h5, ?_, fun ij hij => ?_⟩
  · rcases Prod.Lex.lt_iff.1 hij with h9 | ⟨h9, h10⟩
    · obtain ⟨h11, h12⟩ := h3 _ h9
      obtain ⟨h13, h14⟩ := arrLoop_done _ _ h11 (ofLex ij).2
      refine ⟨h13, ?_⟩
      show (forEach (List.finRange r) _ v).val (ofLex ij).1 (ofLex ij).2 = _
      rw [h12, h14]
    · have h9' : (ofLex ij).1 = k := h9
      obtain ⟨h11, h12⟩ := h7 _ h10
      simp only [cells, h9']
      refine ⟨h11, ?_⟩
      rw [h2, h12]
  · show (forEach (List.finRange r) _ v).val k l = _
    rw [h2, h6]; rfl
  · rcases Prod.Lex.lt_iff.1 hij with h9 | ⟨h9, h10⟩
    · show (forEach (List.finRange r) _ v).val (ofLex ij).1 (ofLex ij).2 = _
      rw [h4 _ h9]
    · have h9' : (ofLex ij).1 = k := h9.symm
      simp only [cells, h9']
      rw [h2, h8 _ h10]

/-- C35: `+=` / `-=` on a `DVector` interrupted by a panic (of the operand's `entry` or of the element operation). -/
theorem C35_dvector [RAddAssign T U] [RSubAssign T U] (f : Fin n → T) (b : VExpr U) (e : Panic) :
    (((DVector.ofFn f).addAssign b).panic = some e → ∃ g : Fin n → T, ((DVector.ofFn f).addAssign b).val = DVector.ofFn g ∧
      InterruptedBy (fun (i : Fin n) x => Upd.withRes (b.entry i) x (fun y => RAddAssign.addAssign x y)) f g e) ∧
    (((DVector.ofFn f).subAssign b).panic = some e → ∃ g : Fin n → T, ((DVector.ofFn f).subAssign b).val = DVector.ofFn g ∧
      InterruptedBy (fun (i : Fin n) x => Upd.withRes (b.entry i) x (fun y => RSubAssign.subAssign x y)) f g e) := by
  have h2 : (DVector.ofFn f).data.length = n := by simp [DVector.ofFn]
  unfold DVector.addAssign DVector.subAssign
  rw [h2]
  constructor
  · rw [show forEach (List.range n) _ (DVector.ofFn f).data = _ from vassign_eq _ b.entry f]
    exact fun h => ⟨_, rfl, interrupted_arr _ f h⟩
  · rw [show forEach (List.range n) _ (DVector.ofFn f).data = _ from vassign_eq _ b.entry f]
    exact fun h => ⟨_, rfl, interrupted_arr _ f h⟩

/-- C35: `+=` / `-=` on a `DMatrix`. -/
theorem C35_dmatrix [RAddAssign T U] [RSubAssign T U] (hp : p.Fits r c) (f : Fin r → Fin c → T) (b : MExpr U)
    (e : Panic) :
    (((DMatrix.ofFn f).addAssign p b).panic = some e →
      ∃ g : Fin r → Fin c → T, ((DMatrix.ofFn f).addAssign p b).val = DMatrix.ofFn g ∧
      InterruptedBy (fun ij x => Upd.withRes (b.entry (ofLex ij).1 (ofLex ij).2) x (fun y => RAddAssign.addAssign x y))
        (cells f) (cells g) e) ∧
    (((DMatrix.ofFn f).subAssign p b).panic = some e →
      ∃ g : Fin r → Fin c → T, ((DMatrix.ofFn f).subAssign p b).val = DMatrix.ofFn g ∧
      InterruptedBy (fun ij x => Upd.withRes (b.entry (ofLex ij).1 (ofLex ij).2) x (fun y => RSubAssign.subAssign x y))
        (cells f) (cells g) e) := by
  unfold DMatrix.addAssign DMatrix.subAssign
  rw [massign_eq hp, massign_eq hp]
  exact ⟨fun h => ⟨_, rfl, interrupted_mat _ f h⟩, fun h => ⟨_, rfl, interrupted_mat _ f h⟩⟩

/-- C35: `+=` / `-=` on an `SVector`, and multiplication by a scalar in place. -/
theorem C35_svector [AddAssignRef T] [SubAssignRef T] [MulRefs T] (u v : SVector T n) (x : T) (e : Panic) :
    ((u.addAssignRef v).panic = some e → InterruptedBy (fun i x => AddAssignRef.addAssign x (v.val i)) u.val
      (u.addAssignRef v).val.val e) ∧
    ((u.subAssignRef v).panic = some e → InterruptedBy (fun i x => SubAssignRef.subAssign x (v.val i)) u.val
      (u.subAssignRef v).val.val e) ∧
    ((u.mulAssignRef x).panic = some e → InterruptedBy (fun _ y => Upd.ofRes y (MulRefs.mulRefs y x)) u.val
      (u.mulAssignRef x).val.val e) ∧
    u.addAssignV v = u.addAssignRef v ∧ u.subAssignV v = u.subAssignRef v ∧ u.mulAssign x = u.mulAssignRef x :=
  ⟨fun h => interrupted_arr _ u.val h, fun h => interrupted_arr _ u.val h, fun h => interrupted_arr _ u.val h,
    rfl, rfl, rfl⟩

/-- C35: `+=` / `-=` on an `SMatrix`; `*=` computes the product first and leaves the matrix unchanged if it panics. -/
theorem C35_smatrix [RZero T] [AddAssignRef T] [SubAssignRef T] [MulRefs T] (a b : SMatrix T r c) (s : SMatrix T c c)
    (e : Panic) :
    ((a.addAssignRef b).panic = some e → InterruptedBy
      (fun ij x => AddAssignRef.addAssign x (b.val (ofLex ij).1 (ofLex ij).2)) (cells a.val)
      (cells (a.addAssignRef b).val.val) e) ∧
    ((a.subAssignRef b).panic = some e → InterruptedBy
      (fun ij x => SubAssignRef.subAssign x (b.val (ofLex ij).1 (ofLex ij).2)) (cells a.val)
      (cells (a.subAssignRef b).val.val) e) ∧
    ((a.mulAssignRef s).panic = some e → (a.mulAssignRef s).val = a) ∧
    a.addAssignV b = a.addAssignRef b ∧ a.subAssignV b = a.subAssignRef b ∧ a.mulAssign s = a.mulAssignRef s := by
  refine ⟨fun h => interrupted_mat _ a.val h, fun h => interrupted_mat _ a.val h, fun h => ?_, rfl, rfl, rfl⟩
  unfold SMatrix.mulAssignRef at *
  cases hx : a.mulRef s with
  | ok x => rw [hx] at h; cases h
  | error e => rfl

/-- One element of a polynomial compound assignment: `op` with the coefficient of the operand if it has one. -/
def polyStep (op : T → T → Upd T) (q : List T) (i : ℕ) (y : T) : Upd T :=
  match q[i]? with
  | some x => op y x
  | none => .done y

theorem interrupted_zip {op : T → T → Upd T} {q l : List T} (hl : q.length ≤ l.length) {e : Panic}
    (h : (zipUpd op q l).panic = some e) :
    ∃ old new : Fin l.length → T, List.ofFn old = l ∧ (zipUpd op q l).val = List.ofFn new ∧
      InterruptedBy (fun (i : Fin l.length) y => polyStep op q i y) old new e := by
  have hlen := zipUpd_length op q l
  obtain ⟨k, x, y, h1, h2, h3, h4, h5, h6⟩ := zipUpd_crash op q l hl h
  obtain ⟨hk, _⟩ := List.getElem?_eq_some_iff.1 h2
  have hget : ∀ (i : Fin l.length) z, (zipUpd op q l).val[(i : ℕ)]? = some z →
      (zipUpd op q l).val[(i : ℕ)]'(by rw [hlen]; exact i.2) = z := by
    intro i z hz
    exact (List.getElem?_eq_some_iff.1 hz).2
  refine ⟨fun i => l[i], fun i => (zipUpd op q l).val[(i : ℕ)]'(by rw [hlen]; exact i.2), List.ofFn_getElem, ?_,
    ⟨k, hk⟩, fun i hi => ?_, ?_, ?_, fun i hi => ?_⟩
  · apply List.ext_getElem
    · simp [hlen]
    · intro i h7 h8; simp
  · obtain ⟨x, y, h7, h8, h9, h10⟩ := h5 i hi
    have h11 : l[i] = y := by simpa using (List.getElem?_eq_some_iff.1 h8).2
    simp only [polyStep, h7, h11]
    exact ⟨h9, hget i _ h10⟩
  · have h11 : l[k] = y := (List.getElem?_eq_some_iff.1 h2).2
    simp only [polyStep, h1, Fin.getElem_fin, h11]
    exact h3
  · have h11 : l[k] = y := (List.getElem?_eq_some_iff.1 h2).2
    simp only [polyStep, h1, Fin.getElem_fin, h11]
    exact hget ⟨k, hk⟩ _ h4
  · have := h6 i hi
    rw [List.getElem?_eq_getElem i.2] at this
    simpa using hget i _ this

/-- C35: `p += &q` and `p -= &q` on polynomials: first `p` is padded with zeros to the longer length, then the
coefficients are updated in order. -/
theorem C35_polynomial_ref [RZero T] [AddAssignRef T] [SubAssignRef T] (a b : Poly T) (e : Panic) :
    ((a.addAssignRef b).panic = some e → ∃ old new : Fin (max a.a.length b.a.length) → T,
      List.ofFn old = a.a ++ List.replicate (b.a.length - a.a.length) zero ∧
      (a.addAssignRef b).val.a = List.ofFn new ∧
      InterruptedBy (fun (i : Fin _) y => polyStep AddAssignRef.addAssign b.a i y) old new e) ∧
    ((a.subAssignRef b).panic = some e → ∃ old new : Fin (max a.a.length b.a.length) → T,
      List.ofFn old = a.a ++ List.replicate (b.a.length - a.a.length) zero ∧
      (a.subAssignRef b).val.a = List.ofFn new ∧
      InterruptedBy (fun (i : Fin _) y => polyStep SubAssignRef.subAssign b.a i y) old new e) := by
  have hpad : a.padded b = a.a ++ List.replicate (b.a.length - a.a.length) zero := by
    unfold Poly.padded Poly.resizeZero
    split
    · rfl
    · rw [show b.a.length - a.a.length = 0 by omega]; simp
  have key : ∀ op : T → T → Upd T, (zipUpd op b.a (a.padded b)).panic = some e →
      ∃ old new : Fin (max a.a.length b.a.length) → T,
      List.ofFn old = a.a ++ List.replicate (b.a.length - a.a.length) zero ∧
      (zipUpd op b.a (a.padded b)).val = List.ofFn new ∧
      InterruptedBy (fun (i : Fin _) y => polyStep op b.a i y) old new e := by
    intro op h
    have hl := a.padded_length b
    rw [← hl, ← hpad]
    exact interrupted_zip (by omega) h
  rw [Poly.addAssignRef_eq, Poly.subAssignRef_eq]
  exact ⟨key _, key _⟩

/-- C35: `p += q` by value updates the common coefficients in order, then appends; a panic can only occur before
anything was appended. -/
theorem C35_polynomial_add_value [AddAssignRef T] (a b : Poly T) (e : Panic) (h : (a.addAssignV b).panic = some e) :
    ∃ old new : Fin a.a.length → T, List.ofFn old = a.a ∧ (a.addAssignV b).val.a = List.ofFn new ∧
      InterruptedBy (fun (i : Fin _) y => polyStep AddAssignRef.addAssign b.a i y) old new e := by
  rw [Poly.addAssignV_eq] at h ⊢
  rcases hz : (zipUpd AddAssignRef.addAssign (b.a.take a.a.length) a.a) with ⟨v, _ | e'⟩
  · rw [hz] at h; cases h
  · rw [hz] at h
    have he : e' = e := by simpa [Upd.andThen, Upd.into] using h
    subst he
    obtain ⟨old, new, h1, h2, h3⟩ := interrupted_zip (op := AddAssignRef.addAssign) (q := b.a.take a.a.length)
      (l := a.a) (e := e') (by simp) (by rw [hz])
    refine ⟨old, new, h1, ?_, ?_⟩
    · rw [hz] at h2; exact h2
    · have : (fun (i : Fin a.a.length) (y : T) => polyStep AddAssignRef.addAssign b.a i y) =
          fun (i : Fin a.a.length) y => polyStep AddAssignRef.addAssign (b.a.take a.a.length) i y := by
        funext i y
        unfold polyStep
        rw [List.getElem?_take_of_lt i.2]
      rw [this]; exact h3

/-- C35: `p -= q` by value first negates `q` (a panic there leaves `p` unchanged), then does `p += -q`. -/
theorem C35_polynomial_sub_value [AddAssignRef T] [RNeg T] (a b : Poly T) :
    (∀ e, b.neg = .error e → a.subAssignV b = ⟨a, some e⟩) ∧
    ∀ m, b.neg = .ok m → a.subAssignV b = a.addAssignV m := by
  constructor <;> intro x h <;> unfold Poly.subAssignV <;> rw [h] <;> rfl

/-- C35: `p *= q` leaves `p` unchanged if it panics. -/
theorem C35_polynomial_mul [RZero T] [AddAssignRef T] [MulRefs T] (a b : Poly T) (e : Panic)
    (h : (a.mulAssign b).panic = some e) : (a.mulAssign b).val = a := by
  unfold Poly.mulAssign at *
  cases hx : (MulRefs.mulRefs a b : Res (Poly T)) with
  | ok x => rw [hx] at h; cases h
  | error e => rfl

/-- An overflow in the middle: in checked `i8` arithmetic `[1, 100, 1] += [1, 100, 1]` leaves `[2, 100, 1]`. -/
example : ((⟨[⟨1⟩, ⟨100⟩, ⟨1⟩]⟩ : DVector (MInt 8 true)).addAssign (sliceExpr [(⟨1⟩ : MInt 8 true), ⟨100⟩, ⟨1⟩])) =
    ⟨⟨[⟨2⟩, ⟨100⟩, ⟨1⟩]⟩, some .overflow⟩ := by decide +kernel

example : ((⟨[⟨1⟩, ⟨100⟩]⟩ : Poly (MInt 8 true)).addAssignRef ⟨[⟨1⟩, ⟨100⟩, ⟨1⟩]⟩).val.a = [⟨2⟩, ⟨100⟩, ⟨0⟩] ∧
    ((⟨[⟨1⟩, ⟨100⟩]⟩ : Poly (MInt 8 true)).addAssignRef ⟨[⟨1⟩, ⟨100⟩, ⟨1⟩]⟩).panic = some .overflow := by
  decide +kernel

end C35

end Magnesia
