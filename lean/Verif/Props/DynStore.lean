import Verif.Proof.DynLoop
import Verif.Spec.Store
import Verif.Props.DynExpr

/-!
# Properties C28, C29, C30: storage and indexing of dynamic vectors and matrices
-/

namespace Magnesia

open RZero ROne

variable {T U V : Type} {p : Profile} {r c n : ℕ}

/-! ## C28 -/
section C28

/-- C28: `eval()` of a matrix expression stores exactly `num_rows * num_cols` elements, has the shape of the expression,
and indexing the result with `[[i, j]]` or reading `entry(i, j)` gives the entry of the expression. -/
theorem C28_round_trip (e : Tree .mat T) (hf : e.Fits p) (o : MExpr T) (ho : e.build p = .ok o)
    (hp : p.Fits o.numRows o.numCols) (m : DMatrix T) (hm : o.eval = .ok m) :
    m.numRows = o.numRows ∧ m.numCols = o.numCols ∧ m.data.length = o.numRows * o.numCols ∧
    ∀ i < o.numRows, ∀ j < o.numCols, m.index p i j = o.entry i j ∧ m.entry p i j = o.entry i j := by
  have he := C26_eval_is_default_matrix p e hf o ho
  rw [he, mdefaultEval_iff] at hm
  obtain ⟨f, h1, rfl⟩ := hm
  refine ⟨rfl, rfl, length_rows f, fun i hi j hj => ?_⟩
  have h2 := entry_ofFn' hp f hi hj
  have h3 := h1 ⟨i, hi⟩ ⟨j, hj⟩
  exact ⟨(show (DMatrix.ofFn f).index p i j = _ from h2).trans h3.symm, h2.trans h3.symm⟩

/-- C28: `eval()` returns exactly if all entries do. -/
theorem C28_eval_returns (e : Tree .mat T) (hf : e.Fits p) (o : MExpr T) (ho : e.build p = .ok o) :
    Returns o.eval ↔ ∀ i < o.numRows, ∀ j < o.numCols, Returns (o.entry i j) := by
  rw [C26_eval_is_default_matrix p e hf o ho]
  constructor
  · rintro ⟨m, hm⟩ i hi j hj
    obtain ⟨f, h1, rfl⟩ := mdefaultEval_iff.1 hm
    exact ⟨_, h1 ⟨i, hi⟩ ⟨j, hj⟩⟩
  · intro h
    choose f hf using fun (i : Fin o.numRows) (j : Fin o.numCols) => h i i.2 j j.2
    exact ⟨_, mdefaultEval_iff.2 ⟨f, hf, rfl⟩⟩

/-- C28: a nested array is stored row after row. -/
theorem C28_array (a : Fin r → Fin c → T) :
    ∃ m, (arrayExpr a).eval = .ok m ∧ m.numRows = r ∧ m.numCols = c ∧ m.data.length = r * c ∧
      ∀ (i : Fin r) (j : Fin c), m.data[(i : ℕ) * c + j]? = some (a i j) := by
  refine ⟨DMatrix.ofFn a, ?_, rfl, rfl, length_rows a, fun i j => getElem?_rows a i j⟩
  show Except.ok _ = _
  congr 2
  rw [List.ofFn_eq_map]
  simp only [List.ofFn_eq_map, List.flatMap]

theorem run_shape (s : MStep T) (m : DMatrix T) :
    (s.run p m).val.numRows = m.numRows ∧ (s.run p m).val.numCols = m.numCols ∧
    (s.run p m).val.data.length = m.data.length := by
  cases s with
  | set i j x => exact indexSet_shape m i j x
  | addAssign rhs => exact assignLoop_shape m rhs _
  | subAssign rhs => exact assignLoop_shape m rhs _

/-- C28: whatever history of index writes, `+=` and `-=` (panicking ones included), with whatever operands, the shape
and the number of stored elements never change. -/
theorem C28_history (m : DMatrix T) (h : List (MStep T)) :
    (m.history p h).numRows = m.numRows ∧ (m.history p h).numCols = m.numCols ∧
    (m.history p h).data.length = m.data.length := by
  unfold DMatrix.history
  induction h generalizing m with
  | nil => exact ⟨rfl, rfl, rfl⟩
  | cons s h ih =>
    obtain ⟨h1, h2, h3⟩ := run_shape (p := p) s m
    obtain ⟨h4, h5, h6⟩ := ih (s.run p m).val
    exact ⟨h4.trans h1, h5.trans h2, h6.trans h3⟩

/-- C28: every matrix obtained from an expression by `eval()` and any history of mutations is a full `r × c` table, each
position of which can be read. -/
theorem C28_reachable (e : Tree .mat T) (hf : e.Fits p) (o : MExpr T) (ho : e.build p = .ok o)
    (hp : p.Fits o.numRows o.numCols) (m : DMatrix T) (hm : o.eval = .ok m) (h : List (MStep T)) :
    ∃ f : Fin o.numRows → Fin o.numCols → T, m.history p h = DMatrix.ofFn f ∧
      ∀ (i : Fin o.numRows) (j : Fin o.numCols), (m.history p h).index p i j = .ok (f i j) := by
  obtain ⟨h1, h2, h3, _⟩ := C28_round_trip e hf o ho hp m hm
  obtain ⟨h4, h5, h6⟩ := C28_history (p := p) m h
  obtain ⟨f, hf'⟩ := exists_ofFn (h4.trans h1) (h5.trans h2) (h6.trans h3)
  exact ⟨f, hf', fun i j => by rw [hf']; exact entry_ofFn hp f i j⟩

/-- C28: vectors keep their length. -/
theorem C28_vector_history (v : DVector T) (h : List (VStep T)) : (v.history h).data.length = v.data.length := by
  have run_len : ∀ (s : VStep T) (v : DVector T), (s.run v).val.data.length = v.data.length := by
    intro s v
    have key : ∀ {U : Type} (e : ℕ → Res U) (op : T → U → Upd T),
        (forEach (List.range v.data.length) (fun index d =>
          updAt d index (fun x => Upd.withRes (e index) x (fun y => op x y))) v.data).val.length = v.data.length := by
      intro U e op
      refine forEach_inv (Inv := fun d : List T => d.length = v.data.length) _ (fun j _ d hd => ?_) v.data rfl
      rw [updAt_length]; exact hd
    cases s with
    | set i x => exact updAt_length _ _ _
    | addAssign rhs => exact key _ _
    | subAssign rhs => exact key _ _
  unfold DVector.history
  induction h generalizing v with
  | nil => rfl
  | cons s h ih => exact (ih (s.run v).val).trans (run_len s v)

/-- A history with a failing write and a failing `+=` in the middle. -/
example : ((DMatrix.ofFn (fun (i : Fin 2) (j : Fin 2) => (⟨10 * (i : ℤ) + j⟩ : Exact ℤ))).history x64
    [.set 0 1 ⟨7⟩, .set 5 5 ⟨8⟩, .addAssign (DMatrix.ofFn (fun (_ : Fin 1) (_ : Fin 2) => (⟨100⟩ : Exact ℤ)) |>.asExpr x64)]).data.map Exact.val
    = [100, 107, 10, 11] := by decide +kernel

end C28

/-! ## C29 -/
section C29

/-- C29: exactly what indexing does. The flat position `row * num_cols + col` (wrapped modulo `2^bits` in builds
without overflow checks) is looked up in the row-major storage; nothing else is checked. -/
theorem C29_exact (m : DMatrix T) (i j : ℕ) (x : T) : m.index p i j = .ok x ↔
    m.data[(i * m.numCols + j) % 2 ^ p.bits]? = some x ∧
      (p.checked = true → i * m.numCols + j < 2 ^ p.bits) := by
  unfold DMatrix.index
  constructor
  · intro h
    obtain ⟨k, h1, h2⟩ := bind_ok h
    obtain ⟨h3, h4⟩ := (flatIndex_exact i j k).1 h1
    rw [h3]
    exact ⟨getIdx_eq.1 h2, h4⟩
  · rintro ⟨h1, h2⟩
    rw [(flatIndex_exact i j _).2 ⟨rfl, h2⟩]
    exact getIdx_eq.2 h1

/-- C29: an index with an out-of-range row panics, provided the index product does not wrap (which it cannot in a build
with overflow checks). -/
theorem C29_row_out_of_range (f : Fin r → Fin c → T) (i j : ℕ) (hi : r ≤ i)
    (hw : p.checked = true ∨ i * c + j < 2 ^ p.bits) : ∀ x, (DMatrix.ofFn f).index p i j ≠ .ok x := by
  intro x h
  obtain ⟨h1, h2⟩ := (C29_exact _ _ _ _).1 h
  have h3 : i * c + j < 2 ^ p.bits := hw.elim h2 id
  have h4 : (i * (DMatrix.ofFn f).numCols + j) % 2 ^ p.bits = i * c + j := Nat.mod_eq_of_lt h3
  rw [h4] at h1
  obtain ⟨h5, _⟩ := List.getElem?_eq_some_iff.1 h1
  have h6 : (DMatrix.ofFn f).data.length = r * c := length_rows f
  have : r * c ≤ i * c := Nat.mul_le_mul_right c hi
  omega

/-- C29: an in-range row with an out-of-range column does **not** panic as long as `row * num_cols + col` is smaller
than the number of stored elements: an element of a later row is returned. -/
theorem C29_col_out_of_range (hp : p.Fits r c) (f : Fin r → Fin c → T) (i j : ℕ) (hj : c ≤ j)
    (h : i * c + j < r * c) :
    ∃ (hr : i + j / c < r) (hc : j % c < c), i < i + j / c ∧
      (DMatrix.ofFn f).index p i j = .ok (f ⟨i + j / c, hr⟩ ⟨j % c, hc⟩) := by
  have hc0 : 0 < c := by
    rcases Nat.eq_zero_or_pos c with rfl | h0
    · simp at h
    · exact h0
  have hd : j / c * c + j % c = j := Nat.div_add_mod' j c
  have hflat : (i + j / c) * c + j % c = i * c + j := by rw [Nat.add_mul]; omega
  have hr : i + j / c < r := by
    by_contra hcon
    have : r * c ≤ (i + j / c) * c := Nat.mul_le_mul_right c (by omega)
    omega
  have hq : 0 < j / c := Nat.div_pos hj hc0
  refine ⟨hr, Nat.mod_lt _ hc0, by omega, ?_⟩
  rw [C29_exact]
  have hlt : i * c + j < 2 ^ p.bits := lt_of_lt_of_le h hp
  show (DMatrix.ofFn f).data[(i * c + j) % 2 ^ p.bits]? = _ ∧ _
  rw [Nat.mod_eq_of_lt hlt, ← hflat]
  exact ⟨getElem?_rows f ⟨_, hr⟩ ⟨_, Nat.mod_lt _ hc0⟩, fun _ => hlt⟩

/-- C29: every other out-of-range access panics: with a flat position beyond the stored elements (and no wrap). -/
theorem C29_beyond_storage (f : Fin r → Fin c → T) (i j : ℕ) (h : r * c ≤ i * c + j)
    (hw : i * c + j < 2 ^ p.bits) : (DMatrix.ofFn f).index p i j = .error .indexOutOfBounds := by
  unfold DMatrix.index
  rw [show DMatrix.flatIndex p (DMatrix.ofFn f).numCols i j = .ok (i * c + j) from flatIndex_eq hw]
  exact getIdx_oob (by rw [show (DMatrix.ofFn f).data.length = r * c from length_rows f]; exact h)

/-- C29: writes through an out-of-range column likewise hit a later row. -/
theorem C29_write_col_out_of_range (hp : p.Fits r c) (f : Fin r → Fin c → T) (i j : ℕ) (x : T) (hj : c ≤ j)
    (h : i * c + j < r * c) :
    ∃ (hr : i + j / c < r) (hc : j % c < c), i < i + j / c ∧
      (DMatrix.ofFn f).indexSet p i j x = .done (DMatrix.ofFn
        (Function.update f ⟨i + j / c, hr⟩ (Function.update (f ⟨i + j / c, hr⟩) ⟨j % c, hc⟩ x))) := by
  obtain ⟨hr, hc, h1, _⟩ := C29_col_out_of_range hp f i j hj h
  refine ⟨hr, hc, h1, ?_⟩
  have hd : j / c * c + j % c = j := Nat.div_add_mod' j c
  have hflat : (i + j / c) * c + j % c = i * c + j := by rw [Nat.add_mul]; omega
  unfold DMatrix.indexSet
  rw [show DMatrix.flatIndex p (DMatrix.ofFn f).numCols i j = .ok (i * c + j) from flatIndex_eq (lt_of_lt_of_le h hp),
    ← hflat]
  have := updAt_mofFn f ⟨_, hr⟩ ⟨_, hc⟩ (fun _ => .done x)
  show (updAt (List.ofFn fun i => List.ofFn (f i)).flatten ((i + j / c) * c + j % c) (fun _ => .done x)).into
    (fun d => DMatrix.mk d r c) = _
  simp only at this
  rw [this]
  rfl

/-- In a 2×3 matrix `m[[0, 4]]` is `m[[1, 1]]`. -/
example : (DMatrix.ofFn (fun (i : Fin 2) (j : Fin 3) => 10 * (i : ℕ) + j)).index x64 0 4 = .ok 11 := by decide +kernel

/-- In a 64-bit build without overflow checks a row of `2^63` in a 2-column matrix is row 0. With checks it panics. -/
example : (DMatrix.ofFn (fun (i : Fin 2) (j : Fin 2) => 10 * (i : ℕ) + j)).index x64 (2 ^ 63) 1 = .ok 1 ∧
    (DMatrix.ofFn (fun (i : Fin 2) (j : Fin 2) => 10 * (i : ℕ) + j)).index x64d (2 ^ 63) 1 = .error .overflow := by
  decide +kernel

end C29

/-! ## C30 -/
section C30

theorem lastWrite_cons {ι : Type} [DecidableEq ι] (w : ι × T) (ws : List (ι × T)) (k : ι) (old : T) :
    lastWrite (w :: ws) k old = lastWrite ws k (if w.1 = k then w.2 else old) := by
  unfold lastWrite
  rw [List.reverse_cons, List.find?_append]
  cases h : ws.reverse.find? (fun w => w.1 = k) with
  | some y => simp
  | none => by_cases h' : w.1 = k <;> simp [h']

/-- C30: `v[i] = x` on a `DVector` with `i` in range is a point update. -/
theorem C30_dvector_write (f : Fin n → T) (i : Fin n) (x : T) :
    (DVector.ofFn f).indexSet i x = .done (DVector.ofFn (Function.update f i x)) := by
  unfold DVector.indexSet
  rw [show updAt (DVector.ofFn f).data i _ = _ from updAt_vofFn f i (fun _ => .done x)]
  rfl

/-- C30: an out-of-range index panics and changes nothing. -/
theorem C30_dvector_out_of_range (f : Fin n → T) (i : ℕ) (hi : n ≤ i) (x : T) :
    (DVector.ofFn f).indexSet i x = ⟨DVector.ofFn f, some .indexOutOfBounds⟩ ∧
    (DVector.ofFn f).index i = .error .indexOutOfBounds := by
  have : (DVector.ofFn f).data[i]? = none := by simp [DVector.ofFn, hi]
  constructor
  · unfold DVector.indexSet updAt
    rw [this]; rfl
  · exact getIdx_oob (by simp [DVector.ofFn, hi])

/-- C30: reading a `DVector`. -/
theorem C30_dvector_read (f : Fin n → T) (i : Fin n) : (DVector.ofFn f).index i = .ok (f i) := getIdx_ofFn f i

/-- C30: after any history of writes (out-of-range ones panic and are ignored) every position of a `DVector` holds the
value last written to it. -/
theorem C30_dvector_history (f : Fin n → T) (ws : List (ℕ × T)) :
    (DVector.ofFn f).history (ws.map fun w => .set w.1 w.2) =
      DVector.ofFn (fun i : Fin n => lastWrite ws (i : ℕ) (f i)) := by
  unfold DVector.history
  induction ws generalizing f with
  | nil => rfl
  | cons w ws ih =>
    simp only [List.map_cons, List.foldl_cons, lastWrite_cons]
    rw [show (VStep.set w.1 w.2).run (DVector.ofFn f) = (DVector.ofFn f).indexSet w.1 w.2 from rfl]
    by_cases h : w.1 < n
    · have := C30_dvector_write f ⟨w.1, h⟩ w.2
      simp only at this
      rw [this, Upd.done, ih]
      congr 1
      funext i
      congr 1
      by_cases hi : w.1 = i
      · have : (⟨w.1, h⟩ : Fin n) = i := Fin.ext hi
        rw [this, Function.update_self, if_pos hi]
      · have : i ≠ ⟨w.1, h⟩ := fun e => hi (congrArg Fin.val e).symm
        rw [Function.update_of_ne this, if_neg hi]
    · rw [(C30_dvector_out_of_range f w.1 (by omega) w.2).1, ih]
      congr 1
      funext i
      rw [if_neg (by omega)]

/-- C30: `SVector` likewise: point update in range, panic without effect out of range. -/
theorem C30_svector_write (v : SVector T n) (i : Fin n) (x : T) :
    v.indexSet i x = .done ⟨Function.update v.val i x⟩ ∧ v.index i = .ok (v.val i) := by
  constructor
  · unfold SVector.indexSet; rw [dif_pos i.2]
  · unfold SVector.index arrGet; rw [dif_pos i.2]

theorem C30_svector_out_of_range (v : SVector T n) (i : ℕ) (hi : n ≤ i) (x : T) :
    v.indexSet i x = ⟨v, some .indexOutOfBounds⟩ ∧ v.index i = .error .indexOutOfBounds := by
  constructor
  · unfold SVector.indexSet; rw [dif_neg (by omega)]
  · unfold SVector.index arrGet; rw [dif_neg (by omega)]

theorem C30_svector_history (v : SVector T n) (ws : List (ℕ × T)) (i : Fin n) :
    (ws.foldl (fun v w => (v.indexSet w.1 w.2).val) v).index i = .ok (lastWrite ws (i : ℕ) (v.val i)) := by
  induction ws generalizing v with
  | nil => exact (C30_svector_write v i (v.val i)).2
  | cons w ws ih =>
    rw [List.foldl_cons, ih, lastWrite_cons]
    congr 2
    by_cases h : w.1 < n
    · have h2 := (C30_svector_write v ⟨w.1, h⟩ w.2).1
      simp only at h2
      rw [h2]
      by_cases hi : w.1 = i
      · have : (⟨w.1, h⟩ : Fin n) = i := Fin.ext hi
        simp [hi]
      · have : i ≠ ⟨w.1, h⟩ := fun e => hi (congrArg Fin.val e).symm
        simp [Function.update_of_ne this, hi]
    · rw [(C30_svector_out_of_range v w.1 (by omega) w.2).1, if_neg (by omega)]

/-- C30: `m[[i, j]] = x` on a `DMatrix` with both indices in range is a point update. -/
theorem C30_dmatrix_write (hp : p.Fits r c) (f : Fin r → Fin c → T) (i : Fin r) (j : Fin c) (x : T) :
    (DMatrix.ofFn f).indexSet p i j x =
      .done (DMatrix.ofFn (fun i' j' => if i' = i ∧ j' = j then x else f i' j')) := by
  unfold DMatrix.indexSet
  rw [show DMatrix.flatIndex p (DMatrix.ofFn f).numCols i j = .ok (i * c + j) from
    flatIndex_eq (lt_of_lt_of_le (flat_lt i.2 j.2) hp)]
  show (updAt (List.ofFn fun i => List.ofFn (f i)).flatten (i * c + j) (fun _ => .done x)).into
    (fun d => DMatrix.mk d r c) = _
  rw [updAt_mofFn f i j (fun _ => .done x)]
  show Upd.mk (DMatrix.ofFn (Function.update f i (Function.update (f i) j x))) none = _
  have : Function.update f i (Function.update (f i) j x) = fun i' j' => if i' = i ∧ j' = j then x else f i' j' := by
    funext i' j'
    by_cases hi : i' = i
    · subst hi
      by_cases hj : j' = j
      · subst hj; simp
      · simp [hj]
    · simp [hi]
  rw [this]
  rfl

/-- C30: reading a `DMatrix` in range. -/
theorem C30_dmatrix_read (hp : p.Fits r c) (f : Fin r → Fin c → T) (i : Fin r) (j : Fin c) :
    (DMatrix.ofFn f).index p i j = .ok (f i j) := entry_ofFn hp f i j

/-- C30: after any history of in-range writes every position of a `DMatrix` holds the value last written to it. -/
theorem C30_dmatrix_history (hp : p.Fits r c) (f : Fin r → Fin c → T) (ws : List ((Fin r × Fin c) × T)) :
    (DMatrix.ofFn f).history p (ws.map fun w => .set w.1.1 w.1.2 w.2) =
      DMatrix.ofFn (fun i j => lastWrite ws (i, j) (f i j)) := by
  unfold DMatrix.history
  induction ws generalizing f with
  | nil => rfl
  | cons w ws ih =>
    simp only [List.map_cons, List.foldl_cons, lastWrite_cons]
    rw [show (MStep.set (w.1.1 : ℕ) (w.1.2 : ℕ) w.2).run p (DMatrix.ofFn f) = (DMatrix.ofFn f).indexSet p w.1.1 w.1.2 w.2 from rfl]
    rw [C30_dmatrix_write hp, Upd.done, ih]
    congr 1
    funext i j
    congr 1
    by_cases h : w.1 = (i, j)
    · rw [if_pos h, if_pos ⟨by rw [h], by rw [h]⟩]
    · rw [if_neg h, if_neg]
      rintro ⟨h1, h2⟩
      exact h (Prod.ext h1.symm h2.symm)

/-- C30: a panicking write of a `DMatrix` changes nothing. -/
theorem C30_dmatrix_panic (m : DMatrix T) (i j : ℕ) (x : T) (h : (m.indexSet p i j x).panic ≠ none) :
    (m.indexSet p i j x).val = m := by
  unfold DMatrix.indexSet at *
  cases hfi : DMatrix.flatIndex p m.numCols i j with
  | error e => rfl
  | ok k =>
    rw [hfi] at h
    show ((updAt m.data k (fun _ => .done x)).into (fun d => DMatrix.mk d m.numRows m.numCols)).val = m
    unfold updAt at *
    cases hk : m.data[k]? with
    | none => rfl
    | some y =>
      simp only [Upd.withRes] at h
      rw [hk] at h
      exact absurd rfl h

example : lastWrite [(1, 'a'), (2, 'b'), (1, 'c')] 1 'z' = 'c' ∧ lastWrite [(1, 'a'), (2, 'b'), (1, 'c')] 3 'z' = 'z' := by
  decide

end C30

end Magnesia
