import Verif.Proof.DynProd

/-!
# Compound assignment of dynamic vectors and matrices as loops over cells (helper lemmas)
-/

namespace Magnesia

open RZero ROne

variable {ι κ σ τ C T U V : Type} {p : Profile} {r c n : ℕ}

/-- Simulation of loops: `g` maps states to states. -/
theorem forEach_sim {g : σ → τ} {h : ι → κ} {body : ι → σ → Upd σ} {body' : κ → τ → Upd τ} {l : List ι}
    (hb : ∀ i ∈ l, ∀ s, body' (h i) (g s) = (body i s).into g) (s : σ) :
    forEach (l.map h) body' (g s) = (forEach l body s).into g := by
  induction l generalizing s with
  | nil => rfl
  | cons i l ih =>
    simp only [List.map_cons, forEach]
    rw [hb i (by simp)]
    rcases hbs : body i s with ⟨v, _ | e⟩
    · exact ih (fun i hi => hb i (by simp [hi])) v
    · rfl

/-- A loop that only touches a component. -/
theorem forEach_focus {get : σ → C} {set : σ → C → σ} (h1 : ∀ s, set s (get s) = s) (h2 : ∀ s x, get (set s x) = x)
    (h3 : ∀ s x y, set (set s x) y = set s y) (body : ι → C → Upd C) (l : List ι) (s : σ) :
    forEach l (fun j s => (body j (get s)).into (set s)) s = (forEach l body (get s)).into (set s) := by
  induction l generalizing s with
  | nil => simp [forEach, Upd.into, h1]
  | cons i l ih =>
    simp only [forEach]
    rcases hb : body i (get s) with ⟨v, _ | e⟩
    · show forEach l _ (set s v) = (forEach l body v).into (set s)
      rw [ih (set s v)]
      simp only [h2, Upd.into, h3]
    · rfl

theorem updAt_vofFn (f : Fin n → T) (i : Fin n) (u : T → Upd T) :
    updAt (List.ofFn f) i u = (arrUpd f i u).into List.ofFn := by
  unfold updAt
  have : (List.ofFn f)[(i : ℕ)]? = some (f i) := by simp
  rw [this]
  simp only [arrUpd, Upd.into]
  congr 1
  apply List.ext_getElem?
  intro k
  by_cases hk : k < n
  · by_cases hki : k = i
    · subst hki; simp
    · have : (⟨k, hk⟩ : Fin n) ≠ i := fun e => hki (congrArg Fin.val e)
      simp [Ne.symm hki, hk, Function.update_of_ne this]
  · simp [hk]

theorem updAt_mofFn (f : Fin r → Fin c → T) (i : Fin r) (j : Fin c) (u : T → Upd T) :
    updAt (List.ofFn fun i => List.ofFn (f i)).flatten (i * c + j) u =
      (arrUpd f i (fun row => arrUpd row j u)).into fun f => (List.ofFn fun i => List.ofFn (f i)).flatten := by
  unfold updAt
  rw [getElem?_rows f i j]
  simp only [arrUpd, Upd.into]
  congr 1
  refine rows_ext (r := r) (c := c) (by rw [List.length_set, length_rows]) (length_rows _) fun k hk l hl => ?_
  have h1 := getElem?_rows (Function.update f i (Function.update (f i) j (u (f i j)).val)) ⟨k, hk⟩ ⟨l, hl⟩
  have h2 := getElem?_rows f ⟨k, hk⟩ ⟨l, hl⟩
  simp only at h1 h2
  rw [h1]
  by_cases hki : k = i
  · subst hki
    by_cases hlj : l = j
    · subst hlj
      rw [List.getElem?_set_self (by rw [length_rows]; exact flat_lt i.2 j.2)]
      simp
    · have : (⟨l, hl⟩ : Fin c) ≠ j := fun e => hlj (congrArg Fin.val e)
      rw [List.getElem?_set_ne (by omega), h2]
      simp [Function.update_of_ne this]
  · have : (⟨k, hk⟩ : Fin r) ≠ i := fun e => hki (congrArg Fin.val e)
    rw [List.getElem?_set_ne, h2, Function.update_of_ne this]
    intro e
    have hc : 0 < c := by omega
    have e1 : ((i : ℕ) * c + j) / c = i := by
      rw [Nat.add_comm, Nat.add_mul_div_right _ _ hc, Nat.div_eq_of_lt j.2, Nat.zero_add]
    have e2 : (k * c + l) / c = k := by
      rw [Nat.add_comm, Nat.add_mul_div_right _ _ hc, Nat.div_eq_of_lt hl, Nat.zero_add]
    rw [e, e2] at e1
    exact hki e1

theorem withRes_into {α : Type} {x : Res α} {s : σ} {k : α → Upd σ} {g : σ → τ} :
    (Upd.withRes x s k).into g = Upd.withRes x (g s) (fun a => (k a).into g) := by
  cases x <;> rfl

/-- One cell of a compound assignment: evaluate the operand, then update. -/
def cellOp (op : T → U → Upd T) (y : Res U) (x : T) : Upd T := Upd.withRes y x (fun y => op x y)

theorem arrUpd_withRes {α : Type} {x : Res α} {f : Fin n → C} {i : Fin n} {k : C → α → Upd C} :
    arrUpd f i (fun z => Upd.withRes x z (k z)) = Upd.withRes x f (fun a => arrUpd f i (fun z => k z a)) := by
  cases x with
  | ok a => rfl
  | error e => simp [arrUpd, Upd.withRes, Upd.into]

theorem range_map_fin (n : ℕ) : List.range n = (List.finRange n).map Fin.val := List.map_coe_finRange_eq_range.symm

/-- The loop of `+=`/`-=` on vectors. -/
theorem vassign_eq (op : T → U → Upd T) (e : ℕ → Res U) (f : Fin n → T) :
    forEach (List.range n) (fun index d => updAt d index (fun x => Upd.withRes (e index) x (fun y => op x y)))
      (List.ofFn f) =
    (forEach (List.finRange n) (fun i v => arrUpd v i (cellOp op (e i))) f).into List.ofFn := by
  rw [range_map_fin]
  refine forEach_sim (fun i _ f => ?_) f
  exact updAt_vofFn f i _

/-- The loop of `+=`/`-=` on matrices. -/
theorem massign_eq (hp : p.Fits r c) (op : T → U → Upd T) (e : MExpr U) (f : Fin r → Fin c → T) :
    (DMatrix.ofFn f).assignLoop p e op =
    (forEach (List.finRange r) (fun i a => arrUpd a i (fun lo =>
      forEach (List.finRange c) (fun j lo => arrUpd lo j (cellOp op (e.entry i j))) lo)) f).into DMatrix.ofFn := by
  unfold DMatrix.assignLoop
  show (forEach (List.range r) (fun row d => forEach (List.range c) (fun col d =>
    Upd.withRes (DMatrix.flatIndex p c row col) d (fun i => updAt d i (fun x => Upd.withRes (e.entry row col) x (fun y => op x y)))) d)
    (List.ofFn fun i => List.ofFn (f i)).flatten).into _ = _
  have key : forEach (List.range r) (fun row d => forEach (List.range c) (fun col d =>
      Upd.withRes (DMatrix.flatIndex p c row col) d (fun i =>
        updAt d i (fun x => Upd.withRes (e.entry row col) x (fun y => op x y)))) d)
      (List.ofFn fun i => List.ofFn (f i)).flatten =
      (forEach (List.finRange r) (fun i a => arrUpd a i (fun lo =>
        forEach (List.finRange c) (fun j lo => arrUpd lo j (cellOp op (e.entry i j))) lo)) f).into
        fun f => (List.ofFn fun i => List.ofFn (f i)).flatten := by
    rw [range_map_fin r]
    refine forEach_sim (g := fun f : Fin r → Fin c → T => (List.ofFn fun i => List.ofFn (f i)).flatten)
      (fun i _ f => ?_) f
    have h1 := forEach_focus (get := fun f : Fin r → Fin c → T => f i) (set := fun f row => Function.update f i row)
      (fun s => by simp) (fun s x => by simp) (fun s x y => by simp)
      (fun j lo => arrUpd lo j (cellOp op (e.entry i j))) (List.finRange c) f
    show _ = (arrUpd f i _).into _
    unfold arrUpd at h1 ⊢
    rw [← h1, range_map_fin c]
    refine forEach_sim (g := fun f : Fin r → Fin c → T => (List.ofFn fun i => List.ofFn (f i)).flatten)
      (fun j _ f => ?_) f
    rw [flatIndex_eq (lt_of_lt_of_le (flat_lt i.2 j.2) hp)]
    exact updAt_mofFn f i j _
  rw [key]
  rfl

/-! ### Panics of loops and of `eval` -/

theorem fromFnM_error : ∀ {n : ℕ} {f : Fin n → Res T} {e : Panic} (k : Fin n), f k = .error e →
    (∀ i < k, Returns (f i)) → fromFnM n f = .error e := by
  intro n
  induction n with
  | zero => intro f e k; exact k.elim0
  | succ n ih =>
    intro f e k hk hi
    rw [fromFnM]
    cases k using Fin.cases with
    | zero => rw [hk]; rfl
    | succ k =>
      obtain ⟨x, hx⟩ := hi 0 (Fin.succ_pos k)
      rw [hx]
      show (fromFnM n (fun i => f i.succ) >>= fun xs => _) = _
      rw [ih k hk (fun i h => hi i.succ (Fin.succ_lt_succ_iff.2 h))]
      rfl

/-- An in-place loop over cells, as a computation. -/
theorem arrLoop_toRes (g : Fin n → C → Upd C) (v : Fin n → C) :
    (forEach (List.finRange n) (fun i v => arrUpd v i (g i)) v).toRes = fromFnM n (fun i => (g i (v i)).toRes) := by
  cases h : (forEach (List.finRange n) (fun i v => arrUpd v i (g i)) v).panic with
  | none =>
    rw [toRes_done h]
    exact (fromFnM_ok_iff.2 ((arrLoop_iff g v _).1 (toRes_done h))).symm
  | some e =>
    obtain ⟨k, h1, h2, h3, h4⟩ := arrLoop_crash g v h
    have he : (forEach (List.finRange n) (fun i v => arrUpd v i (g i)) v).toRes = .error e := by
      unfold Upd.toRes; rw [h]
    rw [he, fromFnM_error k (by unfold Upd.toRes; rw [h1]) fun i hi => ⟨_, toRes_done (h3 i hi).1⟩]

theorem range_mapM (g : ℕ → Res T) : ∀ (n k : ℕ),
    (List.range' k n).mapM g = (do pure (List.ofFn (← fromFnM n (fun i : Fin n => g (k + i))))) := by
  intro n
  induction n with
  | zero => intro k; simp [fromFnM]
  | succ n ih =>
    intro k
    rw [List.range'_succ, List.mapM_cons, ih, fromFnM]
    simp only [bind_assoc, pure_bind, Fin.val_zero, Nat.add_zero, List.ofFn_cons, Fin.val_succ]
    have : (fun i : Fin n => g (k + 1 + i)) = fun i : Fin n => g (k + (i + 1)) := by
      funext i; congr 1; omega
    rw [this]

theorem vdefaultEval_eq (g : ℕ → Res T) :
    VExpr.defaultEval n g = (do pure (DVector.ofFn (← fromFnM n (fun i : Fin n => g i)))) := by
  unfold VExpr.defaultEval
  rw [List.range_eq_range', range_mapM]
  simp only [bind_assoc, pure_bind, Nat.zero_add]
  rfl

theorem mapM_flatMap (f : κ → Res T) (h : ι → List κ) : ∀ (l : List ι),
    (l.flatMap h).mapM f = (do pure (← l.mapM (fun a => (h a).mapM f)).flatten) := by
  intro l
  induction l with
  | nil => rfl
  | cons a l ih =>
    rw [List.flatMap_cons, List.mapM_append, List.mapM_cons, ih]
    simp only [bind_assoc, pure_bind, List.flatten_cons]

theorem fromFnM_map {α β : Type} (f : Fin n → Res α) (g : α → β) :
    fromFnM n (fun i => do pure (g (← f i))) = (do let v ← fromFnM n f; pure (fun i => g (v i))) := by
  induction n with
  | zero => 
    simp only [fromFnM, pure_bind]
    congr 1
    funext i; exact i.elim0
  | succ n ih =>
    simp only [fromFnM, bind_assoc, pure_bind]
    congr 1
    funext x
    rw [ih (fun i => f i.succ)]
    simp only [bind_assoc, pure_bind]
    congr 1
    funext v
    congr 1
    funext i
    refine Fin.cases ?_ (fun i => ?_) i <;> simp

theorem mdefaultEval_eq (g : ℕ → ℕ → Res T) :
    MExpr.defaultEval r c g =
      (do pure (DMatrix.ofFn (← fromFnM r (fun i : Fin r => fromFnM c (fun j : Fin c => g i j))))) := by
  unfold MExpr.defaultEval
  rw [mapM_flatMap]
  have h1 : ∀ i, ((List.range c).map (fun c => (i, c))).mapM (fun rc : ℕ × ℕ => g rc.1 rc.2) =
      (do pure (List.ofFn (← fromFnM c (fun j : Fin c => g i j)))) := by
    intro i
    rw [List.mapM_map]
    show (List.range c).mapM (fun c => g i c) = _
    rw [List.range_eq_range', range_mapM]
    simp only [Nat.zero_add]
  simp only [h1]
  rw [List.range_eq_range', range_mapM]
  simp only [Nat.zero_add, fromFnM_map, bind_assoc, pure_bind]
  rfl

/-! ### Storage -/

theorem forEach_inv {Inv : σ → Prop} {body : ι → σ → Upd σ} (l : List ι) (h : ∀ i ∈ l, ∀ s, Inv s → Inv (body i s).val)
    (s : σ) (hs : Inv s) : Inv (forEach l body s).val := by
  induction l generalizing s with
  | nil => exact hs
  | cons i l ih =>
    have h1 := h i (by simp) s hs
    simp only [forEach]
    rcases hb : body i s with ⟨v, _ | e⟩
    · rw [hb] at h1
      exact ih (fun j hj => h j (by simp [hj])) v h1
    · rw [hb] at h1; exact h1

theorem withRes_inv {Inv : σ → Prop} {α : Type} {x : Res α} {s : σ} {k : α → Upd σ} (hs : Inv s)
    (hk : ∀ a, Inv (k a).val) : Inv (Upd.withRes x s k).val := by
  cases x with
  | ok a => exact hk a
  | error e => exact hs

theorem assignLoop_shape (m : DMatrix T) (e : MExpr U) (op : T → U → Upd T) :
    (m.assignLoop p e op).val.numRows = m.numRows ∧ (m.assignLoop p e op).val.numCols = m.numCols ∧
    (m.assignLoop p e op).val.data.length = m.data.length := by
  refine ⟨rfl, rfl, ?_⟩
  refine forEach_inv (Inv := fun d : List T => d.length = m.data.length) _ (fun i _ d hd => ?_) m.data rfl
  refine forEach_inv (Inv := fun d : List T => d.length = m.data.length) _ (fun j _ d hd => ?_) d hd
  refine withRes_inv (Inv := fun d : List T => d.length = m.data.length) hd fun i => ?_
  rw [updAt_length]; exact hd

theorem indexSet_shape (m : DMatrix T) (i j : ℕ) (x : T) :
    (m.indexSet p i j x).val.numRows = m.numRows ∧ (m.indexSet p i j x).val.numCols = m.numCols ∧
    (m.indexSet p i j x).val.data.length = m.data.length := by
  unfold DMatrix.indexSet
  cases DMatrix.flatIndex p m.numCols i j with
  | error e => exact ⟨rfl, rfl, rfl⟩
  | ok k => exact ⟨rfl, rfl, updAt_length _ _ _⟩

/-- The exact result of the flat index computation. -/
theorem flatIndex_exact (i j k : ℕ) : DMatrix.flatIndex p c i j = .ok k ↔
    (i * c + j) % 2 ^ p.bits = k ∧ (p.checked = true → i * c + j < 2 ^ p.bits) := by
  unfold DMatrix.flatIndex Profile.usize
  by_cases h1 : i * c < 2 ^ p.bits
  · rw [if_pos h1]
    show (if i * c + j < 2 ^ p.bits then (.ok (i * c + j) : Res ℕ) else _) = _ ↔ _
    by_cases h2 : i * c + j < 2 ^ p.bits
    · rw [if_pos h2, Nat.mod_eq_of_lt h2]
      simp [h2]
    · rw [if_neg h2]
      cases p.checked <;> simp [h2]
  · rw [if_neg h1]
    have h2 : ¬ i * c + j < 2 ^ p.bits := by omega
    cases hc : p.checked with
    | true =>
      simp [bind, Except.bind, h2]
    | false =>
      simp only [Bool.false_eq_true, if_false]
      show (if i * c % 2 ^ p.bits + j < 2 ^ p.bits then (.ok (i * c % 2 ^ p.bits + j) : Res ℕ) else
        .ok ((i * c % 2 ^ p.bits + j) % 2 ^ p.bits)) = .ok k ↔ _
      have h3 : (i * c % 2 ^ p.bits + j) % 2 ^ p.bits = (i * c + j) % 2 ^ p.bits := by
        rw [Nat.mod_add_mod]
      by_cases h4 : i * c % 2 ^ p.bits + j < 2 ^ p.bits
      · rw [if_pos h4, ← h3, Nat.mod_eq_of_lt h4]; simp
      · rw [if_neg h4, h3]; simp

end Magnesia
