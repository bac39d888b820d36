import Verif.Proof.DynEff

/-!
# C84: when the closures of a lazy expression are called

In all theorems the closures are arbitrary computations on an arbitrary state, which may also panic.
-/

namespace Magnesia

variable {S Λ : Type} {T U : Type}

/-- Constructing a vector expression and evaluating it calls the closures in the expected order - those of an intermediate
`eval()` when the operand is constructed, all others once for each entry, in the order of the entries - and no others. If
something panics, a beginning of this sequence of calls was made. -/
theorem C84_eval_vec (p : Profile) (e : ETree S Λ .vec T) (s : S) (log : List (FnCall Λ)) :
    ∃ calls, calls <+: e.buildCalls ++ e.evalCalls ∧ (e.runV p (s, log)).2.2 = log ++ calls ∧
      ∀ v, (e.runV p (s, log)).1 = .ok v → calls = e.buildCalls ++ e.evalCalls ∧ v.data.length = e.rows := by
  have := (e.build_good p).bind (f := fun o : EVExpr _ _ => o.eval) (d := e.evalCalls)
    (R := fun v => v.data.length = e.rows) (fun o ho => ho.2.2)
  obtain ⟨pre, h1, h2, h3, -⟩ := this s log
  exact ⟨pre, h1, h2, h3⟩

/-- The same for matrix expressions; the order of the entries is row after row. -/
theorem C84_eval_mat (p : Profile) (e : ETree S Λ .mat T) (s : S) (log : List (FnCall Λ)) :
    ∃ calls, calls <+: e.buildCalls ++ e.evalCalls ∧ (e.runM p (s, log)).2.2 = log ++ calls ∧
      ∀ m, (e.runM p (s, log)).1 = .ok m →
        calls = e.buildCalls ++ e.evalCalls ∧ m.numRows = e.rows ∧ m.numCols = e.cols := by
  have := (e.build_good p).bind (f := fun o : EMExpr _ _ => o.eval) (d := e.evalCalls)
    (R := fun m => m.numRows = e.rows ∧ m.numCols = e.cols) (fun o ho => ho.2.2.2)
  obtain ⟨pre, h1, h2, h3, -⟩ := this s log
  exact ⟨pre, h1, h2, h3⟩

theorem ETree.Lazy.buildCalls {k : Kind} (e : ETree S Λ k T) : e.Lazy → e.buildCalls = [] := by
  induction e with
  | evalV => exact fun h => h.elim
  | evalM => exact fun h => h.elim
  | prod => exact fun h => h.elim
  | zipV a b iha ihb => exact fun h => by simp [ETree.buildCalls, iha h.1, ihb h.2]
  | addV a b iha ihb => exact fun h => by simp [ETree.buildCalls, iha h.1, ihb h.2]
  | subV a b iha ihb => exact fun h => by simp [ETree.buildCalls, iha h.1, ihb h.2]
  | mulV a b iha ihb => exact fun h => by simp [ETree.buildCalls, iha h.1, ihb h.2]
  | divV a b iha ihb => exact fun h => by simp [ETree.buildCalls, iha h.1, ihb h.2]
  | zipM a b iha ihb => exact fun h => by simp [ETree.buildCalls, iha h.1, ihb h.2]
  | addM a b iha ihb => exact fun h => by simp [ETree.buildCalls, iha h.1, ihb h.2]
  | subM a b iha ihb => exact fun h => by simp [ETree.buildCalls, iha h.1, ihb h.2]
  | mulM a b iha ihb => exact fun h => by simp [ETree.buildCalls, iha h.1, ihb h.2]
  | divM a b iha ihb => exact fun h => by simp [ETree.buildCalls, iha h.1, ihb h.2]
  | mapV _ _ _ ih => exact ih
  | conjV _ ih => exact ih
  | diagOf _ ih => exact ih
  | mapM _ _ _ ih => exact ih
  | t _ ih => exact ih
  | h _ ih => exact ih
  | diagM _ ih => exact ih
  | _ => exact fun _ => rfl

/-- Expressions are lazy: as long as no `eval()` is involved, constructing one (also if this panics because lengths do not
match) calls no closure and leaves the state of the closures alone. -/
theorem C84_lazy (p : Profile) {k : Kind} (e : ETree S Λ k T) (he : e.Lazy) (s : S) (log : List (FnCall Λ)) :
    (e.build p (s, log)).2 = (s, log) := by
  obtain ⟨pre, h1, h2, -, h4⟩ := e.build_good p s log
  rw [he.buildCalls, List.prefix_nil] at h1
  subst h1
  exact Prod.ext (h4 rfl) (by simpa using h2)

/-- Reading one entry of an expression calls only the closures this entry needs. -/
theorem C84_entry_vec (p : Profile) (e : ETree S Λ .vec T) {s s' : S} {log log' : List (FnCall Λ)}
    {o : EVExpr (Obs S Λ) T} (h : e.build p (s, log) = (.ok o, (s', log'))) (i : ℕ) (t : S) (l : List (FnCall Λ)) :
    ∃ calls, calls <+: e.callsAt i 0 ∧ (o.entry i (t, l)).2.2 = l ++ calls ∧
      ∀ x, (o.entry i (t, l)).1 = .ok x → calls = e.callsAt i 0 := by
  obtain ⟨_, _, _, h3, _⟩ := e.build_good p s log
  rw [h] at h3
  obtain ⟨pre, g1, g2, g3, -⟩ := (h3 o rfl).2.2.1 i 0 t l
  exact ⟨pre, g1, g2, fun x hx => (g3 x hx).1⟩

theorem C84_entry_mat (p : Profile) (e : ETree S Λ .mat T) {s s' : S} {log log' : List (FnCall Λ)}
    {o : EMExpr (Obs S Λ) T} (h : e.build p (s, log) = (.ok o, (s', log'))) (i j : ℕ) (t : S) (l : List (FnCall Λ)) :
    ∃ calls, calls <+: e.callsAt i j ∧ (o.entry i j (t, l)).2.2 = l ++ calls ∧
      ∀ x, (o.entry i j (t, l)).1 = .ok x → calls = e.callsAt i j := by
  obtain ⟨_, _, _, h3, _⟩ := e.build_good p s log
  rw [h] at h3
  obtain ⟨pre, g1, g2, g3, -⟩ := (h3 o rfl).2.2.2.1 i j t l
  exact ⟨pre, g1, g2, fun x hx => (g3 x hx).1⟩

/-- `v += e` reads the entries of `e` at the indices of `v` - not of `e`, whose length is not looked at - once each and in
order; the length of `v` stays the same, even if something panics. -/
theorem C84_addAssign_vec [RAddAssign T U] (p : Profile) (v : DVector T) (e : ETree S Λ .vec U) {s s' : S}
    {log log' : List (FnCall Λ)} {o : EVExpr (Obs S Λ) U} (h : e.build p (s, log) = (.ok o, (s', log'))) :
    ∃ calls, calls <+: e.gridCalls v.data.length 1 ∧ (v.eAddAssign o (s', log')).2.2 = log' ++ calls ∧
      ((v.eAddAssign o (s', log')).1.panic = none → calls = e.gridCalls v.data.length 1) ∧
      (v.eAddAssign o (s', log')).1.val.data.length = v.data.length := by
  obtain ⟨_, _, _, h3, _⟩ := e.build_good p s log
  rw [h] at h3
  exact assignV_logs (h3 o rfl).2 RAddAssign.addAssign s' log'

theorem C84_subAssign_vec [RSubAssign T U] (p : Profile) (v : DVector T) (e : ETree S Λ .vec U) {s s' : S}
    {log log' : List (FnCall Λ)} {o : EVExpr (Obs S Λ) U} (h : e.build p (s, log) = (.ok o, (s', log'))) :
    ∃ calls, calls <+: e.gridCalls v.data.length 1 ∧ (v.eSubAssign o (s', log')).2.2 = log' ++ calls ∧
      ((v.eSubAssign o (s', log')).1.panic = none → calls = e.gridCalls v.data.length 1) ∧
      (v.eSubAssign o (s', log')).1.val.data.length = v.data.length := by
  obtain ⟨_, _, _, h3, _⟩ := e.build_good p s log
  rw [h] at h3
  exact assignV_logs (h3 o rfl).2 RSubAssign.subAssign s' log'

/-- `m += e` reads the entries of `e` at the positions of `m`, row after row, once each; the shape of `m` stays the same, even
if something panics. -/
theorem C84_addAssign_mat [RAddAssign T U] (p : Profile) (m : DMatrix T) (e : ETree S Λ .mat U) {s s' : S}
    {log log' : List (FnCall Λ)} {o : EMExpr (Obs S Λ) U} (h : e.build p (s, log) = (.ok o, (s', log'))) :
    ∃ calls, calls <+: e.gridCalls m.numRows m.numCols ∧ (m.eAddAssign p o (s', log')).2.2 = log' ++ calls ∧
      ((m.eAddAssign p o (s', log')).1.panic = none → calls = e.gridCalls m.numRows m.numCols) ∧
      (m.eAddAssign p o (s', log')).1.val.numRows = m.numRows ∧ (m.eAddAssign p o (s', log')).1.val.numCols = m.numCols ∧
      (m.eAddAssign p o (s', log')).1.val.data.length = m.data.length := by
  obtain ⟨_, _, _, h3, _⟩ := e.build_good p s log
  rw [h] at h3
  exact assignM_logs p (h3 o rfl).2 RAddAssign.addAssign s' log'

theorem C84_subAssign_mat [RSubAssign T U] (p : Profile) (m : DMatrix T) (e : ETree S Λ .mat U) {s s' : S}
    {log log' : List (FnCall Λ)} {o : EMExpr (Obs S Λ) U} (h : e.build p (s, log) = (.ok o, (s', log'))) :
    ∃ calls, calls <+: e.gridCalls m.numRows m.numCols ∧ (m.eSubAssign p o (s', log')).2.2 = log' ++ calls ∧
      ((m.eSubAssign p o (s', log')).1.panic = none → calls = e.gridCalls m.numRows m.numCols) ∧
      (m.eSubAssign p o (s', log')).1.val.numRows = m.numRows ∧ (m.eSubAssign p o (s', log')).1.val.numCols = m.numCols ∧
      (m.eSubAssign p o (s', log')).1.val.data.length = m.data.length := by
  obtain ⟨_, _, _, h3, _⟩ := e.build_good p s log
  rw [h] at h3
  exact assignM_logs p (h3 o rfl).2 RSubAssign.subAssign s' log'

/-- Nothing is computed twice: if every closure given to `make_vector_expr` or `make_matrix_expr` occurs once in the expression,
then in the course of construction and evaluation each of them is called at most once with the same index arguments. -/
theorem C84_once_vec [DecidableEq Λ] (p : Profile) (e : ETree S Λ .vec T) (he : e.makeLabels.Nodup) (s : S) (ℓ : Λ)
    (idx : List ℕ) (hidx : idx ≠ []) : (e.runV p (s, [])).2.2.count (ℓ, idx) ≤ 1 := by
  obtain ⟨calls, h1, h2, -⟩ := C84_eval_vec p e s []
  obtain ⟨l, d, g⟩ := e.once he
  rw [h2, List.nil_append]
  have h3 : (makes (e.buildCalls ++ e.evalCalls)).count (ℓ, idx) ≤ 1 := List.nodup_iff_count_le_one.1 g.all.nodup _
  rw [makes, List.count_filter (by simpa using hidx)] at h3
  exact (h1.sublist.count_le _).trans h3

theorem C84_once_mat [DecidableEq Λ] (p : Profile) (e : ETree S Λ .mat T) (he : e.makeLabels.Nodup) (s : S) (ℓ : Λ)
    (idx : List ℕ) (hidx : idx ≠ []) : (e.runM p (s, [])).2.2.count (ℓ, idx) ≤ 1 := by
  obtain ⟨calls, h1, h2, -⟩ := C84_eval_mat p e s []
  obtain ⟨l, d, g⟩ := e.once he
  rw [h2, List.nil_append]
  have h3 : (makes (e.buildCalls ++ e.evalCalls)).count (ℓ, idx) ≤ 1 := List.nodup_iff_count_le_one.1 g.all.nodup _
  rw [makes, List.count_filter (by simpa using hidx)] at h3
  exact (h1.sublist.count_le _).trans h3

/-- `make_vector_expr(n, f).eval()` is `f(0)`, `f(1)`, …, `f(n-1)`, called in this order, whatever `f` does. -/
theorem C84_make (p : Profile) (ℓ : Λ) (n : ℕ) (f : ℕ → Proc S T) (s : S) (log : List (FnCall Λ)) :
    ((ETree.makeV ℓ n f).runV p (s, log)).1 = ((List.range n).mapM f s).1.map DVector.mk ∧
      ((ETree.makeV ℓ n f).runV p (s, log)).2.1 = ((List.range n).mapM f s).2 := by
  have key : ∀ (l : List ℕ) (s : S) (log : List (FnCall Λ)),
      (collect l (fun i => observed (ℓ, [i]) (f i)) (s, log)).1 = (l.mapM f s).1 ∧
      (collect l (fun i => observed (ℓ, [i]) (f i)) (s, log)).2.1 = (l.mapM f s).2 := by
    intro l
    induction l with
    | nil => exact fun s log => ⟨rfl, rfl⟩
    | cons i l ih =>
      intro s log
      rw [List.mapM_cons, collect]
      simp only [Proc.bind_eq, observed]
      rcases hr : f i s with ⟨_ | x, s'⟩
      · exact ⟨rfl, rfl⟩
      · obtain ⟨h1, h2⟩ := ih s' (log ++ [(ℓ, [i])])
        simp only []
        rcases h3 : collect l (fun i => observed (ℓ, [i]) (f i)) (s', log ++ [(ℓ, [i])]) with ⟨_ | y, w⟩ <;>
          rcases h4 : l.mapM f s' with ⟨_ | y', w'⟩ <;> rw [h3, h4] at h1 h2 <;> simp_all [Pure.pure]
  obtain ⟨h1, h2⟩ := key (List.range n) s log
  have e : (ETree.makeV ℓ n f).runV p (s, log) =
      (collect (List.range n) (fun i => observed (ℓ, [i]) (f i)) >>= fun d => pure (DVector.mk d)) (s, log) := rfl
  rw [e, Proc.bind_eq, ← h1, ← h2]
  rcases collect (List.range n) (fun i => observed (ℓ, [i]) (f i)) (s, log) with ⟨_ | y, w⟩ <;> exact ⟨rfl, rfl⟩

/-- If what the closures return does not depend on the state, then whatever they do on the side, the result is that of the
expression without side effects (which is the subject of the other properties). -/
theorem C84_steady_vec (p : Profile) (eff : List ℕ → S → S) (ℓ : Λ) (e : Tree .vec T) (s : S) (log : List (FnCall Λ)) :
    ((ETree.ofTree eff ℓ e).runV p (s, log)).1 = (do let o : VExpr T ← e.build p; o.eval) := by
  have := (ETree.build_agrees p eff ℓ e).bind (f := fun o : EVExpr _ _ => o.eval) (g := fun o : VExpr T => o.eval)
    (Q := Eq) (fun o o' h => h.2.2) (s, log)
  rcases h1 : ((ETree.ofTree eff ℓ e).runV p (s, log)).1 with x | x <;>
    rcases h2 : (do let o : VExpr T ← e.build p; o.eval) with y | y <;>
    (rw [ETree.runV] at h1; simp only [h1, h2] at this) <;> rw [this, h2]

theorem C84_steady_mat (p : Profile) (eff : List ℕ → S → S) (ℓ : Λ) (e : Tree .mat T) (s : S) (log : List (FnCall Λ)) :
    ((ETree.ofTree eff ℓ e).runM p (s, log)).1 = (do let o : MExpr T ← e.build p; o.eval) := by
  have := (ETree.build_agrees p eff ℓ e).bind (f := fun o : EMExpr _ _ => o.eval) (g := fun o : MExpr T => o.eval)
    (Q := Eq) (fun o o' h => h.2.2.2) (s, log)
  rcases h1 : ((ETree.ofTree eff ℓ e).runM p (s, log)).1 with x | x <;>
    rcases h2 : (do let o : MExpr T ← e.build p; o.eval) with y | y <;>
    (rw [ETree.runM] at h1; simp only [h1, h2] at this) <;> rw [this, h2]

/-- The same for compound assignment: the vector is left as without effects. -/
theorem C84_steady_addAssign_vec [RAddAssign T U] (p : Profile) (eff : List ℕ → S → S) (ℓ : Λ) (v : DVector T) (e : Tree .vec U) {x : VExpr U}
    (hx : e.build p = .ok x) {w w' : Obs S Λ} {o : EVExpr (Obs S Λ) U} (ho : (ETree.ofTree eff ℓ e).build p w = (.ok o, w')) :
    (v.eAddAssign o w').1 = v.addAssign x := by
  have hs := ETree.build_agrees p eff ℓ e w
  rw [ho, hx] at hs
  exact assignV_agrees hs RAddAssign.addAssign w'

theorem C84_steady_subAssign_vec [RSubAssign T U] (p : Profile) (eff : List ℕ → S → S) (ℓ : Λ) (v : DVector T) (e : Tree .vec U) {x : VExpr U}
    (hx : e.build p = .ok x) {w w' : Obs S Λ} {o : EVExpr (Obs S Λ) U} (ho : (ETree.ofTree eff ℓ e).build p w = (.ok o, w')) :
    (v.eSubAssign o w').1 = v.subAssign x := by
  have hs := ETree.build_agrees p eff ℓ e w
  rw [ho, hx] at hs
  exact assignV_agrees hs RSubAssign.subAssign w'

theorem C84_steady_addAssign_mat [RAddAssign T U] (p : Profile) (eff : List ℕ → S → S) (ℓ : Λ) (v : DMatrix T) (e : Tree .mat U) {x : MExpr U}
    (hx : e.build p = .ok x) {w w' : Obs S Λ} {o : EMExpr (Obs S Λ) U} (ho : (ETree.ofTree eff ℓ e).build p w = (.ok o, w')) :
    (v.eAddAssign p o w').1 = v.addAssign p x := by
  have hs := ETree.build_agrees p eff ℓ e w
  rw [ho, hx] at hs
  exact assignM_agrees p hs RAddAssign.addAssign w'

theorem C84_steady_subAssign_mat [RSubAssign T U] (p : Profile) (eff : List ℕ → S → S) (ℓ : Λ) (v : DMatrix T) (e : Tree .mat U) {x : MExpr U}
    (hx : e.build p = .ok x) {w w' : Obs S Λ} {o : EMExpr (Obs S Λ) U} (ho : (ETree.ofTree eff ℓ e).build p w = (.ok o, w')) :
    (v.eSubAssign p o w').1 = v.subAssign p x := by
  have hs := ETree.build_agrees p eff ℓ e w
  rw [ho, hx] at hs
  exact assignM_agrees p hs RSubAssign.subAssign w'

end Magnesia
