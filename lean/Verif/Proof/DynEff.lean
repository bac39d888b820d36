import Verif.Spec.DynEff
import Verif.Proof.Loops
import Verif.Proof.DE

/-! # Effects of closures: proofs -/

namespace Magnesia

variable {S Λ α β ι T U V : Type}

/-- `m` makes the calls `c`, or only the first few of them if it panics; if it returns, `Q` holds of the result; if it makes
no calls, the state is unchanged. -/
def Logs (m : Proc (Obs S Λ) α) (c : List (FnCall Λ)) (Q : α → Prop) : Prop :=
  ∀ s log, ∃ pre, pre <+: c ∧ (m (s, log)).2.2 = log ++ pre ∧ (∀ a, (m (s, log)).1 = .ok a → pre = c ∧ Q a) ∧
    (pre = [] → (m (s, log)).2.1 = s)

theorem Logs.bind {m : Proc (Obs S Λ) α} {f : α → Proc (Obs S Λ) β} {c d : List (FnCall Λ)} {Q : α → Prop} {R : β → Prop}
    (hm : Logs m c Q) (hf : ∀ a, Q a → Logs (f a) d R) : Logs (m >>= f) (c ++ d) R := by
  intro s log
  obtain ⟨pre, h1, h2, h3, h4⟩ := hm s log
  rw [Proc.bind_eq]
  rcases hr : m (s, log) with ⟨r, s', log'⟩
  rw [hr] at h2 h3 h4
  simp only at h2 h3 h4
  rcases r with e | a
  · exact ⟨pre, h1.trans (List.prefix_append _ _), h2, by simp, h4⟩
  · obtain ⟨rfl, hQ⟩ := h3 a rfl
    obtain ⟨pre', g1, g2, g3, g4⟩ := hf a hQ s' log'
    refine ⟨pre ++ pre', (List.prefix_append_right_inj _).2 g1, ?_, ?_, ?_⟩
    · simp only [g2]; rw [h2, List.append_assoc]
    · intro b hb
      obtain ⟨rfl, hR⟩ := g3 b hb
      exact ⟨rfl, hR⟩
    · intro h
      rw [List.append_eq_nil_iff] at h
      exact (g4 h.2).trans (h4 h.1)

theorem Logs.pure {a : α} {Q : α → Prop} (h : Q a) : Logs (pure a : Proc (Obs S Λ) α) [] Q := by
  intro s log
  refine ⟨[], List.prefix_refl _, by simp [Pure.pure], ?_, fun _ => rfl⟩
  intro b hb
  simp only [Pure.pure, Except.ok.injEq] at hb
  exact ⟨rfl, hb ▸ h⟩

theorem Logs.ofRes {x : Res α} {Q : α → Prop} (h : ∀ a, x = .ok a → Q a) : Logs (Proc.ofRes x : Proc (Obs S Λ) α) [] Q := by
  intro s log
  exact ⟨[], List.prefix_refl _, by simp [Proc.ofRes], fun b hb => ⟨rfl, h b hb⟩, fun _ => rfl⟩

theorem Logs.observed {c : FnCall Λ} {m : Proc S α} : Logs (observed c m) [c] (fun _ => True) := by
  intro s log
  exact ⟨[c], List.prefix_refl _, rfl, fun _ _ => ⟨rfl, trivial⟩, by simp⟩

theorem Logs.mono {m : Proc (Obs S Λ) α} {c : List (FnCall Λ)} {Q R : α → Prop} (h : Logs m c Q) (hQ : ∀ a, Q a → R a) :
    Logs m c R := by
  intro s log
  obtain ⟨pre, h1, h2, h3, h4⟩ := h s log
  exact ⟨pre, h1, h2, fun a ha => ⟨(h3 a ha).1, hQ a (h3 a ha).2⟩, h4⟩

theorem Logs.map {m : Proc (Obs S Λ) α} {c : List (FnCall Λ)} {Q : α → Prop} {R : β → Prop} {f : α → β} (h : Logs m c Q)
    (hQ : ∀ a, Q a → R (f a)) : Logs (m >>= fun a => Pure.pure (f a)) c R := by
  have := h.bind (f := fun a => Pure.pure (f a)) (d := []) (R := R) (fun a ha => Logs.pure (hQ a ha))
  simpa using this

theorem Logs.collect {f : ι → Proc (Obs S Λ) α} {c : ι → List (FnCall Λ)} (hf : ∀ i, Logs (f i) (c i) (fun _ => True)) :
    ∀ l : List ι, Logs (collect l f) (l.flatMap c) (fun xs => xs.length = l.length)
  | [] => Logs.pure rfl
  | i :: l => by
    rw [List.flatMap_cons]
    exact (hf i).bind fun x _ => (Logs.collect hf l).map (by simp)

/-- What a built object has to do with its tree. -/
def GoodV (e : EVExpr (Obs S Λ) T) (t : ETree S Λ .vec T) : Prop :=
  e.len = t.rows ∧ (∀ i j, Logs (e.entry i) (t.callsAt i j) (fun _ => True)) ∧
    Logs e.eval t.evalCalls (fun v => v.data.length = t.rows)

def GoodM (e : EMExpr (Obs S Λ) T) (t : ETree S Λ .mat T) : Prop :=
  e.numRows = t.rows ∧ e.numCols = t.cols ∧ (∀ i j, Logs (e.entry i j) (t.callsAt i j) (fun _ => True)) ∧
    Logs e.eval t.evalCalls (fun m => m.numRows = t.rows ∧ m.numCols = t.cols)

def EGood : {k : Kind} → {T : Type} → k.EObj (Obs S Λ) T → ETree S Λ k T → Prop
  | .vec, _, e, t => GoodV e t
  | .mat, _, e, t => GoodM e t

namespace ETree

theorem cols_vec : ∀ {T : Type} (e : ETree S Λ .vec T), e.cols = 1 := by
  have : ∀ {k : Kind} {T : Type} (e : ETree S Λ k T), (match k with | .vec => e.shape.2 = 1 | .mat => True) := by
    intro k T e
    induction e <;> first | exact trivial | rfl | assumption
  intro T e
  exact this e

theorem evalCalls_vec {T : Type} (e : ETree S Λ .vec T) :
    e.evalCalls = (List.range e.rows).flatMap (fun i => e.callsAt i 0) := by
  simp [evalCalls, gridCalls, cols_vec, List.range_one]

theorem evalCalls_nil {k : Kind} {T : Type} (e : ETree S Λ k T) (h : ∀ i j, e.callsAt i j = []) : e.evalCalls = [] := by
  simp [evalCalls, gridCalls, h]

end ETree

theorem flatMap_pairs {γ : Type} (c : ℕ → ℕ → List γ) (r n : ℕ) :
    ((List.range r).flatMap (fun i => (List.range n).map (fun j => (i, j)))).flatMap (fun ij => c ij.1 ij.2) =
      (List.range r).flatMap (fun i => (List.range n).flatMap (fun j => c i j)) := by
  rw [List.flatMap_assoc]
  congr 1; funext i
  rw [List.flatMap_map]

/-- An expression with the default `eval`. -/
theorem GoodV.default {len : ℕ} {f : ℕ → Proc (Obs S Λ) T} {t : ETree S Λ .vec T} (hl : len = t.rows)
    (hf : ∀ i j, Logs (f i) (t.callsAt i j) (fun _ => True)) : GoodV ⟨len, f, EVExpr.defaultEval len f⟩ t := by
  refine ⟨hl, hf, ?_⟩
  rw [ETree.evalCalls_vec, ← hl]
  exact (Logs.collect (fun i => hf i 0) _).map (by simp)

theorem GoodM.default {r c : ℕ} {f : ℕ → ℕ → Proc (Obs S Λ) T} {t : ETree S Λ .mat T} (hr : r = t.rows) (hc : c = t.cols)
    (hf : ∀ i j, Logs (f i j) (t.callsAt i j) (fun _ => True)) : GoodM ⟨r, c, f, EMExpr.defaultEval r c f⟩ t := by
  refine ⟨hr, hc, hf, ?_⟩
  subst hr hc
  have := (Logs.collect (fun ij : ℕ × ℕ => hf ij.1 ij.2)
    ((List.range t.rows).flatMap (fun i => (List.range t.cols).map (fun j => (i, j))))).map
    (f := fun d => (⟨d, t.rows, t.cols⟩ : DMatrix T)) (R := fun m => m.numRows = t.rows ∧ m.numCols = t.cols) (by simp)
  rw [flatMap_pairs] at this
  exact this

theorem GoodV.ofData {e : VExpr T} {t : ETree S Λ .vec T} (hl : e.len = t.rows)
    (he : ∀ v, e.eval = .ok v → v.data.length = t.rows) (ht : ∀ i j, t.callsAt i j = []) : GoodV (EVExpr.ofData e) t := by
  refine ⟨hl, fun i j => ?_, ?_⟩
  · rw [ht]; exact Logs.ofRes (by simp)
  · rw [t.evalCalls_nil ht]; exact Logs.ofRes he

theorem GoodM.ofData {e : MExpr T} {t : ETree S Λ .mat T} (hr : e.numRows = t.rows) (hc : e.numCols = t.cols)
    (he : ∀ m, e.eval = .ok m → m.numRows = t.rows ∧ m.numCols = t.cols) (ht : ∀ i j, t.callsAt i j = []) :
    GoodM (EMExpr.ofData e) t := by
  refine ⟨hr, hc, fun i j => ?_, ?_⟩
  · rw [ht]; exact Logs.ofRes (by simp)
  · rw [t.evalCalls_nil ht]; exact Logs.ofRes he

theorem logs_assertEq (a b : ℕ) : Logs (Proc.ofRes (assertEq a b) : Proc (Obs S Λ) Unit) [] (fun _ => a = b) := by
  refine Logs.ofRes ?_
  intro _ h
  unfold assertEq at h
  split at h
  · assumption
  · cases h

theorem defaultEvalV_len {len : ℕ} {f : ℕ → Res T} {v : DVector T} (h : VExpr.defaultEval len f = .ok v) :
    v.data.length = len := by
  unfold VExpr.defaultEval at h
  rcases hd : (List.range len).mapM f with e | d
  · rw [hd] at h; cases h
  · rw [hd] at h; cases h
    simpa using (mapM_ok_iff.1 hd).1

theorem defaultEvalM_dims {r c : ℕ} {f : ℕ → ℕ → Res T} {v : DMatrix T} (h : MExpr.defaultEval r c f = .ok v) :
    v.numRows = r ∧ v.numCols = c := by
  unfold MExpr.defaultEval at h
  rcases hd : ((List.range r).flatMap (fun r => (List.range c).map (fun c => (r, c)))).mapM
    (fun rc => f rc.1 rc.2) with e | d
  · rw [hd] at h; cases h
  · rw [hd] at h; cases h; exact ⟨rfl, rfl⟩

theorem Logs.bind_nil {m : Proc (Obs S Λ) α} {f : α → Proc (Obs S Λ) β} {c : List (FnCall Λ)} {Q : α → Prop}
    {R : β → Prop} (hm : Logs m c Q) (hf : ∀ a, Q a → Logs (f a) [] R) : Logs (m >>= f) c R := by
  simpa using hm.bind hf

theorem Logs.nil_bind {m : Proc (Obs S Λ) α} {f : α → Proc (Obs S Λ) β} {c : List (FnCall Λ)} {Q : α → Prop}
    {R : β → Prop} (hm : Logs m [] Q) (hf : ∀ a, Q a → Logs (f a) c R) : Logs (m >>= f) c R := by
  simpa using hm.bind hf

namespace ETree

theorem build_good (p : Profile) {k : Kind} {T : Type} (t : ETree S Λ k T) : Logs (t.build p) t.buildCalls (fun o => EGood o t) := by
  induction t with
  | dvector v => exact Logs.pure (GoodV.ofData rfl (by rintro _ ⟨⟩; rfl) (fun _ _ => rfl))
  | slice s => exact Logs.pure (GoodV.ofData rfl (by rintro _ ⟨⟩; rfl) (fun _ _ => rfl))
  | makeV ℓ len f => exact Logs.pure (GoodV.default rfl (fun _ _ => Logs.observed))
  | zerosV len => exact Logs.pure (GoodV.ofData rfl (fun _ h => defaultEvalV_len h) (fun _ _ => rfl))
  | onesV len => exact Logs.pure (GoodV.ofData rfl (fun _ h => defaultEvalV_len h) (fun _ _ => rfl))
  | sameV len x => exact Logs.pure (GoodV.ofData rfl (fun _ h => defaultEvalV_len h) (fun _ _ => rfl))
  | evalV e ih =>
    refine ih.bind (fun o ho => ?_)
    obtain ⟨hl, he, hv⟩ := ho
    exact hv.map (fun v hv => GoodV.ofData hv (by rintro _ ⟨⟩; exact hv) (fun _ _ => rfl))
  | mapV ℓ e f ih =>
    refine ih.map (fun o ho => ?_)
    obtain ⟨hl, he, hv⟩ := ho
    exact GoodV.default hl (fun i j => (he i j).bind (fun _ _ => Logs.observed))
  | zipV a b iha ihb =>
    refine iha.bind (fun x hx => ihb.bind_nil (fun y hy => ?_))
    obtain ⟨hl, he, hv⟩ := hx
    obtain ⟨hl', he', hv'⟩ := hy
    refine (logs_assertEq _ _).nil_bind (fun _ hxy => Logs.pure ?_)
    exact GoodV.default hl (fun i j => (he i j).bind (fun _ _ => (he' i j).bind_nil (fun _ _ => Logs.pure trivial)))
  | addV a b iha ihb =>
    refine iha.bind (fun x hx => ihb.bind_nil (fun y hy => ?_))
    obtain ⟨hl, he, hv⟩ := hx
    obtain ⟨hl', he', hv'⟩ := hy
    refine (logs_assertEq _ _).nil_bind (fun _ hxy => Logs.pure ?_)
    exact GoodV.default hl (fun i j => (he i j).bind (fun _ _ => (he' i j).bind_nil (fun _ _ => Logs.ofRes (fun _ _ => trivial))))
  | subV a b iha ihb =>
    refine iha.bind (fun x hx => ihb.bind_nil (fun y hy => ?_))
    obtain ⟨hl, he, hv⟩ := hx
    obtain ⟨hl', he', hv'⟩ := hy
    refine (logs_assertEq _ _).nil_bind (fun _ hxy => Logs.pure ?_)
    exact GoodV.default hl (fun i j => (he i j).bind (fun _ _ => (he' i j).bind_nil (fun _ _ => Logs.ofRes (fun _ _ => trivial))))
  | mulV a b iha ihb =>
    refine iha.bind (fun x hx => ihb.bind_nil (fun y hy => ?_))
    obtain ⟨hl, he, hv⟩ := hx
    obtain ⟨hl', he', hv'⟩ := hy
    refine Logs.nil_bind (Q := fun z => z = eMakeVectorExpr x.len (fun index => do
      let x ← x.entry index
      let y ← y.entry index
      pure (x, y))) ((logs_assertEq _ _).nil_bind (fun _ hxy => Logs.pure rfl)) ?_
    rintro _ rfl
    refine Logs.pure ?_
    refine GoodV.default hl (fun i j => ?_)
    exact Logs.bind_nil (Q := fun _ => True) ((he i j).bind (fun _ _ => (he' i j).bind_nil (fun _ _ => Logs.pure trivial)))
      (fun _ _ => Logs.ofRes (fun _ _ => trivial))
  | divV a b iha ihb =>
    refine iha.bind (fun x hx => ihb.bind_nil (fun y hy => ?_))
    obtain ⟨hl, he, hv⟩ := hx
    obtain ⟨hl', he', hv'⟩ := hy
    refine Logs.nil_bind (Q := fun z => z = eMakeVectorExpr x.len (fun index => do
      let x ← x.entry index
      let y ← y.entry index
      pure (x, y))) ((logs_assertEq _ _).nil_bind (fun _ hxy => Logs.pure rfl)) ?_
    rintro _ rfl
    refine Logs.pure ?_
    refine GoodV.default hl (fun i j => ?_)
    exact Logs.bind_nil (Q := fun _ => True) ((he i j).bind (fun _ _ => (he' i j).bind_nil (fun _ _ => Logs.pure trivial)))
      (fun _ _ => Logs.ofRes (fun _ _ => trivial))
  | conjV e ih =>
    refine ih.map (fun o ho => ?_)
    obtain ⟨hl, he, hv⟩ := ho
    exact GoodV.default hl (fun i j => (he i j).bind_nil (fun _ _ => Logs.ofRes (fun _ _ => trivial)))
  | diagOf m ih =>
    refine ih.map (fun o ho => ?_)
    obtain ⟨hr, hc, he, hv⟩ := ho
    exact GoodV.default (by rw [hr, hc]; rfl) (fun i j => he i i)
  | dmatrix a => exact Logs.pure (GoodM.ofData rfl rfl (by rintro _ ⟨⟩; exact ⟨rfl, rfl⟩) (fun _ _ => rfl))
  | array a => exact Logs.pure (GoodM.ofData rfl rfl (by rintro _ ⟨⟩; exact ⟨rfl, rfl⟩) (fun _ _ => rfl))
  | makeM ℓ r c f => exact Logs.pure (GoodM.default rfl rfl (fun _ _ => Logs.observed))
  | zerosM r c => exact Logs.pure (GoodM.ofData rfl rfl (fun _ h => defaultEvalM_dims (f := (DMatrix.zeros r c).entry) h) (fun _ _ => rfl))
  | onesM r c => exact Logs.pure (GoodM.ofData rfl rfl (fun _ h => defaultEvalM_dims (f := (DMatrix.ones r c).entry) h) (fun _ _ => rfl))
  | sameM r c x => exact Logs.pure (GoodM.ofData rfl rfl (fun _ h => defaultEvalM_dims (f := (DMatrix.same r c x).entry) h) (fun _ _ => rfl))
  | eye n => exact Logs.pure (GoodM.ofData rfl rfl (fun _ h => defaultEvalM_dims (f := (DMatrix.eye n).entry) h) (fun _ _ => rfl))
  | evalM e ih =>
    refine ih.bind (fun o ho => ?_)
    obtain ⟨hr, hc, he, hv⟩ := ho
    exact hv.map (fun v hv => GoodM.ofData hv.1 hv.2 (by rintro _ ⟨⟩; exact hv) (fun _ _ => rfl))
  | mapM ℓ e f ih =>
    refine ih.map (fun o ho => ?_)
    obtain ⟨hr, hc, he, hv⟩ := ho
    exact GoodM.default hr hc (fun i j => (he i j).bind (fun _ _ => Logs.observed))
  | zipM a b iha ihb =>
    refine iha.bind (fun x hx => ihb.bind_nil (fun y hy => ?_))
    obtain ⟨hr, hc, he, hv⟩ := hx
    obtain ⟨hr', hc', he', hv'⟩ := hy
    refine (logs_assertEq _ _).nil_bind (fun _ hxy => (logs_assertEq _ _).nil_bind (fun _ hxy => Logs.pure ?_))
    exact GoodM.default hr hc (fun i j => (he i j).bind (fun _ _ => (he' i j).bind_nil (fun _ _ => Logs.pure trivial)))
  | addM a b iha ihb =>
    refine iha.bind (fun x hx => ihb.bind_nil (fun y hy => ?_))
    obtain ⟨hr, hc, he, hv⟩ := hx
    obtain ⟨hr', hc', he', hv'⟩ := hy
    refine (logs_assertEq _ _).nil_bind (fun _ hxy => (logs_assertEq _ _).nil_bind (fun _ hxy => Logs.pure ?_))
    exact GoodM.default hr hc (fun i j => (he i j).bind (fun _ _ => (he' i j).bind_nil (fun _ _ => Logs.ofRes (fun _ _ => trivial))))
  | subM a b iha ihb =>
    refine iha.bind (fun x hx => ihb.bind_nil (fun y hy => ?_))
    obtain ⟨hr, hc, he, hv⟩ := hx
    obtain ⟨hr', hc', he', hv'⟩ := hy
    refine (logs_assertEq _ _).nil_bind (fun _ hxy => (logs_assertEq _ _).nil_bind (fun _ hxy => Logs.pure ?_))
    exact GoodM.default hr hc (fun i j => (he i j).bind (fun _ _ => (he' i j).bind_nil (fun _ _ => Logs.ofRes (fun _ _ => trivial))))
  | mulM a b iha ihb =>
    refine iha.bind (fun x hx => ihb.bind_nil (fun y hy => ?_))
    obtain ⟨hr, hc, he, hv⟩ := hx
    obtain ⟨hr', hc', he', hv'⟩ := hy
    refine Logs.nil_bind (Q := fun z => z = eMakeMatrixExpr x.numRows x.numCols (fun row col => do
      let x ← x.entry row col
      let y ← y.entry row col
      pure (x, y))) ((logs_assertEq _ _).nil_bind (fun _ _ => (logs_assertEq _ _).nil_bind (fun _ _ => Logs.pure rfl))) ?_
    rintro _ rfl
    refine Logs.pure ?_
    refine GoodM.default hr hc (fun i j => ?_)
    exact Logs.bind_nil (Q := fun _ => True) ((he i j).bind (fun _ _ => (he' i j).bind_nil (fun _ _ => Logs.pure trivial)))
      (fun _ _ => Logs.ofRes (fun _ _ => trivial))
  | divM a b iha ihb =>
    refine iha.bind (fun x hx => ihb.bind_nil (fun y hy => ?_))
    obtain ⟨hr, hc, he, hv⟩ := hx
    obtain ⟨hr', hc', he', hv'⟩ := hy
    refine Logs.nil_bind (Q := fun z => z = eMakeMatrixExpr x.numRows x.numCols (fun row col => do
      let x ← x.entry row col
      let y ← y.entry row col
      pure (x, y))) ((logs_assertEq _ _).nil_bind (fun _ _ => (logs_assertEq _ _).nil_bind (fun _ _ => Logs.pure rfl))) ?_
    rintro _ rfl
    refine Logs.pure ?_
    refine GoodM.default hr hc (fun i j => ?_)
    exact Logs.bind_nil (Q := fun _ => True) ((he i j).bind (fun _ _ => (he' i j).bind_nil (fun _ _ => Logs.pure trivial)))
      (fun _ _ => Logs.ofRes (fun _ _ => trivial))
  | t e ih =>
    refine ih.map (fun o ho => ?_)
    obtain ⟨hr, hc, he, hv⟩ := ho
    exact GoodM.default hc hr (fun i j => he j i)
  | h e ih =>
    refine ih.map (fun o ho => ?_)
    obtain ⟨hr, hc, he, hv⟩ := ho
    exact GoodM.default hc hr (fun i j => (he j i).bind_nil (fun _ _ => Logs.ofRes (fun _ _ => trivial)))
  | diagM v ih =>
    refine ih.map (fun o ho => ?_)
    obtain ⟨hl, he, hv⟩ := ho
    refine GoodM.default hl hl (fun i j => ?_)
    by_cases hij : i = j
    · subst hij
      simpa [callsAt] using he i 0
    · simpa [callsAt, hij] using Logs.pure trivial
  | prod a b iha ihb =>
    rw [buildCalls, List.append_assoc]
    refine iha.bind (fun x hx => ?_)
    obtain ⟨hr, hc, he, hv⟩ := hx
    refine hv.bind (fun x hx => ihb.bind (fun y hy => ?_))
    obtain ⟨hr', hc', he', hv'⟩ := hy
    refine hv'.bind_nil (fun y hy => Logs.nil_bind (Q := fun z => ∃ f, z = ⟨x.numRows, y.numCols, f, MExpr.defaultEval x.numRows y.numCols f⟩)
      (Logs.ofRes ?_) ?_)
    · intro z hz
      unfold DMatrix.mul assertEq at hz
      split at hz
      · cases hz; exact ⟨_, rfl⟩
      · cases hz
    · rintro _ ⟨f, rfl⟩
      exact Logs.pure (GoodM.ofData hx.1 hy.2 (fun m hm => ⟨(defaultEvalM_dims hm).1.trans hx.1, (defaultEvalM_dims hm).2.trans hy.2⟩) (fun _ _ => rfl))

end ETree

/-! ## Compound assignment -/

/-- As `Logs`, for mutations. -/
def ULogs {σ : Type} (m : EUpd (Obs S Λ) σ) (c : List (FnCall Λ)) (Q : σ → Prop) : Prop :=
  ∀ s log, ∃ pre, pre <+: c ∧ (m (s, log)).2.2 = log ++ pre ∧ ((m (s, log)).1.panic = none → pre = c) ∧ Q (m (s, log)).1.val

theorem eForEach_logs {σ : Type} {f : ι → σ → EUpd (Obs S Λ) σ} {c : ι → List (FnCall Λ)} {Q : σ → Prop}
    (hf : ∀ i s, Q s → ULogs (f i s) (c i) Q) : ∀ (l : List ι) (s : σ), Q s → ULogs (eForEach l f s) (l.flatMap c) Q
  | [], d, hd => fun s log => ⟨[], List.prefix_refl _, by simp [eForEach], fun _ => rfl, hd⟩
  | i :: l, d, hd => fun s log => by
    obtain ⟨pre, h1, h2, h3, h4⟩ := hf i d hd s log
    rw [List.flatMap_cons]
    rcases hr : f i d (s, log) with ⟨⟨d', pan⟩, s', log'⟩
    rw [hr] at h2 h3 h4
    simp only at h2 h3 h4
    rcases pan with _ | e
    · have hpre := h3 rfl
      subst hpre
      obtain ⟨pre', g1, g2, g3, g4⟩ := eForEach_logs hf l d' h4 s' log'
      refine ⟨c i ++ pre', (List.prefix_append_right_inj _).2 g1, ?_, ?_, ?_⟩
      · simp only [eForEach, hr]; rw [g2, h2, List.append_assoc]
      · simp only [eForEach, hr]; intro h; rw [g3 h]
      · simp only [eForEach, hr]; exact g4
    · refine ⟨pre, h1.trans (List.prefix_append _ _), ?_, ?_, ?_⟩
      · simp only [eForEach, hr]; exact h2
      · simp only [eForEach, hr]; simp
      · simp only [eForEach, hr]; exact h4

theorem eUpdAt_logs {l : List T} {i : ℕ} {m : Proc (Obs S Λ) U} {op : T → U → Upd T} {c : List (FnCall Λ)}
    (hm : Logs m c (fun _ => True)) : ULogs (eUpdAt l i m op) c (fun d => d.length = l.length) := by
  intro s log
  unfold eUpdAt
  rcases hx : l[i]? with _ | x
  · exact ⟨[], List.nil_prefix, by simp, by simp, rfl⟩
  · obtain ⟨pre, h1, h2, h3, -⟩ := hm s log
    rcases hr : m (s, log) with ⟨r, s', log'⟩
    rw [hr] at h2 h3
    simp only at h2 h3
    rcases r with e | y
    · exact ⟨pre, h1, h2, by simp, rfl⟩
    · exact ⟨pre, h1, h2, fun _ => (h3 y rfl).1, by simp [Upd.into]⟩

theorem ULogs.into {σ τ : Type} {m : EUpd (Obs S Λ) σ} {c : List (FnCall Λ)} {Q : σ → Prop} {R : τ → Prop} {g : σ → τ}
    (h : ULogs m c Q) (hg : ∀ a, Q a → R (g a)) :
    ULogs (fun w => ((m w).1.into g, (m w).2)) c R := by
  intro s log
  obtain ⟨pre, h1, h2, h3, h4⟩ := h s log
  exact ⟨pre, h1, h2, h3, hg _ h4⟩

theorem ULogs.mono {σ : Type} {m : EUpd (Obs S Λ) σ} {c : List (FnCall Λ)} {Q R : σ → Prop}
    (h : ULogs m c Q) (hg : ∀ a, Q a → R a) : ULogs m c R := by
  intro s log
  obtain ⟨pre, h1, h2, h3, h4⟩ := h s log
  exact ⟨pre, h1, h2, h3, hg _ h4⟩

theorem assignV_logs {v : DVector T} {e : EVExpr (Obs S Λ) U} {t : ETree S Λ .vec U} (h : GoodV e t) (op : T → U → Upd T) :
    ULogs (v.eAssignLoop e op) (t.gridCalls v.data.length 1) (fun d => d.data.length = v.data.length) := by
  have := eForEach_logs (f := fun index d => eUpdAt d index (e.entry index) op) (c := fun i => t.callsAt i 0)
    (Q := fun d => d.length = v.data.length)
    (fun i d hd => (eUpdAt_logs (h.2.1 i 0)).mono (fun a ha => ha.trans hd)) (List.range v.data.length) v.data rfl
  have e : t.gridCalls v.data.length 1 = (List.range v.data.length).flatMap (fun i => t.callsAt i 0) := by
    simp [ETree.gridCalls, List.range_one]
  rw [e]
  exact this.into (fun a ha => ha)

theorem assignM_logs (p : Profile) {m : DMatrix T} {e : EMExpr (Obs S Λ) U} {t : ETree S Λ .mat U} (h : GoodM e t)
    (op : T → U → Upd T) : ULogs (m.eAssignLoop p e op) (t.gridCalls m.numRows m.numCols)
      (fun d => d.numRows = m.numRows ∧ d.numCols = m.numCols ∧ d.data.length = m.data.length) := by
  have := eForEach_logs (f := fun row d => eForEach (List.range m.numCols) (fun col d => fun w =>
      match DMatrix.flatIndex p m.numCols row col with
      | .ok i => eUpdAt d i (e.entry row col) op w
      | .error e => (⟨d, some e⟩, w)) d) (c := fun i => (List.range m.numCols).flatMap (fun j => t.callsAt i j))
    (Q := fun d => d.length = m.data.length) (fun i d hd => eForEach_logs (fun j d hd => ?_) _ _ hd)
    (List.range m.numRows) m.data rfl
  · exact this.into (fun a ha => ⟨rfl, rfl, ha⟩)
  · rcases DMatrix.flatIndex p m.numCols i j with e' | ix
    · exact fun s log => ⟨[], List.nil_prefix, by simp, by simp, hd⟩
    · exact (eUpdAt_logs (h.2.2.1 i j)).mono (fun a ha => ha.trans hd)

/-! ## Closures whose results do not depend on the state -/

/-- `m` has the result of `x` in every state. -/
def Agrees {W : Type} (R : α → β → Prop) (m : Proc W α) (x : Res β) : Prop :=
  ∀ w, match (m w).1, x with
    | .ok a, .ok b => R a b
    | .error e, .error e' => e = e'
    | _, _ => False

theorem Agrees.bind {W α' β' : Type} {R : α → α' → Prop} {Q : β → β' → Prop} {m : Proc W α} {f : α → Proc W β} {x : Res α'}
    {g : α' → Res β'} (hm : Agrees R m x) (hf : ∀ a a', R a a' → Agrees Q (f a) (g a')) : Agrees Q (m >>= f) (x >>= g) := by
  intro w
  have h := hm w
  rw [Proc.bind_eq]
  rcases hr : m w with ⟨_ | a, w'⟩ <;> rw [hr] at h <;> rcases x with e' | a'
  · exact h
  · exact h.elim
  · exact h.elim
  · exact hf a a' h w'

theorem Agrees.pure {W : Type} {R : α → β → Prop} {a : α} {b : β} (h : R a b) : Agrees R (pure a : Proc W α) (pure b) :=
  fun _ => h

theorem Agrees.ofRes {W : Type} (x : Res α) : Agrees Eq (Proc.ofRes x : Proc W α) x := by
  intro w
  rcases x with e | a <;> rfl

theorem Agrees.map_ofRes {W : Type} {R : β → α → Prop} {f : α → β} {x : Res α} (h : ∀ a, R (f a) a) :
    Agrees R (Proc.ofRes x >>= fun a => Pure.pure (f a) : Proc W β) x := by
  intro w
  rcases x with e | a
  · rfl
  · exact h a

theorem Agrees.observed {f : S → S} {c : FnCall Λ} (x : Res α) : Agrees Eq (observed c (ETree.steady x f)) x := by
  intro w
  rcases x with e | a <;> rfl

theorem Agrees.collect {W : Type} {f : ι → Proc W α} {g : ι → Res α} (h : ∀ i, Agrees Eq (f i) (g i)) :
    ∀ l : List ι, Agrees Eq (collect l f) (l.mapM g)
  | [] => Agrees.pure rfl
  | i :: l => by
    rw [List.mapM_cons]
    refine (h i).bind ?_
    rintro a _ rfl
    refine (Agrees.collect h l).bind ?_
    rintro b _ rfl
    exact Agrees.pure rfl

def SameV {W : Type} (e : EVExpr W T) (x : VExpr T) : Prop :=
  e.len = x.len ∧ (∀ i, Agrees Eq (e.entry i) (x.entry i)) ∧ Agrees Eq e.eval x.eval

def SameM {W : Type} (e : EMExpr W T) (x : MExpr T) : Prop :=
  e.numRows = x.numRows ∧ e.numCols = x.numCols ∧ (∀ i j, Agrees Eq (e.entry i j) (x.entry i j)) ∧ Agrees Eq e.eval x.eval

def SameObj {W : Type} : {k : Kind} → {T : Type} → k.EObj W T → k.Obj T → Prop
  | .vec, _, e, x => SameV e x
  | .mat, _, e, x => SameM e x

theorem SameV.ofData {W : Type} (x : VExpr T) : SameV (EVExpr.ofData x : EVExpr W T) x :=
  ⟨rfl, fun _ => Agrees.ofRes _, Agrees.ofRes _⟩

theorem SameM.ofData {W : Type} (x : MExpr T) : SameM (EMExpr.ofData x : EMExpr W T) x :=
  ⟨rfl, rfl, fun _ _ => Agrees.ofRes _, Agrees.ofRes _⟩

theorem SameV.default {W : Type} {n n' : ℕ} {f : ℕ → Proc W T} {g : ℕ → Res T} (hn : n = n') (h : ∀ i, Agrees Eq (f i) (g i)) :
    SameV ⟨n, f, EVExpr.defaultEval n f⟩ ⟨n', g, VExpr.defaultEval n' g⟩ := by
  subst hn
  refine ⟨rfl, h, (Agrees.collect h _).bind ?_⟩
  rintro a _ rfl
  exact Agrees.pure rfl

theorem SameM.default {W : Type} {r c r' c' : ℕ} {f : ℕ → ℕ → Proc W T} {g : ℕ → ℕ → Res T} (hr : r = r') (hc : c = c')
    (h : ∀ i j, Agrees Eq (f i j) (g i j)) :
    SameM ⟨r, c, f, EMExpr.defaultEval r c f⟩ ⟨r', c', g, MExpr.defaultEval r' c' g⟩ := by
  subst hr hc
  refine ⟨rfl, rfl, h, (Agrees.collect (fun ij : ℕ × ℕ => h ij.1 ij.2) _).bind ?_⟩
  rintro a _ rfl
  exact Agrees.pure rfl

theorem agrees_pair {W : Type} {m : Proc W T} {m' : Proc W U} {x : Res T} {x' : Res U} (h : Agrees Eq m x) (h' : Agrees Eq m' x') :
    Agrees Eq (do let a ← m; let b ← m'; pure (a, b)) (do let a ← x; let b ← x'; pure (a, b)) := by
  refine h.bind ?_
  rintro a _ rfl
  refine h'.bind ?_
  rintro b _ rfl
  exact Agrees.pure rfl

theorem agrees_op {W : Type} {m : Proc W T} {m' : Proc W U} {x : Res T} {x' : Res U} (f : T → U → Res V) (h : Agrees Eq m x)
    (h' : Agrees Eq m' x') :
    Agrees Eq (do let a ← m; let b ← m'; Proc.ofRes (f a b)) (do let a ← x; let b ← x'; f a b) := by
  refine h.bind ?_
  rintro a _ rfl
  refine h'.bind ?_
  rintro b _ rfl
  exact Agrees.ofRes _

theorem agrees_op1 {W : Type} {m : Proc W T} {x : Res T} (f : T → Res V) (h : Agrees Eq m x) :
    Agrees Eq (do let a ← m; Proc.ofRes (f a)) (do let a ← x; f a) := by
  refine h.bind ?_
  rintro a _ rfl
  exact Agrees.ofRes _

theorem agrees_assertEq {W : Type} {a b a' b' : ℕ} (ha : a = a') (hb : b = b') :
    Agrees Eq (Proc.ofRes (assertEq a b) : Proc W Unit) (assertEq a' b') := by
  subst ha hb; exact Agrees.ofRes _

theorem agrees_zipV {W : Type} {a : EVExpr W T} {b : EVExpr W U} {a' : VExpr T} {b' : VExpr U} (ha : SameV a a') (hb : SameV b b') :
    Agrees SameV (a.zip b) (a'.zip b') := by
  refine (agrees_assertEq ha.1 hb.1).bind ?_
  rintro _ _ _
  exact Agrees.pure (SameV.default ha.1 (fun i => agrees_pair (ha.2.1 i) (hb.2.1 i)))

theorem agrees_zipM {W : Type} {a : EMExpr W T} {b : EMExpr W U} {a' : MExpr T} {b' : MExpr U} (ha : SameM a a') (hb : SameM b b') :
    Agrees SameM (a.zip b) (a'.zip b') := by
  refine (agrees_assertEq ha.1 hb.1).bind ?_
  rintro _ _ _
  refine (agrees_assertEq ha.2.1 hb.2.1).bind ?_
  rintro _ _ _
  exact Agrees.pure (SameM.default ha.1 ha.2.1 (fun i j => agrees_pair (ha.2.2.1 i j) (hb.2.2.1 i j)))

namespace ETree

theorem build_agrees (p : Profile) (eff : List ℕ → S → S) (ℓ : Λ) {k : Kind} {T : Type} (t : Tree k T) :
    Agrees SameObj ((ofTree eff ℓ t).build p) (t.build p) := by
  induction t with
  | dvector v => exact Agrees.pure (SameV.ofData _)
  | slice s => exact Agrees.pure (SameV.ofData _)
  | makeV len f => exact Agrees.pure (SameV.default rfl (fun i => Agrees.observed _))
  | zerosV len => exact Agrees.pure (SameV.ofData _)
  | onesV len => exact Agrees.pure (SameV.ofData _)
  | sameV len x => exact Agrees.pure (SameV.ofData _)
  | evalV e ih =>
    refine ih.bind (fun x x' hx => ?_)
    refine Agrees.bind hx.2.2 ?_
    rintro v _ rfl
    exact Agrees.pure (SameV.ofData _)
  | mapV e f ih =>
    refine ih.bind (fun x x' hx => Agrees.pure ?_)
    refine SameV.default hx.1 (fun i => (hx.2.1 i).bind ?_)
    rintro a _ rfl
    exact Agrees.observed _
  | zipV a b iha ihb =>
    refine iha.bind (fun x x' hx => ihb.bind (fun y y' hy => ?_))
    exact agrees_zipV hx hy
  | addV a b iha ihb =>
    refine iha.bind (fun x x' hx => ihb.bind (fun y y' hy => ?_))
    refine (agrees_assertEq hx.1 hy.1).bind (fun _ _ _ => Agrees.pure ?_)
    exact SameV.default hx.1 (fun i => agrees_op _ (hx.2.1 i) (hy.2.1 i))
  | subV a b iha ihb =>
    refine iha.bind (fun x x' hx => ihb.bind (fun y y' hy => ?_))
    refine (agrees_assertEq hx.1 hy.1).bind (fun _ _ _ => Agrees.pure ?_)
    exact SameV.default hx.1 (fun i => agrees_op _ (hx.2.1 i) (hy.2.1 i))
  | mulV a b iha ihb =>
    refine iha.bind (fun x x' hx => ihb.bind (fun y y' hy => ?_))
    refine (agrees_zipV hx hy).bind (fun z z' hz => Agrees.pure ?_)
    exact SameV.default hz.1 (fun i => agrees_op1 _ (hz.2.1 i))
  | divV a b iha ihb =>
    refine iha.bind (fun x x' hx => ihb.bind (fun y y' hy => ?_))
    refine (agrees_zipV hx hy).bind (fun z z' hz => Agrees.pure ?_)
    exact SameV.default hz.1 (fun i => agrees_op1 _ (hz.2.1 i))
  | conjV e ih =>
    refine ih.bind (fun x x' hx => Agrees.pure ?_)
    exact SameV.default hx.1 (fun i => agrees_op1 _ (hx.2.1 i))
  | diagOf m ih =>
    refine ih.bind (fun x x' hx => Agrees.pure ?_)
    exact SameV.default (by rw [hx.1, hx.2.1]) (fun i => hx.2.2.1 i i)
  | dmatrix a => exact Agrees.pure (SameM.ofData _)
  | array a => exact Agrees.pure (SameM.ofData _)
  | makeM r c f => exact Agrees.pure (SameM.default rfl rfl (fun i j => Agrees.observed _))
  | zerosM r c => exact Agrees.pure (SameM.ofData _)
  | onesM r c => exact Agrees.pure (SameM.ofData _)
  | sameM r c x => exact Agrees.pure (SameM.ofData _)
  | eye n => exact Agrees.pure (SameM.ofData _)
  | evalM e ih =>
    refine ih.bind (fun x x' hx => ?_)
    refine Agrees.bind hx.2.2.2 ?_
    rintro v _ rfl
    exact Agrees.pure (SameM.ofData _)
  | mapM e f ih =>
    refine ih.bind (fun x x' hx => Agrees.pure ?_)
    refine SameM.default hx.1 hx.2.1 (fun i j => (hx.2.2.1 i j).bind ?_)
    rintro a _ rfl
    exact Agrees.observed _
  | zipM a b iha ihb =>
    refine iha.bind (fun x x' hx => ihb.bind (fun y y' hy => ?_))
    exact agrees_zipM hx hy
  | addM a b iha ihb =>
    refine iha.bind (fun x x' hx => ihb.bind (fun y y' hy => ?_))
    refine (agrees_assertEq hx.1 hy.1).bind (fun _ _ _ => (agrees_assertEq hx.2.1 hy.2.1).bind (fun _ _ _ => Agrees.pure ?_))
    exact SameM.default hx.1 hx.2.1 (fun i j => agrees_op _ (hx.2.2.1 i j) (hy.2.2.1 i j))
  | subM a b iha ihb =>
    refine iha.bind (fun x x' hx => ihb.bind (fun y y' hy => ?_))
    refine (agrees_assertEq hx.1 hy.1).bind (fun _ _ _ => (agrees_assertEq hx.2.1 hy.2.1).bind (fun _ _ _ => Agrees.pure ?_))
    exact SameM.default hx.1 hx.2.1 (fun i j => agrees_op _ (hx.2.2.1 i j) (hy.2.2.1 i j))
  | mulM a b iha ihb =>
    refine iha.bind (fun x x' hx => ihb.bind (fun y y' hy => ?_))
    refine (agrees_zipM hx hy).bind (fun z z' hz => Agrees.pure ?_)
    exact SameM.default hz.1 hz.2.1 (fun i j => agrees_op1 _ (hz.2.2.1 i j))
  | divM a b iha ihb =>
    refine iha.bind (fun x x' hx => ihb.bind (fun y y' hy => ?_))
    refine (agrees_zipM hx hy).bind (fun z z' hz => Agrees.pure ?_)
    exact SameM.default hz.1 hz.2.1 (fun i j => agrees_op1 _ (hz.2.2.1 i j))
  | t e ih =>
    refine ih.bind (fun x x' hx => Agrees.pure ?_)
    exact SameM.default hx.2.1 hx.1 (fun i j => hx.2.2.1 j i)
  | h e ih =>
    refine ih.bind (fun x x' hx => Agrees.pure ?_)
    exact SameM.default hx.2.1 hx.1 (fun i j => agrees_op1 _ (hx.2.2.1 j i))
  | diagM v ih =>
    refine ih.bind (fun x x' hx => Agrees.pure ?_)
    refine SameM.default hx.1 hx.1 (fun i j => ?_)
    by_cases hij : i = j
    · simpa [hij] using hx.2.1 j
    · simp only [hij, if_false]; exact Agrees.pure rfl
  | prod a b iha ihb =>
    refine iha.bind (fun x x' hx => ?_)
    refine Agrees.bind hx.2.2.2 ?_
    rintro m _ rfl
    refine ihb.bind (fun y y' hy => ?_)
    refine Agrees.bind hy.2.2.2 ?_
    rintro n _ rfl
    exact Agrees.map_ofRes (fun c => SameM.ofData c)

end ETree


/-- `m` does to the mutated object what `u` does. -/
theorem eForEach_agrees {W σ : Type} {f : ι → σ → EUpd W σ} {g : ι → σ → Upd σ} (h : ∀ i s w, (f i s w).1 = g i s) :
    ∀ (l : List ι) (s : σ) (w : W), (eForEach l f s w).1 = forEach l g s
  | [], _, _ => rfl
  | i :: l, s, w => by
    have hi := h i s w
    rw [eForEach, forEach, ← hi]
    rcases hr : f i s w with ⟨⟨s', _ | e⟩, w'⟩
    · simp only [hr]; exact eForEach_agrees h l s' w'
    · simp only [hr]; rfl

theorem eUpdAt_agrees {W : Type} {l : List T} {i : ℕ} {m : Proc W U} {x : Res U} {op : T → U → Upd T} (h : Agrees Eq m x) (w : W) :
    (eUpdAt l i m op w).1 = updAt l i (fun a => Upd.withRes x a (fun y => op a y)) := by
  unfold eUpdAt updAt
  rcases hx : l[i]? with _ | a
  · rfl
  · have := h w
    rcases hr : m w with ⟨e | y, w'⟩ <;> rw [hr] at this <;> rcases x with e' | y'
    · cases this
      have hl : l.set i a = l := by
        apply List.ext_getElem? ; intro k
        rw [List.getElem?_set]
        split
        · next h => subst h; split <;> simp_all
        · rfl
      simp [Upd.withRes, Upd.into, hl]
    · exact this.elim
    · exact this.elim
    · cases this; rfl

theorem assignV_agrees {W : Type} {v : DVector T} {e : EVExpr W U} {x : VExpr U} (h : SameV e x) (op : T → U → Upd T) (w : W) :
    (v.eAssignLoop e op w).1 = (forEach (List.range v.data.length) (fun index d =>
      updAt d index (fun a => Upd.withRes (x.entry index) a (fun y => op a y))) v.data).into DVector.mk := by
  unfold DVector.eAssignLoop
  simp only
  rw [eForEach_agrees (fun i s w => eUpdAt_agrees (h.2.1 i) w)]

theorem assignM_agrees {W : Type} (p : Profile) {m : DMatrix T} {e : EMExpr W U} {x : MExpr U} (h : SameM e x) (op : T → U → Upd T)
    (w : W) : (m.eAssignLoop p e op w).1 = m.assignLoop p x op := by
  unfold DMatrix.eAssignLoop DMatrix.assignLoop
  simp only
  rw [eForEach_agrees (g := fun row d => forEach (List.range m.numCols) (fun col d =>
      Upd.withRes (DMatrix.flatIndex p m.numCols row col) d (fun i =>
        updAt d i (fun a => Upd.withRes (x.entry row col) a (fun y => op a y)))) d) (fun i s w => ?_)]
  refine eForEach_agrees (fun j s w => ?_) _ _ _
  rcases DMatrix.flatIndex p m.numCols i j with e' | ix
  · rfl
  · exact eUpdAt_agrees (h.2.2.1 i j) w

/-! ## No entry is computed twice -/

/-- Calls of closures given to `make_*`. -/
def makes (l : List (FnCall Λ)) : List (FnCall Λ) := l.filter (fun c => !c.2.isEmpty)

theorem makes_append (a b : List (FnCall Λ)) : makes (a ++ b) = makes a ++ makes b := List.filter_append ..

structure OnceAt (k : Kind) (calls : ℕ → ℕ → List (FnCall Λ)) (live : List Λ) : Prop where
  nodup : ∀ i j, (makes (calls i j)).Nodup
  mem : ∀ i j, ∀ c ∈ makes (calls i j), c.1 ∈ live
  inj : ∀ i j i' j', ∀ c ∈ makes (calls i j), c ∈ makes (calls i' j') → i = i' ∧ (k = .mat → j = j')

structure OnceIn (calls : List (FnCall Λ)) (done : List Λ) : Prop where
  nodup : (makes calls).Nodup
  mem : ∀ c ∈ makes calls, c.1 ∈ done

theorem OnceIn.nil (d : List Λ) : OnceIn [] d := ⟨List.nodup_nil, by simp [makes]⟩

theorem OnceIn.append {a b : List (FnCall Λ)} {d e : List Λ} (ha : OnceIn a d) (hb : OnceIn b e) (h : d.Disjoint e) :
    OnceIn (a ++ b) (d ++ e) := by
  refine ⟨?_, ?_⟩
  · rw [makes_append]
    exact ha.nodup.append hb.nodup (fun c h1 h2 => h (ha.mem c h1) (hb.mem c h2))
  · intro c hc
    rw [makes_append, List.mem_append] at hc
    exact List.mem_append.2 (hc.imp (ha.mem c) (hb.mem c))

theorem OnceIn.mono {a : List (FnCall Λ)} {d e : List Λ} (ha : OnceIn a d) (h : d ⊆ e) : OnceIn a e :=
  ⟨ha.nodup, fun c hc => h (ha.mem c hc)⟩

theorem OnceAt.nil (k : Kind) (d : List Λ) : OnceAt k (fun _ _ => []) d :=
  ⟨fun _ _ => List.nodup_nil, by simp [makes], by simp [makes]⟩

theorem OnceAt.mapped {k : Kind} {f : ℕ → ℕ → List (FnCall Λ)} {d : List Λ} {ℓ : Λ} (h : OnceAt k f d) :
    OnceAt k (fun i j => f i j ++ [(ℓ, [])]) d := by
  have e : ∀ i j, makes (f i j ++ [(ℓ, [])]) = makes (f i j) := fun i j => by simp [makes]
  exact ⟨fun i j => e i j ▸ h.nodup i j, fun i j => e i j ▸ h.mem i j, fun i j i' j' => by simpa only [e] using h.inj i j i' j'⟩

theorem OnceAt.append {k : Kind} {f g : ℕ → ℕ → List (FnCall Λ)} {d e : List Λ} (hf : OnceAt k f d) (hg : OnceAt k g e)
    (h : d.Disjoint e) : OnceAt k (fun i j => f i j ++ g i j) (d ++ e) := by
  refine ⟨fun i j => ?_, fun i j c hc => ?_, fun i j i' j' c hc hc' => ?_⟩
  · rw [makes_append]
    exact (hf.nodup i j).append (hg.nodup i j) (fun c h1 h2 => h (hf.mem i j c h1) (hg.mem i j c h2))
  · rw [makes_append, List.mem_append] at hc
    exact List.mem_append.2 (hc.imp (hf.mem i j c) (hg.mem i j c))
  · rw [makes_append, List.mem_append] at hc hc'
    rcases hc with h1 | h1 <;> rcases hc' with h2 | h2
    · exact hf.inj i j i' j' c h1 h2
    · exact (h (hf.mem _ _ c h1) (hg.mem _ _ c h2)).elim
    · exact (h (hf.mem _ _ c h2) (hg.mem _ _ c h1)).elim
    · exact hg.inj i j i' j' c h1 h2

theorem OnceAt.eval {k : Kind} {f : ℕ → ℕ → List (FnCall Λ)} {d : List Λ} (h : OnceAt k f d) (r c : ℕ)
    (hk : k = .mat ∨ c = 1) :
    OnceIn ((List.range r).flatMap (fun i => (List.range c).flatMap (fun j => f i j))) d := by
  have e : makes ((List.range r).flatMap (fun i => (List.range c).flatMap (fun j => f i j))) =
      (List.range r).flatMap (fun i => (List.range c).flatMap (fun j => makes (f i j))) := by
    simp only [makes, List.filter_flatMap]
  refine ⟨?_, ?_⟩
  · rw [e, List.nodup_flatMap]
    refine ⟨fun i _ => ?_, ?_⟩
    · rw [List.nodup_flatMap]
      refine ⟨fun j _ => h.nodup i j, ?_⟩
      rcases hk with rfl | rfl
      · refine (List.nodup_range (n := c)).imp ?_
        intro j j' hjj x h1 h2
        exact hjj ((h.inj i j i j' x h1 h2).2 rfl)
      · simp
    · refine (List.nodup_range (n := r)).imp ?_
      intro i i' hii x h1 h2
      obtain ⟨j, _, h1⟩ := List.mem_flatMap.1 h1
      obtain ⟨j', _, h2⟩ := List.mem_flatMap.1 h2
      exact hii (h.inj i j i' j' x h1 h2).1
  · rw [e]
    intro x hx
    obtain ⟨i, _, hx⟩ := List.mem_flatMap.1 hx
    obtain ⟨j, _, hx⟩ := List.mem_flatMap.1 hx
    exact h.mem i j x hx

namespace ETree

/-- Labels of closures still to be called, and of closures called during construction. -/
structure Once {k : Kind} {T : Type} (e : ETree S Λ k T) (live done : List Λ) : Prop where
  at_ : OnceAt k e.callsAt live
  in_ : OnceIn e.buildCalls done
  disj : live.Disjoint done
  sub : live ⊆ e.makeLabels
  sub' : done ⊆ e.makeLabels

theorem Once.evalCalls {k : Kind} {T : Type} {e : ETree S Λ k T} {l d : List Λ} (h : e.Once l d) : OnceIn e.evalCalls l := by
  refine h.at_.eval _ _ ?_
  rcases k with _ | _
  · exact .inr (cols_vec e)
  · exact .inl rfl

theorem Once.all {k : Kind} {T : Type} {e : ETree S Λ k T} {l d : List Λ} (h : e.Once l d) :
    OnceIn (e.buildCalls ++ e.evalCalls) e.makeLabels :=
  (h.in_.append h.evalCalls h.disj.symm).mono (List.append_subset.2 ⟨h.sub', h.sub⟩)

theorem Once.leaf {k : Kind} {T : Type} {e : ETree S Λ k T} (h : ∀ i j, e.callsAt i j = []) (h' : e.buildCalls = []) :
    e.Once [] [] := by
  refine ⟨?_, h' ▸ OnceIn.nil _, by simp, by simp, by simp⟩
  have : e.callsAt = fun _ _ => [] := by funext i j; exact h i j
  rw [this]; exact OnceAt.nil _ _

/-- A combinator of one operand that passes the calls on in some way. -/
theorem Once.unary {k k' : Kind} {T U : Type} {a : ETree S Λ k T} {e : ETree S Λ k' U} {l d : List Λ} (h : a.Once l d)
    (he : OnceAt k' e.callsAt l) (h1 : e.buildCalls = a.buildCalls) (h2 : e.makeLabels = a.makeLabels) : e.Once l d :=
  ⟨he, h1 ▸ h.in_, h.disj, h2 ▸ h.sub, h2 ▸ h.sub'⟩

theorem Once.binary {k : Kind} {T U V : Type} {a : ETree S Λ k T} {b : ETree S Λ k U} {e : ETree S Λ k V} {l d l' d' : List Λ}
    (ha : a.Once l d) (hb : b.Once l' d') (h : a.makeLabels.Disjoint b.makeLabels)
    (h1 : ∀ i j, e.callsAt i j = a.callsAt i j ++ b.callsAt i j)
    (h2 : e.buildCalls = a.buildCalls ++ b.buildCalls) (h3 : e.makeLabels = a.makeLabels ++ b.makeLabels) :
    e.Once (l ++ l') (d ++ d') := by
  have hd : ∀ {x y : List Λ}, x ⊆ a.makeLabels → y ⊆ b.makeLabels → x.Disjoint y := fun hx hy z h1 h2 => h (hx h1) (hy h2)
  refine ⟨?_, ?_, ?_, ?_, ?_⟩
  · have : e.callsAt = fun i j => a.callsAt i j ++ b.callsAt i j := by funext i j; exact h1 i j
    rw [this]
    exact ha.at_.append hb.at_ (hd ha.sub hb.sub)
  · rw [h2]; exact ha.in_.append hb.in_ (hd ha.sub' hb.sub')
  · simp only [List.disjoint_append_left, List.disjoint_append_right]
    exact ⟨⟨ha.disj, (hd ha.sub' hb.sub).symm⟩, hd ha.sub hb.sub', hb.disj⟩
  · rw [h3]; exact List.append_subset.2 ⟨List.Subset.trans ha.sub (List.subset_append_left _ _), List.Subset.trans hb.sub (List.subset_append_right _ _)⟩
  · rw [h3]; exact List.append_subset.2 ⟨List.Subset.trans ha.sub' (List.subset_append_left _ _), List.Subset.trans hb.sub' (List.subset_append_right _ _)⟩

theorem once {k : Kind} {T : Type} (e : ETree S Λ k T) : e.makeLabels.Nodup → ∃ l d, e.Once l d := by
  induction e with
  | dvector v => exact fun _ => ⟨_, _, Once.leaf (fun _ _ => rfl) rfl⟩
  | slice s => exact fun _ => ⟨_, _, Once.leaf (fun _ _ => rfl) rfl⟩
  | makeV ℓ len f =>
    refine fun _ => ⟨[ℓ], [], ⟨?_, ?_, ?_⟩, OnceIn.nil _, by simp, by simp [makeLabels], by simp⟩ <;> simp [makes, callsAt]
  | zerosV len => exact fun _ => ⟨_, _, Once.leaf (fun _ _ => rfl) rfl⟩
  | onesV len => exact fun _ => ⟨_, _, Once.leaf (fun _ _ => rfl) rfl⟩
  | sameV len x => exact fun _ => ⟨_, _, Once.leaf (fun _ _ => rfl) rfl⟩
  | evalV e ih =>
    intro h
    obtain ⟨l, d, g⟩ := ih h
    exact ⟨[], e.makeLabels, OnceAt.nil _ _, g.all, by simp, by simp, by simp [makeLabels]⟩
  | mapV ℓ e f ih => exact fun h => (ih h).imp fun l => Exists.imp fun d g => g.unary g.at_.mapped rfl rfl
  | zipV a b iha ihb =>
    intro h
    obtain ⟨h1, h2, h3⟩ := List.nodup_append'.1 h
    obtain ⟨l, d, g⟩ := iha h1
    obtain ⟨l', d', g'⟩ := ihb h2
    exact ⟨_, _, g.binary g' h3 (fun _ _ => rfl) rfl rfl⟩
  | addV a b iha ihb =>
    intro h
    obtain ⟨h1, h2, h3⟩ := List.nodup_append'.1 h
    obtain ⟨l, d, g⟩ := iha h1
    obtain ⟨l', d', g'⟩ := ihb h2
    exact ⟨_, _, g.binary g' h3 (fun _ _ => rfl) rfl rfl⟩
  | subV a b iha ihb =>
    intro h
    obtain ⟨h1, h2, h3⟩ := List.nodup_append'.1 h
    obtain ⟨l, d, g⟩ := iha h1
    obtain ⟨l', d', g'⟩ := ihb h2
    exact ⟨_, _, g.binary g' h3 (fun _ _ => rfl) rfl rfl⟩
  | mulV a b iha ihb =>
    intro h
    obtain ⟨h1, h2, h3⟩ := List.nodup_append'.1 h
    obtain ⟨l, d, g⟩ := iha h1
    obtain ⟨l', d', g'⟩ := ihb h2
    exact ⟨_, _, g.binary g' h3 (fun _ _ => rfl) rfl rfl⟩
  | divV a b iha ihb =>
    intro h
    obtain ⟨h1, h2, h3⟩ := List.nodup_append'.1 h
    obtain ⟨l, d, g⟩ := iha h1
    obtain ⟨l', d', g'⟩ := ihb h2
    exact ⟨_, _, g.binary g' h3 (fun _ _ => rfl) rfl rfl⟩
  | conjV e ih => exact fun h => (ih h).imp fun l => Exists.imp fun d g => g.unary g.at_ rfl rfl
  | diagOf m ih =>
    refine fun h => (ih h).imp fun l => Exists.imp fun d g => g.unary ⟨fun i _ => g.at_.nodup i i, fun i _ => g.at_.mem i i, ?_⟩ rfl rfl
    intro i j i' j' c h1 h2
    exact ⟨(g.at_.inj _ _ _ _ c h1 h2).1, by simp⟩
  | dmatrix a => exact fun _ => ⟨_, _, Once.leaf (fun _ _ => rfl) rfl⟩
  | array a => exact fun _ => ⟨_, _, Once.leaf (fun _ _ => rfl) rfl⟩
  | makeM ℓ r c f =>
    refine fun _ => ⟨[ℓ], [], ⟨?_, ?_, ?_⟩, OnceIn.nil _, by simp, by simp [makeLabels], by simp⟩ <;> simp [makes, callsAt]
  | zerosM r c => exact fun _ => ⟨_, _, Once.leaf (fun _ _ => rfl) rfl⟩
  | onesM r c => exact fun _ => ⟨_, _, Once.leaf (fun _ _ => rfl) rfl⟩
  | sameM r c x => exact fun _ => ⟨_, _, Once.leaf (fun _ _ => rfl) rfl⟩
  | eye n => exact fun _ => ⟨_, _, Once.leaf (fun _ _ => rfl) rfl⟩
  | evalM e ih =>
    intro h
    obtain ⟨l, d, g⟩ := ih h
    exact ⟨[], e.makeLabels, OnceAt.nil _ _, g.all, by simp, by simp, by simp [makeLabels]⟩
  | mapM ℓ e f ih => exact fun h => (ih h).imp fun l => Exists.imp fun d g => g.unary g.at_.mapped rfl rfl
  | zipM a b iha ihb =>
    intro h
    obtain ⟨h1, h2, h3⟩ := List.nodup_append'.1 h
    obtain ⟨l, d, g⟩ := iha h1
    obtain ⟨l', d', g'⟩ := ihb h2
    exact ⟨_, _, g.binary g' h3 (fun _ _ => rfl) rfl rfl⟩
  | addM a b iha ihb =>
    intro h
    obtain ⟨h1, h2, h3⟩ := List.nodup_append'.1 h
    obtain ⟨l, d, g⟩ := iha h1
    obtain ⟨l', d', g'⟩ := ihb h2
    exact ⟨_, _, g.binary g' h3 (fun _ _ => rfl) rfl rfl⟩
  | subM a b iha ihb =>
    intro h
    obtain ⟨h1, h2, h3⟩ := List.nodup_append'.1 h
    obtain ⟨l, d, g⟩ := iha h1
    obtain ⟨l', d', g'⟩ := ihb h2
    exact ⟨_, _, g.binary g' h3 (fun _ _ => rfl) rfl rfl⟩
  | mulM a b iha ihb =>
    intro h
    obtain ⟨h1, h2, h3⟩ := List.nodup_append'.1 h
    obtain ⟨l, d, g⟩ := iha h1
    obtain ⟨l', d', g'⟩ := ihb h2
    exact ⟨_, _, g.binary g' h3 (fun _ _ => rfl) rfl rfl⟩
  | divM a b iha ihb =>
    intro h
    obtain ⟨h1, h2, h3⟩ := List.nodup_append'.1 h
    obtain ⟨l, d, g⟩ := iha h1
    obtain ⟨l', d', g'⟩ := ihb h2
    exact ⟨_, _, g.binary g' h3 (fun _ _ => rfl) rfl rfl⟩
  | t e ih =>
    refine fun h => (ih h).imp fun l => Exists.imp fun d g => g.unary ⟨fun i j => g.at_.nodup j i, fun i j => g.at_.mem j i, ?_⟩ rfl rfl
    intro i j i' j' c h1 h2
    have := g.at_.inj _ _ _ _ c h1 h2
    exact ⟨this.2 rfl, fun _ => this.1⟩
  | h e ih =>
    refine fun h => (ih h).imp fun l => Exists.imp fun d g => g.unary ⟨fun i j => g.at_.nodup j i, fun i j => g.at_.mem j i, ?_⟩ rfl rfl
    intro i j i' j' c h1 h2
    have := g.at_.inj _ _ _ _ c h1 h2
    exact ⟨this.2 rfl, fun _ => this.1⟩
  | diagM v ih =>
    refine fun h => (ih h).imp fun l => Exists.imp fun d g => g.unary ⟨fun i j => ?_, fun i j => ?_, ?_⟩ rfl rfl
    · by_cases hij : i = j
      · simpa [callsAt, hij] using g.at_.nodup j 0
      · simp [callsAt, hij, makes]
    · by_cases hij : i = j
      · simpa [callsAt, hij] using g.at_.mem j 0
      · simp [callsAt, hij, makes]
    · intro i j i' j' c h1 h2
      by_cases hij : i = j
      · by_cases hij' : i' = j'
        · simp only [callsAt, hij, hij', if_true] at h1 h2
          have := (g.at_.inj _ _ _ _ c h1 h2).1
          subst hij hij'
          exact ⟨this, fun _ => this⟩
        · simp [callsAt, hij', makes] at h2
      · simp [callsAt, hij, makes] at h1
  | prod a b iha ihb =>
    intro h
    obtain ⟨h1, h2, h3⟩ := List.nodup_append'.1 h
    obtain ⟨l, d, g⟩ := iha h1
    obtain ⟨l', d', g'⟩ := ihb h2
    exact ⟨[], a.makeLabels ++ b.makeLabels, OnceAt.nil _ _, g.all.append g'.all h3, by simp, by simp, by simp [makeLabels]⟩

end ETree

end Magnesia
