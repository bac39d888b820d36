import Verif.Proof.PolyExact

/-!
# Where panics come from (helper lemmas)

A container operation panics only if an element operation does.
-/

set_option linter.unusedSectionVars false

namespace Magnesia

open RZero ROne MulRefs

variable {α β σ ι T : Type} {P : Panic → Prop}

/-- Every panic of `x` satisfies `P`. -/
def ResPan (P : Panic → Prop) (x : Res α) : Prop := ∀ e, x = .error e → P e
/-- Every panic of `u` satisfies `P`. -/
def UpdPan (P : Panic → Prop) (u : Upd σ) : Prop := ∀ e, u.panic = some e → P e

namespace ResPan

theorem ok (a : α) : ResPan P (.ok a : Res α) := by intro e h; cases h
theorem pure (a : α) : ResPan P (pure a : Res α) := ok a

theorem bind {x : Res α} {k : α → Res β} (h : ResPan P x) (hk : ∀ a, x = .ok a → ResPan P (k a)) :
    ResPan P (x >>= k) := by
  cases x with
  | ok a => exact hk a rfl
  | error e => intro e' he; exact h e' (by simpa [Bind.bind, Except.bind] using he)

theorem foldlM {k : α → ι → Res α} (l : List ι) (h : ∀ a, ∀ i ∈ l, ResPan P (k a i)) (a : α) :
    ResPan P (l.foldlM k a) := by
  induction l generalizing a with
  | nil => exact pure a
  | cons i l ih =>
    rw [List.foldlM_cons]
    exact bind (h a i (by simp)) fun b _ => ih (fun a j hj => h a j (by simp [hj])) b

theorem mapM {k : ι → Res α} (l : List ι) (h : ∀ i ∈ l, ResPan P (k i)) : ResPan P (l.mapM k) := by
  induction l with
  | nil => exact pure _
  | cons i l ih =>
    rw [List.mapM_cons]
    exact bind (h i (by simp)) fun _ _ => bind (ih fun j hj => h j (by simp [hj])) fun _ _ => pure _

theorem fromFnM {n : Nat} {k : Fin n → Res α} (h : ∀ i, ResPan P (k i)) : ResPan P (fromFnM n k) := by
  induction n with
  | zero => exact pure _
  | succ n ih => exact bind (h 0) fun _ _ => bind (ih fun i => h i.succ) fun _ _ => pure _

theorem mono {Q : Panic → Prop} {x : Res α} (h : ResPan P x) (hPQ : ∀ e, P e → Q e) : ResPan Q x :=
  fun e he => hPQ e (h e he)

theorem getIdx {l : List α} {i : Nat} (h : i < l.length) : ResPan P (getIdx l i) := by
  simp only [Magnesia.getIdx, List.getElem?_eq_getElem h]; exact ok _

theorem arrGet {n : Nat} {v : Fin n → α} {i : Nat} (h : i < n) : ResPan P (arrGet v i) := by
  simp only [Magnesia.arrGet, h, dif_pos]; exact ok _

/-- If no panic is possible the computation returns. -/
theorem exists_ok {x : Res α} (h : ResPan P x) (hP : ∀ e, ¬ P e) : ∃ a, x = .ok a := by
  cases x with
  | ok a => exact ⟨a, rfl⟩
  | error e => exact absurd (h e rfl) (hP e)

end ResPan

namespace UpdPan

theorem toRes {u : Upd σ} (h : UpdPan P u) : ResPan P u.toRes := by
  intro e he
  apply h e
  unfold Upd.toRes at he
  cases hp : u.panic with
  | none => simp [hp] at he
  | some e' => simpa [hp] using he

theorem done (s : σ) : UpdPan P (.done s) := by intro e h; cases h

theorem into {τ : Type} {u : Upd σ} {f : σ → τ} (h : UpdPan P u) : UpdPan P (u.into f) := h

theorem andThen {u : Upd σ} {k : σ → Upd σ} (h : UpdPan P u) (hk : u.panic = none → UpdPan P (k u.val)) :
    UpdPan P (u.andThen k) := by
  intro e he
  unfold Upd.andThen at he
  cases hp : u.panic with
  | none => rw [hp] at he; exact hk hp e he
  | some e' => rw [hp] at he; exact h e he

theorem ofRes {s : σ} {x : Res σ} (h : ResPan P x) : UpdPan P (.ofRes s x) := by
  cases x with
  | ok a => exact done a
  | error e => intro e' he; exact h e' (by simpa [Upd.ofRes] using he)

theorem withRes {x : Res α} {s : σ} {k : α → Upd σ} (h : ResPan P x) (hk : ∀ a, x = .ok a → UpdPan P (k a)) :
    UpdPan P (.withRes x s k) := by
  cases x with
  | ok a => exact hk a rfl
  | error e => intro e' he; exact h e' (by simpa [Upd.withRes] using he)

/-- Loop rule with a state invariant. -/
theorem forEach {Inv : σ → Prop} {f : ι → σ → Upd σ} (l : List ι)
    (h : ∀ i ∈ l, ∀ s, Inv s → UpdPan P (f i s) ∧ Inv (f i s).val) (s : σ) (hs : Inv s) :
    UpdPan P (Magnesia.forEach l f s) ∧ Inv (Magnesia.forEach l f s).val := by
  induction l generalizing s with
  | nil => exact ⟨done s, hs⟩
  | cons i l ih =>
    obtain ⟨h1, h2⟩ := h i (by simp) s hs
    have h3 := ih (fun j hj => h j (by simp [hj])) (f i s).val h2
    simp only [Magnesia.forEach]
    refine ⟨andThen h1 fun _ => h3.1, ?_⟩
    unfold Upd.andThen
    split
    · exact h3.2
    · exact h2

theorem updAt {d : List α} {i : Nat} {f : α → Upd α} (hi : i < d.length) (h : ∀ x, UpdPan P (f x)) :
    UpdPan P (updAt d i f) := by
  simp only [Magnesia.updAt, List.getElem?_eq_getElem hi]
  exact h _

theorem exists_done {u : Upd σ} (h : UpdPan P u) (hP : ∀ e, ¬ P e) : u.panic = none := by
  cases hp : u.panic with
  | none => rfl
  | some e => exact absurd (h e hp) (hP e)

end UpdPan

section Ops
variable [RRing T]

theorem NeverPanics.noElementPanic (h : NeverPanics T) (e : Panic) : ¬ ElementPanic T e := by
  rintro ⟨a, b, h1 | h1 | h1 | h1⟩
  · rw [h.add] at h1; cases h1
  · rw [h.sub] at h1; cases h1
  · obtain ⟨c, hc⟩ := h.mul a b; rw [hc] at h1; cases h1
  · obtain ⟨c, hc⟩ := h.neg a; rw [hc] at h1; cases h1

theorem pan_add (a b : T) : UpdPan (ElementPanic T) (AddAssignRef.addAssign a b) := fun _ h => ⟨a, b, .inl h⟩
theorem pan_sub (a b : T) : UpdPan (ElementPanic T) (SubAssignRef.subAssign a b) := fun _ h => ⟨a, b, .inr (.inl h)⟩
theorem pan_mul (a b : T) : ResPan (ElementPanic T) (mulRefs a b) := fun _ h => ⟨a, b, .inr (.inr (.inl h))⟩
theorem pan_neg (a : T) : ResPan (ElementPanic T) (RNeg.neg a) := fun _ h => ⟨a, a, .inr (.inr (.inr h))⟩

theorem pan_zipUpd (op : T → T → Upd T) (hop : ∀ a b, UpdPan P (op a b)) (q p : List T) (h : q.length ≤ p.length) :
    UpdPan P (zipUpd op q p) := by
  intro e he
  obtain ⟨k, x, y, _, _, h3, _⟩ := zipUpd_crash op q p h he
  exact hop y x e h3

theorem pan_eval (p : Poly T) (x : T) : ResPan (ElementPanic T) (p.eval x) :=
  ResPan.foldlM _ (fun _ _ _ => (pan_mul _ _).bind fun _ _ => (pan_add _ _).toRes) _

theorem pan_padd (p q : Poly T) : ResPan (ElementPanic T) (p.add q) := by
  rw [Poly.add_eq]
  split
  · exact UpdPan.toRes (UpdPan.into (pan_zipUpd _ pan_add _ _ (by omega)))
  · exact UpdPan.toRes (UpdPan.into (pan_zipUpd _ pan_add _ _ (by omega)))

theorem pan_paddAssignV (p q : Poly T) : UpdPan (ElementPanic T) (p.addAssignV q) := by
  rw [Poly.addAssignV_eq]
  exact UpdPan.into (UpdPan.andThen (pan_zipUpd _ pan_add _ _ (by simp)) fun _ => UpdPan.done _)

theorem pan_paddAssignRef (p q : Poly T) : UpdPan (ElementPanic T) (p.addAssignRef q) := by
  rw [Poly.addAssignRef_eq]
  exact UpdPan.into (pan_zipUpd _ pan_add _ _ (by rw [Poly.padded_length]; omega))

theorem pan_psubAssignRef (p q : Poly T) : UpdPan (ElementPanic T) (p.subAssignRef q) := by
  rw [Poly.subAssignRef_eq]
  exact UpdPan.into (pan_zipUpd _ pan_sub _ _ (by rw [Poly.padded_length]; omega))

theorem pan_pneg (p : Poly T) : ResPan (ElementPanic T) p.neg :=
  (ResPan.mapM _ fun _ _ => pan_neg _).bind fun _ _ => ResPan.pure _

theorem pan_psub (p q : Poly T) : ResPan (ElementPanic T) (p.sub q) :=
  (pan_pneg q).bind fun _ _ => pan_padd _ _

theorem pan_psubAssignV (p q : Poly T) : UpdPan (ElementPanic T) (p.subAssignV q) :=
  UpdPan.withRes (pan_pneg q) fun _ _ => pan_paddAssignV _ _

theorem pan_pmul (p q : Poly T) : ResPan (ElementPanic T) (p.mulRef q) := by
  unfold Poly.mulRef
  split
  · exact ResPan.ok _
  · rename_i he
    simp only [Bool.or_eq_true, List.isEmpty_iff, not_or, ← List.length_eq_zero_iff] at he
    refine UpdPan.toRes (UpdPan.into (UpdPan.forEach
      (Inv := fun (d : List T) => d.length = p.a.length + q.a.length - 1) _ (fun i hi s hs => ?_) _ (by simp)).1)
    refine UpdPan.forEach (Inv := fun (d : List T) => d.length = p.a.length + q.a.length - 1) _ (fun j hj s hs => ?_) _ hs
    simp only [List.mem_range] at hi hj
    constructor
    · exact UpdPan.withRes ((ResPan.getIdx hi).bind fun _ _ => (ResPan.getIdx hj).bind fun _ _ => pan_mul _ _)
        fun _ _ => UpdPan.updAt (by omega) fun _ => pan_add _ _
    · unfold Upd.withRes
      split
      · rw [updAt_length]; exact hs
      · exact hs

theorem pan_pmulAssign (p q : Poly T) : UpdPan (ElementPanic T) (p.mulAssign q) := UpdPan.ofRes (pan_pmul p q)

/-! ### Complex -/

theorem pan_sqrNorm (z : Complex T) : ResPan (ElementPanic T) z.sqrNorm :=
  (pan_mul _ _).bind fun _ _ => (pan_mul _ _).bind fun _ _ => (pan_add _ _).toRes

theorem pan_cconj (z : Complex T) : ResPan (ElementPanic T) z.conj := (pan_neg _).bind fun _ _ => ResPan.pure _

theorem pan_cmul (a b : Complex T) : ResPan (ElementPanic T) (Complex.mulRef a b) :=
  (pan_mul _ _).bind fun _ _ => (pan_mul _ _).bind fun _ _ => (pan_mul _ _).bind fun _ _ => (pan_mul _ _).bind fun _ _ =>
    (pan_sub _ _).toRes.bind fun _ _ => (pan_add _ _).toRes.bind fun _ _ => ResPan.pure _

theorem pan_cadd (a b : Complex T) : UpdPan (ElementPanic T) (Complex.addAssignRef a b) :=
  UpdPan.andThen (UpdPan.into (pan_add _ _)) fun _ => UpdPan.into (pan_add _ _)

theorem pan_csub (a b : Complex T) : UpdPan (ElementPanic T) (Complex.subAssignRef a b) :=
  UpdPan.andThen (UpdPan.into (pan_sub _ _)) fun _ => UpdPan.into (pan_sub _ _)

theorem pan_cneg (a : Complex T) : ResPan (ElementPanic T) (Complex.neg a) :=
  (pan_neg _).bind fun _ _ => (pan_neg _).bind fun _ _ => ResPan.pure _

/-! ### SVector, SMatrix -/
variable {n r c L M N : Nat}

theorem pan_arrLoop {C : Type} (g : Fin n → C → Upd C) (h : ∀ i x, UpdPan P (g i x)) (v : Fin n → C) :
    UpdPan P (forEach (List.finRange n) (fun i v => arrUpd v i (g i)) v) :=
  (UpdPan.forEach (Inv := fun _ => True) _ (fun _ _ _ _ => ⟨UpdPan.into (h _ _), trivial⟩) _ trivial).1

theorem pan_vadd (u v : SVector T n) : UpdPan (ElementPanic T) (u.addAssignRef v) :=
  UpdPan.into (pan_arrLoop _ (fun _ _ => pan_add _ _) _)
theorem pan_vsub (u v : SVector T n) : UpdPan (ElementPanic T) (u.subAssignRef v) :=
  UpdPan.into (pan_arrLoop _ (fun _ _ => pan_sub _ _) _)
theorem pan_vmul (u : SVector T n) (x : T) : UpdPan (ElementPanic T) (u.mulAssignRef x) :=
  UpdPan.into (pan_arrLoop _ (fun _ _ => UpdPan.ofRes (pan_mul _ _)) _)
theorem pan_vdot (u v : SVector T n) : ResPan (ElementPanic T) (u.dotRef v) :=
  ResPan.foldlM _ (fun _ _ _ => (pan_mul _ _).bind fun _ _ => (pan_add _ _).toRes) _

theorem pan_madd (u v : SMatrix T r c) : UpdPan (ElementPanic T) (u.addAssignRef v) :=
  UpdPan.into (pan_arrLoop _ (fun _ _ => pan_arrLoop _ (fun _ _ => pan_add _ _) _) _)
theorem pan_msub (u v : SMatrix T r c) : UpdPan (ElementPanic T) (u.subAssignRef v) :=
  UpdPan.into (pan_arrLoop _ (fun _ _ => pan_arrLoop _ (fun _ _ => pan_sub _ _) _) _)
theorem pan_mneg (u : SMatrix T r c) : ResPan (ElementPanic T) u.neg :=
  (ResPan.fromFnM fun _ => ResPan.fromFnM fun _ => pan_neg _).bind fun _ _ => ResPan.pure _

theorem pan_at2 {a : Fin r → Fin c → T} {i j : Nat} (hi : i < r) (hj : j < c) : ResPan P (SMatrix.at2 a i j) :=
  (ResPan.arrGet hi).bind fun _ _ => ResPan.arrGet hj

theorem pan_mmul (a : SMatrix T L M) (b : SMatrix T M N) : ResPan (ElementPanic T) (a.mulRef b) := by
  rw [SMatrix.mulRef_eq]
  refine ResPan.bind (ResPan.fromFnM fun l => ResPan.fromFnM fun n => ResPan.foldlM _ (fun x m hm => ?_) _)
    fun _ _ => ResPan.pure _
  have hm' : m < M := by simpa using hm
  exact (pan_at2 l.2 hm').bind fun _ _ => (pan_at2 hm' n.2).bind fun _ _ => (pan_mul _ _).bind fun _ _ =>
    (pan_add _ _).toRes

theorem pan_mmulVec (a : SMatrix T M N) (v : SVector T N) : ResPan (ElementPanic T) (a.mulVec v) := by
  rw [SMatrix.mulVec_eq]
  refine ResPan.bind (ResPan.fromFnM fun l => ResPan.foldlM _ (fun x m hm => ?_) _)
    fun _ _ => ResPan.pure _
  exact (pan_mul _ _).bind fun _ _ => (pan_add _ _).toRes

/-! ### Never panicking element types -/

theorem NeverPanics.ofElementPanic (h : ∀ e, ¬ ElementPanic T e) : NeverPanics T where
  add a b := (pan_add a b).exists_done h
  sub a b := (pan_sub a b).exists_done h
  mul a b := (pan_mul a b).exists_ok h
  neg a := (pan_neg a).exists_ok h

theorem NeverPanics.complex (h : NeverPanics T) : NeverPanics (Complex T) where
  add a b := (pan_cadd a b).exists_done h.noElementPanic
  sub a b := (pan_csub a b).exists_done h.noElementPanic
  mul a b := (pan_cmul a b).exists_ok h.noElementPanic
  neg a := (pan_cneg a).exists_ok h.noElementPanic

theorem NeverPanics.poly (h : NeverPanics T) : NeverPanics (Poly T) where
  add a b := (pan_paddAssignRef a b).exists_done h.noElementPanic
  sub a b := (pan_psubAssignRef a b).exists_done h.noElementPanic
  mul a b := (pan_pmul a b).exists_ok h.noElementPanic
  neg a := (pan_pneg a).exists_ok h.noElementPanic

theorem NeverPanics.matrix (h : NeverPanics T) : NeverPanics (SMatrix T N N) where
  add a b := (pan_madd a b).exists_done h.noElementPanic
  sub a b := (pan_msub a b).exists_done h.noElementPanic
  mul a b := (pan_mmul a b).exists_ok h.noElementPanic
  neg a := (pan_mneg a).exists_ok h.noElementPanic

end Ops

end Magnesia
