import Verif.Spec.ElemEff
import Verif.Proof.DynEff
import Verif.Proof.Hom

/-!
# Element types whose operators have effects: lemmas
-/

namespace Magnesia

open RZero ROne MulRefs

variable {W T E α β σ τ ι : Type}

theorem bind_apply (x : Proc W α) (f : α → Proc W β) (w : W) :
    (x >>= f) w = match x w with | (.ok a, w') => f a w' | (.error e, w') => (.error e, w') := rfl

/-! ## Values -/

theorem Tells.pure (x : α) : Tells (W := W) (pure x) (.ok x) := fun _ => rfl

theorem Tells.ofRes (r : Res α) : Tells (W := W) (Proc.ofRes r) r := fun _ => rfl

theorem Tells.bind {x : Proc W α} {r : Res α} {f : α → Proc W β} {g : α → Res β} (hx : Tells x r) (hf : ∀ a, Tells (f a) (g a)) :
    Tells (x >>= f) (r >>= g) := by
  intro w
  have h := hx w
  rw [bind_apply]
  rcases hw : x w with ⟨r', w'⟩
  rw [hw] at h
  cases h
  cases r' with
  | ok a => exact hf a w'
  | error e => rfl

theorem TellsU.done (s : σ) : TellsU (W := W) (EUpd.done s) (.done s) := fun _ => rfl

theorem TellsU.toProc {u : EUpd W σ} {r : Upd σ} (h : TellsU u r) : Tells u.toProc r.toRes := fun w => by
  show (u w).1.toRes = _; rw [h w]

theorem Tells.ofProc {x : Proc W σ} {r : Res σ} (s : σ) (h : Tells x r) : TellsU (EUpd.ofProc s x) (Upd.ofRes s r) := fun w => by
  show Upd.ofRes s (x w).1 = _; rw [h w]

theorem TellsU.into {u : EUpd W σ} {r : Upd σ} (f : σ → τ) (h : TellsU u r) : TellsU (u.into f) (r.into f) := fun w => by
  show (u w).1.into f = _; rw [h w]

theorem TellsU.andThen {u : EUpd W σ} {r : Upd σ} {f : σ → EUpd W σ} {g : σ → Upd σ} (h : TellsU u r) (hf : ∀ s, TellsU (f s) (g s)) :
    TellsU (u.andThen f) (r.andThen g) := by
  intro w
  have h := h w
  unfold EUpd.andThen Upd.andThen
  rcases hw : u w with ⟨⟨s, _ | e⟩, w'⟩ <;> rw [hw] at h <;> subst h
  · exact hf s w'
  · rfl

theorem Tells.withProc {x : Proc W α} {r : Res α} {s : σ} {f : α → EUpd W σ} {g : α → Upd σ} (h : Tells x r) (hf : ∀ a, TellsU (f a) (g a)) :
    TellsU (EUpd.withProc x s f) (Upd.withRes r s g) := by
  intro w
  have h := h w
  unfold EUpd.withProc Upd.withRes
  rcases hw : x w with ⟨r', w'⟩
  rw [hw] at h
  cases h
  cases r' with
  | ok a => exact hf a w'
  | error e => rfl

theorem TellsU.updAt {l : List T} {i : ℕ} {f : T → EUpd W T} {g : T → Upd T} (h : ∀ x, TellsU (f x) (g x)) :
    TellsU (EUpd.updAt l i f) (Magnesia.updAt l i g) := by
  unfold EUpd.updAt Magnesia.updAt
  rcases l[i]? with _ | x
  · exact fun _ => rfl
  · exact (h x).into _

theorem TellsU.arrUpd {n : ℕ} {v : Fin n → T} {i : Fin n} {f : T → EUpd W T} {g : T → Upd T} (h : ∀ x, TellsU (f x) (g x)) :
    TellsU (EUpd.arrUpd v i f) (Magnesia.arrUpd v i g) := (h _).into _

theorem TellsU.forEach {f : ι → σ → EUpd W σ} {g : ι → σ → Upd σ} (h : ∀ i s, TellsU (f i s) (g i s)) (l : List ι) (s : σ) :
    TellsU (eForEach l f s) (Magnesia.forEach l g s) := fun w => eForEach_agrees (fun i s w => h i s w) l s w

theorem Tells.fold {f : σ → ι → Proc W σ} {g : σ → ι → Res σ} (h : ∀ s i, Tells (f s i) (g s i)) :
    ∀ (l : List ι) (s : σ), Tells (EOps.eFold f l s) (l.foldlM g s)
  | [], s => Tells.pure s
  | i :: l, s => by
    rw [List.foldlM_cons]
    exact (h s i).bind fun s' => Tells.fold h l s'

theorem Tells.collect {f : ι → Proc W α} {g : ι → Res α} (h : ∀ i, Tells (f i) (g i)) :
    ∀ l : List ι, Tells (Magnesia.collect l f) (l.mapM g)
  | [] => Tells.pure _
  | i :: l => by
    rw [List.mapM_cons]
    exact (h i).bind fun x => (Tells.collect h l).bind fun xs => Tells.pure _

theorem Tells.fromFn : ∀ {n : ℕ} {f : Fin n → Proc W α} {g : Fin n → Res α}, (∀ i, Tells (f i) (g i)) → Tells (fromFnM n f) (fromFnM n g)
  | 0, _, _, _ => Tells.pure _
  | _ + 1, _, _, h => (h 0).bind fun _ => (Tells.fromFn fun i => h i.succ).bind fun _ => Tells.pure _

/-! ## Logs -/

theorem Charges.pure (log : W → List E) (x : α) : Charges log (pure x : Proc W α) [] := fun _ =>
  ⟨fun _ => (List.append_nil _).symm, [], List.prefix_refl _, (List.append_nil _).symm⟩

theorem Charges.ofRes (log : W → List E) (r : Res α) : Charges log (Proc.ofRes r) [] := fun _ =>
  ⟨fun _ => (List.append_nil _).symm, [], List.prefix_refl _, (List.append_nil _).symm⟩

theorem Charges.bind {log : W → List E} {x : Proc W α} {f : α → Proc W β} {l l' : List E} (hx : Charges log x l)
    (hf : ∀ a, Charges log (f a) l') : Charges log (x >>= f) (l ++ l') := by
  intro w
  obtain ⟨h1, p, h2, h3⟩ := hx w
  rw [bind_apply]
  rcases hw : x w with ⟨a | a, w'⟩ <;> rw [hw] at h1 h3
  · exact ⟨fun ⟨y, hy⟩ => (nomatch hy), p, h2.trans (List.prefix_append _ _), h3⟩
  · obtain ⟨h4, q, h5, h6⟩ := hf a w'
    have h7 := h1 ⟨a, rfl⟩
    dsimp only at h7
    refine ⟨fun hy => ?_, l ++ q, (List.prefix_append_right_inj _).2 h5, ?_⟩
    · show log (f a w').2 = _
      rw [h4 hy, h7, List.append_assoc]
    · show log (f a w').2 = _
      rw [h6, h7, List.append_assoc]

theorem Charges.bind_pure {log : W → List E} {x : Proc W α} {f : α → β} {l : List E} (hx : Charges log x l) :
    Charges log (do let a ← x; Pure.pure (f a)) l := by
  have := hx.bind fun a => Charges.pure log (f a)
  rwa [List.append_nil] at this

theorem ChargesU.done (log : W → List E) (s : σ) : ChargesU log (EUpd.done s : EUpd W σ) [] := fun _ =>
  ⟨fun _ => (List.append_nil _).symm, [], List.prefix_refl _, (List.append_nil _).symm⟩

theorem ChargesU.toProc {log : W → List E} {u : EUpd W σ} {l : List E} (h : ChargesU log u l) : Charges log u.toProc l := by
  intro w
  obtain ⟨h1, h2⟩ := h w
  refine ⟨fun ⟨y, hy⟩ => h1 ?_, h2⟩
  change (u w).1.toRes = .ok y at hy
  unfold Upd.toRes at hy
  split at hy
  · assumption
  · cases hy

theorem Charges.ofProc {log : W → List E} {x : Proc W σ} {l : List E} (s : σ) (h : Charges log x l) : ChargesU log (EUpd.ofProc s x) l := by
  intro w
  obtain ⟨h1, h2⟩ := h w
  refine ⟨fun hy => h1 ?_, h2⟩
  change (Upd.ofRes s (x w).1).panic = none at hy
  revert hy
  rcases (x w).1 with e | y
  · exact fun hy => nomatch hy
  · exact fun _ => ⟨y, rfl⟩

theorem ChargesU.into {log : W → List E} {u : EUpd W σ} {l : List E} (f : σ → τ) (h : ChargesU log u l) : ChargesU log (u.into f) l := h

theorem ChargesU.andThen {log : W → List E} {u : EUpd W σ} {f : σ → EUpd W σ} {l l' : List E} (hu : ChargesU log u l)
    (hf : ∀ s, ChargesU log (f s) l') : ChargesU log (u.andThen f) (l ++ l') := by
  intro w
  obtain ⟨h1, p, h2, h3⟩ := hu w
  unfold EUpd.andThen
  rcases hw : u w with ⟨⟨s, _ | e⟩, w'⟩ <;> rw [hw] at h1 h3
  · obtain ⟨h4, q, h5, h6⟩ := hf s w'
    have h7 := h1 rfl
    dsimp only at h7
    refine ⟨fun hy => ?_, l ++ q, (List.prefix_append_right_inj _).2 h5, ?_⟩
    · show log (f s w').2 = _
      rw [h4 hy, h7, List.append_assoc]
    · show log (f s w').2 = _
      rw [h6, h7, List.append_assoc]
  · exact ⟨fun hy => (nomatch hy), p, h2.trans (List.prefix_append _ _), h3⟩

theorem Charges.withProc {log : W → List E} {x : Proc W α} {s : σ} {f : α → EUpd W σ} {l l' : List E} (hx : Charges log x l)
    (hf : ∀ a, ChargesU log (f a) l') : ChargesU log (EUpd.withProc x s f) (l ++ l') := by
  intro w
  obtain ⟨h1, p, h2, h3⟩ := hx w
  unfold EUpd.withProc
  rcases hw : x w with ⟨a | a, w'⟩ <;> rw [hw] at h1 h3
  · exact ⟨fun hy => (nomatch hy), p, h2.trans (List.prefix_append _ _), h3⟩
  · obtain ⟨h4, q, h5, h6⟩ := hf a w'
    have h7 := h1 ⟨a, rfl⟩
    dsimp only at h7
    refine ⟨fun hy => ?_, l ++ q, (List.prefix_append_right_inj _).2 h5, ?_⟩
    · show log (f a w').2 = _
      rw [h4 hy, h7, List.append_assoc]
    · show log (f a w').2 = _
      rw [h6, h7, List.append_assoc]

theorem ChargesU.updAt {log : W → List E} {v : List T} {i : ℕ} {f : T → EUpd W T} {l : List E} (h : ∀ x, ChargesU log (f x) l) :
    ChargesU log (EUpd.updAt v i f) l := by
  unfold EUpd.updAt
  rcases v[i]? with _ | x
  · exact fun _ => ⟨fun hy => (nomatch hy), [], List.nil_prefix, (List.append_nil _).symm⟩
  · exact (h x).into _

theorem ChargesU.arrUpd {log : W → List E} {n : ℕ} {v : Fin n → T} {i : Fin n} {f : T → EUpd W T} {l : List E}
    (h : ∀ x, ChargesU log (f x) l) : ChargesU log (EUpd.arrUpd v i f) l := (h _).into _

theorem ChargesU.forEach {log : W → List E} {f : ι → σ → EUpd W σ} {c : ι → List E} (h : ∀ i s, ChargesU log (f i s) (c i)) :
    ∀ (l : List ι) (s : σ), ChargesU log (eForEach l f s) (l.flatMap c)
  | [], s => ChargesU.done log s
  | i :: l, s => by
    have e : eForEach (i :: l) f s = (f i s).andThen fun s => eForEach l f s := by
      funext w
      show (match f i s w with | (⟨s', none⟩, w') => _ | (⟨s', some e⟩, w') => _) = _
      unfold EUpd.andThen
      rcases f i s w with ⟨⟨s', _ | e⟩, w'⟩ <;> rfl
    rw [e, List.flatMap_cons]
    exact (h i s).andThen fun s' => ChargesU.forEach h l s'

theorem Charges.fold {log : W → List E} {f : σ → ι → Proc W σ} {c : ι → List E} (h : ∀ s i, Charges log (f s i) (c i)) :
    ∀ (l : List ι) (s : σ), Charges log (EOps.eFold f l s) (l.flatMap c)
  | [], s => Charges.pure log s
  | i :: l, s => by
    rw [List.flatMap_cons]
    exact (h s i).bind fun s' => Charges.fold h l s'

theorem Charges.collect {log : W → List E} {f : ι → Proc W α} {c : ι → List E} (h : ∀ i, Charges log (f i) (c i)) :
    ∀ l : List ι, Charges log (Magnesia.collect l f) (l.flatMap c)
  | [] => Charges.pure log _
  | i :: l => by
    rw [List.flatMap_cons]
    exact (h i).bind fun x => (Charges.collect h l).bind_pure

theorem Charges.fromFn {log : W → List E} : ∀ {n : ℕ} {f : Fin n → Proc W α} {c : Fin n → List E}, (∀ i, Charges log (f i) (c i)) →
    Charges log (fromFnM n f) ((List.finRange n).flatMap c)
  | 0, _, _, _ => Charges.pure log _
  | n + 1, f, c, h => by
    rw [List.finRange_succ, List.flatMap_cons, List.flatMap_map]
    exact (h 0).bind fun _ => (Charges.fromFn fun i => h i.succ).bind_pure

/-! ## Repeated lists -/

theorem rep_zero (l : List E) : rep 0 l = [] := rfl

theorem rep_succ (k : ℕ) (l : List E) : rep (k + 1) l = l ++ rep k l := rfl

theorem rep_add (j k : ℕ) (l : List E) : rep (j + k) l = rep j l ++ rep k l := by
  unfold rep; rw [List.replicate_add, List.flatten_append]

theorem rep_rep (j k : ℕ) (l : List E) : rep j (rep k l) = rep (j * k) l := by
  induction j with
  | zero => rw [Nat.zero_mul]; rfl
  | succ j ih => rw [rep_succ, ih, Nat.succ_mul, Nat.add_comm, rep_add]

theorem rep_nil (k : ℕ) : rep k ([] : List E) = [] := by
  induction k with
  | zero => rfl
  | succ k ih => rw [rep_succ, ih, List.append_nil]

theorem count_rep [DecidableEq E] (e : E) (k : ℕ) (l : List E) : (rep k l).count e = k * l.count e := by
  induction k with
  | zero => simp [rep_zero]
  | succ k ih => rw [rep_succ, List.count_append, ih, Nat.succ_mul, Nat.add_comm]

theorem flatMap_const (l : List ι) (c : List E) : (l.flatMap fun _ => c) = rep l.length c := by
  induction l with
  | nil => rfl
  | cons i l ih => rw [List.flatMap_cons, ih]; rfl

theorem flatMap_zipIdx_lt (l : List T) (k n : ℕ) (c : List E) :
    ((l.zipIdx k).flatMap fun xi => if xi.2 < n then c else []) = rep (min (n - k) l.length) c := by
  induction l generalizing k with
  | nil => simp [rep_zero]
  | cons x l ih =>
    rw [List.zipIdx_cons, List.flatMap_cons, ih (k + 1)]
    by_cases h : k < n
    · rw [if_pos h, ← rep_succ]
      congr 1
      rw [List.length_cons]; omega
    · rw [if_neg h, List.nil_append]
      congr 1
      rw [List.length_cons]; omega

/-! ## Shared by several functions -/

theorem push_loop {ι : Type} (x : T) : ∀ (l : List ι) (a : List T),
    forEach l (fun _ a => Upd.withRes (.ok x) a fun x => .done (a ++ [x])) a = .done (a ++ List.replicate l.length x)
  | [], a => by simp [forEach]
  | i :: l, a => by
    show forEach l _ (a ++ [x]) = _
    rw [push_loop x l (a ++ [x])]
    simp [List.replicate_succ]

theorem mapM_ok {ι : Type} (x : T) : ∀ l : List ι, l.mapM (m := Res) (fun _ => .ok x) = .ok (List.replicate l.length x)
  | [] => rfl
  | i :: l => by rw [List.mapM_cons, mapM_ok x l]; rfl

theorem tells_both {f g : Proc W T} {a b : Res T} (hf : Tells f a) (hg : Tells g b) :
    Tells (EOps.complexBoth f g) (do let re ← a; let im ← b; pure ⟨re, im⟩) :=
  hf.bind fun _ => hg.bind fun _ => Tells.pure _

theorem tells_cassign {op : T → T → EUpd W T} {op' : T → T → Upd T} (h : ∀ x y, TellsU (op x y) (op' x y)) (z w : Complex T) :
    TellsU (EOps.complexAssign op z w) (((op' z.re w.re).into (fun re => { z with re := re })).andThen fun z =>
      (op' z.im w.im).into (fun im => { z with im := im })) :=
  ((h _ _).into _).andThen fun _ => (h _ _).into _

theorem tells_smap {r c : ℕ} {f : Fin r → Fin c → Proc W T} {g : Fin r → Fin c → Res T} (h : ∀ i j, Tells (f i j) (g i j)) :
    Tells (EOps.smatrixMap f) (do let a ← fromFnM r (fun i => fromFnM c (fun j => g i j)); pure ⟨a⟩) :=
  (Tells.fromFn fun i => Tells.fromFn fun j => h i j).bind fun _ => Tells.pure _

theorem fromFnM_pure {n : ℕ} (f : Fin n → T) : fromFnM (m := Res) n (fun i => .ok (f i)) = .ok f := fromFnM_ok_iff.2 fun _ => rfl

theorem tells_sassign {r c : ℕ} {op : T → T → EUpd W T} {op' : T → T → Upd T} (h : ∀ x y, TellsU (op x y) (op' x y))
    (a b : SMatrix T r c) : TellsU (EOps.smatrixAssign op a b) ((forEach (List.finRange r) (fun i a => arrUpd a i (fun lo =>
    forEach (List.finRange c) (fun j lo => arrUpd lo j (fun li => op' li (b.val i j))) lo)) a.val).into SMatrix.mk) :=
  (TellsU.forEach (fun i _ => TellsU.arrUpd fun _ => TellsU.forEach (fun j _ => TellsU.arrUpd fun _ => h _ (b.val i j)) _ _) _ _).into _

theorem add_unfold [AddAssignRef T] (p q : Poly T) : p.add q = if p.a.length < q.a.length then
    ((forEach p.a.zipIdx (fun (x, i) a => updAt a i (fun y => AddAssignRef.addAssign y x)) q.a).into Poly.mk).toRes else
    ((forEach q.a.zipIdx (fun (x, i) a => updAt a i (fun y => AddAssignRef.addAssign y x)) p.a).into Poly.mk).toRes := by
  rw [Poly.add]
  split
  · rw [Poly.add, if_neg (by omega)]
  · rfl

theorem foldlM_at2 [AddAssignRef T] [MulRefs T] {l m n : ℕ} (a : SMatrix T l m) (b : SMatrix T m n) (i : Fin l) (k : Fin n) (s : T) :
    (List.range m).foldlM (m := Res) (fun sum j => do
        let prod ← MulRefs.mulRefs (← SMatrix.at2 a.val i j) (← SMatrix.at2 b.val j k)
        (AddAssignRef.addAssign sum prod).toRes) s =
    (List.finRange m).foldlM (m := Res) (fun sum j => do
        let prod ← MulRefs.mulRefs (a.val i j) (b.val j k)
        (AddAssignRef.addAssign sum prod).toRes) s := by
  rw [← List.map_coe_finRange_eq_range, List.foldlM_map]
  congr 1
  funext sum j
  have h1 : SMatrix.at2 a.val i j = .ok (a.val i j) := by simp [SMatrix.at2, arrGet, bind, Except.bind]
  have h2 : SMatrix.at2 b.val j k = .ok (b.val j k) := by simp [SMatrix.at2, arrGet, bind, Except.bind]
  rw [h1, h2]; rfl

theorem smatrix_zero_eq [RZero T] (n : ℕ) : (fromFnM n (fun _ => fromFnM n (fun _ => (.ok RZero.zero : Res T))) >>= fun a =>
    (pure (⟨a⟩ : SMatrix T n n) : Res _)) = Except.ok (RZero.zero : SMatrix T n n) := by
  simp only [fromFnM_pure]
  show Except.ok _ = Except.ok _
  congr 1
  apply SMatrix.ext
  funext i j
  show _ = arrMap (m := Id) n (arrMap (m := Id) n (RZero.zero : T)) i j
  unfold arrMap
  rw [fromFnM_id, fromFnM_id]

theorem smatrix_one_eq [RZero T] [ROne T] (n : ℕ) :
    (fromFnM n (fun i => fromFnM n (fun j => if i = j then (.ok ROne.one : Res T) else .ok RZero.zero)) >>= fun a =>
      (pure (⟨a⟩ : SMatrix T n n) : Res _)) = Except.ok (ROne.one : SMatrix T n n) := by
  have e : ∀ i j : Fin n, (if i = j then (.ok ROne.one : Res T) else .ok RZero.zero) = .ok (if i = j then ROne.one else RZero.zero) := by
    intro i j; split <;> rfl
  simp only [e, fromFnM_pure]
  show Except.ok _ = Except.ok _
  congr 1
  apply SMatrix.ext
  funext i j
  rw [SMatrix.one_val]
  simp only [Fin.ext_iff]

end Magnesia
