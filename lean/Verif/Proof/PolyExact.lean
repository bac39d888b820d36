import Verif.Spec.Poly
import Verif.Proof.Elem
import Mathlib.Algebra.Polynomial.Coeff
import Mathlib.Algebra.Polynomial.Eval.Coeff
import Mathlib.Tactic.NoncommRing
import Mathlib.Algebra.BigOperators.Fin

/-!
# Polynomials over exact arithmetic: closed forms (helper lemmas)
-/

set_option linter.unusedSectionVars false
set_option linter.overlappingInstances false

namespace Magnesia

open RZero ROne MulRefs Finset

variable {T R : Type}

theorem coef_eq_zero [Zero R] {φ : T → R} {p : Poly T} {k : ℕ} (h : p.a.length ≤ k) : p.coef φ k = 0 := by
  simp [Poly.coef, List.getElem?_eq_none h]

theorem coef_of_lt [Zero R] {φ : T → R} {p : Poly T} {k : ℕ} (h : k < p.a.length) : p.coef φ k = φ p.a[k] := by
  simp [Poly.coef, List.getElem?_eq_getElem h]

theorem coeff_toPolynomial [Ring R] (φ : T → R) (p : Poly T) (k : ℕ) :
    (p.toPolynomial φ).coeff k = p.coef φ k := by
  unfold Poly.toPolynomial
  rw [Polynomial.finsetSum_coeff]
  simp only [Polynomial.coeff_monomial]
  by_cases h : k < p.a.length
  · simp [h]
  · rw [coef_eq_zero (by omega)]
    apply Finset.sum_eq_zero
    intro i hi
    have := Finset.mem_range.1 hi
    rw [if_neg (by omega)]

theorem toPolynomial_eq_iff [Ring R] (φ : T → R) (p q : Poly T) :
    p.toPolynomial φ = q.toPolynomial φ ↔ ∀ k, p.coef φ k = q.coef φ k := by
  rw [Polynomial.ext_iff]
  simp only [coeff_toPolynomial]

/-- Coefficient vectors are determined by length and coefficients. -/
theorem Poly.ext_coef [Zero R] {φ : T → R} (hφ : Function.Injective φ) {p q : Poly T}
    (hl : p.a.length = q.a.length) (h : ∀ k, p.coef φ k = q.coef φ k) : p = q := by
  obtain ⟨a⟩ := p
  obtain ⟨b⟩ := q
  congr 1
  apply List.ext_getElem hl
  intro i h1 h2
  have := h i
  rw [coef_of_lt h1, coef_of_lt h2] at this
  exact hφ this

theorem coef_map {T' : Type} [Zero R] (φ : T' → R) (f : T → T') (p : Poly T) (k : ℕ) :
    (p.map f).coef φ k = p.coef (fun x => φ (f x)) k := by
  simp only [Poly.coef, Poly.map, List.getElem?_map]
  cases p.a[k]? <;> rfl

theorem toPolynomial_map {T' : Type} [Ring R] (φ : T' → R) (f : T → T') (p : Poly T) :
    (p.map f).toPolynomial φ = p.toPolynomial (fun x => φ (f x)) := by
  unfold Poly.toPolynomial
  simp only [coef_map]
  simp [Poly.map]

theorem eval_toPolynomial [Ring R] (φ : T → R) (p : Poly T) (x : R) :
    (p.toPolynomial φ).eval x = ∑ i : Fin p.a.length, φ p.a[i] * x ^ (i : ℕ) := by
  unfold Poly.toPolynomial
  rw [Polynomial.eval_finsetSum]
  simp only [Polynomial.eval_monomial]
  rw [Finset.sum_range]
  apply Finset.sum_congr rfl
  intro i _
  rw [coef_of_lt i.2]
  rfl

theorem foldlM_ok {α ι : Type} {k : α → ι → Res α} {g : α → ι → α} (h : ∀ a i, k a i = .ok (g a i)) :
    ∀ (l : List ι) (a : α), l.foldlM k a = .ok (l.foldl g a)
  | [], a => rfl
  | i :: l, a => by
    rw [List.foldlM_cons, h]
    exact foldlM_ok h l (g a i)

section Exact
variable [Ring R] [DecidableEq R]

theorem exact_eval (p : Poly (Exact R)) (x : Exact R) :
    p.eval x = .ok ⟨(p.toPolynomial Exact.val).eval x.val⟩ := by
  unfold Poly.eval Poly.evalRef
  rw [foldlM_ok (k := fun y a => do
    let y ← mulRefs y x
    (AddAssignRef.addAssign y a).toRes) (g := fun y a => ⟨y.val * x.val + a.val⟩) (fun _ _ => rfl)]
  congr 1
  rw [eval_toPolynomial, List.foldl_reverse]
  apply Exact.ext
  obtain ⟨l⟩ := p
  show (List.foldr (fun (a y : Exact R) => (⟨y.val * x.val + a.val⟩ : Exact R)) zero l).val =
    ∑ i : Fin l.length, (l[i]).val * x.val ^ (i : ℕ)
  induction l with
  | nil => rfl
  | cons a l ih =>
    simp only [List.foldr_cons, ih, List.length_cons]
    rw [Fin.sum_univ_succ]
    simp [Finset.sum_mul, pow_succ, mul_assoc, add_comm]

/-- The list of `n` coefficients given by `c`. -/
def listOf (n : ℕ) (c : ℕ → R) : List (Exact R) := (List.range n).map (fun k => ⟨c k⟩)

omit [Ring R] [DecidableEq R] in
@[simp] theorem listOf_length (n : ℕ) (c : ℕ → R) : (listOf n c).length = n := by simp [listOf]

omit [DecidableEq R] in
theorem coef_listOf (n : ℕ) (c : ℕ → R) (k : ℕ) : (Poly.mk (listOf n c)).coef Exact.val k = if k < n then c k else 0 := by
  by_cases h : k < n
  · simp [Poly.coef, listOf, h]
  · simp [Poly.coef, listOf, h]

end Exact

/-! ## Element-wise loops over general element types -/

/-- `for (i, x) in q { p[i] op= x }` -/
def zipUpd (op : T → T → Upd T) (q p : List T) : Upd (List T) :=
  forEach q.zipIdx (fun (x, i) a => updAt a i (fun y => op y x)) p

theorem forEach_zipIdx_aux {σ : Type} (f : T × ℕ → σ → Upd σ) : ∀ (q pre : List T) (s : σ),
    forEach (q.zipIdx pre.length) f s =
      forEach (List.range' pre.length q.length) (fun i s => match (pre ++ q)[i]? with
        | some x => f (x, i) s
        | none => .done s) s := by
  intro q
  induction q with
  | nil => intro pre s; simp [forEach]
  | cons x q ih =>
    intro pre s
    simp only [List.zipIdx_cons, List.length_cons, List.range'_succ, forEach]
    have h1 : (pre ++ x :: q)[pre.length]? = some x := by simp
    rw [h1]
    congr 1
    funext s
    have := ih (pre ++ [x]) s
    simpa using this

theorem forEach_zipIdx {σ : Type} (f : T × ℕ → σ → Upd σ) (q : List T) (s : σ) :
    forEach q.zipIdx f s = forEach (List.range q.length) (fun i s => match q[i]? with
        | some x => f (x, i) s
        | none => .done s) s := by
  have := forEach_zipIdx_aux f q [] s
  simpa [List.range_eq_range'] using this

theorem forEach_congr {ι σ : Type} {l : List ι} {f g : ι → σ → Upd σ} (h : ∀ i ∈ l, ∀ s, f i s = g i s) (s : σ) :
    forEach l f s = forEach l g s := by
  induction l generalizing s with
  | nil => rfl
  | cons i l ih =>
    simp only [forEach, h i (by simp)]
    congr 1
    funext s
    exact ih (fun j hj => h j (by simp [hj])) s

/-- One cell of `zipUpd`. -/
def zipCell (op : T → T → Upd T) (q : List T) (i : ℕ) (c : Option T) : Upd (Option T) :=
  match q[i]? with
  | some x => liftO (fun y => op y x) c
  | none => .done c

theorem zipUpd_cells (op : T → T → Upd T) (q : List T) (n : ℕ) :
    CellLoop (fun (d : List T) i => d[i]?) (List.range q.length) (fun i s => match q[i]? with
        | some x => updAt s i (fun y => op y x)
        | none => .done s) (zipCell op q) (fun d => d.length = n) where
  inv i _ s hs := by
    cases q[i]? with
    | none => exact hs
    | some x => simpa [updAt_length] using hs
  panic i _ s _ := by
    unfold zipCell
    cases q[i]? with
    | none => rfl
    | some x => exact updAt_panic _ _ _
  self i _ s _ := by
    unfold zipCell
    cases q[i]? with
    | none => rfl
    | some x => exact updAt_self _ _ _
  other i _ s _ j hj := by
    cases q[i]? with
    | none => rfl
    | some x => exact updAt_other _ _ _ _ hj

theorem zipUpd_eq (op : T → T → Upd T) (q p : List T) :
    zipUpd op q p = forEach (List.range q.length) (fun i s => match q[i]? with
        | some x => updAt s i (fun y => op y x)
        | none => .done s) p := by
  unfold zipUpd
  rw [forEach_zipIdx]

theorem zipUpd_length (op : T → T → Upd T) (q p : List T) : (zipUpd op q p).val.length = p.length := by
  rw [zipUpd_eq]
  exact (zipUpd_cells op q p.length).inv_forEach p rfl

/-- Normal completion of an element-wise loop. -/
theorem zipUpd_done (op : T → T → Upd T) (q p : List T) (h : (zipUpd op q p).panic = none) :
    q.length ≤ p.length ∧
    (∀ (i : ℕ) x, q[i]? = some x → ∃ y, p[i]? = some y ∧ (op y x).panic = none ∧
      (zipUpd op q p).val[i]? = some (op y x).val) ∧
    ∀ i, q.length ≤ i → (zipUpd op q p).val[i]? = p[i]? := by
  rw [zipUpd_eq] at h ⊢
  obtain ⟨h1, h2⟩ := (zipUpd_cells op q p.length).done List.nodup_range p rfl h
  have key : ∀ (i : ℕ) x, q[i]? = some x → ∃ y, p[i]? = some y ∧ (op y x).panic = none ∧
      (forEach (List.range q.length) (fun i s => match q[i]? with
        | some x => updAt s i (fun y => op y x)
        | none => .done s) p).val[i]? = some (op y x).val := by
    intro i x hx
    have hi : i < q.length := (List.getElem?_eq_some_iff.1 hx).1
    obtain ⟨h3, h4⟩ := h1 i (by simpa using hi)
    rw [h4]
    simp only [zipCell, hx] at h3 ⊢
    cases hy : p[i]? with
    | none => simp [hy, liftO] at h3
    | some y => exact ⟨y, rfl, by simpa [hy, liftO, Upd.into] using h3, by simp [liftO, Upd.into]⟩
  refine ⟨?_, key, fun i hi => h2 i (by simpa using hi)⟩
  by_contra hlt
  push Not at hlt
  obtain ⟨y, hy, _⟩ := key p.length q[p.length] (List.getElem?_eq_getElem hlt)
  simp at hy

/-- Crash of an element-wise loop over operands that fit: entries before the failing position are new, later ones
untouched. -/
theorem zipUpd_crash (op : T → T → Upd T) (q p : List T) (hl : q.length ≤ p.length) {e : Panic}
    (h : (zipUpd op q p).panic = some e) :
    ∃ (k : ℕ) (x y : T), q[k]? = some x ∧ p[k]? = some y ∧ (op y x).panic = some e ∧
      (zipUpd op q p).val[k]? = some (op y x).val ∧
      (∀ i < k, ∃ x y, q[i]? = some x ∧ p[i]? = some y ∧ (op y x).panic = none ∧
        (zipUpd op q p).val[i]? = some (op y x).val) ∧
      ∀ i, k < i → (zipUpd op q p).val[i]? = p[i]? := by
  rw [zipUpd_eq] at h ⊢
  obtain ⟨pre, k, post, hr, h1, h2, h3, h4⟩ := (zipUpd_cells op q p.length).crash List.nodup_range p rfl h
  have hpre : pre = List.range k ∧ k < q.length := by
    have hk : pre.length = k := by
      have := congrArg (fun l => l[pre.length]?) hr
      simp only [List.getElem?_append_right (le_refl _), Nat.sub_self, List.getElem?_cons_zero] at this
      have hlt : pre.length < (List.range q.length).length := by rw [hr]; simp
      rw [List.getElem?_eq_getElem hlt] at this
      simpa using this
    have hlen : k < q.length := by
      have := congrArg List.length hr
      simp at this; omega
    refine ⟨?_, hlen⟩
    have := congrArg (List.take k) hr
    rw [List.take_range, ← hk, List.take_left'  (by simp)] at this
    rw [← this, hk, Nat.min_eq_left hlen.le]
  obtain ⟨rfl, hkq⟩ := hpre
  have hkp : k < p.length := by omega
  refine ⟨k, q[k], p[k], List.getElem?_eq_getElem hkq, List.getElem?_eq_getElem hkp, ?_, ?_, ?_, ?_⟩
  · simpa [zipCell, List.getElem?_eq_getElem hkq, List.getElem?_eq_getElem hkp, liftO, Upd.into] using h2
  · rw [h3]; simp [zipCell, List.getElem?_eq_getElem hkq, List.getElem?_eq_getElem hkp, liftO, Upd.into]
  · intro i hi
    have hiq : i < q.length := by omega
    have hip : i < p.length := by omega
    obtain ⟨h5, h6⟩ := h1 i (by simpa using hi)
    refine ⟨q[i], p[i], List.getElem?_eq_getElem hiq, List.getElem?_eq_getElem hip, ?_, ?_⟩
    · simpa [zipCell, List.getElem?_eq_getElem hiq, List.getElem?_eq_getElem hip, liftO, Upd.into] using h5
    · rw [h6]; simp [zipCell, List.getElem?_eq_getElem hiq, List.getElem?_eq_getElem hip, liftO, Upd.into]
  · intro i hi
    exact h4 i (by simp; omega) (by omega)

theorem zipUpd_total (op : T → T → Upd T) (q p : List T) (hl : q.length ≤ p.length)
    (h : ∀ (i : ℕ) x y, q[i]? = some x → p[i]? = some y → (op y x).panic = none) : (zipUpd op q p).panic = none := by
  cases hp : (zipUpd op q p).panic with
  | none => rfl
  | some e =>
    obtain ⟨k, x, y, h1, h2, h3, _⟩ := zipUpd_crash op q p hl hp
    rw [h k x y h1 h2] at h3; cases h3

/-! ## The polynomial operations in terms of `zipUpd` -/

theorem Poly.add_eq [AddAssignRef T] (p q : Poly T) :
    p.add q = (if p.a.length < q.a.length then ((zipUpd AddAssignRef.addAssign p.a q.a).into Poly.mk).toRes
      else ((zipUpd AddAssignRef.addAssign q.a p.a).into Poly.mk).toRes) := by
  rw [Poly.add]
  split
  · rw [Poly.add, if_neg (by omega)]; rfl
  · rfl

theorem forEach_push (l : List (T × ℕ)) (a : List T) :
    forEach l (fun xi a => .done (a ++ [xi.1])) a = .done (a ++ l.map Prod.fst) := by
  induction l generalizing a with
  | nil => simp [forEach]
  | cons x l ih =>
    show forEach l _ (a ++ [x.1]) = _
    rw [ih]; simp

theorem Poly.addAssignV_eq [AddAssignRef T] (p q : Poly T) :
    p.addAssignV q = ((zipUpd AddAssignRef.addAssign (q.a.take p.a.length) p.a).andThen
      (fun a => .done (a ++ q.a.drop p.a.length))).into Poly.mk := by
  unfold Poly.addAssignV
  simp only
  congr 1
  have hsplit : q.a.zipIdx = (q.a.take p.a.length).zipIdx ++ (q.a.drop p.a.length).zipIdx (q.a.take p.a.length).length := by
    rw [← Nat.zero_add (q.a.take p.a.length).length, ← List.zipIdx_append, List.take_append_drop]
  rw [hsplit, forEach_append]
  have h1 : ∀ s, forEach (q.a.take p.a.length).zipIdx (fun (x : T × ℕ) a => if x.2 < p.a.length then
      updAt a x.2 (fun y => AddAssignRef.addAssign y x.1) else .done (a ++ [x.1])) s =
      forEach (q.a.take p.a.length).zipIdx (fun (x : T × ℕ) a => updAt a x.2 (fun y => AddAssignRef.addAssign y x.1)) s := by
    apply forEach_congr
    intro xi hxi s
    have h2 := List.mem_zipIdx hxi
    rw [if_pos (by simp at h2; omega)]
  rw [h1]
  unfold zipUpd
  congr 1
  funext s
  have h3 : ∀ s, forEach ((q.a.drop p.a.length).zipIdx (q.a.take p.a.length).length) (fun (x : T × ℕ) a => if x.2 < p.a.length then
      updAt a x.2 (fun y => AddAssignRef.addAssign y x.1) else .done (a ++ [x.1])) s =
      forEach ((q.a.drop p.a.length).zipIdx (q.a.take p.a.length).length) (fun (x : T × ℕ) a => .done (a ++ [x.1])) s := by
    apply forEach_congr
    intro xi hxi s
    obtain ⟨h2, h4, _⟩ := List.mem_zipIdx hxi
    rw [if_neg]
    have : (q.a.drop p.a.length).length ≠ 0 := by omega
    simp at this h2
    omega
  rw [h3, forEach_push]
  simp

theorem range_getIdx_eq (op : T → T → Upd T) (q p : List T) :
    forEach (List.range q.length) (fun i a => updAt a i (fun y => Upd.withRes (getIdx q i) y (fun x => op y x))) p =
      zipUpd op q p := by
  rw [zipUpd_eq]
  apply forEach_congr
  intro i hi s
  have hi' : i < q.length := by simpa using hi
  simp [getIdx, List.getElem?_eq_getElem hi', Upd.withRes]

/-- `self.a` after the `resize_with` of `+=`/`-=` with a reference. -/
def Poly.padded [RZero T] (p q : Poly T) : List T :=
  if p.a.length < q.a.length then resizeZero p.a q.a.length else p.a

theorem Poly.addAssignRef_eq [RZero T] [AddAssignRef T] (p q : Poly T) :
    p.addAssignRef q = (zipUpd AddAssignRef.addAssign q.a (p.padded q)).into Poly.mk := by
  unfold Poly.addAssignRef
  simp only
  rw [range_getIdx_eq]
  rfl

theorem Poly.subAssignRef_eq [RZero T] [SubAssignRef T] (p q : Poly T) :
    p.subAssignRef q = (zipUpd SubAssignRef.subAssign q.a (p.padded q)).into Poly.mk := by
  unfold Poly.subAssignRef
  simp only
  rw [range_getIdx_eq]
  rfl

theorem Poly.padded_length [RZero T] (p q : Poly T) : (p.padded q).length = max p.a.length q.a.length := by
  unfold Poly.padded
  split <;> simp [Poly.resizeZero] <;> omega

theorem Poly.padded_getElem? [RZero T] (p q : Poly T) (i : ℕ) :
    (p.padded q)[i]? = if i < p.a.length then p.a[i]? else if i < q.a.length then some zero else none := by
  unfold Poly.padded
  split
  · unfold Poly.resizeZero
    rw [List.getElem?_append]
    split
    · rfl
    · rw [List.getElem?_replicate]
      congr 1
      simp only [eq_iff_iff]; omega
  · split
    · rfl
    · rw [if_neg (by omega)]; exact List.getElem?_eq_none (by omega)

/-! ## Closed forms over exact arithmetic -/

section ExactOps
variable [Ring R] [DecidableEq R]

theorem into_toRes_of_done {σ τ : Type} {u : Upd σ} {f : σ → τ} (h : u.panic = none) :
    (u.into f).toRes = .ok (f u.val) := by
  simp [Upd.into, Upd.toRes, h]

theorem exact_zipUpd (op : Exact R → Exact R → Upd (Exact R)) (g : R → R → R)
    (hop : ∀ a b, op a b = .done ⟨g a.val b.val⟩) (p q : List (Exact R)) (h : q.length ≤ p.length) :
    (zipUpd op q p).panic = none ∧ (zipUpd op q p).val.length = p.length ∧
      ∀ k, (Poly.mk (zipUpd op q p).val).coef Exact.val k = if k < q.length then
        g ((Poly.mk p).coef Exact.val k) ((Poly.mk q).coef Exact.val k) else (Poly.mk p).coef Exact.val k := by
  have hp := zipUpd_total op q p h (fun i x y _ _ => by simp [hop])
  refine ⟨hp, zipUpd_length _ _ _, fun k => ?_⟩
  obtain ⟨_, h1, h2⟩ := zipUpd_done op q p hp
  split
  · rename_i hk
    obtain ⟨y, hy, _, hv⟩ := h1 k q[k] (List.getElem?_eq_getElem hk)
    simp [Poly.coef, hv, hy, hop, List.getElem?_eq_getElem hk]
  · rename_i hk
    simp only [Poly.coef, h2 k (by omega)]

/-- `+` on exact polynomials. -/
theorem exact_add (p q : Poly (Exact R)) : ∃ r, p.add q = .ok r ∧ r.a.length = max p.a.length q.a.length ∧
    ∀ k, r.coef Exact.val k = p.coef Exact.val k + q.coef Exact.val k := by
  have key : ∀ p q : Poly (Exact R), q.a.length ≤ p.a.length → ∃ r,
      ((zipUpd AddAssignRef.addAssign q.a p.a).into Poly.mk).toRes = .ok r ∧
      r.a.length = max p.a.length q.a.length ∧
      ∀ k, r.coef Exact.val k = p.coef Exact.val k + q.coef Exact.val k := by
    intro p q h
    obtain ⟨h1, h2, h3⟩ := exact_zipUpd AddAssignRef.addAssign (· + ·) (fun _ _ => rfl) p.a q.a h
    refine ⟨_, into_toRes_of_done h1, by rw [h2]; omega, fun k => ?_⟩
    rw [h3]
    split
    · rfl
    · rw [coef_eq_zero (p := q) (by omega), add_zero]
  rw [Poly.add_eq]
  split
  · obtain ⟨r, h1, h2, h3⟩ := key q p (by omega)
    exact ⟨r, h1, by rw [h2, max_comm], fun k => by rw [h3, add_comm]⟩
  · exact key p q (by omega)

theorem coef_append [Zero R] {φ : T → R} (a b : List T) (k : ℕ) : (Poly.mk (a ++ b)).coef φ k =
    if k < a.length then (Poly.mk a).coef φ k else (Poly.mk b).coef φ (k - a.length) := by
  simp only [Poly.coef, List.getElem?_append]
  split <;> rfl

theorem exact_addAssignV (p q : Poly (Exact R)) : (p.addAssignV q).panic = none ∧
    (p.addAssignV q).val.a.length = max p.a.length q.a.length ∧
    ∀ k, (p.addAssignV q).val.coef Exact.val k = p.coef Exact.val k + q.coef Exact.val k := by
  obtain ⟨h1, h2, h3⟩ := exact_zipUpd AddAssignRef.addAssign (· + ·) (fun _ _ => rfl) p.a (q.a.take p.a.length)
    (by simp)
  rw [Poly.addAssignV_eq]
  simp only [Upd.andThen, h1, Upd.into, Upd.done]
  refine ⟨trivial, by simp [h2]; omega, fun k => ?_⟩
  rw [coef_append, h2, h3]
  split
  · rename_i hk
    split
    · rename_i hk2
      have : k < q.a.length := by simp at hk2; omega
      rw [coef_of_lt (p := ⟨q.a.take p.a.length⟩) hk2, coef_of_lt (p := q) this]
      simp
    · rename_i hk2
      have : q.a.length ≤ k := by simp at hk2; omega
      rw [coef_eq_zero (p := q) this]; simp
  · rename_i hk
    rw [coef_eq_zero (p := p) (by omega), zero_add]
    simp only [Poly.coef, List.getElem?_drop]
    rw [Nat.add_sub_cancel' (by omega)]

theorem coef_padded (p q : Poly (Exact R)) (k : ℕ) :
    (Poly.mk (p.padded q)).coef Exact.val k = p.coef Exact.val k := by
  simp only [Poly.coef, Poly.padded_getElem?]
  split
  · rfl
  · rename_i h
    rw [List.getElem?_eq_none (by omega)]
    split <;> rfl

theorem exact_addAssignRef (p q : Poly (Exact R)) : (p.addAssignRef q).panic = none ∧
    (p.addAssignRef q).val.a.length = max p.a.length q.a.length ∧
    ∀ k, (p.addAssignRef q).val.coef Exact.val k = p.coef Exact.val k + q.coef Exact.val k := by
  obtain ⟨h1, h2, h3⟩ := exact_zipUpd AddAssignRef.addAssign (· + ·) (fun _ _ => rfl) (p.padded q) q.a
    (by rw [Poly.padded_length]; omega)
  rw [Poly.addAssignRef_eq]
  refine ⟨h1, by simp [Upd.into, h2, Poly.padded_length], fun k => ?_⟩
  simp only [Upd.into]
  rw [h3, coef_padded]
  split
  · rfl
  · rw [coef_eq_zero (p := q) (by omega), add_zero]

theorem exact_subAssignRef (p q : Poly (Exact R)) : (p.subAssignRef q).panic = none ∧
    (p.subAssignRef q).val.a.length = max p.a.length q.a.length ∧
    ∀ k, (p.subAssignRef q).val.coef Exact.val k = p.coef Exact.val k - q.coef Exact.val k := by
  obtain ⟨h1, h2, h3⟩ := exact_zipUpd SubAssignRef.subAssign (· - ·) (fun _ _ => rfl) (p.padded q) q.a
    (by rw [Poly.padded_length]; omega)
  rw [Poly.subAssignRef_eq]
  refine ⟨h1, by simp [Upd.into, h2, Poly.padded_length], fun k => ?_⟩
  simp only [Upd.into]
  rw [h3, coef_padded]
  split
  · rfl
  · rw [coef_eq_zero (p := q) (by omega), sub_zero]

theorem exact_neg (p : Poly (Exact R)) : ∃ r, p.neg = .ok r ∧ r.a.length = p.a.length ∧
    ∀ k, r.coef Exact.val k = -p.coef Exact.val k := by
  have : p.a.mapM (RNeg.neg : Exact R → Res (Exact R)) = .ok (p.a.map (fun x => ⟨-x.val⟩)) := by
    rw [mapM_ok_iff]
    refine ⟨by simp, fun i a h => ⟨⟨-a.val⟩, by simp [h], rfl⟩⟩
  refine ⟨⟨p.a.map (fun x => ⟨-x.val⟩)⟩, ?_, by simp, fun k => ?_⟩
  · unfold Poly.neg; rw [this]; rfl
  · simp only [Poly.coef, List.getElem?_map]
    cases p.a[k]? <;> simp

theorem exact_sub (p q : Poly (Exact R)) : ∃ r, p.sub q = .ok r ∧ r.a.length = max p.a.length q.a.length ∧
    ∀ k, r.coef Exact.val k = p.coef Exact.val k - q.coef Exact.val k := by
  obtain ⟨n, h1, h2, h3⟩ := exact_neg q
  obtain ⟨r, h4, h5, h6⟩ := exact_add p n
  refine ⟨r, by unfold Poly.sub; rw [h1]; exact h4, by rw [h5, h2], fun k => by rw [h6, h3, sub_eq_add_neg]⟩

theorem exact_subAssignV (p q : Poly (Exact R)) : (p.subAssignV q).panic = none ∧
    (p.subAssignV q).val.a.length = max p.a.length q.a.length ∧
    ∀ k, (p.subAssignV q).val.coef Exact.val k = p.coef Exact.val k - q.coef Exact.val k := by
  obtain ⟨n, h1, h2, h3⟩ := exact_neg q
  obtain ⟨h4, h5, h6⟩ := exact_addAssignV p n
  unfold Poly.subAssignV
  simp only [h1, Upd.withRes]
  exact ⟨h4, by rw [h5, h2], fun k => by rw [h6, h3, sub_eq_add_neg]⟩

/-! ### Product -/

/-- Invariant of the double loop: adding products one by one. -/
theorem exact_mulLoop (a b : List (Exact R)) (n : ℕ) : ∀ (L : List (ℕ × ℕ)) (d : List (Exact R)),
    d.length = n → (∀ ij ∈ L, ij.1 < a.length ∧ ij.2 < b.length ∧ ij.1 + ij.2 < n) →
    ∃ d', forEach L (fun ij d => Upd.withRes (do mulRefs (← getIdx a ij.1) (← getIdx b ij.2)) d
          (fun prod => updAt d (ij.1 + ij.2) (fun y => AddAssignRef.addAssign y prod))) d = .done d' ∧
      d'.length = n ∧ ∀ k, (Poly.mk d').coef Exact.val k = (Poly.mk d).coef Exact.val k +
        (L.map (fun ij => if ij.1 + ij.2 = k then
          (Poly.mk a).coef Exact.val ij.1 * (Poly.mk b).coef Exact.val ij.2 else 0)).sum := by
  intro L
  induction L with
  | nil => intro d hd _; exact ⟨d, rfl, hd, by simp⟩
  | cons ij L ih =>
    intro d hd hL
    obtain ⟨i, j⟩ := ij
    obtain ⟨hi, hj, hij⟩ := hL (i, j) (by simp)
    simp only at hi hj hij
    have hij' : i + j < d.length := by omega
    set d1 := d.set (i + j) ⟨d[i + j].val + a[i].val * b[j].val⟩ with hd1
    obtain ⟨d', h1, h2, h3⟩ := ih d1 (by simp [hd1, hd]) (fun x hx => hL x (by simp [hx]))
    refine ⟨d', ?_, h2, fun k => ?_⟩
    · simp only [forEach]
      have hm : (mulRefs a[i] b[j] : Res (Exact R)) = .ok ⟨a[i].val * b[j].val⟩ := rfl
      have hb : Upd.withRes (do mulRefs (← getIdx a i) (← getIdx b j)) d
          (fun prod => updAt d (i + j) (fun y => AddAssignRef.addAssign y prod)) = .done d1 := by
        simp only [getIdx, List.getElem?_eq_getElem hi, List.getElem?_eq_getElem hj, bind, Except.bind, hm,
          Upd.withRes, updAt, List.getElem?_eq_getElem hij']
        rfl
      rw [hb]
      exact h1
    · rw [h3 k]
      simp only [List.map_cons, List.sum_cons]
      have : (Poly.mk d1).coef Exact.val k = (Poly.mk d).coef Exact.val k +
          if i + j = k then (Poly.mk a).coef Exact.val i * (Poly.mk b).coef Exact.val j else 0 := by
        rw [coef_of_lt (p := ⟨a⟩) hi, coef_of_lt (p := ⟨b⟩) hj]
        simp only [Poly.coef, hd1, List.getElem?_set]
        by_cases hk : i + j = k
        · subst hk
          simp [hij']
        · simp [hk]
      rw [this, add_assoc]

theorem sum_flatMap_range (m n : ℕ) (F : ℕ → ℕ → R) :
    (((List.range m).flatMap (fun i => (List.range n).map (fun j => (i, j)))).map (fun ij => F ij.1 ij.2)).sum =
      ∑ i ∈ range m, ∑ j ∈ range n, F i j := by
  induction m with
  | zero => simp
  | succ m ih =>
    rw [List.range_succ, List.flatMap_append, List.map_append, List.sum_append, ih, Finset.sum_range_succ]
    congr 1
    simp only [List.flatMap_cons, List.flatMap_nil, List.append_nil, List.map_map]
    clear ih
    induction n with
    | zero => simp
    | succ n ih => rw [List.range_succ, List.map_append, List.sum_append, ih, Finset.sum_range_succ]; simp

theorem exact_mul (p q : Poly (Exact R)) : ∃ r, p.mulRef q = .ok r ∧
    r.a.length = (if p.a.length = 0 ∨ q.a.length = 0 then 0 else p.a.length + q.a.length - 1) ∧
    r.toPolynomial Exact.val = p.toPolynomial Exact.val * q.toPolynomial Exact.val := by
  unfold Poly.mulRef
  by_cases he : p.a.length = 0 ∨ q.a.length = 0
  · have : (p.a.isEmpty || q.a.isEmpty) = true := by
      simpa [List.isEmpty_iff_length_eq_zero] using he
    rw [if_pos this, if_pos he]
    refine ⟨_, rfl, rfl, ?_⟩
    rcases he with h | h <;> simp [Poly.toPolynomial, h, zero]
  · have : ¬ (p.a.isEmpty || q.a.isEmpty) = true := by
      simpa [List.isEmpty_iff_length_eq_zero] using he
    rw [if_neg this, if_neg he]
    push Not at he
    rw [forEach_flatMap]
    obtain ⟨d', h1, h2, h3⟩ := exact_mulLoop p.a q.a (p.a.length + q.a.length - 1)
      ((List.range p.a.length).flatMap (fun i => (List.range q.a.length).map (fun j => (i, j))))
      (List.replicate (p.a.length + q.a.length - 1) zero) (by simp) (by
        rintro ⟨i, j⟩ hij
        simp at hij
        simp only; omega)
    rw [h1]
    refine ⟨⟨d'⟩, rfl, h2, ?_⟩
    ext k
    rw [coeff_toPolynomial, h3 k]
    rw [show (Poly.mk (List.replicate (p.a.length + q.a.length - 1) (zero : Exact R))).coef Exact.val k = 0 by
      simp only [Poly.coef, List.getElem?_replicate]; split <;> rfl, zero_add]
    rw [sum_flatMap_range p.a.length q.a.length (fun i j => if i + j = k then
          (Poly.mk p.a).coef Exact.val i * (Poly.mk q.a).coef Exact.val j else 0)]
    unfold Poly.toPolynomial
    rw [Finset.sum_mul_sum]
    simp only [Polynomial.monomial_mul_monomial, Polynomial.finsetSum_coeff, Polynomial.coeff_monomial]

end ExactOps

end Magnesia
