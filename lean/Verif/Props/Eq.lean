import Verif.Model.Complex
import Verif.Model.Polynomial
import Verif.Model.SMatrix
import Verif.Model.Scalars
import Verif.Model.Ieee
import Verif.Spec.Dyn
import Verif.Spec.Denote
import Verif.Spec.Iter
import Verif.Proof.DynLin
import Verif.Proof.DynLoop
import Verif.Props.DynExpr

/-!
# Property C51: equality, construction, iteration
-/

namespace Magnesia

open RZero ROne

variable {T S : Type} {n r c : ℕ}

/-! ## `==` -/

section eq
variable [RPartialEq T]

/-- `==` of the element type. -/
local notation:50 a:51 " ≈≈ " b:51 => RPartialEq.eq a b = true

theorem zipWith_all_iff : ∀ (a b : List T), a.length = b.length →
    ((List.zipWith RPartialEq.eq a b).all id = true ↔ ∀ (i : ℕ) (x y : T), a[i]? = some x → b[i]? = some y → x ≈≈ y)
  | [], [], _ => by simp
  | x :: a, y :: b, h => by
    simp only [List.zipWith_cons_cons, List.all_cons, id, Bool.and_eq_true]
    rw [zipWith_all_iff a b (by simpa using h)]
    constructor
    · rintro ⟨h1, h2⟩ i u v hu hv
      cases i with
      | zero => simp only [List.getElem?_cons_zero, Option.some.injEq] at hu hv; subst hu hv; exact h1
      | succ i => exact h2 i u v (by simpa using hu) (by simpa using hv)
    · intro h2
      exact ⟨h2 0 x y rfl rfl, fun i u v hu hv => h2 (i + 1) u v (by simpa using hu) (by simpa using hv)⟩

/-- C51: complex numbers are equal if both parts are. -/
theorem C51_complex_eq (z w : Complex T) : z ≈≈ w ↔ z.re ≈≈ w.re ∧ z.im ≈≈ w.im := by
  simp [RPartialEq.eq]

/-- C51: static vectors are equal if all entries are. -/
theorem C51_svector_eq (u v : SVector T n) : u ≈≈ v ↔ ∀ i, u.val i ≈≈ v.val i := by
  simp [RPartialEq.eq]

/-- C51: static matrices are equal if all entries are. -/
theorem C51_smatrix_eq (a b : SMatrix T r c) : a ≈≈ b ↔ ∀ i j, a.val i j ≈≈ b.val i j := by
  simp [RPartialEq.eq]

/-- C51: polynomials are equal if they have the same number of coefficients and all coefficients are equal. -/
theorem C51_polynomial_eq (p q : Poly T) : p ≈≈ q ↔ p.a.length = q.a.length ∧
    ∀ (i : ℕ) (x y : T), p.a[i]? = some x → q.a[i]? = some y → x ≈≈ y := by
  constructor
  · intro h
    simp only [RPartialEq.eq, Bool.and_eq_true, beq_iff_eq] at h
    exact ⟨h.1, (zipWith_all_iff _ _ h.1).1 h.2⟩
  · intro h
    simp only [RPartialEq.eq, Bool.and_eq_true, beq_iff_eq]
    exact ⟨h.1, (zipWith_all_iff _ _ h.1).2 h.2⟩

/-- C51: dynamic vectors are equal if they have the same length and all entries are equal. -/
theorem C51_dvector_eq (u v : DVector T) : u ≈≈ v ↔ u.asExpr.len = v.asExpr.len ∧
    ∀ (i : ℕ) (x y : T), u.index i = .ok x → v.index i = .ok y → x ≈≈ y := by
  have key : ∀ (l : List T) (i : ℕ) (x : T), getIdx l i = .ok x ↔ l[i]? = some x := by
    intro l i x; unfold getIdx; cases l[i]? <;> simp
  simp only [DVector.index, key]
  constructor
  · intro h
    simp only [RPartialEq.eq, sliceEq, Bool.and_eq_true, beq_iff_eq] at h
    exact ⟨h.1, (zipWith_all_iff _ _ h.1).1 h.2⟩
  · intro h
    simp only [RPartialEq.eq, sliceEq, Bool.and_eq_true, beq_iff_eq]
    exact ⟨h.1, (zipWith_all_iff _ _ h.1).2 h.2⟩

/-- C51: dynamic matrices are equal if they have the same shape and all entries are equal. (So two empty matrices of
different shapes are different.) The matrices are those that satisfy the storage invariant, i.e. all (C28). -/
theorem C51_dmatrix_eq {r c r' c' : ℕ} (f : Fin r → Fin c → T) (g : Fin r' → Fin c' → T) :
    DMatrix.ofFn f ≈≈ DMatrix.ofFn g ↔ ∃ (hr : r' = r) (hc : c' = c), ∀ i j, f i j ≈≈ g (i.cast hr.symm) (j.cast hc.symm) := by
  simp only [RPartialEq.eq, sliceEq, Bool.and_eq_true, beq_iff_eq]
  constructor
  · rintro ⟨⟨⟨h1, h2⟩, h3⟩, h4⟩
    cases (h3 : r = r')
    cases (h4 : c = c')
    refine ⟨rfl, rfl, fun i j => ?_⟩
    exact (zipWith_all_iff _ _ h1).1 h2 _ _ _ (getElem?_rows f i j) (getElem?_rows g i j)
  · rintro ⟨rfl, rfl, h⟩
    have hl : (DMatrix.ofFn f).data.length = (DMatrix.ofFn g).data.length := (length_rows f).trans (length_rows g).symm
    refine ⟨⟨⟨hl, (zipWith_all_iff _ _ hl).2 ?_⟩, rfl⟩, rfl⟩
    intro k x y hx hy
    have hk : k < r' * c' := by
      have := (List.getElem?_eq_some_iff.1 hx).1
      rwa [show (DMatrix.ofFn f).data.length = _ from length_rows f] at this
    have hc : 0 < c' := Nat.pos_of_ne_zero (by rintro rfl; simp at hk)
    have hi : k / c' < r' := Nat.div_lt_of_lt_mul (by rwa [Nat.mul_comm])
    have hj : k % c' < c' := Nat.mod_lt _ hc
    have e : k / c' * c' + k % c' = k := Nat.div_add_mod' k c'
    have h1 := getElem?_rows f ⟨k / c', hi⟩ ⟨k % c', hj⟩
    have h2 := getElem?_rows g ⟨k / c', hi⟩ ⟨k % c', hj⟩
    simp only [e] at h1 h2
    cases h1.symm.trans hx
    cases h2.symm.trans hy
    exact h _ _

/-- C51: `==` of the containers is symmetric and transitive if `==` of the element type is. -/
theorem C51_partial_equivalence (hs : ∀ a b : T, a ≈≈ b → b ≈≈ a) (ht : ∀ a b c : T, a ≈≈ b → b ≈≈ c → a ≈≈ c) :
    (∀ x y : Complex T, x ≈≈ y → y ≈≈ x) ∧ (∀ x y z : Complex T, x ≈≈ y → y ≈≈ z → x ≈≈ z) ∧
    (∀ x y : SVector T n, x ≈≈ y → y ≈≈ x) ∧ (∀ x y z : SVector T n, x ≈≈ y → y ≈≈ z → x ≈≈ z) ∧
    (∀ x y : SMatrix T r c, x ≈≈ y → y ≈≈ x) ∧ (∀ x y z : SMatrix T r c, x ≈≈ y → y ≈≈ z → x ≈≈ z) ∧
    (∀ x y : Poly T, x ≈≈ y → y ≈≈ x) ∧ (∀ x y z : Poly T, x ≈≈ y → y ≈≈ z → x ≈≈ z) ∧
    (∀ x y : DVector T, x ≈≈ y → y ≈≈ x) ∧ (∀ x y z : DVector T, x ≈≈ y → y ≈≈ z → x ≈≈ z) ∧
    (∀ x y : DMatrix T, x ≈≈ y → y ≈≈ x) ∧ (∀ x y z : DMatrix T, x ≈≈ y → y ≈≈ z → x ≈≈ z) := by
  have ls : ∀ a b : List T, sliceEq a b = true → sliceEq b a = true := by
    intro a b h
    simp only [sliceEq, Bool.and_eq_true, beq_iff_eq] at h ⊢
    exact ⟨h.1.symm, (zipWith_all_iff _ _ h.1.symm).2 fun i x y hx hy => hs _ _ ((zipWith_all_iff _ _ h.1).1 h.2 i y x hy hx)⟩
  have lt : ∀ a b c : List T, sliceEq a b = true → sliceEq b c = true → sliceEq a c = true := by
    intro a b c h h'
    simp only [sliceEq, Bool.and_eq_true, beq_iff_eq] at h h' ⊢
    refine ⟨h.1.trans h'.1, (zipWith_all_iff _ _ (h.1.trans h'.1)).2 fun i x y hx hy => ?_⟩
    have hi : i < b.length := by rw [← h.1]; exact (List.getElem?_eq_some_iff.1 hx).1
    exact ht _ b[i] _ ((zipWith_all_iff _ _ h.1).1 h.2 i _ _ hx (List.getElem?_eq_getElem hi))
      ((zipWith_all_iff _ _ h'.1).1 h'.2 i _ _ (List.getElem?_eq_getElem hi) hy)
  refine ⟨?_, ?_, ?_, ?_, ?_, ?_, fun x y h => ls _ _ h, fun x y z h h' => lt _ _ _ h h', fun x y h => ls _ _ h,
    fun x y z h h' => lt _ _ _ h h', ?_, ?_⟩
  · simp only [C51_complex_eq]; exact fun x y h => ⟨hs _ _ h.1, hs _ _ h.2⟩
  · simp only [C51_complex_eq]; exact fun x y z h h' => ⟨ht _ _ _ h.1 h'.1, ht _ _ _ h.2 h'.2⟩
  · simp only [C51_svector_eq]; exact fun x y h i => hs _ _ (h i)
  · simp only [C51_svector_eq]; exact fun x y z h h' i => ht _ _ _ (h i) (h' i)
  · simp only [C51_smatrix_eq]; exact fun x y h i j => hs _ _ (h i j)
  · simp only [C51_smatrix_eq]; exact fun x y z h h' i j => ht _ _ _ (h i j) (h' i j)
  · intro x y h
    simp only [RPartialEq.eq, Bool.and_eq_true, beq_iff_eq] at h ⊢
    exact ⟨⟨ls _ _ h.1.1, h.1.2.symm⟩, h.2.symm⟩
  · intro x y z h h'
    simp only [RPartialEq.eq, Bool.and_eq_true, beq_iff_eq] at h h' ⊢
    exact ⟨⟨lt _ _ _ h.1.1 h'.1.1, h.1.2.trans h'.1.2⟩, h.2.trans h'.2⟩

/-- C51: a container is equal to itself exactly if each of its elements is equal to itself (which a NaN is not). -/
theorem C51_self_eq (z : Complex T) (u : SVector T n) (m : SMatrix T r c) (p : Poly T) (v : DVector T) (d : DMatrix T) :
    (z ≈≈ z ↔ z.re ≈≈ z.re ∧ z.im ≈≈ z.im) ∧ (u ≈≈ u ↔ ∀ i, u.val i ≈≈ u.val i) ∧
    (m ≈≈ m ↔ ∀ i j, m.val i j ≈≈ m.val i j) ∧ (p ≈≈ p ↔ ∀ x ∈ p.a, x ≈≈ x) ∧ (v ≈≈ v ↔ ∀ x ∈ v.data, x ≈≈ x) ∧
    (d ≈≈ d ↔ ∀ x ∈ d.data, x ≈≈ x) := by
  have key : ∀ l : List T, sliceEq l l = true ↔ ∀ x ∈ l, x ≈≈ x := by
    intro l
    simp only [sliceEq, beq_self_eq_true, Bool.true_and]
    rw [zipWith_all_iff _ _ rfl]
    constructor
    · intro h x hx
      obtain ⟨i, hi⟩ := List.mem_iff_getElem?.1 hx
      exact h i x x hi hi
    · intro h i x y hx hy
      rw [hx] at hy; cases hy
      exact h x (List.mem_of_getElem? hx)
  refine ⟨C51_complex_eq _ _, C51_svector_eq _ _, C51_smatrix_eq _ _, key _, key _, ?_⟩
  rw [← key d.data]
  simp only [RPartialEq.eq, beq_self_eq_true, Bool.and_true]

/-- C51: if `==` of the element type is equality, then so is `==` of each container. -/
theorem C51_lawful (h : ∀ a b : T, a ≈≈ b ↔ a = b) :
    (∀ x y : Complex T, x ≈≈ y ↔ x = y) ∧ (∀ x y : SVector T n, x ≈≈ y ↔ x = y) ∧
    (∀ x y : SMatrix T r c, x ≈≈ y ↔ x = y) ∧ (∀ x y : Poly T, x ≈≈ y ↔ x = y) ∧
    (∀ x y : DVector T, x ≈≈ y ↔ x = y) ∧ ∀ x y : DMatrix T, x ≈≈ y ↔ x = y := by
  have key : ∀ a b : List T, sliceEq a b = true ↔ a = b := by
    intro a b
    simp only [sliceEq, Bool.and_eq_true, beq_iff_eq]
    constructor
    · rintro ⟨h1, h2⟩
      refine List.ext_getElem h1 fun i hi hi' => ?_
      exact (h _ _).1 ((zipWith_all_iff _ _ h1).1 h2 i _ _ (List.getElem?_eq_getElem hi) (List.getElem?_eq_getElem hi'))
    · rintro rfl
      refine ⟨rfl, (zipWith_all_iff _ _ rfl).2 fun i x y hx hy => ?_⟩
      rw [hx] at hy; cases hy
      exact (h _ _).2 rfl
  refine ⟨fun x y => ?_, fun x y => ?_, fun x y => ?_, fun x y => ?_, fun x y => ?_, fun x y => ?_⟩
  · show RPartialEq.eq x y = true ↔ _
    rw [C51_complex_eq, Complex.ext_iff, ← h, ← h]
  · show RPartialEq.eq x y = true ↔ _
    rw [C51_svector_eq, SVector.ext_iff, funext_iff]; simp only [h]
  · show RPartialEq.eq x y = true ↔ _
    rw [C51_smatrix_eq, SMatrix.ext_iff, funext_iff]; simp only [h, funext_iff]
  · cases x; cases y; rw [Poly.mk.injEq]; exact key _ _
  · cases x; cases y; rw [DVector.mk.injEq]; exact key _ _
  · cases x; cases y
    rw [DMatrix.mk.injEq, ← key]
    simp only [RPartialEq.eq, Bool.and_eq_true, beq_iff_eq, and_assoc]

/-- A NaN makes a vector different from itself; equality ignores the sign of zero; machine integers are lawful. -/
example : RPartialEq.eq (⟨![ROne.one, .nan]⟩ : SVector (Ieee .f64) 2) ⟨![ROne.one, .nan]⟩ = false ∧
    RPartialEq.eq (⟨.zero true, ROne.one⟩ : Complex (Ieee .f64)) ⟨.zero false, ROne.one⟩ = true ∧
    RPartialEq.eq (⟨[], 0, 3⟩ : DMatrix I32) ⟨[], 0, 5⟩ = false ∧
    RPartialEq.eq (⟨[.lit 1, .lit 2]⟩ : DVector I32) ⟨[.lit 1, .lit 2]⟩ = true ∧
    RPartialEq.eq (⟨[.lit 1, .lit 2]⟩ : DVector I32) ⟨[.lit 1]⟩ = false := by decide +kernel

example : ∀ a b : I32, a ≈≈ b ↔ a = b := fun a b => by simp [RPartialEq.eq]

end eq

/-! ## Construction and iteration -/

/-- C51: `SVector::from(a)` and `SMatrix::from(a)` hold the given entries; indexing reads them. -/
theorem C51_from (a : Fin n → T) (m : Fin r → Fin c → T) :
    (∀ i : Fin n, (SVector.fromArray a).index i = .ok (a i)) ∧ ∀ i j, (SMatrix.fromArray m).val i j = m i j := by
  refine ⟨fun i => ?_, fun _ _ => rfl⟩
  simp [SVector.index, SVector.fromArray, arrGet]

/-- C51: `into_iter()` (by value or by reference) produces exactly `DIM` items, the `i`-th being the `i`-th entry. -/
theorem C51_into_iter (v : SVector T n) :
    v.toIter.length = n ∧ ∀ i : Fin n, ∃ x, v.toIter[(i : ℕ)]? = some x ∧ v.index i = .ok x := by
  refine ⟨by simp [SVector.toIter], fun i => ⟨v.val i, ?_, ?_⟩⟩
  · simp [SVector.toIter]
  · simp [SVector.index, arrGet]

/-- C51: converting an array into a vector and iterating over it gives the array back. -/
theorem C51_from_into_iter (a : Fin n → T) : (SVector.fromArray a).toIter = List.ofFn a := by
  simp [SVector.toIter, SVector.fromArray, List.ofFn_eq_map]

theorem forMut_aux (body : T → S → Upd (T × S)) : ∀ (l : List (Fin n)), l.Nodup → ∀ (v : Fin n → T) (s : S),
    let u := forEach l (fun i (vs : (Fin n → T) × S) =>
      (body (vs.1 i) vs.2).into (fun ys => (Function.update vs.1 i ys.1, ys.2))) (v, s)
    Visits body (l.map v) s (l.map u.val.1) u.val.2 u.panic ∧ ∀ i ∉ l, u.val.1 i = v i
  | [], _, v, s => ⟨.nil s, fun _ _ => rfl⟩
  | i :: l, hn, v, s => by
    obtain ⟨hi, hl⟩ := List.nodup_cons.1 hn
    intro u
    have hb : body (v i) s = ⟨((body (v i) s).val.1, (body (v i) s).val.2), (body (v i) s).panic⟩ := rfl
    generalize hy : (body (v i) s).val.1 = y at hb
    generalize ht : (body (v i) s).val.2 = t at hb
    have hm : l.map (Function.update v i y) = l.map v :=
      List.map_congr_left fun k hk => Function.update_of_ne (by rintro rfl; exact hi hk) _ _
    cases hp : (body (v i) s).panic with
    | none =>
      rw [hp] at hb
      obtain ⟨h1, h2⟩ := forMut_aux body l hl (Function.update v i y) t
      have hu : u = forEach l (fun i (vs : (Fin n → T) × S) =>
          (body (vs.1 i) vs.2).into (fun ys => (Function.update vs.1 i ys.1, ys.2))) (Function.update v i y, t) := by
        simp [u, forEach, Upd.andThen, Upd.into, hb]
      rw [← hu] at h1 h2
      rw [hm] at h1
      refine ⟨?_, fun k hk => ?_⟩
      · rw [List.map_cons, List.map_cons, h2 i hi, Function.update_self]
        exact .item hb h1
      · rw [List.mem_cons, not_or] at hk
        rw [h2 k hk.2, Function.update_of_ne hk.1]
    | some e =>
      rw [hp] at hb
      have hu : u = ⟨(Function.update v i y, t), some e⟩ := by simp [u, forEach, Upd.andThen, Upd.into, hb]
      rw [hu]
      refine ⟨?_, fun k hk => ?_⟩
      · simp only [List.map_cons, Function.update_self, hm]
        exact .panic hb
      · rw [List.mem_cons, not_or] at hk
        simp only [Function.update_of_ne hk.1]

/-- C51: `for x in &mut v { body }` visits the entries in index order, each exactly once, and writes go to the visited
entry only; a panic of the body leaves the later entries untouched. -/
theorem C51_iter_mut (v : SVector T n) (body : T → S → Upd (T × S)) (s : S) :
    Visits body v.toIter s (v.forMut body s).val.1.toIter (v.forMut body s).val.2 (v.forMut body s).panic :=
  (forMut_aux body (List.finRange n) (List.nodup_finRange n) v.val s).1

/-- Prefix sums computed in place. -/
example : ((⟨![.lit 1, .lit 2, .lit 4]⟩ : SVector I32 3).forMut
    (fun x s => Upd.withRes (MInt.add x s) (x, s) (fun y => .done (y, y))) (MInt.lit 0)).val.1.toIter =
    [.lit 1, .lit 3, .lit 7] := by decide +kernel

/-- C51: `is_empty()` says whether `len()` is 0, and whether `eval()`, if it returns, gives a vector without entries; for
every vector expression that can be built. -/
theorem C51_is_empty {p : Profile} (e : Tree .vec T) (hf : e.Fits p) (o : VExpr T) (ho : e.build p = .ok o) :
    (o.isEmpty = true ↔ o.len = 0) ∧ ∀ v, o.eval = .ok v → (o.isEmpty = true ↔ v.data = []) := by
  refine ⟨by simp [VExpr.isEmpty], fun v hv => ?_⟩
  rw [C26_eval_is_default_vector p e hf o ho, vdefaultEval_iff] at hv
  obtain ⟨f, _, rfl⟩ := hv
  simp [VExpr.isEmpty, DVector.ofFn, List.ofFn_eq_nil_iff]

example : (DVector.zeros (T := I32) 0).isEmpty = true ∧ (DVector.zeros (T := I32) 2).isEmpty = false := by decide

end Magnesia
