import Verif.Spec.Bits
import Verif.Props.LinErr
import Verif.Props.IeeeLaws
import Verif.Props.DynLinalg
import Verif.Props.PForm

/-!
# Property C95: different ways of computing the same products give the same bits
-/

namespace Magnesia

open RZero ROne MulRefs

variable {F : Fmt}

/-! ## For every element type -/

section any
variable {T : Type} [RZero T] [AddAssignRef T] [MulRefs T]

/-- C95: the columns of a matrix product are the products of the matrix and the columns. -/
theorem C95_columns {l m n : ℕ} (a : SMatrix T l m) (b : SMatrix T m n) (c : SMatrix T l n) :
    a.mul b = .ok c ↔ ∀ j, a.mulVec ⟨fun k => b.val k j⟩ = .ok ⟨fun i => c.val i j⟩ := by
  rw [smatrix_mul_entries, forall_comm]
  refine forall_congr' fun j => ?_
  rw [SMatrix.mulVec_eq]
  constructor
  · intro h
    show (do let x ← fromFnM l (fun i => (SVector.mk (a.val i)).dot ⟨fun k => b.val k j⟩); pure (SVector.mk x)) = _
    rw [fromFnM_ok_iff.2 h]
    rfl
  · intro e i
    obtain ⟨x, e1, e⟩ := bind_ok e
    cases pure_ok e
    exact fromFnM_ok_iff.1 e1 i

/-- C95: an entry of a matrix product depends on one row and one column only: selecting, repeating or rearranging rows of the
left factor and columns of the right factor does so with the result. -/
theorem C95_submatrix {l m n l' n' : ℕ} (a : SMatrix T l m) (b : SMatrix T m n) (c : SMatrix T l n) (h : a.mul b = .ok c)
    (ρ : Fin l' → Fin l) (σ : Fin n' → Fin n) :
    (SMatrix.mk fun i k => a.val (ρ i) k).mul (SMatrix.mk fun k j => b.val k (σ j)) = .ok ⟨fun i j => c.val (ρ i) (σ j)⟩ :=
  (smatrix_mul_entries _ _ _).2 fun i j => (smatrix_mul_entries a b c).1 h (ρ i) (σ j)

/-- C95: the product of a row and a column, as matrices, is the dot product. -/
theorem C95_row_column {n : ℕ} (v w : SVector T n) (x : T) :
    v.dot w = .ok x ↔ (SMatrix.mk fun (_ : Fin 1) => v.val).mul (SMatrix.mk fun k (_ : Fin 1) => w.val k) = .ok ⟨fun _ _ => x⟩ := by
  rw [smatrix_mul_entries]
  exact ⟨fun h _ _ => h, fun h => h 0 0⟩

end any

/-- C95: the same for dynamic matrices. -/
theorem C95_dynamic_submatrix {T O : Type} [RMul T T O] [RAddAssign O O] {p : Profile} {l m n l' n' : ℕ} (hf : p.Fits l m)
    (hg : p.Fits m n) (hf' : p.Fits l' m) (hg' : p.Fits m n') (f : Fin l → Fin m → T) (g : Fin m → Fin n → T)
    (y : Fin l → Fin n → O) (h : (do (← (DMatrix.ofFn f).mul p (DMatrix.ofFn g)).eval) = .ok (DMatrix.ofFn y))
    (ρ : Fin l' → Fin l) (σ : Fin n' → Fin n) :
    (do (← (DMatrix.ofFn fun i => f (ρ i)).mul p (DMatrix.ofFn fun k j => g k (σ j))).eval) =
      .ok (DMatrix.ofFn fun i j => y (ρ i) (σ j)) := by
  obtain ⟨z, hz, e⟩ := (mul_eval_iff hf hg f g _).1 h
  rw [ofFn_injective e]
  exact (mul_eval_iff hf' hg' _ _ _).2 ⟨_, fun i j => hz (ρ i) (σ j), rfl⟩

/-- Strictly increasing lists with the same members are equal. -/
theorem sorted_ext {α : Type} [LinearOrder α] {l l' : List α} (h : l.Pairwise (· < ·)) (h' : l'.Pairwise (· < ·))
    (hm : ∀ x, x ∈ l ↔ x ∈ l') : l = l' :=
  List.Perm.eq_of_pairwise (fun _ _ _ _ h1 h2 => (lt_asymm h1 h2).elim) h h'
    ((List.perm_ext_iff_of_nodup (h.imp ne_of_lt) (h'.imp ne_of_lt)).2 hm)

/-- C95: every coefficient of a product of polynomials is the dot product of a window of the one coefficient vector and a
reversed window of the other. -/
theorem C95_polynomial_dot {T : Type} [RRing T] (p q r : Poly T) (h : p.mul q = .ok r) (k : ℕ) (x : T) (hx : r.a[k]? = some x) :
    (SVector.mk fun i : Fin (min (k + 1) p.a.length - (k + 1 - q.a.length)) => p.a[k + 1 - q.a.length + i]'(by omega)).dot
      (SVector.mk fun i => q.a[k - (k + 1 - q.a.length) - i]'(by omega)) = .ok x := by
  have h1 := (C71_product_coefficient p q r h).2 k x hx
  have e : (List.range p.a.length).filter (fun i => decide (i ≤ k ∧ k - i < q.a.length)) =
      (List.finRange (min (k + 1) p.a.length - (k + 1 - q.a.length))).map
        (fun i : Fin (min (k + 1) p.a.length - (k + 1 - q.a.length)) => k + 1 - q.a.length + (i : ℕ)) := by
    refine sorted_ext (List.pairwise_lt_range.filter _) ?_ fun i => ?_
    · rw [List.pairwise_map]
      exact (List.sortedLT_finRange _).pairwise.imp fun h => by simpa using h
    · simp only [List.mem_filter, List.mem_range, decide_eq_true_eq, List.mem_map, List.mem_finRange, true_and]
      constructor
      · rintro ⟨h1, h2, h3⟩
        exact ⟨⟨i - (k + 1 - q.a.length), by omega⟩, by simp only; omega⟩
      · rintro ⟨j, rfl⟩
        have := j.2
        omega
  rw [e, List.foldlM_map] at h1
  rw [← h1]
  show List.foldlM _ _ _ = _
  congr 1
  funext y i
  have := i.2
  rw [getIdx_eq.2 (List.getElem?_eq_getElem (by omega : k + 1 - q.a.length + (i : ℕ) < p.a.length)),
    getIdx_eq.2 (List.getElem?_eq_getElem (by omega : k - (k + 1 - q.a.length + (i : ℕ)) < q.a.length))]
  simp only [Nat.sub_sub]
  rfl

/-! ## Floating point numbers -/

namespace Ieee

/-- A sum is never rounded to zero. -/
theorem roundQ_add_ne_zero {x y : ℚ} (hx : F.Representable x) (hy : F.Representable y) (h : x + y ≠ 0) :
    F.roundQ (x + y) ≠ 0 := by
  intro e
  have h1 := (Fmt.add_err_δ hx hy).1
  rw [e, _root_.zero_sub, abs_neg] at h1
  have h2 : F.δ < 1 := by
    rw [Fmt.δ, div_lt_one (by linarith [F.u_pos])]; linarith
  have h3 := abs_pos.2 h
  nlinarith

/-- A sum is the negative zero only if both operands are. -/
theorem add_eq_negZero {a b : Ieee F} : a.add b = .zero true ↔ a = .zero true ∧ b = .zero true := by
  cases a <;> cases b <;> simp only [add, reduceCtorEq, false_and, and_false, iff_false, zero.injEq, Bool.and_eq_true]
  · split_ifs <;> simp
  · intro h
    split_ifs at h with h0
    · simp at h
    · rename_i x hx rx y hy ry
      unfold round at h
      rw [dif_neg (roundQ_add_ne_zero rx ry h0)] at h
      split_ifs at h

theorem zero_add_plusZero (a : Ieee F) : (zero false : Ieee F).add a = a.plusZero := by
  unfold plusZero
  cases a with
  | zero s => cases s <;> simp [add]
  | _ => simp [add]

theorem plusZero_add (a b : Ieee F) : a.plusZero.add b = (a.add b).plusZero := by
  by_cases ha : a = .zero true
  · subst ha
    have h1 : (zero true : Ieee F).plusZero = zero false := if_pos rfl
    rw [h1, zero_add_plusZero]
    congr 1
    cases b with
    | zero s => cases s <;> simp [add]
    | _ => simp [add]
  · have h1 : a.plusZero = a := if_neg ha
    have h2 : (a.add b).plusZero = a.add b := if_neg fun h => ha (add_eq_negZero.1 h).1
    rw [h1, h2]

end Ieee

/-- Starting a sum at zero turns a negative zero into a positive one, and changes nothing else. -/
theorem sumTerms_plus {O : Type} [RZero O] [RAddAssign O O] {A : O → O → O} {c : O → O}
    (hadd : ∀ a b : O, (RAddAssign.addAssign a b).toRes = .ok (A a b)) (h0 : ∀ x, A zero x = c x)
    (h1 : ∀ s x, A (c s) x = c (A s x)) {t : ℕ → Res O} : ∀ {n : ℕ}, (∀ k < n + 1, ∃ v, t k = .ok v) →
    ∃ y, Tree.sumTerms t (n + 1) = .ok y ∧ (List.range (n + 1)).foldlM (fun s k => do
      let x ← t k
      (RAddAssign.addAssign s x).toRes) zero = .ok (c y) := by
  intro n
  induction n with
  | zero =>
    intro h
    obtain ⟨v, hv⟩ := h 0 (by omega)
    refine ⟨v, hv, ?_⟩
    rw [List.range_one, List.foldlM_cons, hv]
    show (do let s ← (RAddAssign.addAssign zero v).toRes; _) = _
    rw [hadd, h0]
    rfl
  | succ n ih =>
    intro h
    obtain ⟨y, h2, h3⟩ := ih fun k hk => h k (by omega)
    obtain ⟨v, hv⟩ := h (n + 1) (by omega)
    refine ⟨A y v, ?_, ?_⟩
    · show (do
        let s ← Tree.sumTerms t (n + 1)
        let x ← t (n + 1)
        (RAddAssign.addAssign s x).toRes) = _
      rw [h2, hv]
      exact hadd y v
    · rw [List.range_succ, List.foldlM_append, h3]
      show (do let s ← (do
        let x ← t (n + 1)
        (RAddAssign.addAssign (c y) x).toRes); _) = _
      rw [hv, ← h1]
      show (do let s ← (RAddAssign.addAssign (c y) v).toRes; _) = _
      rw [hadd]
      rfl

/-- Both matrix products, entry by entry. -/
theorem static_dynamic {T : Type} [RZero T] [AddAssignRef T] [MulRefs T] [RMul T T T] [RAddAssign T T] {A M : T → T → T}
    {c : T → T} (hadd : ∀ a b : T, (RAddAssign.addAssign a b).toRes = .ok (A a b))
    (hadd' : ∀ a b : T, (AddAssignRef.addAssign a b).toRes = .ok (A a b))
    (hmul : ∀ a b : T, RMul.mul a b = .ok (M a b)) (hmul' : ∀ a b : T, mulRefs a b = .ok (M a b))
    (h0 : ∀ x, A zero x = c x) (h1 : ∀ s x, A (c s) x = c (A s x)) {p : Profile} {l m n : ℕ} (hf : p.Fits l (m + 1))
    (hg : p.Fits (m + 1) n) (f : Fin l → Fin (m + 1) → T) (g : Fin (m + 1) → Fin n → T) :
    ∃ y : Fin l → Fin n → T, (∀ i j, Tree.sumTerms (prodTerms f g i j) (m + 1) = .ok (y i j)) ∧
      (do (← (DMatrix.ofFn f).mul p (DMatrix.ofFn g)).eval) = .ok (DMatrix.ofFn y) ∧
      (SMatrix.mk f).mul (SMatrix.mk g) = .ok ⟨fun i j => c (y i j)⟩ := by
  have ht : ∀ i j, ∀ k < m + 1, ∃ v : T, prodTerms f g i j k = .ok v := fun i j k hk => by
    simp only [prodTerms, dif_pos hk, hmul]
    exact ⟨_, rfl⟩
  choose y hy hs using fun i j => sumTerms_plus hadd h0 h1 (ht i j)
  refine ⟨y, hy, (mul_eval_iff hf hg f g _).2 ⟨y, hy, rfl⟩, (smatrix_mul_entries _ _ _).2 fun i j => ?_⟩
  rw [← hs i j]
  symm
  refine Implements.foldlM_range_fin _ _ (fun s k => ?_) _
  simp only [prodTerms, k.2, dif_pos, hmul, hmul']
  show (RAddAssign.addAssign s _).toRes = (AddAssignRef.addAssign s _).toRes
  rw [hadd, hadd']

/-- C95: the products of static and of dynamic matrices have the same entries, bit for bit, except that an entry that is the
negative zero in the dynamic product is the positive zero in the static one; this happens exactly if all products of its row and
its column are the negative zero. -/
theorem C95_static_dynamic {p : Profile} {l m n : ℕ} (hf : p.Fits l (m + 1)) (hg : p.Fits (m + 1) n)
    (f : Fin l → Fin (m + 1) → Ieee F) (g : Fin (m + 1) → Fin n → Ieee F) :
    ∃ y : Fin l → Fin n → Ieee F, (do (← (DMatrix.ofFn f).mul p (DMatrix.ofFn g)).eval) = .ok (DMatrix.ofFn y) ∧
      (SMatrix.mk f).mul (SMatrix.mk g) = .ok ⟨fun i j => (y i j).plusZero⟩ ∧
      ∀ i j, y i j = .zero true ↔ ∀ k, (f i k).mul (g k j) = .zero true := by
  obtain ⟨y, hy, h1, h2⟩ := static_dynamic (A := Ieee.add) (M := Ieee.mul) (c := Ieee.plusZero) (fun _ _ => rfl) (fun _ _ => rfl)
    (fun _ _ => rfl) (fun _ _ => rfl) Ieee.zero_add_plusZero Ieee.plusZero_add hf hg f g
  refine ⟨y, h1, h2, fun i j => ?_⟩
  have key : ∀ {t : ℕ → Res (Ieee F)} {v : ℕ → Ieee F} {n : ℕ} {x : Ieee F}, (∀ k < n + 1, t k = .ok (v k)) →
      Tree.sumTerms t (n + 1) = .ok x → (x = .zero true ↔ ∀ k < n + 1, v k = .zero true) := by
    intro t v n
    induction n with
    | zero =>
      intro x h hx
      have hx' : t 0 = .ok x := hx
      rw [h 0 (by omega)] at hx'
      cases hx'
      exact ⟨fun h k hk => by rwa [show k = 0 by omega], fun h => h 0 (by omega)⟩
    | succ n ih =>
      intro x h hx
      obtain ⟨s, hs, hx⟩ := bind_ok (show (do
        let s ← Tree.sumTerms t (n + 1)
        let x ← t (n + 1)
        (RAddAssign.addAssign s x).toRes) = .ok x from hx)
      rw [h (n + 1) (by omega)] at hx
      cases hx
      have := ih (fun k hk => h k (by omega)) hs
      show s.add (v (n + 1)) = .zero true ↔ _
      rw [Ieee.add_eq_negZero, this]
      refine ⟨fun h k hk => ?_, fun h => ⟨fun k hk => h k (by omega), h _ (by omega)⟩⟩
      rcases Nat.lt_succ_iff_lt_or_eq.1 hk with h' | rfl
      · exact h.1 k h'
      · exact h.2
  rw [key (v := fun k => if hk : k < m + 1 then (f i ⟨k, hk⟩).mul (g ⟨k, hk⟩ j) else .nan) (fun k hk => by
    simp only [prodTerms, dif_pos hk]; rfl) (hy i j)]
  constructor
  · intro h k
    have := h k k.2
    rwa [dif_pos k.2] at this
  · intro h k hk
    rw [dif_pos hk]
    exact h ⟨k, hk⟩

/-- C95: so it is for complex numbers, in each part. -/
theorem C95_complex_static_dynamic {p : Profile} {l m n : ℕ} (hf : p.Fits l (m + 1)) (hg : p.Fits (m + 1) n)
    (f : Fin l → Fin (m + 1) → Complex (Ieee F)) (g : Fin (m + 1) → Fin n → Complex (Ieee F)) :
    ∃ y : Fin l → Fin n → Complex (Ieee F), (do (← (DMatrix.ofFn f).mul p (DMatrix.ofFn g)).eval) = .ok (DMatrix.ofFn y) ∧
      (SMatrix.mk f).mul (SMatrix.mk g) = .ok ⟨fun i j => (y i j).plusZero⟩ := by
  obtain ⟨y, _, h1, h2⟩ := static_dynamic (A := fun z w : Complex (Ieee F) => ⟨z.re.add w.re, z.im.add w.im⟩)
    (M := fun z w : Complex (Ieee F) =>
      ⟨(z.re.mul w.re).sub (z.im.mul w.im), (z.re.mul w.im).add (z.im.mul w.re)⟩) (c := Complex.plusZero) (fun _ _ => rfl)
    (fun _ _ => rfl) (fun _ _ => rfl) (fun _ _ => rfl)
    (fun _ => Complex.ext (Ieee.zero_add_plusZero _) (Ieee.zero_add_plusZero _))
    (fun _ _ => Complex.ext (Ieee.plusZero_add _ _) (Ieee.plusZero_add _ _)) hf hg f g
  exact ⟨y, h1, h2⟩

/-- C95: the inner product of dynamic vectors is the dot product of static vectors, bit for bit. -/
theorem C95_vector_dot {n : ℕ} (f g : Fin n → Ieee F) :
    (DVector.ofFn f).dot (DVector.ofFn g) = (SVector.mk f).dot (SVector.mk g) := by
  show (List.zip (List.ofFn f) (List.ofFn g)).foldlM _ _ = _
  rw [List.ofFn_eq_map, List.ofFn_eq_map, List.zip_map', List.foldlM_map]
  rfl

/-- C95: over complex numbers the dynamic one conjugates the left vector. -/
theorem C95_complex_vector_dot {n : ℕ} (f g : Fin n → Complex (Ieee F)) :
    (DVector.ofFn f).dot (DVector.ofFn g) = (SVector.mk fun i => ⟨(f i).re, (f i).im.neg⟩).dot (SVector.mk g) := by
  show (List.zip (List.ofFn f) (List.ofFn g)).foldlM _ _ = _
  rw [List.ofFn_eq_map, List.ofFn_eq_map, List.zip_map', List.foldlM_map]
  rfl

/-- C95: the transposed product is the product of the transposed factors in the other order. -/
theorem C95_transpose {l m n : ℕ} (a : SMatrix (Ieee F) l m) (b : SMatrix (Ieee F) m n) (c : SMatrix (Ieee F) l n) :
    a.mul b = .ok c ↔
      (SMatrix.mk fun j k => b.val k j).mul (SMatrix.mk fun k i => a.val i k) = .ok ⟨fun j i => c.val i j⟩ := by
  rw [smatrix_mul_entries, smatrix_mul_entries, forall_comm]
  refine forall_congr' fun j => forall_congr' fun i => ?_
  rw [C52_svector_dot_comm]

/-! ## Zeros that can be left out -/

/-- A sum started at zero with terms left out that are zeros. -/
theorem foldl_filter_zero {ι : Type} (t : ι → Ieee F) (P : ι → Bool) (h0 : ∀ i, P i = false → ∃ s, t i = .zero s) :
    ∀ (l : List ι) (s : Ieee F), s ≠ .zero true →
      (l.filter P).foldl (fun s i => s.add (t i)) s = l.foldl (fun s i => s.add (t i)) s := by
  intro l
  induction l with
  | nil => intro s _; rfl
  | cons a l ih =>
    intro s hs
    have hs' : s.add (t a) ≠ .zero true := fun h => hs (Ieee.add_eq_negZero.1 h).1
    rw [List.foldl_cons]
    by_cases hP : P a = true
    · rw [List.filter_cons_of_pos hP, List.foldl_cons]
      exact ih _ hs'
    · rw [List.filter_cons_of_neg hP, ih s hs]
      obtain ⟨b, hb⟩ := h0 a (by simpa using hP)
      congr 1
      rw [hb]
      cases s with
      | zero u => cases u with
        | false => simp [Ieee.add]
        | true => exact (hs rfl).elim
      | _ => simp [Ieee.add]

/-- C95: sparse dot products. Positions at which the product of the entries is a zero (one of them is a zero and the other is
finite, or the product underflows) can be left out, wherever they are, and however many: the result is the same, bit for bit. -/
theorem C95_sparse_dot {n m : ℕ} (e : Fin n ↪o Fin m) (v w : SVector (Ieee F) m)
    (h0 : ∀ i, i ∉ Set.range e → ∃ s, (v.val i).mul (w.val i) = .zero s) :
    (SVector.mk fun i => v.val (e i)).dot (SVector.mk fun i => w.val (e i)) = v.dot w := by
  classical
  show List.foldlM _ _ _ = List.foldlM _ _ _
  have hm : (List.finRange n).map e = (List.finRange m).filter fun i => decide (i ∈ Set.range e) := by
    refine sorted_ext ?_ ((List.sortedLT_finRange _).pairwise.filter _) fun i => ?_
    · rw [List.pairwise_map]
      exact (List.sortedLT_finRange _).pairwise.imp fun h => e.lt_iff_lt.2 h
    · simp
  rw [dot_run (fun i => v.val (e i)) fun i => w.val (e i), dot_run]
  congr 1
  rw [← foldl_filter_zero (fun i => (v.val i).mul (w.val i)) (fun i => decide (i ∈ Set.range e))
    (fun i hi => h0 i (by simpa using hi)) (List.finRange m) zero (by simp [zero]), ← hm, List.foldl_map]

/-- C95: so it is for complex numbers, at positions at which both parts of the product are zeros. -/
theorem C95_complex_sparse_dot {n m : ℕ} (e : Fin n ↪o Fin m) (v w : SVector (Complex (Ieee F)) m)
    (h0 : ∀ i, i ∉ Set.range e → ∃ s t, (v.val i).mul (w.val i) = .ok ⟨.zero s, .zero t⟩) :
    (SVector.mk fun i => v.val (e i)).dot (SVector.mk fun i => w.val (e i)) = v.dot w := by
  classical
  let P : Complex (Ieee F) → Complex (Ieee F) → Complex (Ieee F) := fun z w =>
    ⟨(z.re.mul w.re).sub (z.im.mul w.im), (z.re.mul w.im).add (z.im.mul w.re)⟩
  have run : ∀ {ι : Type} (f g : ι → Complex (Ieee F)) (l : List ι) (s : Complex (Ieee F)), l.foldlM (fun sum i => do
      let prod ← mulRefs (f i) (g i)
      (AddAssignRef.addAssign sum prod).toRes) s =
      (.ok ⟨l.foldl (fun s i => s.add (P (f i) (g i)).re) s.re, l.foldl (fun s i => s.add (P (f i) (g i)).im) s.im⟩ :
        Res (Complex (Ieee F))) := by
    intro ι f g l
    induction l with
    | nil => intro s; rfl
    | cons a l ih => intro s; rw [List.foldlM_cons]; exact ih ⟨s.re.add (P (f a) (g a)).re, s.im.add (P (f a) (g a)).im⟩
  show List.foldlM _ _ _ = List.foldlM _ _ _
  have hm : (List.finRange n).map e = (List.finRange m).filter fun i => decide (i ∈ Set.range e) := by
    refine sorted_ext ?_ ((List.sortedLT_finRange _).pairwise.filter _) fun i => ?_
    · rw [List.pairwise_map]
      exact (List.sortedLT_finRange _).pairwise.imp fun h => e.lt_iff_lt.2 h
    · simp
  have h1 : ∀ i, decide (i ∈ Set.range e) = false → ∃ s t, P (v.val i) (w.val i) = ⟨.zero s, .zero t⟩ := fun i hi => by
    obtain ⟨s, t, h⟩ := h0 i (by simpa using hi)
    exact ⟨s, t, Except.ok.inj h⟩
  rw [run (fun i => v.val (e i)) fun i => w.val (e i), run]
  have hre := foldl_filter_zero (fun i => (P (v.val i) (w.val i)).re) (fun i => decide (i ∈ Set.range e))
    (fun i hi => by obtain ⟨s, t, h⟩ := h1 i hi; exact ⟨s, by rw [h]⟩) (List.finRange m) zero (by simp [zero])
  have him := foldl_filter_zero (fun i => (P (v.val i) (w.val i)).im) (fun i => decide (i ∈ Set.range e))
    (fun i hi => by obtain ⟨s, t, h⟩ := h1 i hi; exact ⟨t, by rw [h]⟩) (List.finRange m) zero (by simp [zero])
  rw [← hm, List.foldl_map] at hre him
  show Except.ok (Complex.mk _ _) = Except.ok (Complex.mk _ _)
  congr 2

/-- C95: so vectors can be filled up with zeros. -/
theorem C95_padding {n k : ℕ} (v w : SVector (Ieee F) n) (v' w' : Fin k → Ieee F)
    (h : ∀ i, ((v' i).value = 0 ∨ (w' i).value = 0) ∧ (v' i).Finite ∧ (w' i).Finite) :
    (SVector.mk (Fin.append v.val v')).dot (SVector.mk (Fin.append w.val w')) = v.dot w := by
  rw [← C95_sparse_dot (Fin.castAddOrderEmb k) (SVector.mk (Fin.append v.val v')) (SVector.mk (Fin.append w.val w'))]
  · simp
  · intro i
    refine Fin.addCases (fun j hj => (hj ⟨j, rfl⟩).elim) (fun j _ => ?_) i
    simp only [Fin.append_right]
    obtain ⟨h1, h2, h3⟩ := h j
    have key : ∀ {a b : Ieee F}, a.Finite → b.Finite → a.value = 0 → ∃ s, a.mul b = .zero s := by
      intro a b ha hb h
      cases a with
      | nan => exact ha.elim
      | inf s => exact ha.elim
      | zero s => cases b with
        | nan => exact hb.elim
        | inf s => exact hb.elim
        | zero t => exact ⟨_, rfl⟩
        | fin y _ _ => exact ⟨_, rfl⟩
      | fin x h0 _ => exact (h0 h).elim
    rcases h1 with h1 | h1
    · exact key h2 h3 h1
    · rw [Ieee.mul_comm]
      exact key h3 h2 h1

/-- C95: leading coefficients that are the positive zero do not change the value of a polynomial at finite numbers, not even its
bits. -/
theorem C95_leading_zeros (a : List (Ieee F)) (k : ℕ) (x : Ieee F) (hx : x.Finite) :
    (Poly.fromCoefficients (a ++ List.replicate k zero)).eval x = (Poly.fromCoefficients a).eval x := by
  show (a ++ List.replicate k zero).reverse.foldlM _ _ = a.reverse.foldlM _ _
  rw [List.reverse_append, List.reverse_replicate, List.foldlM_append]
  have : (List.replicate k (zero : Ieee F)).foldlM (fun y a => do
      let y ← mulRefs y x
      (AddAssignRef.addAssign y a).toRes) zero = (.ok zero : Res (Ieee F)) := by
    induction k with
    | zero => rfl
    | succ k ih =>
      rw [List.replicate_succ, List.foldlM_cons]
      obtain ⟨t, ht⟩ := Ieee.zero_mul_finite hx false
      show (do let s ← (.ok (((zero : Ieee F).mul x).add zero) : Res (Ieee F)); _) = _
      rw [show (zero : Ieee F).mul x = .zero t from ht, show (Ieee.zero t : Ieee F).add zero = zero by
        show Ieee.zero (t && false) = Ieee.zero false
        rw [Bool.and_false]]
      exact ih
  rw [this]
  rfl

/-- C95: at infinite numbers they do: the result is NaN. -/
theorem C95_leading_zero_at_infinity (a : List (Ieee F)) (s : Bool) :
    (Poly.fromCoefficients (a ++ [zero])).eval (.inf s) = .ok .nan := by
  show (a ++ [zero]).reverse.foldlM _ _ = _
  rw [List.reverse_append, List.reverse_singleton, List.singleton_append, List.foldlM_cons]
  have : ∀ l : List (Ieee F), l.foldlM (fun y a => do
      let y ← mulRefs y (.inf s)
      (AddAssignRef.addAssign y a).toRes) .nan = (.ok .nan : Res (Ieee F)) := by
    intro l
    induction l with
    | nil => rfl
    | cons b l ih => rw [List.foldlM_cons]; exact ih
  exact this _

end Magnesia
