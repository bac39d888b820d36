import Verif.Proof.IeeeLaws
import Verif.Props.Eq
import Verif.Props.DynLinalg

/-!
# Property C52: which algebraic laws hold, and which fail, in IEEE-754 arithmetic

All laws hold for every binary format `F`, in particular `f32` and `f64`. `=` means the same number including the sign of
a zero (all NaNs are identified); `Same` ignores the sign of a zero.
-/

namespace Magnesia

open RZero ROne MulRefs

variable {F : Fmt}

open Ieee (Same)

/-! ## Complex numbers -/

/-- C52: sum and product of complex numbers are commutative, exactly, special values included. -/
theorem C52_complex_comm (z w : Complex (Ieee F)) :
    (z.add w : Res (Complex (Ieee F))) = w.add z ∧ z.mul w = w.mul z := by
  constructor
  · show Except.ok _ = Except.ok _
    rw [Ieee.add_comm z.re, Ieee.add_comm z.im]
  · rw [ieee_cmul, ieee_cmul, Ieee.mul_comm z.re, Ieee.mul_comm z.im w.im, Ieee.add_comm, Ieee.mul_comm z.im,
      Ieee.mul_comm z.re]

/-- C52: `z - w` is `z + (-w)`, exactly. -/
theorem C52_complex_sub (z w : Complex (Ieee F)) :
    (z.sub w : Res (Complex (Ieee F))) = (do z.add (← w.neg)) := rfl

/-- C52: `z + 0 == z` iff no part is NaN, and always up to signs of zeros. -/
theorem C52_complex_add_zero (z : Complex (Ieee F)) : ∃ r, z.add (zero : Complex (Ieee F)) = .ok r ∧ r.SameC z ∧
    (RPartialEq.eq r z = true ↔ z.re ≠ .nan ∧ z.im ≠ .nan) := by
  have h1 := Ieee.add_zero z.re false
  have h2 := Ieee.add_zero z.im false
  refine ⟨⟨z.re.add (.zero false), z.im.add (.zero false)⟩, rfl, ⟨h1, h2⟩, ?_⟩
  have e1 := (Ieee.feq_iff (z.re.add (.zero false)) z.re).trans (and_iff_left h1)
  have e2 := (Ieee.feq_iff (z.im.add (.zero false)) z.im).trans (and_iff_left h2)
  show (Ieee.feq _ _ && Ieee.feq _ _) = true ↔ _
  rw [Bool.and_eq_true, e1, e2]
  have key : ∀ a : Ieee F, a.add (.zero false) ≠ .nan ↔ a ≠ .nan := by
    intro a; cases a <;> simp [Ieee.add]
  rw [key, key]

/-- C52: `z - z == 0` iff both parts are finite. -/
theorem C52_complex_sub_self (z : Complex (Ieee F)) : ∃ r, z.sub z = .ok r ∧
    (RPartialEq.eq r (zero : Complex (Ieee F)) = true ↔ z.re.Finite ∧ z.im.Finite) := by
  refine ⟨⟨z.re.sub z.re, z.im.sub z.im⟩, rfl, ?_⟩
  have key : ∀ a : Ieee F, Ieee.feq (a.sub a) (.zero false) = true ↔ a.Finite := by
    intro a
    by_cases h : a.Finite
    · have : a.sub a = .zero false := (Ieee.add_neg a).1 h
      rw [this]; simp [h, Ieee.feq, Ieee.key]
    · have : a.sub a = .nan := (Ieee.add_neg a).2 h
      rw [this]; simp [h, Ieee.feq, Ieee.key]
  show (Ieee.feq _ _ && Ieee.feq _ _) = true ↔ _
  rw [Bool.and_eq_true]
  exact and_congr (key _) (key _)

theorem Ieee.zero_mul_finite {a : Ieee F} (h : a.Finite) (s : Bool) : ∃ t, (Ieee.zero s).mul a = .zero t := by
  cases a <;> first | exact h.elim | exact ⟨_, rfl⟩

theorem Ieee.zero_mul_not_finite {a : Ieee F} (h : ¬ a.Finite) (s : Bool) : (Ieee.zero s).mul a = .nan := by
  cases a <;> first | rfl | exact (h trivial).elim

theorem Ieee.Same.finite {a b : Ieee F} (h : Same a b) : a.Finite ↔ b.Finite := by
  rcases h with rfl | ⟨s, t, rfl, rfl⟩
  · rfl
  · exact ⟨fun _ => trivial, fun _ => trivial⟩

theorem Ieee.ne_nan_of_finite {a : Ieee F} (h : a.Finite) : a ≠ .nan := by rintro rfl; exact h

/-- C52: the neutral element: `1 * z == z` exactly if both parts of `z` are finite. With an infinite part the product
has a NaN part. -/
theorem C52_complex_one_mul (z : Complex (Ieee F)) : ∃ r, (one : Complex (Ieee F)).mul z = .ok r ∧
    z.mul one = .ok r ∧ (RPartialEq.eq r z = true ↔ z.re.Finite ∧ z.im.Finite) ∧
    (z.re.Finite ∧ z.im.Finite → r.SameC z) := by
  have e : (one : Complex (Ieee F)).mul z = .ok ⟨z.re.sub ((Ieee.zero false).mul z.im),
      z.im.add ((Ieee.zero false).mul z.re)⟩ := by
    rw [ieee_cmul]
    show Except.ok (Complex.mk (((one : Ieee F).mul z.re).sub _) (((one : Ieee F).mul z.im).add _)) = _
    rw [Ieee.one_mul, Ieee.one_mul]; rfl
  refine ⟨_, e, (C52_complex_comm _ _).2.trans e, ?_, ?_⟩
  · show (Ieee.feq _ _ && Ieee.feq _ _) = true ↔ _
    rw [Bool.and_eq_true, Ieee.feq_iff, Ieee.feq_iff]
    constructor
    · rintro ⟨⟨h1, _⟩, ⟨h2, _⟩⟩
      constructor
      · by_contra h
        rw [Ieee.zero_mul_not_finite h] at h2
        exact h2 (Ieee.add_nan _)
      · by_contra h
        rw [Ieee.zero_mul_not_finite h] at h1
        exact h1 (Ieee.sub_nan _)
    · rintro ⟨h1, h2⟩
      obtain ⟨s, hs⟩ := Ieee.zero_mul_finite h1 false
      obtain ⟨t, ht⟩ := Ieee.zero_mul_finite h2 false
      rw [hs, ht]
      have e1 : Same (z.re.sub (.zero t)) z.re := Ieee.add_zero _ _
      have e2 : Same (z.im.add (.zero s)) z.im := Ieee.add_zero _ _
      exact ⟨⟨Ieee.ne_nan_of_finite (e1.finite.2 h1), e1⟩, Ieee.ne_nan_of_finite (e2.finite.2 h2), e2⟩
  · rintro ⟨h1, h2⟩
    obtain ⟨s, hs⟩ := Ieee.zero_mul_finite h1 false
    obtain ⟨t, ht⟩ := Ieee.zero_mul_finite h2 false
    show Same _ _ ∧ Same _ _
    rw [hs, ht]
    exact ⟨Ieee.add_zero _ _, Ieee.add_zero _ _⟩

/-- C52: conjugation is an involution and commutes with products up to signs of zeros. -/
theorem C52_complex_conj (z w : Complex (Ieee F)) :
    (do (← z.conj).conj) = .ok z ∧
    ∃ r s, (do (← z.mul w).conj) = .ok r ∧ (do (← z.conj).mul (← w.conj)) = .ok s ∧ r.SameC s := by
  constructor
  · show Except.ok (Complex.mk z.re z.im.neg.neg) = _
    rw [Ieee.neg_neg]
  · refine ⟨_, _, rfl, rfl, ?_, ?_⟩
    · show Same ((z.re.mul w.re).sub (z.im.mul w.im)) ((z.re.mul w.re).sub (z.im.neg.mul w.im.neg))
      rw [Ieee.neg_mul, Ieee.mul_neg, Ieee.neg_neg]; exact .refl _
    · show Same ((z.re.mul w.im).add (z.im.mul w.re)).neg ((z.re.mul w.im.neg).add (z.im.neg.mul w.re))
      rw [Ieee.neg_mul, Ieee.mul_neg]
      exact (Ieee.neg_add _ _).symm

/-- C52: negation commutes with products up to signs of zeros. -/
theorem C52_complex_neg_mul (z w : Complex (Ieee F)) :
    (do (← z.neg).neg) = .ok z ∧
    ∃ r s, (do (← z.mul w).neg) = .ok r ∧ (do (← z.neg).mul w) = .ok s ∧ r.SameC s := by
  constructor
  · show Except.ok (Complex.mk z.re.neg.neg z.im.neg.neg) = _
    rw [Ieee.neg_neg, Ieee.neg_neg]
  · refine ⟨_, _, rfl, rfl, ?_, ?_⟩
    · show Same ((z.re.mul w.re).sub (z.im.mul w.im)).neg ((z.re.neg.mul w.re).sub (z.im.neg.mul w.im))
      rw [Ieee.neg_mul, Ieee.neg_mul]
      exact (Ieee.neg_add _ _).symm
    · show Same ((z.re.mul w.im).add (z.im.mul w.re)).neg ((z.re.neg.mul w.im).add (z.im.neg.mul w.re))
      rw [Ieee.neg_mul, Ieee.neg_mul]
      exact (Ieee.neg_add _ _).symm

/-! ## Vectors and matrices -/

/-- C52: the dot product of `SVector`s is symmetric, exactly, special values included. -/
theorem C52_svector_dot_comm {n : ℕ} (v w : SVector (Ieee F) n) : v.dot w = w.dot v := by
  show List.foldlM _ _ _ = List.foldlM _ _ _
  congr 1
  funext s i
  rw [dot_step, dot_step, Ieee.mul_comm]

/-- C52: the same for vectors of complex numbers. -/
theorem C52_svector_complex_dot_comm {n : ℕ} (v w : SVector (Complex (Ieee F)) n) : v.dot w = w.dot v := by
  show List.foldlM _ _ _ = List.foldlM _ _ _
  congr 1
  funext s i
  have : mulRefs (v.val i) (w.val i) = mulRefs (w.val i) (v.val i) := (C52_complex_comm _ _).2
  rw [this]

/-- C52: `(a * b).t()` equals `b.t() * a.t()` for `DMatrix`, exactly. -/
theorem C52_dmatrix_mul_t {p : Profile} {l m n : ℕ} (hf : p.Fits l m) (hg : p.Fits m n) (f : Fin l → Fin m → Ieee F)
    (g : Fin m → Fin n → Ieee F) :
    (do (← (DMatrix.ofFn f).mul p (DMatrix.ofFn g)).t.eval) = (do
      let bt ← ((DMatrix.ofFn g).t p).eval
      let at' ← ((DMatrix.ofFn f).t p).eval
      (← bt.mul p at').eval) :=
  C31_mul_t (fun x y => by show Except.ok _ = Except.ok _; rw [Ieee.mul_comm]) hf hg f g

theorem dot_run (f g : α → Ieee F) (l : List α) (s : Ieee F) : l.foldlM (fun sum i => do
    let prod ← mulRefs (f i) (g i)
    (AddAssignRef.addAssign sum prod).toRes) s = (.ok (l.foldl (fun sum i => sum.add ((f i).mul (g i))) s) : Res _) := by
  induction l generalizing s with
  | nil => rfl
  | cons a l ih => rw [List.foldlM_cons, dot_step]; exact ih _

/-- A dot product with a unit vector: entries before and after the one contribute zeros. -/
theorem unit_run {n : ℕ} (i : Fin n) (g : Fin n → Ieee F) (hg : ∀ k, (g k).Finite) : ∀ (l : List (Fin n)), l.Nodup → ∀ s : Ieee F,
    (i ∈ l → ∃ t, s = .zero t) →
    Same (l.foldl (fun (sum : Ieee F) (k : Fin n) => sum.add ((if (i : ℕ) = (k : ℕ) then (one : Ieee F) else zero).mul (g k))) s)
      (if i ∈ l then g i else s) := by
  intro l
  induction l with
  | nil => intro _ s _; simpa using .refl _
  | cons k l ih =>
    intro hl s hs
    rw [List.nodup_cons] at hl
    rw [List.foldl_cons]
    by_cases hk : i = k
    · subst hk
      obtain ⟨t, rfl⟩ := hs List.mem_cons_self
      rw [if_pos rfl, Ieee.one_mul]
      refine (ih hl.2 _ (fun h => (hl.1 h).elim)).trans ?_
      rw [if_neg hl.1, if_pos List.mem_cons_self]
      exact Ieee.zero_add_same _ _
    · rw [if_neg (fun e => hk (Fin.ext e))]
      obtain ⟨t, ht⟩ := Ieee.zero_mul_finite (hg k) false
      have e : (zero : Ieee F).mul (g k) = .zero t := ht
      rw [e]
      refine (ih hl.2 _ ?_).trans ?_
      · intro h
        obtain ⟨t', rfl⟩ := hs (List.mem_cons_of_mem _ h)
        exact ⟨_, rfl⟩
      · have hm : i ∈ k :: l ↔ i ∈ l := by simp [hk]
        by_cases h : i ∈ l
        · rw [if_pos h, if_pos (hm.2 h)]; exact .refl _
        · rw [if_neg h, if_neg (fun h' => h (hm.1 h'))]; exact Ieee.add_zero _ _

theorem nan_foldl {α : Type} (f : α → Ieee F) (l : List α) : l.foldl (fun sum k => sum.add (f k)) Ieee.nan = .nan := by
  induction l with
  | nil => rfl
  | cons a l ih => rw [List.foldl_cons, Ieee.nan_add]; exact ih

/-- One NaN term makes the sum NaN. -/
theorem foldl_nan {α : Type} (f : α → Ieee F) : ∀ (l : List α) (s : Ieee F) (k : α), k ∈ l → f k = .nan →
    l.foldl (fun sum k => sum.add (f k)) s = .nan := by
  intro l
  induction l with
  | nil => simp
  | cons a l ih =>
    intro s k hk h
    rw [List.foldl_cons]
    rcases List.mem_cons.1 hk with rfl | hk
    · rw [h, Ieee.add_nan]; exact nan_foldl f l
    · exact ih _ k hk h

/-- C52: the identity matrix: for square matrices with at least two rows `1 * m == m` exactly if all entries are finite;
and then it holds up to signs of zeros. -/
theorem C52_smatrix_one_mul {n : ℕ} (hn : 2 ≤ n) (m : SMatrix (Ieee F) n n) : ∃ r, (one : SMatrix (Ieee F) n n).mul m = .ok r ∧
    (RPartialEq.eq r m = true ↔ ∀ i j, (m.val i j).Finite) ∧
    ((∀ i j, (m.val i j).Finite) → ∀ i j, Same (r.val i j) (m.val i j)) := by
  obtain ⟨r, hr⟩ := C48_ieee_smatrix_mul_returns (one : SMatrix (Ieee F) n n) m
  have hv : ∀ i j, r.val i j = (List.finRange n).foldl (fun sum k =>
      sum.add ((if (i : ℕ) = (k : ℕ) then (one : Ieee F) else zero).mul (m.val k j))) zero := by
    intro i j
    have h1 := (smatrix_mul_entries _ m r).1 hr i j
    rw [SVector.dot, SVector.dotRef, dot_run, SMatrix.one_val] at h1
    exact (Except.ok.inj h1).symm
  have hsame : (∀ i j, (m.val i j).Finite) → ∀ i j, Same (r.val i j) (m.val i j) := by
    intro h i j
    rw [hv i j]
    have := unit_run i (fun k => m.val k j) (fun k => h k j) _ (List.nodup_finRange n) (zero : Ieee F) (fun _ => ⟨_, rfl⟩)
    rwa [if_pos (List.mem_finRange i)] at this
  refine ⟨r, hr, ?_, hsame⟩
  rw [C51_smatrix_eq]
  constructor
  · intro h i j
    by_contra hnf
    -- another row has a zero times this entry
    obtain ⟨i', hi'⟩ : ∃ i' : Fin n, i' ≠ i := by
      by_cases h0 : (i : ℕ) = 0
      · exact ⟨⟨1, by omega⟩, fun e => by have := congrArg Fin.val e; simp only at this; omega⟩
      · exact ⟨⟨0, by omega⟩, fun e => by have := congrArg Fin.val e; simp only at this; omega⟩
    have h1 : r.val i' j = .nan := by
      rw [hv]
      refine foldl_nan _ _ _ i (List.mem_finRange i) ?_
      rw [if_neg (fun e => hi' (Fin.ext e))]
      exact Ieee.zero_mul_not_finite hnf false
    exact ((Ieee.feq_iff _ _).1 (h i' j)).1 h1
  · intro h i j
    have h1 := hsame h i j
    exact (Ieee.feq_iff _ _).2 ⟨Ieee.ne_nan_of_finite (h1.finite.2 (h i j)), h1⟩

/-! ## Polynomials -/

theorem zipUpd_ieee (op : Ieee F → Ieee F → Ieee F) (q p : List (Ieee F)) (h : q.length ≤ p.length) :
    ∃ r, zipUpd (fun y x => .done (op y x)) q p = .done r ∧ r.length = p.length ∧
      ∀ i : ℕ, r[i]? = match p[i]?, q[i]? with
        | some y, some x => some (op y x)
        | y, _ => y := by
  have hp := zipUpd_total (fun y x => Upd.done (op y x)) q p h (fun _ _ _ _ _ => rfl)
  obtain ⟨_, h1, h2⟩ := zipUpd_done _ _ _ hp
  have hl := zipUpd_length (fun y x => Upd.done (op y x)) q p
  refine ⟨(zipUpd (fun y x => Upd.done (op y x)) q p).val, ?_, hl, ?_⟩
  · generalize zipUpd (fun y x => Upd.done (op y x)) q p = u at hp
    obtain ⟨v, o⟩ := u
    cases hp
    rfl
  · intro i
    cases hq : q[i]? with
    | some x =>
      obtain ⟨y, hy, _, e⟩ := h1 i x hq
      rw [e, hy]; rfl
    | none =>
      rw [h2 i (List.getElem?_eq_none_iff.1 hq)]
      cases p[i]? <;> rfl

/-- C52: `p + q`, `q + p` and `p += q` (by value) give exactly the same coefficients: sums where both polynomials have
one, otherwise the existing one, bit for bit. -/
theorem C52_polynomial_add (p q : Poly (Ieee F)) : ∃ r, p.add q = .ok r ∧ q.add p = .ok r ∧ p.addAssignV q = .done r ∧
    ∀ i : ℕ, r.a[i]? = optSum p.a[i]? q.a[i]? := by
  have key : ∀ p q : Poly (Ieee F), ∃ r, p.add q = .ok r ∧ ∀ i : ℕ, r.a[i]? = optSum p.a[i]? q.a[i]? := by
    intro p q
    rw [Poly.add_eq]
    split
    · rename_i h
      obtain ⟨r, e, _, h1⟩ := zipUpd_ieee Ieee.add p.a q.a h.le
      refine ⟨⟨r⟩, by rw [show (AddAssignRef.addAssign : Ieee F → Ieee F → _) = fun y x => .done (y.add x) from rfl, e]; rfl, ?_⟩
      intro i
      show r[i]? = _
      rw [h1]
      cases hp : p.a[i]? <;> cases hq : q.a[i]? <;> simp only [optSum]
      · rw [List.getElem?_eq_none_iff] at hq; rw [List.getElem?_eq_none (by omega)] at hp; cases hp
      · rw [Ieee.add_comm]
    · rename_i h
      obtain ⟨r, e, _, h1⟩ := zipUpd_ieee Ieee.add q.a p.a (not_lt.1 h)
      refine ⟨⟨r⟩, by rw [show (AddAssignRef.addAssign : Ieee F → Ieee F → _) = fun y x => .done (y.add x) from rfl, e]; rfl, ?_⟩
      intro i
      show r[i]? = _
      rw [h1]
      cases hp : p.a[i]? <;> cases hq : q.a[i]? <;> simp only [optSum]
      rw [List.getElem?_eq_none_iff] at hp; rw [List.getElem?_eq_none (by omega)] at hq; cases hq
  obtain ⟨r, h1, h2⟩ := key p q
  obtain ⟨r', h1', h2'⟩ := key q p
  have hpoly : ∀ a b : Poly (Ieee F), (∀ i : ℕ, a.a[i]? = b.a[i]?) → a = b := by
    rintro ⟨a⟩ ⟨b⟩ h; congr 1; exact List.ext_getElem? h
  have hrr : r' = r := hpoly _ _ fun i => by
    rw [h2, h2']
    cases p.a[i]? <;> cases q.a[i]? <;> simp [optSum, Ieee.add_comm]
  subst hrr
  refine ⟨r', h1, h1', ?_, h2⟩
  rw [Poly.addAssignV_eq]
  obtain ⟨s, e, hl, h3⟩ := zipUpd_ieee Ieee.add (q.a.take p.a.length) p.a (by simp)
  rw [show (AddAssignRef.addAssign : Ieee F → Ieee F → _) = fun y x => .done (y.add x) from rfl, e]
  show Upd.done (Poly.mk (s ++ q.a.drop p.a.length)) = _
  congr 1
  refine hpoly _ _ fun i => ?_
  rw [h2]
  show (s ++ q.a.drop p.a.length)[i]? = _
  rw [List.getElem?_append, hl]
  split
  · rename_i hi
    rw [h3, List.getElem?_take, if_pos hi, List.getElem?_eq_getElem hi]
    cases q.a[i]? <;> rfl
  · rename_i hi
    rw [List.getElem?_drop, List.getElem?_eq_none (not_lt.1 hi), Nat.add_sub_cancel' (not_lt.1 hi)]
    rfl

theorem sameP_of {p q : Poly (Ieee F)} (h : ∀ i : ℕ, Option.Rel Same p.a[i]? q.a[i]?) : p.SameP q := by
  have hl : p.a.length = q.a.length := by
    rcases lt_trichotomy p.a.length q.a.length with h1 | h1 | h1
    · have := h p.a.length
      rw [List.getElem?_eq_none le_rfl, List.getElem?_eq_getElem h1] at this
      cases this
    · exact h1
    · have := h q.a.length
      rw [List.getElem?_eq_none (l := q.a) le_rfl, List.getElem?_eq_getElem h1] at this
      cases this
  refine List.forall₂_iff_get.2 ⟨hl, fun i h1 h2 => ?_⟩
  have := h i
  rw [List.getElem?_eq_getElem h1, List.getElem?_eq_getElem h2] at this
  cases this with
  | some h => exact h

/-- C52: `p += &q` gives the coefficients of `p + q` up to signs of zeros. -/
theorem C52_polynomial_add_assign_ref (p q : Poly (Ieee F)) : ∃ r s, p.addAssignRef q = .done r ∧ p.add q = .ok s ∧
    r.SameP s := by
  obtain ⟨s, hs, _, _, hi⟩ := C52_polynomial_add p q
  rw [Poly.addAssignRef_eq]
  obtain ⟨r, e, _, h1⟩ := zipUpd_ieee Ieee.add q.a (p.padded q) (by rw [Poly.padded_length]; omega)
  refine ⟨⟨r⟩, s, by rw [show (AddAssignRef.addAssign : Ieee F → Ieee F → _) = fun y x => .done (y.add x) from rfl, e]; rfl,
    hs, sameP_of fun i => ?_⟩
  show Option.Rel Same r[i]? _
  rw [h1, hi, Poly.padded_getElem?]
  by_cases h : i < p.a.length
  · rw [if_pos h, List.getElem?_eq_getElem h]
    cases q.a[i]? <;> exact .some (.refl _)
  · rw [if_neg h, List.getElem?_eq_none (not_lt.1 h)]
    by_cases h' : i < q.a.length
    · rw [if_pos h', List.getElem?_eq_getElem h']
      exact .some (Ieee.zero_add_same _ _)
    · rw [if_neg h', List.getElem?_eq_none (not_lt.1 h')]
      exact .none

/-- C52: the sign of a zero can differ: with `p` the empty polynomial and `q` having the coefficient `-0`, `p + q` has
the coefficient `-0` and `p += &q` the coefficient `0`. -/
theorem C52_polynomial_add_sign : ∃ p q : Poly (Ieee F), p.add q = .ok ⟨[.zero true]⟩ ∧
    p.addAssignRef q = .done ⟨[.zero false]⟩ := ⟨⟨[]⟩, ⟨[.zero true]⟩, by
  constructor
  · rw [Poly.add_eq]; rfl
  · rfl⟩

/-- C52: the constant polynomial one: `1 * p == p` exactly if no coefficient is NaN (infinities are kept). -/
theorem C52_polynomial_one_mul (p : Poly (Ieee F)) : ∃ r, (one : Poly (Ieee F)).mulRef p = .ok r ∧ r.SameP p ∧
    (RPartialEq.eq r p = true ↔ ∀ x ∈ p.a, x ≠ .nan) := by
  have hz : ∀ x : Ieee F, (Ieee.zero false).add ((one : Ieee F).mul x) ≠ .nan ↔ x ≠ .nan := by
    intro x; rw [Ieee.one_mul]; cases x <;> simp [Ieee.add]
  have hs : ∀ x : Ieee F, Same ((Ieee.zero false).add ((one : Ieee F).mul x)) x := by
    intro x; rw [Ieee.one_mul]; exact Ieee.zero_add_same _ _
  have main : ∃ r, (one : Poly (Ieee F)).mulRef p = .ok r ∧ r.a = p.a.map fun x => (Ieee.zero false).add ((one : Ieee F).mul x) := by
    by_cases h0 : p.a = []
    · refine ⟨zero, ?_, by rw [h0]; rfl⟩
      unfold Poly.mulRef
      rw [h0]; rfl
    · have hlen : p.a.length ≠ 0 := by simpa using h0
      obtain ⟨r, e, hl, h1⟩ := zipUpd_ieee (fun y x => y.add ((one : Ieee F).mul x)) p.a
        (List.replicate (1 + p.a.length - 1) (zero : Ieee F)) (by simp)
      refine ⟨⟨r⟩, ?_, ?_⟩
      · unfold Poly.mulRef
        rw [if_neg (by simpa [one] using h0)]
        show (((forEach (List.range p.a.length) _ (List.replicate (1 + p.a.length - 1) (zero : Ieee F))).andThen _).into _).toRes = _
        rw [show forEach (List.range p.a.length) _ (List.replicate (1 + p.a.length - 1) (zero : Ieee F)) =
          zipUpd (fun y x => Upd.done (y.add ((one : Ieee F).mul x))) p.a (List.replicate (1 + p.a.length - 1) (zero : Ieee F)) from ?_, e]
        · rfl
        · rw [← range_getIdx_eq]
          apply forEach_congr
          intro j hj s
          show Upd.withRes (do (mulRefs (← getIdx [(one : Ieee F)] 0) (← getIdx p.a j))) s _ = _
          cases hg : getIdx p.a j with
          | error e =>
            exfalso
            unfold getIdx at hg
            rw [List.getElem?_eq_getElem (by simpa using hj)] at hg
            cases hg
          | ok x =>
            show updAt s (0 + j) _ = updAt s j _
            rw [Nat.zero_add]; rfl
      · apply List.ext_getElem?
        intro i
        show r[i]? = _
        rw [h1, List.getElem?_map, List.getElem?_replicate]
        by_cases hi : i < p.a.length
        · rw [if_pos (by omega), List.getElem?_eq_getElem hi]; rfl
        · rw [if_neg (by omega), List.getElem?_eq_none (not_lt.1 hi)]; rfl
  obtain ⟨r, hr, hv⟩ := main
  refine ⟨r, hr, ?_, ?_⟩
  · unfold Poly.SameP
    rw [hv, List.forall₂_map_left_iff]
    exact List.forall₂_same.2 fun x _ => hs x
  · have hx : ∀ x : Ieee F, RPartialEq.eq ((Ieee.zero false).add ((one : Ieee F).mul x)) x = true ↔ x ≠ .nan := fun x =>
      ((Ieee.feq_iff _ _).trans (and_iff_left (hs x))).trans (hz x)
    rw [C51_polynomial_eq, hv]
    constructor
    · rintro ⟨_, h⟩ x hxm
      obtain ⟨i, hi, rfl⟩ := List.getElem_of_mem hxm
      exact (hx _).1 (h i _ _ (by rw [List.getElem?_map, List.getElem?_eq_getElem hi]; rfl) (List.getElem?_eq_getElem hi))
    · intro h
      refine ⟨by simp, fun i x y h1 h2 => ?_⟩
      rw [List.getElem?_map, h2] at h1
      cases h1
      exact (hx y).2 (h y (List.mem_of_getElem? h2))

/-! ## Laws that fail -/

/-- C52: sums and products of finite `Complex<f32>` and `Complex<f64>` are not associative, and products do not
distribute over sums - even where nothing overflows or underflows. -/
theorem C52_complex_laws_fail :
    (∃ z w v : Complex (Ieee .f32), (do (← z.add w).add v : Res (Complex (Ieee .f32))) ≠ (do z.add (← w.add v))) ∧
    (∃ z w v : Complex (Ieee .f32), (do (← z.mul w).mul v) ≠ (do z.mul (← w.mul v))) ∧
    (∃ z w v : Complex (Ieee .f32), (do z.mul (← w.add v : Complex (Ieee .f32))) ≠ (do (← z.mul w).add (← z.mul v))) ∧
    (∃ z w v : Complex (Ieee .f64), (do (← z.add w).add v : Res (Complex (Ieee .f64))) ≠ (do z.add (← w.add v))) ∧
    (∃ z w v : Complex (Ieee .f64), (do (← z.mul w).mul v) ≠ (do z.mul (← w.mul v))) ∧
    (∃ z w v : Complex (Ieee .f64), (do z.mul (← w.add v : Complex (Ieee .f64))) ≠ (do (← z.mul w).add (← z.mul v))) := by
  refine ⟨⟨⟨f32 (2 ^ 24), f32 0⟩, ⟨f32 1, f32 0⟩, ⟨f32 (-2 ^ 24), f32 0⟩, ?_⟩,
    ⟨⟨f32 (2 ^ 23 + 1), f32 0⟩, ⟨f32 (2 ^ 23 + 1), f32 0⟩, ⟨f32 3, f32 0⟩, ?_⟩,
    ⟨⟨f32 (2 ^ 23 + 1), f32 0⟩, ⟨f32 (2 ^ 23 + 1), f32 0⟩, ⟨f32 (-2 ^ 23), f32 0⟩, ?_⟩,
    ⟨⟨f64 (2 ^ 53), f64 0⟩, ⟨f64 1, f64 0⟩, ⟨f64 (-2 ^ 53), f64 0⟩, ?_⟩,
    ⟨⟨f64 (2 ^ 52 + 1), f64 0⟩, ⟨f64 (2 ^ 52 + 1), f64 0⟩, ⟨f64 3, f64 0⟩, ?_⟩,
    ⟨⟨f64 (2 ^ 52 + 1), f64 0⟩, ⟨f64 (2 ^ 52 + 1), f64 0⟩, ⟨f64 (-2 ^ 52), f64 0⟩, ?_⟩⟩ <;> decide +kernel

/-- C52: the polynomial product is not commutative over `f32` and `f64` (the summation order of a coefficient is reversed):
`(2^53 + x - 2^53 x^2)(1 + x + x^2)` has the coefficient 0 at `x^2` and the swapped product has 1. -/
theorem C52_polynomial_mul_not_comm :
    (∃ p q r s : Poly (Ieee .f32), p.mul q = .ok r ∧ q.mul p = .ok s ∧ ¬ r.SameP s) ∧
    ∃ p q r s : Poly (Ieee .f64), p.mul q = .ok r ∧ q.mul p = .ok s ∧ ¬ r.SameP s := by
  constructor
  · refine ⟨⟨[f32 (2 ^ 24), f32 1, f32 (-2 ^ 24)]⟩, ⟨[f32 1, f32 1, f32 1]⟩,
      ⟨[f32 (2 ^ 24), f32 (2 ^ 24), f32 0, f32 (-2 ^ 24 + 1), f32 (-2 ^ 24)]⟩,
      ⟨[f32 (2 ^ 24), f32 (2 ^ 24), f32 1, f32 (-2 ^ 24 + 1), f32 (-2 ^ 24)]⟩, by decide +kernel, by decide +kernel, ?_⟩
    intro h
    have := (List.forall₂_iff_get.1 h).2 2 (by decide) (by decide)
    have h1 := (Ieee.feq_iff _ _).2 ⟨by decide +kernel, this⟩
    revert h1
    decide +kernel
  · refine ⟨⟨[f64 (2 ^ 53), f64 1, f64 (-2 ^ 53)]⟩, ⟨[f64 1, f64 1, f64 1]⟩,
      ⟨[f64 (2 ^ 53), f64 (2 ^ 53), f64 0, f64 (-2 ^ 53 + 1), f64 (-2 ^ 53)]⟩,
      ⟨[f64 (2 ^ 53), f64 (2 ^ 53), f64 1, f64 (-2 ^ 53 + 1), f64 (-2 ^ 53)]⟩, by decide +kernel, by decide +kernel, ?_⟩
    intro h
    have := (List.forall₂_iff_get.1 h).2 2 (by decide) (by decide)
    have h1 := (Ieee.feq_iff _ _).2 ⟨by decide +kernel, this⟩
    revert h1
    decide +kernel

/-- C52: a single row is the exception: the one by one identity matrix keeps an infinity. -/
theorem C52_smatrix_one_mul_single :
    ∃ m : SMatrix (Ieee F) 1 1, ¬ (m.val 0 0).Finite ∧ (one : SMatrix (Ieee F) 1 1).mul m = .ok m := by
  refine ⟨⟨fun _ _ => .inf false⟩, fun h => h, ?_⟩
  refine (smatrix_mul_entries _ _ _).2 fun i j => ?_
  rw [SVector.dot, SVector.dotRef, dot_run, SMatrix.one_val]
  rw [show List.finRange 1 = [0] from rfl, List.foldl_cons, List.foldl_nil]
  show Except.ok ((zero : Ieee F).add ((if (i : ℕ) = ((0 : Fin 1) : ℕ) then (one : Ieee F) else zero).mul (.inf false))) = _
  rw [if_pos (by omega), Ieee.one_mul]
  rfl

section examples

/-- `1 * (inf + 2i)` is `(inf, NaN)`, not equal to `inf + 2i`; `1 * (3 - 0i) = 3 + 0i`: the sign of the zero is lost. -/
example : (one : Complex (Ieee .f64)).mul ⟨.inf false, f64 2⟩ = .ok ⟨.inf false, .nan⟩ ∧
    (one : Complex (Ieee .f64)).mul ⟨f64 3, .zero true⟩ = .ok ⟨f64 3, .zero false⟩ := by decide +kernel

/-- `Same` is not vacuous: `2` and `3` are not the same, `0` and `-0` are, and NaN is the same as NaN. -/
example : ¬ Same (f64 2) (f64 3) ∧ Same (f64 0) (.zero true) ∧ Same (.nan : Ieee .f64) .nan := by
  refine ⟨fun h => ?_, .inr ⟨false, true, by decide +kernel, rfl⟩, .refl _⟩
  have h1 := (Ieee.feq_iff _ _).2 ⟨by decide +kernel, h⟩
  revert h1
  decide +kernel

end examples

end Magnesia
