import Verif.Spec.Order
import Verif.Proof.NonNeg

/-!
# Property C74: floating point results for data that are not negative are ordered like the data

The inputs are finite; results may overflow to `+inf`, which is larger than any other number. `Ordered x y` means
`0 <= x` and `x <= y` as the program compares, so neither is NaN.
-/

namespace Magnesia

open RZero ROne MulRefs
open Ieee (Below Dom)

variable {F : Fmt}

theorem Ieee.Dom.ordered {a b : Ieee F} (h : Dom a b) : Ordered a b := ⟨Ieee.nonneg_iff.2 h.1, h.2.2⟩

theorem below_of_ordered {a b : Ieee F} (ha : a.Finite) (hb : b.Finite) (h : Ordered a b) : Below a b :=
  ⟨ha, hb, by simpa [Ieee.value, RZero.zero] using (Ieee.fle_value (F := F) (a := zero) trivial ha).1 h.1,
    (Ieee.fle_value ha hb).1 h.2⟩

/-- C74: larger coefficients, a larger argument and further coefficients make the value of a polynomial not smaller. -/
theorem C74_eval (a b c : List (Ieee F)) (x x' : Ieee F) (hx : x.Finite) (hx' : x'.Finite) (hxx : Ordered x x')
    (hab : List.Forall₂ (fun a b => a.Finite ∧ b.Finite ∧ Ordered a b) a b)
    (hc : ∀ z ∈ c, z.Finite ∧ RPartialOrd.le (zero : Ieee F) z = true) :
    ∃ y y', (Poly.fromCoefficients a).eval x = .ok y ∧ (Poly.fromCoefficients (b ++ c)).eval x' = .ok y' ∧
      Ordered y y' := by
  refine ⟨_, _, eval_eq_horner a x, eval_eq_horner (b ++ c) x', ?_⟩
  have hB := below_of_ordered hx hx' hxx
  have hn : Below x' x' := ⟨hx', hx', hB.2.2.1.trans hB.2.2.2, le_rfl⟩
  have h1 : List.Forall₂ Below a b := hab.imp fun _ _ h => below_of_ordered h.1 h.2.1 h.2.2
  have h2 : List.Forall₂ Below c c := List.forall₂_same.2 fun z hz =>
    Below.refl (hc z hz).1 (by simpa [Ieee.value, RZero.zero] using
      (Ieee.fle_value (F := F) (a := zero) trivial (hc z hz).1).1 (hc z hz).2)
  have k1 := dom_horner hn h2 (.zero false) (.zero false) (Ieee.nonNeg_zero false).dom (fun _ => trivial) fun _ => trivial
  have k2 := dom_horner hB h1 (.zero false) (horner x' c) (Ieee.zero_dom k1.1.1 false) (fun _ => trivial) k1.2.1
  have e : horner x' (b ++ c) = b.foldr (fun a y => (y.mul x').add a) (horner x' c) := List.foldr_append
  rw [e]
  exact k2.1.ordered

theorem dot_eq {n : ℕ} (v w : SVector (Ieee F) n) :
    v.dot w = .ok ((List.finRange n).foldl (fun s i => s.add ((v.val i).mul (w.val i))) (.zero false)) :=
  dot_run v.val w.val _ _

/-- C74: dot products are monotone in both vectors. -/
theorem C74_dot {n : ℕ} (v v' w w' : SVector (Ieee F) n)
    (hv : ∀ i, (v.val i).Finite ∧ (v'.val i).Finite ∧ Ordered (v.val i) (v'.val i))
    (hw : ∀ i, (w.val i).Finite ∧ (w'.val i).Finite ∧ Ordered (w.val i) (w'.val i)) :
    ∃ x x', v.dot w = .ok x ∧ v'.dot w' = .ok x' ∧ Ordered x x' := by
  refine ⟨_, _, dot_eq v w, dot_eq v' w', (dom_foldl _ _ _ _ _ (Ieee.nonNeg_zero false).dom fun i _ => ?_).ordered⟩
  exact (below_of_ordered (hv i).1 (hv i).2.1 (hv i).2.2).mul (below_of_ordered (hw i).1 (hw i).2.1 (hw i).2.2)

/-- C74: a dot product of vectors without negative entries is at least every single product. -/
theorem C74_dot_term {n : ℕ} (v w : SVector (Ieee F) n)
    (hv : ∀ i, (v.val i).Finite ∧ RPartialOrd.le (zero : Ieee F) (v.val i) = true)
    (hw : ∀ i, (w.val i).Finite ∧ RPartialOrd.le (zero : Ieee F) (w.val i) = true) :
    ∃ x, v.dot w = .ok x ∧ ∀ i, ∃ y, mulRefs (v.val i) (w.val i) = .ok y ∧ Ordered y x := by
  have hB : ∀ {a : Ieee F}, a.Finite ∧ RPartialOrd.le (zero : Ieee F) a = true → Below a a := fun h =>
    Below.refl h.1 (by simpa [Ieee.value, RZero.zero] using (Ieee.fle_value (F := F) (a := zero) trivial h.1).1 h.2)
  refine ⟨_, dot_eq v w, fun i => ⟨_, rfl, ?_⟩⟩
  exact (term_foldl (fun i => (v.val i).mul (w.val i)) _ _ (Ieee.nonNeg_zero false)
    (fun i _ => ((hB (hv i)).mul (hB (hw i))).1) i (List.mem_finRange i)).ordered

/-- C74: the inner product of real `DVector`s. -/
theorem C74_dvector_dot {n : ℕ} (f f' g g' : Fin n → Ieee F) (hf : ∀ i, (f i).Finite ∧ (f' i).Finite ∧ Ordered (f i) (f' i))
    (hg : ∀ i, (g i).Finite ∧ (g' i).Finite ∧ Ordered (g i) (g' i)) :
    ∃ x x', (DVector.ofFn f).dot (DVector.ofFn g) = .ok x ∧ (DVector.ofFn f').dot (DVector.ofFn g') = .ok x' ∧
      Ordered x x' := by
  have e : ∀ f g : Fin n → Ieee F, (DVector.ofFn f).dot (DVector.ofFn g) = (SVector.mk f).dot ⟨g⟩ := by
    intro f g
    show (List.zip (List.ofFn f) (List.ofFn g)).foldlM _ _ = _
    rw [List.ofFn_eq_map, List.ofFn_eq_map, List.zip_map', List.foldlM_map]
    rfl
  rw [e, e]
  exact C74_dot ⟨f⟩ ⟨f'⟩ ⟨g⟩ ⟨g'⟩ hf hg

/-- C74: matrix times vector. -/
theorem C74_mul_vec {m n : ℕ} (a a' : SMatrix (Ieee F) m n) (v v' : SVector (Ieee F) n)
    (ha : ∀ i j, (a.val i j).Finite ∧ (a'.val i j).Finite ∧ Ordered (a.val i j) (a'.val i j))
    (hv : ∀ i, (v.val i).Finite ∧ (v'.val i).Finite ∧ Ordered (v.val i) (v'.val i)) :
    ∃ w w', a.mulVec v = .ok w ∧ a'.mulVec v' = .ok w' ∧ ∀ i, Ordered (w.val i) (w'.val i) := by
  choose x x' h1 h2 h3 using fun i => C74_dot ⟨a.val i⟩ ⟨a'.val i⟩ v v' (ha i) hv
  exact ⟨⟨x⟩, ⟨x'⟩, (C25_mul_vec_rows _ _ _).2 h1, (C25_mul_vec_rows _ _ _).2 h2, h3⟩

/-- C74: matrix products. -/
theorem C74_smatrix_mul {l m n : ℕ} (a a' : SMatrix (Ieee F) l m) (b b' : SMatrix (Ieee F) m n)
    (ha : ∀ i j, (a.val i j).Finite ∧ (a'.val i j).Finite ∧ Ordered (a.val i j) (a'.val i j))
    (hb : ∀ i j, (b.val i j).Finite ∧ (b'.val i j).Finite ∧ Ordered (b.val i j) (b'.val i j)) :
    ∃ c c', a.mul b = .ok c ∧ a'.mul b' = .ok c' ∧ ∀ i j, Ordered (c.val i j) (c'.val i j) := by
  choose x x' h1 h2 h3 using fun i j => C74_dot ⟨a.val i⟩ ⟨a'.val i⟩ ⟨fun k => b.val k j⟩ ⟨fun k => b'.val k j⟩ (ha i)
    fun k => hb k j
  exact ⟨⟨x⟩, ⟨x'⟩, (smatrix_mul_entries _ _ _).2 h1, (smatrix_mul_entries _ _ _).2 h2, h3⟩

/-- The sum that starts with the first term. -/
theorem dom_sumTerms {t t' : ℕ → Res (Ieee F)} {a a' : ℕ → Ieee F} : ∀ {n : ℕ},
    (∀ k < n + 1, t k = .ok (a k) ∧ t' k = .ok (a' k) ∧ Dom (a k) (a' k)) →
    ∃ x x', Tree.sumTerms t (n + 1) = .ok x ∧ Tree.sumTerms t' (n + 1) = .ok x' ∧ Dom x x' := by
  intro n
  induction n with
  | zero =>
    intro h
    exact ⟨_, _, (h 0 (by omega)).1, (h 0 (by omega)).2.1, (h 0 (by omega)).2.2⟩
  | succ n ih =>
    intro h
    obtain ⟨s, s', e1, e2, hs⟩ := ih fun k hk => h k (by omega)
    obtain ⟨f1, f2, hk⟩ := h (n + 1) (by omega)
    refine ⟨s.add (a (n + 1)), s'.add (a' (n + 1)), ?_, ?_, hs.add hk⟩
    · show (do
        let s ← Tree.sumTerms t (n + 1)
        let y ← t (n + 1)
        (RAddAssign.addAssign s y).toRes) = _
      rw [e1, f1]; rfl
    · show (do
        let s ← Tree.sumTerms t' (n + 1)
        let y ← t' (n + 1)
        (RAddAssign.addAssign s y).toRes) = _
      rw [e2, f2]; rfl

/-- C74: matrix products of `DMatrix`. -/
theorem C74_dmatrix_mul {p : Profile} {l m n : ℕ} (hp : p.Fits l (m + 1)) (hq : p.Fits (m + 1) n)
    (f f' : Fin l → Fin (m + 1) → Ieee F) (g g' : Fin (m + 1) → Fin n → Ieee F)
    (hf : ∀ i j, (f i j).Finite ∧ (f' i j).Finite ∧ Ordered (f i j) (f' i j))
    (hg : ∀ i j, (g i j).Finite ∧ (g' i j).Finite ∧ Ordered (g i j) (g' i j)) :
    ∃ y y' : Fin l → Fin n → Ieee F, (do (← (DMatrix.ofFn f).mul p (DMatrix.ofFn g)).eval) = .ok (DMatrix.ofFn y) ∧
      (do (← (DMatrix.ofFn f').mul p (DMatrix.ofFn g')).eval) = .ok (DMatrix.ofFn y') ∧
      ∀ i j, Ordered (y i j) (y' i j) := by
  have key : ∀ i j, ∃ x x', Tree.sumTerms (prodTerms f g i j) (m + 1) = .ok x ∧
      Tree.sumTerms (prodTerms f' g' i j) (m + 1) = .ok x' ∧ Dom x x' := by
    intro i j
    refine dom_sumTerms (a := fun k => if h : k < m + 1 then (f i ⟨k, h⟩).mul (g ⟨k, h⟩ j) else zero)
      (a' := fun k => if h : k < m + 1 then (f' i ⟨k, h⟩).mul (g' ⟨k, h⟩ j) else zero) fun k hk => ?_
    simp only [prodTerms, dif_pos hk]
    exact ⟨rfl, rfl, (below_of_ordered (hf _ _).1 (hf _ _).2.1 (hf _ _).2.2).mul
      (below_of_ordered (hg _ _).1 (hg _ _).2.1 (hg _ _).2.2)⟩
  choose y y' h1 h2 h3 using key
  exact ⟨y, y', (mul_eval_iff hp hq f g _).2 ⟨y, h1, rfl⟩, (mul_eval_iff hp hq f' g' _).2 ⟨y', h2, rfl⟩,
    fun i j => (h3 i j).ordered⟩

/-- C74: products of polynomials, coefficient by coefficient. -/
theorem C74_polynomial_mul (p p' q q' : Poly (Ieee F))
    (hp : List.Forall₂ (fun a b => a.Finite ∧ b.Finite ∧ Ordered a b) p.a p'.a)
    (hq : List.Forall₂ (fun a b => a.Finite ∧ b.Finite ∧ Ordered a b) q.a q'.a) (r r' : Poly (Ieee F))
    (hr : p.mul q = .ok r) (hr' : p'.mul q' = .ok r') : List.Forall₂ Ordered r.a r'.a := by
  obtain ⟨l1, c1⟩ := mulRef_coef p q r hr
  obtain ⟨l2, c2⟩ := mulRef_coef p' q' r' hr'
  rw [← hp.length_eq, ← hq.length_eq] at l2
  rw [← hp.length_eq, ← hq.length_eq] at c2
  rw [List.forall₂_iff_get]
  refine ⟨l1.trans l2.symm, fun k hk hk' => ?_⟩
  have d1 := c1 k _ (List.getElem?_eq_getElem hk)
  have d2 := c2 k _ (List.getElem?_eq_getElem hk')
  have run : ∀ (p q : List (Ieee F)) (l : List ℕ) (s : Ieee F), (∀ i ∈ l, i < p.length ∧ k - i < q.length) →
      l.foldlM (mulStep p q k) s = .ok (l.foldl (fun s i => s.add ((p.getD i zero).mul (q.getD (k - i) zero))) s) := by
    intro p q l
    induction l with
    | nil => intro s _; rfl
    | cons i l ih =>
      intro s hl
      obtain ⟨h1, h2⟩ := hl i (by simp)
      rw [List.foldlM_cons]
      have : mulStep p q k s i = .ok (s.add ((p.getD i zero).mul (q.getD (k - i) zero))) := by
        unfold mulStep getIdx
        rw [List.getElem?_eq_getElem h1, List.getElem?_eq_getElem h2, List.getD_eq_getElem?_getD,
          List.getD_eq_getElem?_getD, List.getElem?_eq_getElem h1, List.getElem?_eq_getElem h2]
        rfl
      rw [this]
      exact ih _ fun j hj => hl j (List.mem_cons_of_mem i hj)
  have hl : ∀ i ∈ (List.range p.a.length).filter fun i => i ≤ k ∧ k - i < q.a.length, i < p.a.length ∧ k - i < q.a.length := by
    intro i hi
    simp only [List.mem_filter, List.mem_range, decide_eq_true_eq] at hi
    exact ⟨hi.1, hi.2.2⟩
  rw [run p.a q.a _ _ hl] at d1
  rw [run p'.a q'.a _ _ (by rw [← hp.length_eq, ← hq.length_eq]; exact hl)] at d2
  have e1 := Except.ok.inj d1
  have e2 := Except.ok.inj d2
  have get : ∀ {a b : List (Ieee F)}, List.Forall₂ (fun a b => a.Finite ∧ b.Finite ∧ Ordered a b) a b → ∀ i < a.length,
      Below (a.getD i zero) (b.getD i zero) := by
    intro a b h i hi
    have h1 := (List.forall₂_iff_get.1 h).2 i hi (h.length_eq ▸ hi)
    rw [List.getD_eq_getElem?_getD, List.getD_eq_getElem?_getD, List.getElem?_eq_getElem hi,
      List.getElem?_eq_getElem (h.length_eq ▸ hi)]
    exact below_of_ordered h1.1 h1.2.1 h1.2.2
  show Ordered r.a[k] r'.a[k]
  rw [← e1, ← e2]
  exact (dom_foldl _ _ _ _ _ (Ieee.nonNeg_zero false).dom fun i hi =>
    (get hp i (hl i hi).1).mul (get hq (k - i) (hl i hi).2)).ordered

/-! ## Sums and differences, all signs -/

theorem sub_le_sub_all {a b a' b' : Ieee F} (h1 : a.fle a' = true) (h2 : b'.fle b = true) (n1 : a.sub b ≠ .nan)
    (n2 : a'.sub b' ≠ .nan) : (a.sub b).fle (a'.sub b') = true := by
  refine Ieee.add_le_add_all h1 ?_ n1 n2
  revert h2
  rcases b with _ | s | s | ⟨b, _, _⟩ <;> rcases b' with _ | t | t | ⟨b', _, _⟩ <;> (try cases s) <;> (try cases t) <;>
    simp [Ieee.fle, Ieee.key, Ieee.neg]

/-- C74: sums of vectors are monotone and differences are monotone on the left, antitone on the right, whatever the signs,
infinities included, wherever the results are not NaN. -/
theorem C74_add_sub {n : ℕ} (v v' w w' : SVector (Ieee F) n) (hv : ∀ i, RPartialOrd.le (v.val i) (v'.val i) = true)
    (hw : ∀ i, RPartialOrd.le (w.val i) (w'.val i) = true) :
    ∃ s s' d d', v.add w = .ok s ∧ v'.add w' = .ok s' ∧ v.sub w' = .ok d ∧ v'.sub w = .ok d' ∧
      (∀ i, s.val i ≠ .nan → s'.val i ≠ .nan → RPartialOrd.le (s.val i) (s'.val i) = true) ∧
      (∀ i, d.val i ≠ .nan → d'.val i ≠ .nan → RPartialOrd.le (d.val i) (d'.val i) = true) := by
  refine ⟨⟨fun i => (v.val i).add (w.val i)⟩, ⟨fun i => (v'.val i).add (w'.val i)⟩, ⟨fun i => (v.val i).sub (w'.val i)⟩,
    ⟨fun i => (v'.val i).sub (w.val i)⟩, (C22_add_entries _ _ _).2 fun i => rfl, (C22_add_entries _ _ _).2 fun i => rfl,
    (C22_sub_entries _ _ _).2 fun i => rfl, (C22_sub_entries _ _ _).2 fun i => rfl, fun i h h' => ?_, fun i h h' => ?_⟩
  · exact Ieee.add_le_add_all (hv i) (hw i) h h'
  · exact sub_le_sub_all (hv i) (hw i) h h'

end Magnesia
