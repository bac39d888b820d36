import Verif.Proof.Magnitude
import Verif.Proof.PFormRun
import Verif.Proof.DynProd

/-!
# Worst cases for particular operations (helper lemmas)
-/

namespace Magnesia

open RZero ROne MulRefs

variable {w : ℕ}

theorem abs_addends {a b : ℤ} {B s : ℤ} (h : |a| + |b| + s < B) (hs : 0 ≤ s) : |a + b| < B := by
  have := abs_add_le a b
  linarith

theorem sum_abs_nonneg {ι : Type} (f g : ι → ℤ) (l : List ι) : 0 ≤ (l.map fun i => |f i| * |g i|).sum :=
  List.sum_nonneg fun x hx => by
    obtain ⟨i, _, rfl⟩ := List.mem_map.1 hx
    positivity

/-- One step of a sum of products. -/
theorem MInt.step_of {s a b : MInt w true} {r : ℤ} (h : |s.toInt| + |a.toInt| * |b.toInt| + r < 2 ^ (w - 1)) (hr : 0 ≤ r) :
    ∃ p t, MInt.mul a b = .ok p ∧ MInt.add s p = .ok t ∧ |t.toInt| + r < 2 ^ (w - 1) := by
  rw [← abs_mul] at h
  obtain ⟨p, e1, h1⟩ := MInt.mul_of (a := a) (b := b) (by have := abs_nonneg s.toInt; linarith)
  rw [← h1] at h
  obtain ⟨t, e2, h2⟩ := MInt.add_of (a := s) (b := p) (abs_addends h hr)
  refine ⟨p, t, e1, e2, ?_⟩
  rw [h2]
  have := abs_add_le s.toInt p.toInt
  linarith

theorem dotLoop_of {ι : Type} (f g : ι → MInt w true) : ∀ (l : List ι) (s : MInt w true),
    |s.toInt| + (l.map fun i => |(f i).toInt| * |(g i).toInt|).sum < 2 ^ (w - 1) →
    Returns (l.foldlM (fun sum i => do
      let prod ← mulRefs (f i) (g i)
      (AddAssignRef.addAssign sum prod).toRes) s)
  | [], s, _ => ⟨s, rfl⟩
  | i :: l, s, h => by
    rw [List.map_cons, List.sum_cons, ← add_assoc] at h
    obtain ⟨p, t, e1, e2, h2⟩ := MInt.step_of h (sum_abs_nonneg _ _ l)
    rw [List.foldlM_cons]
    show Returns ((do let prod ← MInt.mul (f i) (g i); (Upd.ofRes s (MInt.add s prod)).toRes) >>= _)
    rw [e1]
    show Returns ((Upd.ofRes s (MInt.add s p)).toRes >>= _)
    rw [toRes_ofRes, e2]
    exact dotLoop_of f g l t h2

theorem zipLoop_of : ∀ (l : List (MInt w true × MInt w true)) (s : MInt w true),
    |s.toInt| + (l.map fun i => |i.1.toInt| * |i.2.toInt|).sum < 2 ^ (w - 1) →
    Returns (l.foldlM (fun acc lr => do
      let prod ← RMul.mul (← RConj.conj lr.1) lr.2
      RAdd.add acc prod) s)
  | [], s, _ => ⟨s, rfl⟩
  | i :: l, s, h => by
    rw [List.map_cons, List.sum_cons, ← add_assoc] at h
    obtain ⟨p, t, e1, e2, h2⟩ := MInt.step_of h (sum_abs_nonneg (fun i => i.1.toInt) (fun i => i.2.toInt) l)
    rw [List.foldlM_cons]
    show Returns ((do let prod ← MInt.mul i.1 i.2; MInt.add s prod) >>= _)
    rw [e1]
    show Returns (MInt.add s p >>= _)
    rw [e2]
    exact zipLoop_of l t h2

theorem sumTerms_of {t : ℕ → Res (MInt w true)} {v : ℕ → ℤ} : ∀ {n : ℕ},
    (∀ k < n + 1, ∃ y, t k = .ok y ∧ y.toInt = v k) → ∑ k ∈ Finset.range (n + 1), |v k| < 2 ^ (w - 1) →
    ∃ y, Tree.sumTerms t (n + 1) = .ok y ∧ y.toInt = ∑ k ∈ Finset.range (n + 1), v k := by
  intro n
  induction n with
  | zero =>
    intro h _
    obtain ⟨y, e, hy⟩ := h 0 (by omega)
    exact ⟨y, e, by simpa using hy⟩
  | succ n ih =>
    intro h hb
    rw [Finset.sum_range_succ] at hb
    have h0 := abs_nonneg (v (n + 1))
    obtain ⟨s, e1, h1⟩ := ih (fun k hk => h k (by omega)) (by linarith)
    obtain ⟨y, e2, h2⟩ := h (n + 1) (by omega)
    obtain ⟨z, e3, h3⟩ := MInt.add_of (a := s) (b := y) (by
      rw [h1, h2]
      have := abs_add_le (∑ k ∈ Finset.range (n + 1), v k) (v (n + 1))
      have := Finset.abs_sum_le_sum_abs v (Finset.range (n + 1))
      linarith)
    refine ⟨z, ?_, by rw [h3, h1, h2, Finset.sum_range_succ _ (n + 1)]⟩
    show (do let s ← Tree.sumTerms t (n + 1); let x ← t (n + 1); (RAddAssign.addAssign s x).toRes) = _
    rw [e1, e2]
    show (Upd.ofRes s (MInt.add s y)).toRes = _
    rw [toRes_ofRes, e3]

/-! ## The Horner scheme -/

theorem horner_mono {x : ℤ} (hx : 0 ≤ x) : ∀ (l : List ℤ) {s t : ℤ}, s ≤ t →
    l.foldl (fun y a => y * x + |a|) s ≤ l.foldl (fun y a => y * x + |a|) t
  | [], _, _, h => h
  | a :: l, s, t, h => horner_mono hx l (by
      have := mul_le_mul_of_nonneg_right h hx
      simpa using this)

theorem horner_le {x : ℤ} (hx : 1 ≤ x) : ∀ (l : List ℤ) {s : ℤ}, 0 ≤ s → s ≤ l.foldl (fun y a => y * x + |a|) s
  | [], _, _ => le_rfl
  | a :: l, s, h => by
    have h1 : s ≤ s * x := le_mul_of_one_le_right h hx
    have h2 := abs_nonneg a
    exact le_trans (by linarith) (horner_le hx l (s := s * x + |a|) (by linarith))

theorem hornerLoop_of (x : MInt w true) (hx : 1 ≤ |x.toInt|) : ∀ (l : List (MInt w true)) (y : MInt w true),
    (l.map MInt.toInt).foldl (fun y a => y * |x.toInt| + |a|) |y.toInt| < 2 ^ (w - 1) →
    Returns (l.foldlM (fun y a => do
      let y ← mulRefs y x
      (AddAssignRef.addAssign y a).toRes) y)
  | [], y, _ => ⟨y, rfl⟩
  | a :: l, y, h => by
    rw [List.map_cons, List.foldl_cons, ← abs_mul] at h
    have h0 := abs_nonneg (y.toInt * x.toInt)
    have ha := abs_nonneg a.toInt
    have hb := (horner_le hx (l.map MInt.toInt) (s := |y.toInt * x.toInt| + |a.toInt|) (by linarith)).trans_lt h
    obtain ⟨p, e1, h1⟩ := MInt.mul_of (a := y) (b := x) (by linarith)
    have h2 := abs_add_le p.toInt a.toInt
    rw [← h1] at h hb
    obtain ⟨t, e2, h3⟩ := MInt.add_of (a := p) (b := a) (by linarith)
    rw [List.foldlM_cons]
    show Returns ((do let y ← MInt.mul y x; (Upd.ofRes y (MInt.add y a)).toRes) >>= _)
    rw [e1]
    show Returns ((Upd.ofRes p (MInt.add p a)).toRes >>= _)
    rw [toRes_ofRes, e2]
    exact hornerLoop_of x hx l t ((horner_mono (abs_nonneg _) _ (by rw [h3]; exact h2)).trans_lt h)

/-- At zero every intermediate result is a coefficient. -/
theorem hornerLoop_zero (hw : 1 < w) (x : MInt w true) (hx : x.toInt = 0) : ∀ (l : List (MInt w true)) (y : MInt w true),
    Returns (l.foldlM (fun y a => do
      let y ← mulRefs y x
      (AddAssignRef.addAssign y a).toRes) y)
  | [], y => ⟨y, rfl⟩
  | a :: l, y => by
    obtain ⟨p, e1, h1⟩ := MInt.mul_of (a := y) (b := x) (by rw [hx]; simp)
    rw [hx, mul_zero] at h1
    have hr := MInt.range hw a
    have e2 : ∃ t, MInt.add p a = .ok t := by
      have : p.bv.saddOverflow a.bv = false := by
        rw [BitVec.saddOverflow, Bool.or_eq_false_iff, decide_eq_false_iff_not, decide_eq_false_iff_not]
        unfold MInt.toInt at h1 hr
        rw [h1]
        constructor <;> omega
      exact ⟨_, by rw [MInt.add, this]; rfl⟩
    obtain ⟨t, e2⟩ := e2
    rw [List.foldlM_cons]
    show Returns ((do let y ← MInt.mul y x; (Upd.ofRes y (MInt.add y a)).toRes) >>= _)
    rw [e1]
    show Returns ((Upd.ofRes p (MInt.add p a)).toRes >>= _)
    rw [toRes_ofRes, e2]
    exact hornerLoop_zero hw x hx l t

theorem horner_abs (x : ℤ) (l : List ℤ) :
    l.reverse.foldl (fun y a => y * x + |a|) 0 = ∑ i : Fin l.length, |l[i]| * x ^ (i : ℕ) := by
  rw [List.foldl_reverse]
  induction l with
  | nil => simp
  | cons a l ih =>
    rw [List.foldr_cons, ih, Finset.sum_mul]
    show _ = ∑ i : Fin (l.length + 1), _
    rw [Fin.sum_univ_succ, add_comm]
    congr 1
    · simp
    · refine Finset.sum_congr rfl fun i _ => ?_
      simp [pow_succ, mul_assoc]

/-! ## Products of polynomials -/

theorem polyLoop_of (a b : List (MInt w true)) : ∀ (L : List (ℕ × ℕ)) (d : List (MInt w true)),
    (∀ ij ∈ L, ij.1 < a.length ∧ ij.2 < b.length ∧ ij.1 + ij.2 < d.length) →
    (∀ k y, d[k]? = some y → |y.toInt| + ((L.filter fun ij => ij.1 + ij.2 = k).map fun ij =>
      |(Poly.mk a).coef MInt.toInt ij.1| * |(Poly.mk b).coef MInt.toInt ij.2|).sum < 2 ^ (w - 1)) →
    (forEach L (fun ij d => Upd.withRes (do mulRefs (← getIdx a ij.1) (← getIdx b ij.2)) d
          (fun prod => updAt d (ij.1 + ij.2) (fun y => AddAssignRef.addAssign y prod))) d).panic = none := by
  intro L
  induction L with
  | nil => intro d _ _; rfl
  | cons ij L ih =>
    intro d hL hd
    obtain ⟨i, j⟩ := ij
    obtain ⟨hi, hj, hij⟩ := hL (i, j) (by simp)
    have h1 := hd (i + j) _ (List.getElem?_eq_getElem hij)
    rw [List.filter_cons_of_pos (by simp), List.map_cons, List.sum_cons, ← add_assoc] at h1
    have ca : (Poly.mk a).coef MInt.toInt i = a[i].toInt := by simp [Poly.coef, hi]
    have cb : (Poly.mk b).coef MInt.toInt j = b[j].toInt := by simp [Poly.coef, hj]
    rw [ca, cb] at h1
    obtain ⟨p, t, e1, e2, h2⟩ := MInt.step_of h1 (sum_abs_nonneg (fun ij : ℕ × ℕ => (Poly.mk a).coef MInt.toInt ij.1) (fun ij => (Poly.mk b).coef MInt.toInt ij.2) _)
    have em : (do mulRefs (← getIdx a i) (← getIdx b j) : Res (MInt w true)) = .ok p := by
      simp only [getIdx, List.getElem?_eq_getElem hi, List.getElem?_eq_getElem hj, bind, Except.bind]
      exact e1
    simp only [forEach, em, Upd.withRes, updAt, List.getElem?_eq_getElem hij]
    have eu : (AddAssignRef.addAssign d[i + j] p : Upd (MInt w true)) = ⟨t, none⟩ := by
      show Upd.ofRes _ (MInt.add _ _) = _
      rw [e2]; rfl
    simp only [eu, Upd.into, Upd.andThen]
    refine ih _ (fun ij h => by simpa using hL ij (by simp [h])) fun k y hy => ?_
    by_cases hk : i + j = k
    · subst hk
      rw [List.getElem?_set_self hij] at hy
      cases hy
      exact h2
    · rw [List.getElem?_set_ne hk] at hy
      have := hd k y hy
      rwa [List.filter_cons_of_neg (by simpa using hk)] at this

theorem mulRef_of (p q : Poly (MInt w true))
    (h : ∀ k, ∑ ij ∈ Finset.antidiagonal k, |p.coef MInt.toInt ij.1| * |q.coef MInt.toInt ij.2| < 2 ^ (w - 1)) :
    Returns (p.mulRef q) := by
  unfold Poly.mulRef
  split
  · exact ⟨_, rfl⟩
  · next he =>
    have he : p.a.length ≠ 0 ∧ q.a.length ≠ 0 := by simpa [List.isEmpty_iff_length_eq_zero] using he
    rw [forEach_flatMap]
    have hp := polyLoop_of p.a q.a ((List.range p.a.length).flatMap fun i => (List.range q.a.length).map fun j => (i, j))
      (List.replicate (p.a.length + q.a.length - 1) zero) ?_ ?_
    · exact ⟨_, toRes_done (by simpa [Upd.into] using hp)⟩
    · intro ij hm
      simp only [List.mem_flatMap, List.mem_range, List.mem_map] at hm
      obtain ⟨i, hi, j, hj, rfl⟩ := hm
      refine ⟨hi, hj, ?_⟩
      rw [List.length_replicate]
      show i + j < _
      omega
    · intro k y hy
      have hy : y = zero := by
        have := List.mem_of_getElem? hy
        exact List.eq_of_mem_replicate this
      subst hy
      have hz : (zero : MInt w true).toInt = 0 := implementsV_checked.zero
      rw [hz, abs_zero, zero_add]
      refine lt_of_eq_of_lt ?_ (h k)
      have := congrArg (fun l => (l.map fun i => |p.coef MInt.toInt i| * |q.coef MInt.toInt (k - i)|).sum)
        (filter_pairs p.a.length q.a.length k)
      simp only [List.map_map] at this
      have e := coeff_mul_pairs (P := p.toPolynomial fun x => |x.toInt|) (Q := q.toPolynomial fun x => |x.toInt|)
        (m := p.a.length) (n := q.a.length) (fun i hi => by rw [coeff_toPolynomial, coef_eq_zero hi])
        (fun i hi => by rw [coeff_toPolynomial, coef_eq_zero hi]) k
      have cf : ∀ (r : Poly (MInt w true)) i, r.coef (fun x => |x.toInt|) i = |r.coef MInt.toInt i| := by
        intro r i
        unfold Poly.coef
        cases r.a[i]? <;> simp
      rw [Polynomial.coeff_mul] at e
      simp only [coeff_toPolynomial, cf] at e
      rw [e, pairs, ← this]
      congr 1
      refine List.map_congr_left fun ij hm => ?_
      have := (List.mem_filter.1 hm).2
      simp only [decide_eq_true_eq] at this
      show _ = |_| * |q.coef _ (k - ij.1)|
      rw [← this, Nat.add_sub_cancel_left]

end Magnesia
