import Verif.Proof.Word
import Verif.Proof.PFormRun
import Verif.Proof.DynProd

/-!
# Word lengths of particular operations (helper lemmas)
-/

namespace Magnesia

open RZero ROne MulRefs

variable {F : Fmt} {k a b : ℤ} {B : ℕ}

namespace Ieee

theorem IsFixed.zero : (RZero.zero : Ieee F).IsFixed k 0 := ⟨trivial, by simp [RZero.zero, value]⟩

theorem IsFixed.mul {x y : Ieee F} {m n : ℤ} (hx : x.IsFixed a m) (hy : y.IsFixed b n) (hF : F.Fixed (a + b) B)
    (h : |m * n| ≤ B) : (x.mul y).IsFixed (a + b) (m * n) := by
  have e : x.value * y.value = ((m * n : ℤ) : ℚ) * 2 ^ (a + b) := by
    rw [hx.2, hy.2, zpow_add₀ (by norm_num)]; push_cast; ring
  obtain ⟨h1, h2⟩ := mul_exact hx.1 hy.1 (by rw [e]; exact hF.representable h)
  exact ⟨h1, by rw [h2, e]⟩

theorem IsFixed.add {x y : Ieee F} {m n : ℤ} (hx : x.IsFixed k m) (hy : y.IsFixed k n) (hF : F.Fixed k B)
    (h : |m + n| ≤ B) : (x.add y).IsFixed k (m + n) := by
  have e : x.value + y.value = ((m + n : ℤ) : ℚ) * 2 ^ k := by
    rw [hx.2, hy.2]; push_cast; ring
  obtain ⟨h1, h2⟩ := add_exact hx.1 hy.1 (by rw [e]; exact hF.representable h)
  exact ⟨h1, by rw [h2, e]⟩

/-- One step of a sum of products. -/
theorem IsFixed.step {s x y : Ieee F} {t m n r : ℤ} (hs : s.IsFixed (a + b) t) (hx : x.IsFixed a m) (hy : y.IsFixed b n)
    (hF : F.Fixed (a + b) B) (h : |t| + |m| * |n| + r ≤ B) (hr : 0 ≤ r) :
    (s.add (x.mul y)).IsFixed (a + b) (t + m * n) ∧ |t + m * n| + r ≤ B := by
  rw [← abs_mul] at h
  have h1 := abs_add_le t (m * n)
  have h2 := abs_nonneg t
  exact ⟨hs.add (hx.mul hy hF (by linarith)) hF (by linarith), by linarith⟩

end Ieee

theorem sum_abs_nonneg' {ι : Type} (f g : ι → ℤ) (l : List ι) : 0 ≤ (l.map fun i => |f i| * |g i|).sum :=
  List.sum_nonneg fun x hx => by
    obtain ⟨i, _, rfl⟩ := List.mem_map.1 hx
    positivity

theorem fixed_dotLoop {ι : Type} {f g : ι → Ieee F} {m n : ι → ℤ} (hf : ∀ i, (f i).IsFixed a (m i))
    (hg : ∀ i, (g i).IsFixed b (n i)) (hF : F.Fixed (a + b) B) : ∀ (l : List ι) (s : Ieee F) (t : ℤ), s.IsFixed (a + b) t →
    |t| + (l.map fun i => |m i| * |n i|).sum ≤ B →
    ∃ x, l.foldlM (fun sum i => do
      let prod ← mulRefs (f i) (g i)
      (AddAssignRef.addAssign sum prod).toRes) s = .ok x ∧ x.IsFixed (a + b) (t + (l.map fun i => m i * n i).sum)
  | [], s, t, hs, _ => ⟨s, rfl, by simpa using hs⟩
  | i :: l, s, t, hs, h => by
    rw [List.map_cons, List.sum_cons, ← add_assoc] at h
    obtain ⟨h1, h2⟩ := hs.step (hf i) (hg i) hF h (sum_abs_nonneg' m n l)
    obtain ⟨x, hx, h3⟩ := fixed_dotLoop hf hg hF l _ _ h1 h2
    exact ⟨x, hx, by rw [List.map_cons, List.sum_cons, ← add_assoc]; exact h3⟩

theorem fixed_zipLoop {ι : Type} {f g : ι → Ieee F} {m n : ι → ℤ} (hf : ∀ i, (f i).IsFixed a (m i))
    (hg : ∀ i, (g i).IsFixed b (n i)) (hF : F.Fixed (a + b) B) : ∀ (l : List ι) (s : Ieee F) (t : ℤ), s.IsFixed (a + b) t →
    |t| + (l.map fun i => |m i| * |n i|).sum ≤ B →
    ∃ x, (l.map fun i => (f i, g i)).foldlM (fun acc lr => do
      let prod ← RMul.mul (← RConj.conj lr.1) lr.2
      RAdd.add acc prod) s = .ok x ∧ x.IsFixed (a + b) (t + (l.map fun i => m i * n i).sum)
  | [], s, t, hs, _ => ⟨s, rfl, by simpa using hs⟩
  | i :: l, s, t, hs, h => by
    rw [List.map_cons, List.sum_cons, ← add_assoc] at h
    obtain ⟨h1, h2⟩ := hs.step (hf i) (hg i) hF h (sum_abs_nonneg' m n l)
    obtain ⟨x, hx, h3⟩ := fixed_zipLoop hf hg hF l _ _ h1 h2
    exact ⟨x, hx, by rw [List.map_cons, List.sum_cons, ← add_assoc]; exact h3⟩

theorem fixed_sumTerms {t : ℕ → Res (Ieee F)} {v : ℕ → ℤ} (hF : F.Fixed k B) : ∀ {n : ℕ},
    (∀ i < n + 1, ∃ y, t i = .ok y ∧ y.IsFixed k (v i)) → ∑ i ∈ Finset.range (n + 1), |v i| ≤ B →
    ∃ y, Tree.sumTerms t (n + 1) = .ok y ∧ y.IsFixed k (∑ i ∈ Finset.range (n + 1), v i) := by
  intro n
  induction n with
  | zero =>
    intro h _
    obtain ⟨y, e, hy⟩ := h 0 (by omega)
    exact ⟨y, e, by simpa using hy⟩
  | succ n ih =>
    intro h hb
    rw [Finset.sum_range_succ] at hb
    have h0 := abs_nonneg (v (n + 1))
    obtain ⟨s, e1, h1⟩ := ih (fun k hk => h k (by omega)) (by linarith)
    obtain ⟨y, e2, h2⟩ := h (n + 1) (by omega)
    have h3 := h1.add h2 hF (by
      have := abs_add_le (∑ k ∈ Finset.range (n + 1), v k) (v (n + 1))
      have := Finset.abs_sum_le_sum_abs v (Finset.range (n + 1))
      linarith)
    refine ⟨s.add y, ?_, by rw [Finset.sum_range_succ _ (n + 1)]; exact h3⟩
    show (do let s ← Tree.sumTerms t (n + 1); let x ← t (n + 1); (RAddAssign.addAssign s x).toRes) = _
    rw [e1, e2]
    rfl

/-! ## The Horner scheme -/

theorem abs_horner_le (m : ℕ → ℤ) (n : ℤ) (l : ℕ) :
    |∑ j ∈ Finset.range l, m j * n ^ j| ≤ ∑ j ∈ Finset.range l, |m j| * |n| ^ j :=
  (Finset.abs_sum_le_sum_abs _ _).trans (le_of_eq (Finset.sum_congr rfl fun j _ => by rw [abs_mul, abs_pow]))

theorem fixed_horner {x : Ieee F} {n : ℤ} (hx : x.IsFixed b n) : ∀ (l : List (Ieee F)) (k : ℤ) (m : ℕ → ℤ),
    (∀ (i : ℕ) (y : Ieee F), l[i]? = some y → y.IsFixed (k - i * b) (m i)) →
    (∀ i < l.length, F.Fixed (k - i * b) (∑ j ∈ Finset.range (l.length - i), (m (i + j)).natAbs * n.natAbs ^ j)) →
    ∃ y, l.reverse.foldlM (fun y a => do
      let y ← mulRefs y x
      (AddAssignRef.addAssign y a).toRes) (zero : Ieee F) = .ok y ∧ y.IsFixed k (∑ j ∈ Finset.range l.length, m j * n ^ j)
  | [], k, m, _, _ => ⟨zero, rfl, by simpa using Ieee.IsFixed.zero⟩
  | c :: l, k, m, h, hF => by
    obtain ⟨y, e, hy⟩ := fixed_horner hx l (k - b) (fun i => m (i + 1)) (fun i y hy => by
      have := h (i + 1) y (by simpa using hy)
      rwa [show k - ((i + 1 : ℕ) : ℤ) * b = k - b - i * b by push_cast; ring] at this) (fun i hi => by
      have := hF (i + 1) (by simpa using hi)
      rw [show k - ((i + 1 : ℕ) : ℤ) * b = k - b - i * b by push_cast; ring] at this
      simpa [Nat.add_right_comm] using this)
    have h0 := h 0 c rfl
    have hF0 := hF 0 (by simp)
    simp only [Nat.cast_zero, zero_mul, sub_zero, zero_add, Nat.sub_zero, List.length_cons] at h0 hF0
    rw [Finset.sum_range_succ'] at hF0
    have h1 := abs_horner_le (fun i => m (i + 1)) n l.length
    have e1 : (((∑ j ∈ Finset.range l.length, (m (j + 1)).natAbs * n.natAbs ^ (j + 1)) + (m 0).natAbs * n.natAbs ^ 0 : ℕ) : ℤ) =
        (∑ j ∈ Finset.range l.length, |m (j + 1)| * |n| ^ j) * |n| + |m 0| := by
      push_cast
      rw [Finset.sum_mul, pow_zero, mul_one]
      congr 1
      exact Finset.sum_congr rfl fun j _ => by ring
    have h2 : |(∑ j ∈ Finset.range l.length, m (j + 1) * n ^ j) * n| ≤
        (∑ j ∈ Finset.range l.length, |m (j + 1)| * |n| ^ j) * |n| := by
      rw [abs_mul]
      exact mul_le_mul_of_nonneg_right h1 (abs_nonneg _)
    have h3 := hy.mul hx (by rw [sub_add_cancel]; exact hF0) (by rw [e1]; exact h2.trans (by simp))
    rw [sub_add_cancel] at h3
    have h4 := h3.add h0 hF0 (by
      rw [e1]
      exact (abs_add_le _ _).trans (by linarith))
    refine ⟨(y.mul x).add c, ?_, ?_⟩
    · rw [List.reverse_cons, List.foldlM_append, e]
      rfl
    · rw [List.length_cons, Finset.sum_range_succ']
      convert h4 using 1
      rw [Finset.sum_mul, pow_zero, mul_one]
      congr 1
      exact Finset.sum_congr rfl fun j _ => by ring

/-- At zero every intermediate result is a coefficient. -/
theorem fixed_horner_zero {x : Ieee F} (hx : x.IsFixed b 0) : ∀ (l : List (Ieee F)), (∀ y ∈ l, y.Finite) →
    ∃ y, l.reverse.foldlM (fun y a => do
      let y ← mulRefs y x
      (AddAssignRef.addAssign y a).toRes) (zero : Ieee F) = .ok y ∧ y.Finite ∧ y.value = (l.head?.map Ieee.value).getD 0
  | [], _ => ⟨zero, rfl, trivial, rfl⟩
  | c :: l, h => by
    obtain ⟨y, e, hy, _⟩ := fixed_horner_zero hx l fun y hy => h y (by simp [hy])
    have hx0 : x.value = 0 := by rw [hx.2]; simp
    obtain ⟨h1, h2⟩ := Ieee.mul_exact hy hx.1 (by rw [hx0, mul_zero]; exact Ieee.Fmt.representable_zero F)
    rw [hx0, mul_zero] at h2
    obtain ⟨h3, h4⟩ := Ieee.add_exact h1 (h c (by simp)) (by rw [h2, zero_add]; exact Ieee.value_representable c)
    rw [h2, zero_add] at h4
    refine ⟨(y.mul x).add c, ?_, h3, h4⟩
    rw [List.reverse_cons, List.foldlM_append, e]
    rfl

/-! ## Products of polynomials -/

theorem fixed_polyLoop {B : ℕ → ℕ} {p q : List (Ieee F)} {m n : ℕ → ℤ} (hp : ∀ i (x : Ieee F), p[i]? = some x → x.IsFixed a (m i))
    (hq : ∀ i (x : Ieee F), q[i]? = some x → x.IsFixed b (n i)) (hF : ∀ k, F.Fixed (a + b) (B k)) :
    ∀ (L : List (ℕ × ℕ)) (d : List (Ieee F)) (t : ℕ → ℤ),
    (∀ ij ∈ L, ij.1 < p.length ∧ ij.2 < q.length ∧ ij.1 + ij.2 < d.length) →
    (∀ k (y : Ieee F), d[k]? = some y → y.IsFixed (a + b) (t k) ∧
      |t k| + ((L.filter fun ij => ij.1 + ij.2 = k).map fun ij => |m ij.1| * |n ij.2|).sum ≤ B k) →
    ∃ d', forEach L (fun ij d => Upd.withRes (do mulRefs (← getIdx p ij.1) (← getIdx q ij.2)) d
          (fun prod => updAt d (ij.1 + ij.2) (fun y => AddAssignRef.addAssign y prod))) d = .done d' ∧ d'.length = d.length ∧
      ∀ k (y : Ieee F), d'[k]? = some y →
        y.IsFixed (a + b) (t k + ((L.filter fun ij => ij.1 + ij.2 = k).map fun ij => m ij.1 * n ij.2).sum) := by
  intro L
  induction L with
  | nil => intro d t _ hd; exact ⟨d, rfl, rfl, fun k y hy => by simpa using (hd k y hy).1⟩
  | cons ij L ih =>
    intro d t hL hd
    obtain ⟨i, j⟩ := ij
    obtain ⟨hi, hj, hij⟩ := hL (i, j) (by simp)
    obtain ⟨h0, h1⟩ := hd (i + j) _ (List.getElem?_eq_getElem hij)
    rw [List.filter_cons_of_pos (by simp), List.map_cons, List.sum_cons, ← add_assoc] at h1
    obtain ⟨h2, h3⟩ := h0.step (hp i _ (List.getElem?_eq_getElem hi)) (hq j _ (List.getElem?_eq_getElem hj)) (hF _) h1
      (sum_abs_nonneg' (fun ij : ℕ × ℕ => m ij.1) (fun ij => n ij.2) _)
    have em : (do mulRefs (← getIdx p i) (← getIdx q j) : Res (Ieee F)) = .ok (p[i].mul q[j]) := by
      simp only [getIdx, List.getElem?_eq_getElem hi, List.getElem?_eq_getElem hj, bind, Except.bind]
      rfl
    simp only [forEach, em, Upd.withRes, updAt, List.getElem?_eq_getElem hij]
    have eu : (AddAssignRef.addAssign d[i + j] (p[i].mul q[j]) : Upd (Ieee F)) = ⟨d[i + j].add (p[i].mul q[j]), none⟩ := rfl
    simp only [eu, Upd.into, Upd.andThen]
    obtain ⟨d', e, hl, hd'⟩ := ih (d.set (i + j) (d[i + j].add (p[i].mul q[j])))
      (Function.update t (i + j) (t (i + j) + m i * n j)) (fun ij h => by simpa using hL ij (by simp [h])) fun k y hy => by
        by_cases hk : i + j = k
        · subst hk
          rw [List.getElem?_set_self hij] at hy
          cases hy
          rw [Function.update_self]
          exact ⟨h2, h3⟩
        · rw [List.getElem?_set_ne hk] at hy
          rw [Function.update_of_ne (Ne.symm hk)]
          have := hd k y hy
          rwa [List.filter_cons_of_neg (by simpa using hk)] at this
    refine ⟨d', e, by simpa using hl, fun k y hy => ?_⟩
    have := hd' k y hy
    by_cases hk : i + j = k
    · subst hk
      rw [Function.update_self] at this
      rw [List.filter_cons_of_pos (by simp), List.map_cons, List.sum_cons, ← add_assoc]
      exact this
    · rw [Function.update_of_ne (Ne.symm hk)] at this
      rwa [List.filter_cons_of_neg (by simpa using hk)]

theorem filter_sum {c d : ℕ} {f g : ℕ → ℤ} (hf : ∀ i, c ≤ i → f i = 0) (hg : ∀ i, d ≤ i → g i = 0) (k : ℕ) :
    ((((List.range c).flatMap fun i => (List.range d).map fun j => (i, j)).filter fun ij => ij.1 + ij.2 = k).map
      fun ij => f ij.1 * g ij.2).sum = ∑ ij ∈ Finset.antidiagonal k, f ij.1 * g ij.2 := by
  have co : ∀ (n : ℕ) (h : ℕ → ℤ), (∀ i, n ≤ i → h i = 0) → ∀ i,
      (∑ l ∈ Finset.range n, Polynomial.monomial l (h l)).coeff i = h i := by
    intro n h hn i
    simp only [Polynomial.finsetSum_coeff, Polynomial.coeff_monomial]
    rw [Finset.sum_ite_eq' (Finset.range n) i h]
    split
    · rfl
    · next hi => rw [hn i (by simpa using hi)]
  have e := coeff_mul_pairs (P := ∑ l ∈ Finset.range c, Polynomial.monomial l (f l))
    (Q := ∑ l ∈ Finset.range d, Polynomial.monomial l (g l)) (m := c) (n := d)
    (fun i hi => by rw [co c f hf, hf i hi]) (fun i hi => by rw [co d g hg, hg i hi]) k
  rw [Polynomial.coeff_mul] at e
  simp only [co c f hf, co d g hg] at e
  rw [e, pairs, ← filter_pairs c d k, List.map_map]
  congr 1
  refine List.map_congr_left fun ij hm => ?_
  have := (List.mem_filter.1 hm).2
  simp only [decide_eq_true_eq] at this
  show _ = _ * g (k - ij.1)
  rw [← this, Nat.add_sub_cancel_left]

theorem fixed_mulRef {p q : Poly (Ieee F)} {m n : ℕ → ℤ} (hp : ∀ i (x : Ieee F), p.a[i]? = some x → x.IsFixed a (m i))
    (hq : ∀ i (x : Ieee F), q.a[i]? = some x → x.IsFixed b (n i)) (hm : ∀ i, p.a.length ≤ i → m i = 0)
    (hn : ∀ i, q.a.length ≤ i → n i = 0) (hF : ∀ k, F.Fixed (a + b) (∑ ij ∈ Finset.antidiagonal k, (m ij.1).natAbs * (n ij.2).natAbs)) :
    ∃ r, p.mulRef q = .ok r ∧ (r.a.length = if p.a = [] ∨ q.a = [] then 0 else p.a.length + q.a.length - 1) ∧
      ∀ k (x : Ieee F), r.a[k]? = some x →
      x.IsFixed (a + b) (∑ ij ∈ Finset.antidiagonal k, m ij.1 * n ij.2) := by
  unfold Poly.mulRef
  split
  · next he =>
    have he' : p.a = [] ∨ q.a = [] := by simpa using he
    exact ⟨_, rfl, by rw [if_pos he']; rfl, fun k x hx => by simp [RZero.zero] at hx⟩
  · next he =>
    have he' : ¬ (p.a = [] ∨ q.a = []) := by simpa using he
    rw [if_neg he']
    have he : p.a.length ≠ 0 ∧ q.a.length ≠ 0 := by simpa [List.isEmpty_iff_length_eq_zero] using he
    rw [forEach_flatMap]
    obtain ⟨d, e, hl, hd⟩ := fixed_polyLoop hp hq hF
      ((List.range p.a.length).flatMap fun i => (List.range q.a.length).map fun j => (i, j))
      (List.replicate (p.a.length + q.a.length - 1) zero) (fun _ => 0) (by
        intro ij hm
        simp only [List.mem_flatMap, List.mem_range, List.mem_map] at hm
        obtain ⟨i, hi, j, hj, rfl⟩ := hm
        refine ⟨hi, hj, ?_⟩
        rw [List.length_replicate]
        show i + j < _
        omega) (by
        intro k y hy
        have hy : y = zero := List.eq_of_mem_replicate (List.mem_of_getElem? hy)
        subst hy
        refine ⟨Ieee.IsFixed.zero, ?_⟩
        rw [abs_zero, zero_add, filter_sum (f := fun i => |m i|) (g := fun i => |n i|) (fun i hi => by rw [hm i hi, abs_zero])
          (fun i hi => by rw [hn i hi, abs_zero])]
        push_cast
        exact le_rfl)
    refine ⟨Poly.fromCoefficients d, by rw [e]; rfl, by simpa [Poly.fromCoefficients] using hl, fun k x hx => ?_⟩
    have := hd k x hx
    rwa [zero_add, filter_sum hm hn] at this

end Magnesia
