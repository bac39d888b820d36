import Verif.Proof.Count
import Verif.Proof.Panics

/-!
# C78: how many operations of the element type are executed

Run with terms in place of numbers, every scalar of the result is the expression that has been computed; in the operations below
every intermediate value is used exactly once, so the sizes of the expressions count the operations executed.
-/

namespace Magnesia

open RZero ROne

theorem Term.neverPanics : NeverPanics Term :=
  ⟨fun _ _ => rfl, fun _ _ => rfl, fun a b => ⟨a.mul b, rfl⟩, fun a => ⟨a.neg, rfl⟩⟩

/-- The product of two complex numbers takes 4 multiplications and 2 additions or subtractions, `sqr_norm` 2 and 1. -/
theorem C78_count_complex (a b : Complex Term) (ha : a.re.Leaf ∧ a.im.Leaf) (hb : b.re.Leaf ∧ b.im.Leaf) :
    (∃ c : Complex Term, MulRefs.mulRefs a b = .ok c ∧ c.re.muls + c.im.muls = 4 ∧ c.re.adds + c.im.adds = 2) ∧
    ∃ x, a.sqrNorm = .ok x ∧ x.muls = 2 ∧ x.adds = 1 := by
  obtain ⟨⟨h1, h2⟩, h3, h4⟩ := ha
  obtain ⟨⟨h5, h6⟩, h7, h8⟩ := hb
  refine ⟨⟨⟨(a.re.mul b.re).sub (a.im.mul b.im), (a.re.mul b.im).add (a.im.mul b.re)⟩, rfl, ?_, ?_⟩,
    (a.re.mul a.re).add (a.im.mul a.im), rfl, ?_, ?_⟩ <;> simp only [Term.muls, Term.adds, *]

/-- Evaluating a polynomial with `n` coefficients takes `n` multiplications and `n` additions. -/
theorem C78_count_eval (p : Poly Term) (x : Term) (hp : ∀ c ∈ p.a, c.Leaf) (hx : x.Leaf) :
    ∃ t, p.eval x = .ok t ∧ t.muls = p.a.length ∧ t.adds = p.a.length := by
  obtain ⟨t, ht⟩ := (pan_eval p x).exists_ok Term.neverPanics.noElementPanic
  refine ⟨t, ht, ?_⟩
  have := Term.foldlM_cost _ (fun c => c.Leaf) (fun s c t h e => by
    cases e
    obtain ⟨h1, h2⟩ := h
    obtain ⟨h3, h4⟩ := hx
    show s.muls + x.muls + 1 + c.muls = _ ∧ s.adds + x.adds + c.adds + 1 = _
    omega) p.a.reverse (fun c hc => hp c (by simpa using hc)) zero t ht
  simpa [Term.muls, Term.adds, show (RZero.zero : Term) = Term.zero from rfl] using this

/-- Multiplying polynomials with `n` and `m` coefficients takes `n * m` multiplications and `n * m` additions. -/
theorem C78_count_poly_mul (p q : Poly Term) (hp : ∀ c ∈ p.a, c.Leaf) (hq : ∀ c ∈ q.a, c.Leaf) :
    ∃ r, p.mul q = .ok r ∧ (r.a.map Term.muls).sum = p.a.length * q.a.length ∧
      (r.a.map Term.adds).sum = p.a.length * q.a.length := by
  obtain ⟨r, hr⟩ := (pan_pmul p q).exists_ok Term.neverPanics.noElementPanic
  refine ⟨r, hr, ?_⟩
  obtain ⟨hl, hc⟩ := mulRef_coef p q r hr
  by_cases he : p.a.length = 0 ∨ q.a.length = 0
  · rw [if_pos he] at hl
    have : p.a.length * q.a.length = 0 := by rcases he with h | h <;> simp [h]
    rw [List.length_eq_zero_iff.1 hl, this]
    exact ⟨rfl, rfl⟩
  · rw [if_neg he] at hl
    have key : ∀ k x, r.a[k]? = some x →
        x.muls = ((List.range p.a.length).filter fun i => i ≤ k ∧ k - i < q.a.length).length ∧
        x.adds = ((List.range p.a.length).filter fun i => i ≤ k ∧ k - i < q.a.length).length := by
      intro k x hx
      have := Term.foldlM_cost _ (fun _ => True) (fun s i t _ e => by
        unfold mulStep at e
        obtain ⟨a, ha, e⟩ := bind_ok e
        obtain ⟨b, hb, e⟩ := bind_ok e
        cases e
        have hpa : a.Leaf := by
          unfold getIdx at ha
          split at ha
          · next h => cases ha; exact hp _ (List.mem_of_getElem? h)
          · cases ha
        have hqb : b.Leaf := by
          unfold getIdx at hb
          split at hb
          · next h => cases hb; exact hq _ (List.mem_of_getElem? h)
          · cases hb
        obtain ⟨h1, h2⟩ := hpa
        obtain ⟨h3, h4⟩ := hqb
        show s.muls + (a.muls + b.muls + 1) = _ ∧ s.adds + (a.adds + b.adds) + 1 = _
        omega) _ (fun _ _ => trivial) zero x (hc k x hx)
      simpa only [show (RZero.zero : Term).muls = 0 from rfl, show (RZero.zero : Term).adds = 0 from rfl, Nat.zero_add] using this
    have sum : ∀ f : Term → ℕ, (∀ k x, r.a[k]? = some x →
        f x = ((List.range p.a.length).filter fun i => i ≤ k ∧ k - i < q.a.length).length) →
        (r.a.map f).sum = p.a.length * q.a.length := by
      intro f hf
      rw [← Term.sum_filter p.a.length q.a.length (by omega) (by omega), ← hl]
      exact Term.sum_getElem f _ r.a hf
    exact ⟨sum _ fun k x h => (key k x h).1, sum _ fun k x h => (key k x h).2⟩

/-- The dot product of two static vectors of length `n`: `n` multiplications and `n` additions. -/
theorem C78_count_dot {n : ℕ} (u v : SVector Term n) (hu : ∀ i, (u.val i).Leaf) (hv : ∀ i, (v.val i).Leaf) :
    ∃ t, u.dot v = .ok t ∧ t.muls = n ∧ t.adds = n := by
  obtain ⟨t, ht⟩ := (pan_vdot u v).exists_ok Term.neverPanics.noElementPanic
  exact ⟨t, ht, Term.dot_cost u v hu hv t ht⟩

/-- The product of an `l × m` and an `m × n` static matrix: `l * n * m` multiplications and `l * n * m` additions. -/
theorem C78_count_smatrix_mul {l m n : ℕ} (a : SMatrix Term l m) (b : SMatrix Term m n) (ha : ∀ i j, (a.val i j).Leaf)
    (hb : ∀ i j, (b.val i j).Leaf) :
    ∃ c, a.mul b = .ok c ∧ ∑ i, ∑ j, (c.val i j).muls = l * n * m ∧ ∑ i, ∑ j, (c.val i j).adds = l * n * m := by
  obtain ⟨c, hc⟩ := (pan_mmul a b).exists_ok Term.neverPanics.noElementPanic
  have h := fun i j => Term.dot_cost _ _ (ha i) (fun k => hb k j) _ ((smatrix_mul_entries a b c).1 hc i j)
  refine ⟨c, hc, ?_, ?_⟩
  · simp [fun i j => (h i j).1, mul_assoc]
  · simp [fun i j => (h i j).2, mul_assoc]

/-- The product of an `m × n` static matrix and a vector: `m * n` multiplications and `m * n` additions. -/
theorem C78_count_mul_vec {m n : ℕ} (a : SMatrix Term m n) (v : SVector Term n) (ha : ∀ i j, (a.val i j).Leaf)
    (hv : ∀ i, (v.val i).Leaf) :
    ∃ w, a.mulVec v = .ok w ∧ ∑ i, (w.val i).muls = m * n ∧ ∑ i, (w.val i).adds = m * n := by
  obtain ⟨w, hw⟩ := (pan_mmulVec a v).exists_ok Term.neverPanics.noElementPanic
  have h := fun i => Term.dot_cost _ _ (ha i) hv _ ((C25_mul_vec_rows a v w).1 hw i)
  refine ⟨w, hw, ?_, ?_⟩
  · simp [fun i => (h i).1]
  · simp [fun i => (h i).2]

/-- The dot product of two dynamic vectors: as many multiplications and additions as the shorter has elements. -/
theorem C78_count_dvector_dot (u v : DVector Term) (hu : ∀ x ∈ u.data, x.Leaf) (hv : ∀ x ∈ v.data, x.Leaf) :
    ∃ t, u.dot v = .ok t ∧ t.muls = min u.data.length v.data.length ∧ t.adds = min u.data.length v.data.length := by
  have hr : ∀ (l : List (Term × Term)) (s : Term), ∃ t, l.foldlM (fun acc lr => do
      let prod ← RMul.mul (← RConj.conj lr.1) lr.2
      RAdd.add acc prod : Term → Term × Term → Res Term) s = .ok t := by
    intro l
    induction l with
    | nil => exact fun s => ⟨s, rfl⟩
    | cons x l ih => exact fun s => ih _
  obtain ⟨t, ht⟩ := hr (List.zip u.data v.data) zero
  refine ⟨t, ht, ?_⟩
  have := Term.foldlM_cost _ (fun x : Term × Term => x.1.Leaf ∧ x.2.Leaf) (fun s x t h e => by
    cases e
    obtain ⟨⟨h1, h2⟩, h3, h4⟩ := h
    show s.muls + (x.1.muls + x.2.muls + 1) = _ ∧ s.adds + (x.1.adds + x.2.adds) + 1 = _
    omega) _ (fun x hx => ⟨hu _ (List.of_mem_zip hx).1, hv _ (List.of_mem_zip hx).2⟩) zero t ht
  simpa [Term.muls, Term.adds, show (RZero.zero : Term) = Term.zero from rfl] using this

/-- The product of an `l × m` and an `m × n` dynamic matrix (`m` at least 1): `l * n * m` multiplications and `l * n * (m - 1)`
additions. -/
theorem C78_count_dmatrix_mul {l m n : ℕ} (pr : Profile) (hf : pr.Fits l m) (hg : pr.Fits m n) (hm : 0 < m) (f : Fin l → Fin m → Term)
    (g : Fin m → Fin n → Term) (ha : ∀ i j, (f i j).Leaf) (hb : ∀ i j, (g i j).Leaf) :
    ∃ h : Fin l → Fin n → Term, (do (← (DMatrix.ofFn f).mul pr (DMatrix.ofFn g)).eval) = .ok (DMatrix.ofFn h) ∧
      ∑ i, ∑ j, (h i j).muls = l * n * m ∧ ∑ i, ∑ j, (h i j).adds = l * n * (m - 1) := by
  have h : ∀ i j, ∃ x, Tree.sumTerms (prodTerms f g i j) m = .ok x ∧ x.muls = m ∧ x.adds = m - 1 := by
    intro i j
    obtain ⟨m, rfl⟩ : ∃ k, m = k + 1 := ⟨m - 1, by omega⟩
    refine Term.sumTerms_cost (prodTerms f g i j) m fun k hk => ?_
    refine ⟨(f i ⟨k, hk⟩).mul (g ⟨k, hk⟩ j), ?_, ?_, ?_⟩
    · unfold prodTerms
      rw [dif_pos hk]
      rfl
    · simp only [Term.muls, (ha i ⟨k, hk⟩).1, (hb ⟨k, hk⟩ j).1]
    · simp only [Term.adds, (ha i ⟨k, hk⟩).2, (hb ⟨k, hk⟩ j).2]
  choose h h1 h2 h3 using h
  refine ⟨h, (mul_eval_iff hf hg f g _).2 ⟨h, h1, rfl⟩, ?_, ?_⟩
  · simp [h2, mul_assoc]
  · simp [h3, mul_assoc]

end Magnesia
