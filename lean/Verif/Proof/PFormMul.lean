import Verif.Proof.PolyExact

/-!
# The coefficients of a product of polynomials, for any element type (helper lemmas)
-/

namespace Magnesia

open RZero ROne MulRefs

variable {T : Type}

/-- One step of the sum for a coefficient of a product. -/
def mulStep [AddAssignRef T] [MulRefs T] (a b : List T) (k : ℕ) (y : T) (i : ℕ) : Res T := do
  let prod ← mulRefs (← getIdx a i) (← getIdx b (k - i))
  (AddAssignRef.addAssign y prod).toRes

section
variable [AddAssignRef T] [MulRefs T]

theorem mulLoop_coef (a b : List T) : ∀ (L : List (ℕ × ℕ)) (d d' : List T),
    forEach L (fun ij d => Upd.withRes (do mulRefs (← getIdx a ij.1) (← getIdx b ij.2)) d
          (fun prod => updAt d (ij.1 + ij.2) (fun y => AddAssignRef.addAssign y prod))) d = .done d' →
    d'.length = d.length ∧ ∀ k y, d[k]? = some y → ∃ y', d'[k]? = some y' ∧
      ((L.filter fun ij => ij.1 + ij.2 = k).map Prod.fst).foldlM (mulStep a b k) y = .ok y' := by
  intro L
  induction L with
  | nil => intro d d' h; cases h; exact ⟨rfl, fun k y h => ⟨y, h, rfl⟩⟩
  | cons ij L ih =>
    intro d d' h
    obtain ⟨i, j⟩ := ij
    simp only [forEach] at h
    cases hm : (do mulRefs (← getIdx a i) (← getIdx b j) : Res T) with
    | error e => rw [hm] at h; cases h
    | ok prod =>
      rw [hm] at h
      simp only [Upd.withRes] at h
      cases hd : d[i + j]? with
      | none => simp only [updAt, hd] at h; cases h
      | some y0 =>
        simp only [updAt, hd] at h
        cases hp : (AddAssignRef.addAssign y0 prod).panic with
        | some e => simp only [Upd.into, Upd.andThen, hp] at h; cases h
        | none =>
          simp only [Upd.into, Upd.andThen, hp] at h
          obtain ⟨h1, h2⟩ := ih _ _ h
          refine ⟨by rw [h1]; simp, fun k y hy => ?_⟩
          by_cases hk : i + j = k
          · subst hk
            cases hd.symm.trans hy
            have hlt : i + j < d.length := (List.getElem?_eq_some_iff.1 hd).1
            obtain ⟨y', h3, h4⟩ := h2 (i + j) (AddAssignRef.addAssign y0 prod).val (by simp [hlt])
            refine ⟨y', h3, ?_⟩
            rw [List.filter_cons_of_pos (by simp), List.map_cons, List.foldlM_cons]
            have : mulStep a b (i + j) y0 i = .ok (AddAssignRef.addAssign y0 prod).val := by
              unfold mulStep
              rw [Nat.add_sub_cancel_left]
              cases e1 : getIdx a i with
              | error e => rw [e1] at hm; cases hm
              | ok x =>
                cases e2 : getIdx b j with
                | error e => rw [e1, e2] at hm; cases hm
                | ok x' =>
                  rw [e1, e2] at hm
                  have hm : mulRefs x x' = .ok prod := hm
                  simp only [bind, Except.bind, hm, Upd.toRes, hp]
            rw [this]
            exact h4
          · obtain ⟨y', h3, h4⟩ := h2 k y (by rw [List.getElem?_set_ne hk]; exact hy)
            exact ⟨y', h3, by rw [List.filter_cons_of_neg (by simpa using hk)]; exact h4⟩

end

theorem filter_pairs (m n k : ℕ) :
    ((((List.range m).flatMap fun i => (List.range n).map fun j => (i, j)).filter fun ij => ij.1 + ij.2 = k).map Prod.fst) =
      (List.range m).filter fun i => i ≤ k ∧ k - i < n := by
  have row : ∀ i, (((List.range n).map fun j => (i, j)).filter fun ij => ij.1 + ij.2 = k).map Prod.fst =
      if i ≤ k ∧ k - i < n then [i] else [] := by
    intro i
    rw [List.filter_map, List.map_map]
    have h1 : ((fun ij : ℕ × ℕ => decide (ij.1 + ij.2 = k)) ∘ fun j => (i, j)) = fun j => decide (i + j = k) := rfl
    rw [h1]
    split_ifs with h
    · have : (List.range n).filter (fun j => decide (i + j = k)) = [k - i] := by
        have : (fun j => decide (i + j = k)) = fun j => j == k - i := by
          funext j
          by_cases hj : j = k - i
          · subst hj; simp; omega
          · have : ¬ i + j = k := by omega
            simp [this, hj]
        rw [this, List.filter_beq, List.count_range]
        simp [h.2]
      rw [this]; rfl
    · have : (List.range n).filter (fun j => decide (i + j = k)) = [] := by
        rw [List.filter_eq_nil_iff]
        intro j hj
        have := List.mem_range.1 hj
        simp only [decide_eq_true_eq]
        omega
      rw [this]; rfl
  induction m with
  | zero => rfl
  | succ m ih =>
    rw [List.range_succ, List.flatMap_append, List.filter_append, List.map_append, ih, List.filter_append]
    congr 1
    simp only [List.flatMap_cons, List.flatMap_nil, List.append_nil]
    rw [row]
    by_cases h : m ≤ k ∧ k - m < n
    · rw [if_pos h, List.filter_cons_of_pos (by simpa using h)]; rfl
    · rw [if_neg h, List.filter_cons_of_neg (by simpa using h)]; rfl

theorem mulRef_coef [RZero T] [AddAssignRef T] [MulRefs T] (p q r : Poly T) (h : p.mulRef q = .ok r) :
    r.a.length = (if p.a.length = 0 ∨ q.a.length = 0 then 0 else p.a.length + q.a.length - 1) ∧
    ∀ k x, r.a[k]? = some x →
      ((List.range p.a.length).filter fun i => i ≤ k ∧ k - i < q.a.length).foldlM (mulStep p.a q.a k) zero = .ok x := by
  unfold Poly.mulRef at h
  by_cases he : p.a.length = 0 ∨ q.a.length = 0
  · have : (p.a.isEmpty || q.a.isEmpty) = true := by
      simpa [List.isEmpty_iff_length_eq_zero] using he
    rw [if_pos this] at h
    cases h
    rw [if_pos he]
    exact ⟨rfl, fun k x h => by cases h⟩
  · have : ¬ (p.a.isEmpty || q.a.isEmpty) = true := by
      simpa [List.isEmpty_iff_length_eq_zero] using he
    rw [if_neg this, forEach_flatMap] at h
    rw [if_neg he]
    obtain ⟨d', e1, e2⟩ : ∃ d', forEach ((List.range p.a.length).flatMap fun i => (List.range q.a.length).map fun j => (i, j))
        (fun ij d => Upd.withRes (do mulRefs (← getIdx p.a ij.1) (← getIdx q.a ij.2)) d
          (fun prod => updAt d (ij.1 + ij.2) (fun y => AddAssignRef.addAssign y prod)))
        (List.replicate (p.a.length + q.a.length - 1) (zero : T)) = .done d' ∧ r = ⟨d'⟩ := by
      revert h
      generalize forEach ((List.range p.a.length).flatMap fun i => (List.range q.a.length).map fun j => (i, j))
        (fun ij d => Upd.withRes (do mulRefs (← getIdx p.a ij.1) (← getIdx q.a ij.2)) d
          (fun prod => updAt d (ij.1 + ij.2) (fun y => AddAssignRef.addAssign y prod)))
        (List.replicate (p.a.length + q.a.length - 1) (zero : T)) = u
      intro h
      obtain ⟨v, pn⟩ := u
      cases pn with
      | some e => cases h
      | none => cases h; exact ⟨v, rfl, rfl⟩
    subst e2
    obtain ⟨h1, h2⟩ := mulLoop_coef _ _ _ _ _ e1
    refine ⟨by simpa using h1, fun k x hx => ?_⟩
    have hk : k < p.a.length + q.a.length - 1 := by
      have := (List.getElem?_eq_some_iff.1 hx).1
      rw [h1] at this; simpa using this
    obtain ⟨y', h3, h4⟩ := h2 k zero (by simp [hk])
    cases hx.symm.trans h3
    rw [filter_pairs] at h4
    exact h4

end Magnesia
