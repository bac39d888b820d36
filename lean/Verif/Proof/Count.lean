import Verif.Spec.Generic
import Verif.Proof.DynProd
import Verif.Proof.PFormMul
import Verif.Props.Rounding
import Verif.Props.SLinalg

/-!
# Counting the operations
-/

namespace Magnesia

open RZero ROne

namespace Term

/-- A loop each round of which costs one multiplication and one addition. -/
theorem foldlM_cost {ι : Type} (f : Term → ι → Res Term) (P : ι → Prop)
    (hf : ∀ s i t, P i → f s i = .ok t → t.muls = s.muls + 1 ∧ t.adds = s.adds + 1) : ∀ (l : List ι), (∀ i ∈ l, P i) →
    ∀ (s t : Term), l.foldlM f s = .ok t → t.muls = s.muls + l.length ∧ t.adds = s.adds + l.length := by
  intro l
  induction l with
  | nil => intro _ s t h; cases h; exact ⟨rfl, rfl⟩
  | cons i l ih =>
    intro hP s t h
    rw [List.foldlM_cons] at h
    obtain ⟨u, hu, h⟩ := bind_ok h
    obtain ⟨a, b⟩ := hf s i u (hP i (by simp)) hu
    obtain ⟨c, d⟩ := ih (fun j hj => hP j (by simp [hj])) u t h
    rw [List.length_cons]
    omega

theorem dot_cost {n : ℕ} (u v : SVector Term n) (hu : ∀ i, (u.val i).Leaf) (hv : ∀ i, (v.val i).Leaf) (t : Term)
    (h : u.dot v = .ok t) : t.muls = n ∧ t.adds = n := by
  have := foldlM_cost _ (fun _ => True) (fun s i t _ h => by
    cases h
    obtain ⟨h1, h2⟩ := hu i
    obtain ⟨h3, h4⟩ := hv i
    show s.muls + ((u.val i).muls + (v.val i).muls + 1) = _ ∧ s.adds + ((u.val i).adds + (v.val i).adds) + 1 = _
    omega) (List.finRange n) (by simp) zero t h
  simpa [Term.muls, Term.adds, show (RZero.zero : Term) = Term.zero from rfl] using this

/-- Every power occurs in `m` products. -/
theorem sum_filter (n m : ℕ) (hn : 0 < n) (hm : 0 < m) :
    ∑ k ∈ Finset.range (n + m - 1), ((List.range n).filter fun i => i ≤ k ∧ k - i < m).length = n * m := by
  have h1 : ∀ k, ((List.range n).filter fun i => i ≤ k ∧ k - i < m).length =
      ∑ i ∈ Finset.range n, if i ≤ k ∧ k - i < m then 1 else 0 := by
    intro k
    rw [← Finset.card_filter]
    rfl
  simp only [h1]
  rw [Finset.sum_comm]
  have h2 : ∀ i ∈ Finset.range n, (∑ k ∈ Finset.range (n + m - 1), if i ≤ k ∧ k - i < m then 1 else 0) = m := by
    intro i hi
    rw [← Finset.card_filter]
    have : (Finset.range (n + m - 1)).filter (fun k => i ≤ k ∧ k - i < m) = Finset.Ico i (i + m) := by
      ext k
      simp only [Finset.mem_filter, Finset.mem_range, Finset.mem_Ico] at hi ⊢
      omega
    rw [this]
    simp
  rw [Finset.sum_congr rfl h2]
  simp

theorem sum_getElem (f : Term → ℕ) (g : ℕ → ℕ) : ∀ (l : List Term), (∀ k x, l[k]? = some x → f x = g k) →
    (l.map f).sum = ∑ k ∈ Finset.range l.length, g k := by
  intro l
  induction l using List.reverseRecOn with
  | nil => intro _; rfl
  | append_singleton l a ih =>
    intro h
    rw [List.map_append, List.sum_append, List.length_append, List.length_singleton, Finset.sum_range_succ,
      ih fun k x hx => h k x (by rw [List.getElem?_append_left (List.getElem?_eq_some_iff.1 hx).1]; exact hx),
      ← h l.length a (by simp)]
    simp

theorem sumTerms_cost (t : ℕ → Res Term) : ∀ n, (∀ k < n + 1, ∃ y, t k = .ok y ∧ y.muls = 1 ∧ y.adds = 0) →
    ∃ x, Tree.sumTerms t (n + 1) = .ok x ∧ x.muls = n + 1 ∧ x.adds = n := by
  intro n
  induction n with
  | zero => intro h; exact h 0 (by omega)
  | succ n ih =>
    intro h
    obtain ⟨x, hx, h1, h2⟩ := ih fun k hk => h k (by omega)
    obtain ⟨y, hy, h3, h4⟩ := h (n + 1) (by omega)
    refine ⟨x.add y, ?_, ?_, ?_⟩
    · show (do
        let s ← Tree.sumTerms t (n + 1)
        let x ← t (n + 1)
        (RAddAssign.addAssign s x).toRes) = _
      rw [hx, hy]
      rfl
    · simp only [Term.muls]; omega
    · simp only [Term.adds]; omega

end Term

end Magnesia
