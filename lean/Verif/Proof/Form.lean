import Verif.Spec.Form
import Verif.Proof.DynProd

/-!
# Linear algebra formulas (helper lemmas)
-/

namespace Magnesia.Form

open RZero ROne

variable {T R : Type} [RZero T] [ROne T] [RAdd T T T] [RSub T T T] [RMul T T T] [RAddAssign T T]
  [RConj T] {p : Profile} {k : Kind} {r c : ℕ}

theorem tree_shape (e : Form T k r c) : e.tree.shape = (r, c) := by
  induction e with
  | vec f => simp [tree, Tree.shape, DVector.ofFn]
  | @add k r c a b iha ihb => cases k <;> simp [tree, Tree.shape, iha]
  | @sub k r c a b iha ihb => cases k <;> simp [tree, Tree.shape, iha]
  | @elem k r c a b iha ihb => cases k <;> simp [tree, Tree.shape, iha]
  | @eval k r c a iha => cases k <;> simp [tree, Tree.shape, iha]
  | _ => simp_all [tree, Tree.shape]

theorem tree_wellShaped (e : Form T k r c) : e.tree.WellShaped := by
  induction e with
  | @add k r c a b iha ihb => cases k <;> simp [tree, Tree.WellShaped, iha, ihb, tree_shape]
  | @sub k r c a b iha ihb => cases k <;> simp [tree, Tree.WellShaped, iha, ihb, tree_shape]
  | @elem k r c a b iha ihb => cases k <;> simp [tree, Tree.WellShaped, iha, ihb, tree_shape]
  | @eval k r c a iha => cases k <;> simp [tree, Tree.WellShaped, iha]
  | prod a b iha ihb => simp [tree, Tree.WellShaped, iha, ihb, Tree.cols, Tree.rows, tree_shape]
  | _ => simp_all [tree, Tree.WellShaped]

theorem tree_fits (e : Form T k r c) (h : e.Fits p) : e.tree.Fits p := by
  induction e with
  | @add k r c a b iha ihb => cases k <;> exact ⟨iha h.1, ihb h.2⟩
  | @sub k r c a b iha ihb => cases k <;> exact ⟨iha h.1, ihb h.2⟩
  | @elem k r c a b iha ihb => cases k <;> exact ⟨iha h.1, ihb h.2⟩
  | @eval k r c a iha =>
    cases k
    · exact iha h.1
    · exact ⟨iha h.1, by simpa [Tree.rows, Tree.cols, tree_shape] using h.2⟩
  | prod a b iha ihb =>
    refine ⟨⟨iha h.1.1, ?_⟩, ihb h.2.1, ?_⟩ <;> simp [tree_shape, Tree.rows, Tree.cols]
    exacts [h.1.2, h.2.2]
  | _ => simp_all [tree, Tree.Fits, Form.Fits]

theorem entry_value [RSubAssign T T] [Ring R] {φ : T → R} {σ : R → R} (hc : Computes φ σ) (e : Form T k r c) :
    ∀ (i : Fin r) (j : Fin c) (z : T), e.tree.entry i j = .ok z → φ z = e.den φ σ i j := by
  induction e with
  | vec f =>
    intro i j z h
    have : getIdx (List.ofFn f) i = .ok z := h
    rw [getIdx_ofFn] at this
    cases this; rfl
  | mat f =>
    intro i j z h
    simp only [tree, Tree.entry, Tree.entry.SMatrixEntry] at h
    rw [dif_pos ⟨i.2, j.2⟩] at h
    cases h; rfl
  | zerosV n => intro i j z h; cases h; exact hc.zero
  | onesV n => intro i j z h; cases h; exact hc.one
  | zerosM r c => intro i j z h; cases h; exact hc.zero
  | onesM r c => intro i j z h; cases h; exact hc.one
  | eye n =>
    intro i j z h
    cases h
    simp only [den, Matrix.one_apply]
    by_cases e : i = j
    · rw [if_pos (congrArg Fin.val e), if_pos e]; exact hc.one
    · rw [if_neg (fun h => e (Fin.ext h)), if_neg e]; exact hc.zero
  | @add k r c a b iha ihb =>
    intro i j z h
    have h : (do RAdd.add (← a.tree.entry i j) (← b.tree.entry i j)) = (.ok z : Res T) := by cases k <;> exact h
    obtain ⟨x, hx, h⟩ := bind_ok h
    obtain ⟨y, hy, h⟩ := bind_ok h
    rw [hc.add _ _ _ h, iha i j x hx, ihb i j y hy]; rfl
  | @sub k r c a b iha ihb =>
    intro i j z h
    have h : (do RSub.sub (← a.tree.entry i j) (← b.tree.entry i j)) = (.ok z : Res T) := by cases k <;> exact h
    obtain ⟨x, hx, h⟩ := bind_ok h
    obtain ⟨y, hy, h⟩ := bind_ok h
    rw [hc.sub _ _ _ h, iha i j x hx, ihb i j y hy]; rfl
  | @elem k r c a b iha ihb =>
    intro i j z h
    have h : (do RMul.mul (← a.tree.entry i j) (← b.tree.entry i j)) = (.ok z : Res T) := by cases k <;> exact h
    obtain ⟨x, hx, h⟩ := bind_ok h
    obtain ⟨y, hy, h⟩ := bind_ok h
    rw [hc.mul _ _ _ h, iha i j x hx, ihb i j y hy]; rfl
  | @eval k r c a iha =>
    intro i j z h
    exact iha i j z (by cases k <;> exact h)
  | conj v ih =>
    intro i j z h
    obtain ⟨x, hx, h⟩ := bind_ok h
    rw [hc.conj _ _ h, ih i j x hx]; rfl
  | @diagOf r c m ih =>
    intro i j z h
    exact ih (i.castLE (min_le_left _ _)) (i.castLE (min_le_right _ _)) z h
  | @diag n v ih =>
    intro i j z h
    simp only [tree, Tree.entry] at h
    simp only [den, Matrix.diagonal_apply]
    by_cases e : i = j
    · rw [if_pos (congrArg Fin.val e)] at h
      rw [if_pos e]
      exact ih i 0 z h
    · rw [if_neg (fun h => e (Fin.ext h))] at h
      rw [if_neg e]
      cases h; exact hc.zero
  | t m ih =>
    intro i j z h
    exact ih j i z h
  | h m ih =>
    intro i j z h
    obtain ⟨x, hx, h⟩ := bind_ok h
    rw [hc.conj _ _ h, ih j i x hx]; rfl
  | @prod l m n a b iha ihb =>
    intro i j z h
    have h : Tree.sumTerms (fun k => do RMul.mul (← a.tree.entry i k) (← b.tree.entry k j)) m = .ok z := by
      have e : a.tree.cols = m := by simp [Tree.cols, tree_shape]
      have h' : Tree.sumTerms _ a.tree.cols = .ok z := h
      rwa [e] at h'
    rw [sumTerms_value hc.addAssign (v := fun k => if hk : k < m then a.den φ σ i ⟨k, hk⟩ * b.den φ σ ⟨k, hk⟩ j else 0) ?_ h,
      ← Fin.sum_univ_eq_sum_range (fun k => if hk : k < m then a.den φ σ i ⟨k, hk⟩ * b.den φ σ ⟨k, hk⟩ j else 0)]
    · simp [den, Matrix.mul_apply]
    · intro k hk w hw
      obtain ⟨x, hx, hw⟩ := bind_ok hw
      obtain ⟨y, hy, hw⟩ := bind_ok hw
      rw [hc.mul _ _ _ hw, iha i ⟨k, hk⟩ x hx, ihb ⟨k, hk⟩ j y hy, dif_pos hk]

theorem entry_returns [RSubAssign T T] (hn : NeverPanicsV T) (hj : ∀ x : T, Returns (RConj.conj x)) (e : Form T k r c) (he : e.Inner) :
    ∀ (i : Fin r) (j : Fin c), Returns (e.tree.entry i j) := by
  induction e with
  | vec f => intro i j; exact ⟨_, getIdx_ofFn f i⟩
  | mat f =>
    intro i j
    exact ⟨f i j, by simp only [tree, Tree.entry, Tree.entry.SMatrixEntry]; rw [dif_pos ⟨i.2, j.2⟩]⟩
  | zerosV n => intro i j; exact ⟨_, rfl⟩
  | onesV n => intro i j; exact ⟨_, rfl⟩
  | zerosM r c => intro i j; exact ⟨_, rfl⟩
  | onesM r c => intro i j; exact ⟨_, rfl⟩
  | eye n => intro i j; exact ⟨_, rfl⟩
  | @add k r c a b iha ihb =>
    intro i j
    cases k <;> exact (iha he.1 i j).bind fun x _ => (ihb he.2 i j).bind fun y _ => hn.add x y
  | @sub k r c a b iha ihb =>
    intro i j
    cases k <;> exact (iha he.1 i j).bind fun x _ => (ihb he.2 i j).bind fun y _ => hn.sub x y
  | @elem k r c a b iha ihb =>
    intro i j
    cases k <;> exact (iha he.1 i j).bind fun x _ => (ihb he.2 i j).bind fun y _ => hn.mul x y
  | @eval k r c a iha => intro i j; cases k <;> exact iha he i j
  | conj v ih => intro i j; exact (ih he i j).bind fun x _ => hj x
  | diagOf m ih =>
    intro i j
    exact ih he (i.castLE (min_le_left _ _)) (i.castLE (min_le_right _ _))
  | diag v ih =>
    intro i j
    simp only [tree, Tree.entry]
    split
    · exact ih he i 0
    · exact ⟨_, rfl⟩
  | t m ih => intro i j; exact ih he j i
  | h m ih => intro i j; exact (ih he j i).bind fun x _ => hj x
  | @prod l m n a b iha ihb =>
    intro i j
    obtain ⟨m, rfl⟩ : ∃ m', m = m' + 1 := by
      rcases he.2.2 with h | h | h
      · exact ⟨m - 1, by omega⟩
      · subst h; exact i.elim0
      · subst h; exact j.elim0
    show Returns (Tree.sumTerms _ a.tree.cols)
    have e : a.tree.cols = m + 1 := by simp [Tree.cols, tree_shape]
    rw [e]
    exact sumTerms_returns hn.addAssign fun k hk =>
      (iha he.1 i ⟨k, hk⟩).bind fun x _ => (ihb he.2.1 ⟨k, hk⟩ j).bind fun y _ => hn.mul x y

theorem entriesReturn [RSubAssign T T] (hn : NeverPanicsV T) (hj : ∀ x : T, Returns (RConj.conj x)) (e : Form T k r c) (he : e.Inner) :
    e.tree.EntriesReturn := by
  intro i hi j hj'
  simp only [Tree.rows, Tree.cols, tree_shape] at hi hj'
  exact entry_returns hn hj e he ⟨i, hi⟩ ⟨j, hj'⟩

theorem evalsReturn [RSubAssign T T] (hn : NeverPanicsV T) (hj : ∀ x : T, Returns (RConj.conj x)) (e : Form T k r c) (he : e.Inner) :
    e.tree.EvalsReturn := by
  induction e with
  | @add k r c a b iha ihb => cases k <;> exact ⟨iha he.1, ihb he.2⟩
  | @sub k r c a b iha ihb => cases k <;> exact ⟨iha he.1, ihb he.2⟩
  | @elem k r c a b iha ihb => cases k <;> exact ⟨iha he.1, ihb he.2⟩
  | @eval k r c a iha => cases k <;> exact ⟨iha he, entriesReturn hn hj a he⟩
  | conj v ih => exact ih he
  | diagOf m ih => exact ih he
  | diag v ih => exact ih he
  | t m ih => exact ih he
  | h m ih => exact ih he
  | prod a b iha ihb => exact ⟨⟨iha he.1, entriesReturn hn hj a he.1⟩, ihb he.2.1, entriesReturn hn hj b he.2.1⟩
  | _ => trivial

end Magnesia.Form
