import Verif.Proof.TreeEval
import Verif.Proof.SLin

/-!
# Products of dynamic matrices (helper lemmas)
-/

namespace Magnesia

open RZero ROne MulRefs

variable {T O R : Type} {p : Profile} {r c l m n : ℕ}

theorem mapM_congr_left {α β : Type} {f g : α → Res β} : ∀ (l : List α), (∀ a ∈ l, f a = g a) → l.mapM f = l.mapM g := by
  intro l
  induction l with
  | nil => intro _; rfl
  | cons a l ih =>
    intro h
    rw [List.mapM_cons, List.mapM_cons, h a (by simp), ih fun b hb => h b (by simp [hb])]

theorem mdefaultEval_congr {f g : ℕ → ℕ → Res T} (h : ∀ i < r, ∀ j < c, f i j = g i j) :
    MExpr.defaultEval r c f = MExpr.defaultEval r c g := by
  unfold MExpr.defaultEval
  rw [mapM_congr_left _ fun a ha => ?_]
  simp only [List.mem_flatMap, List.mem_range, List.mem_map] at ha
  obtain ⟨i, hi, j, hj, rfl⟩ := ha
  exact h i hi j hj

theorem vdefaultEval_congr {f g : ℕ → Res T} (h : ∀ i < n, f i = g i) :
    VExpr.defaultEval n f = VExpr.defaultEval n g := by
  unfold VExpr.defaultEval
  rw [mapM_congr_left _ fun a ha => ?_]
  exact h a (by simpa using ha)

/-- The terms of a product entry. -/
def prodTerms [RMul T T O] (f : Fin l → Fin m → T) (g : Fin m → Fin n → T) (i : Fin l) (j : Fin n) (k : ℕ) : Res O :=
  if h : k < m then RMul.mul (f i ⟨k, h⟩) (g ⟨k, h⟩ j) else .error .user

theorem mul_ofFn [RMul T T O] [RAddAssign O O] (f : Fin l → Fin m → T) (g : Fin m → Fin n → T) :
    (DMatrix.ofFn f).mul p (DMatrix.ofFn g) = .ok (DMatrix.mulExpr p (DMatrix.ofFn f) (DMatrix.ofFn g)) := by
  unfold DMatrix.mul
  rw [show assertEq (DMatrix.ofFn f).numCols (DMatrix.ofFn g).numRows = .ok () from if_pos rfl]
  rfl

/-- Law-free description of the product. -/
theorem mul_eval_iff [RMul T T O] [RAddAssign O O] (hf : p.Fits l m) (hg : p.Fits m n) (f : Fin l → Fin m → T)
    (g : Fin m → Fin n → T) (x : DMatrix O) :
    (do (← (DMatrix.ofFn f).mul p (DMatrix.ofFn g)).eval) = .ok x ↔
      ∃ h : Fin l → Fin n → O, (∀ i j, Tree.sumTerms (prodTerms f g i j) m = .ok (h i j)) ∧ x = DMatrix.ofFn h := by
  rw [mul_ofFn]
  show MExpr.defaultEval l n (DMatrix.mulEntry p (DMatrix.ofFn f) (DMatrix.ofFn g)) = .ok x ↔ _
  rw [mdefaultEval_iff]
  constructor <;> rintro ⟨h, hh, rfl⟩ <;> refine ⟨h, fun i j => ?_, rfl⟩
  · rw [← hh i j, mulEntry_eq hf hg]; rfl
  · rw [← hh i j, mulEntry_eq hf hg]; rfl

theorem sumTerms_value [RAddAssign O O] [AddCommGroup R] {φ : O → R}
    (hadd : ∀ a b : O, (RAddAssign.addAssign a b).panic = none → φ (RAddAssign.addAssign a b).val = φ a + φ b)
    {t : ℕ → Res O} {v : ℕ → R} : ∀ {n : ℕ} {x : O}, (∀ k < n, ∀ y, t k = .ok y → φ y = v k) →
    Tree.sumTerms t n = .ok x → φ x = ∑ k ∈ Finset.range n, v k := by
  intro n
  induction n using Nat.strongRecOn with
  | _ n ih =>
    match n with
    | 0 => intro x _ h; cases h
    | 1 => intro x h hx; rw [Finset.sum_range_one]; exact h 0 (by omega) x hx
    | n + 2 =>
      intro x h hx
      obtain ⟨s, h1, hx⟩ := bind_ok hx
      obtain ⟨y, h2, hx⟩ := bind_ok hx
      obtain ⟨h3, rfl⟩ := toRes_ok hx
      rw [hadd _ _ h3, ih (n + 1) (by omega) (fun k hk => h k (by omega)) h1, h (n + 1) (by omega) y h2,
        Finset.sum_range_succ _ (n + 1)]

theorem sumTerms_returns [RAddAssign O O] {t : ℕ → Res O} (hadd : ∀ a b : O, (RAddAssign.addAssign a b).panic = none) :
    ∀ {n : ℕ}, (∀ k < n + 1, Returns (t k)) → Returns (Tree.sumTerms t (n + 1)) := by
  intro n
  induction n with
  | zero => intro h; exact h 0 (by omega)
  | succ n ih =>
    intro h
    exact (ih fun k hk => h k (by omega)).bind fun s _ => (h (n + 1) (by omega)).bind fun x _ =>
      ⟨_, toRes_done (hadd s x)⟩

/-- If adding to zero is exact, the product entry is the left fold from zero that `SMatrix` computes. -/
theorem sumTerms_fold [RZero O] [RAddAssign O O] (hz : ∀ x : O, (RAddAssign.addAssign zero x).toRes = .ok x)
    (t : ℕ → Res O) : ∀ n, Tree.sumTerms t (n + 1) = (List.range (n + 1)).foldlM (fun s k => do
      let x ← t k
      (RAddAssign.addAssign s x).toRes) zero := by
  intro n
  induction n with
  | zero =>
    show t 0 = (List.range 1).foldlM _ zero
    simp only [List.range_one, List.foldlM_cons, List.foldlM_nil, bind_pure]
    cases t 0 with
    | error e => rfl
    | ok x => exact (hz x).symm
  | succ n ih =>
    rw [List.range_succ, List.foldlM_append, ← ih]
    simp only [List.foldlM_cons, List.foldlM_nil, bind_pure]
    rfl

end Magnesia
