import Verif.Props.Eq

/-!
# Concrete cases of the theorems about equality, construction and iteration
-/

namespace Magnesia.Witness

open RZero ROne

-- C51
example := C51_partial_equivalence (T := I32) (n := 3) (r := 2) (c := 3)
  (fun a b h => by simp only [RPartialEq.eq, decide_eq_true_eq] at h ⊢; exact h.symm)
  (fun a b c h h' => by simp only [RPartialEq.eq, decide_eq_true_eq] at h h' ⊢; exact h.trans h')
example := C51_lawful (T := I32) (n := 3) (r := 2) (c := 3) (fun a b => by simp [RPartialEq.eq])
/-- `[1, 2, 3] - [4, 5, 6]` -/
def vtree : Tree .vec I32 := .subV (T := I32) (U := I32) (.slice [.lit 1, .lit 2, .lit 3]) (.dvector ⟨[.lit 4, .lit 5, .lit 6]⟩)
theorem vtree_fits : vtree.Fits x64 := by
  simp [vtree, Tree.Fits]
example := C51_is_empty (p := x64) vtree vtree_fits _ rfl

end Magnesia.Witness
