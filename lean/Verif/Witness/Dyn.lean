import Verif.Props.DynExpr
import Verif.Props.DynStore
import Verif.Props.DynLinalg
import Verif.Props.DynDot
import Verif.Props.DynAssign
import Verif.Witness.Rings
import Verif.Witness.Eq

/-!
# Concrete cases of the theorems about vectors and matrices of dynamic size
-/

namespace Magnesia.Witness

open RZero ROne

theorem fits {p : Profile} {r c : ℕ} (h : r * c ≤ 2 ^ p.bits := by decide +kernel) : p.Fits r c := h

/-- The by-value operators implement what the by-reference operators do if they agree with them. -/
theorem _root_.Magnesia.Implements.toV {T R : Type} [RRing T] [RAdd T T T] [RSub T T T] [RMul T T T]
    [RAddAssign T T] [RSubAssign T T] [Ring R] {φ : T → R} (h : Implements φ) (a : ValueOpsAgree T) : ImplementsV φ where
  zero := h.zero
  add x y c e := by rw [a.add] at e; exact h.addR e
  sub x y c e := by rw [a.sub] at e; exact h.subR e
  mul x y c e := by rw [a.mul] at e; exact h.mul x y c e
  addAssign x y := by rw [a.addAssign]; exact h.add x y
  subAssign x y := by rw [a.subAssign]; exact h.sub x y

theorem returns_of_panic {α : Type} {x : Res α} (h : x.panic? = none) : Returns x := by
  cases x with
  | ok o => exact ⟨o, rfl⟩
  | error e => cases h

/-! ## Expressions -/

theorem exampleTree_fits : exampleTree.Fits x64 := by
  simp [exampleTree, exampleA, exampleB, Tree.Fits, Profile.Fits, Tree.rows, Tree.cols, Tree.shape]
theorem exampleTree_built : Returns (exampleTree.build x64) := returns_of_panic (by decide +kernel)

-- C26
example := C26_construction x64 exampleTree exampleTree_fits
example := C26_vector_eval x64 vtree vtree_fits _ rfl ⟨[.lit (-3), .lit (-3), .lit (-3)]⟩
example := C26_matrix_eval x64 exampleTree exampleTree_fits _ exampleTree_built.choose_spec
  (DMatrix.ofFn ![![.lit 12, .lit 16], ![.lit 88, .lit 128]])
example := C26_vector_entries x64 vtree vtree_fits _ rfl
example := C26_matrix_entries x64 exampleTree exampleTree_fits _ exampleTree_built.choose_spec
example := C26_eval_is_default_vector x64 vtree vtree_fits _ rfl
example := C26_eval_is_default_matrix x64 exampleTree exampleTree_fits _ exampleTree_built.choose_spec
theorem exampleTree_evaluated : Returns (exampleTree.evalM.build x64) := returns_of_panic (by decide +kernel)
example := C26_intermediate_eval x64 exampleTree _ _ exampleTree_built.choose_spec exampleTree_evaluated.choose_spec

/-! ## Storage -/

/-- `[[1, 2], [3, 4]] + transpose of [[0, 1], [0, 1]]` -/
def small : Tree .mat I32 := .addM exampleA (.t exampleB)
theorem small_fits : small.Fits x64 := by
  simp [small, exampleA, exampleB, Tree.Fits, Profile.Fits]
/-- Its value. -/
def smallVal : DMatrix I32 := DMatrix.ofFn ![![.lit 1, .lit 2], ![.lit 4, .lit 5]]
/-- 2×3 numbers. -/
def six : Fin 2 → Fin 3 → ℕ := fun i j => 10 * i + j

-- C28
example := C28_round_trip (p := x64) small small_fits _ rfl fits smallVal (by decide +kernel)
example := C28_eval_returns (p := x64) small small_fits _ rfl
example := C28_reachable (p := x64) small small_fits _ rfl fits smallVal (by decide +kernel)
  [.set 0 1 (.lit 7), .set 5 5 (.lit 8), .addAssign (exampleA.build x64 |>.getD (DMatrix.zeros 0 0))]

-- C29
example := C29_row_out_of_range (p := x64) six 2 1 (by decide) (.inr (by decide +kernel))
example := C29_row_out_of_range (p := x64d) six (2 ^ 63) 1 (by decide) (.inl rfl)
example := C29_col_out_of_range (p := x64) fits six 0 4 (by decide) (by decide)
example := C29_beyond_storage (p := x64) six 1 3 (by decide) (by decide +kernel)
example := C29_write_col_out_of_range (p := x64) fits six 0 4 99 (by decide) (by decide)

-- C30
example := C30_dvector_out_of_range ![10, 11, 12] 3 (by decide) 99
example := C30_svector_out_of_range (⟨![10, 11, 12]⟩ : SVector ℕ 3) 3 (by decide) 99
example := C30_dmatrix_write (p := x64) fits six 1 2 99
example := C30_dmatrix_read (p := x64) fits six 1 2
example := C30_dmatrix_history (p := x64) fits six [((1, 2), 5), ((0, 0), 6), ((1, 2), 7)]
example := C30_dmatrix_panic (p := x64) (DMatrix.ofFn six) 1 3 99 (by decide +kernel)

/-! ## Linear algebra -/

/-- 2×3 -/
def fa : Fin 2 → Fin 3 → I32 := ma.val
/-- 3×2 -/
def fb : Fin 3 → Fin 2 → I32 := mb.val
/-- 2×3, wrapping -/
def ga : Fin 2 → Fin 3 → W8 := wa.val
/-- 3×2, wrapping -/
def gb : Fin 3 → Fin 2 → W8 := wb.val

theorem i32_zero_add (x : I32) : ringAdd zero x = .ok x := by
  show (Upd.ofRes _ (MInt.add ⟨0⟩ x)).toRes = _
  rw [toRes_ofRes]
  unfold MInt.add MInt.guard
  have : (0 : BitVec 32).saddOverflow x.bv = false := by
    have h1 := BitVec.toInt_lt (x := x.bv)
    have h2 := BitVec.le_toInt (x := x.bv)
    simp [BitVec.saddOverflow]
    constructor <;> omega
  rw [this]
  simp

-- C31
example := C31_transpose (p := x64) fits fa
example := C31_hermitian (p := x64) fits ca.val (DMatrix.ofFn ![![⟨.lit 1, .lit (-2)⟩], ![⟨.lit 3, .lit 0⟩]])
example := C31_t_t (p := x64) small small_fits _ rfl
example := C31_h_h (p := x64) (T := I32) (fun _ => rfl) small small_fits _ rfl
example := C31_h_eq_t (T := I32) (fun _ => rfl) (arrayExpr fa)
example := C31_mul_t (p := x64) (T := W8) (O := W8) (fun x y => by
  show Except.ok _ = Except.ok _
  rw [mul_comm]) fits fits ga gb
/-- `1×2` and `2×1` complex matrices over `i8` in a release build. -/
def ha : Fin 1 → Fin 2 → Complex W8 := ![![⟨.lit 100, .lit 2⟩, ⟨.lit 3, .lit (-128)⟩]]
/-- Another. -/
def hb : Fin 2 → Fin 1 → Complex W8 := ![![⟨.lit 0, .lit 1⟩], ![⟨.lit 4, .lit (-1)⟩]]
example := C31_mul_h (p := x64)
  ((implements_wrapping (w := 8)).complex.toV valueOpsAgree_mint.complex) (toCx_injective bv_injective)
  C31_complex_conj.1.choose C31_complex_conj.1.choose_spec.1 C31_complex_conj.1.choose_spec.2 fits fits ha hb _ _
  (Res.eq_ok (d := ⟨[], 0, 0⟩) (by decide +kernel)) (Res.eq_ok (d := ⟨[], 0, 0⟩) (by decide +kernel))

-- C32
example := C32_diag_of_matrix (p := x64) fits fa
example := C32_diag_diag (p := x64) vtree vtree_fits _ rfl
example := C32_eye_neutral (p := x64) (implements_wrapping.toV valueOpsAgree_mint) w8.one bv_injective
  (neverPanics_wrapping.toV valueOpsAgree_mint) fits fits fits ga

-- C33
example := C33_denotes (p := x64) (i32.toV valueOpsAgree_mint) fits fits fa fb
  (DMatrix.ofFn ![![.lit 7, .lit 8], ![.lit 16, .lit 17]]) (by decide +kernel)
example := C33_returns (p := x64) (neverPanics_wrapping.toV valueOpsAgree_mint) fits fits (.inl (by decide)) ga gb
example := C33_eq_smatrix (p := x64) valueOpsAgree_mint i32_zero_add fits fits (by decide) fa fb
  ![![.lit 7, .lit 8], ![.lit 16, .lit 17]]
example := C33_inner_zero (p := x64) (T := I32) (O := I32) (l := 2) (n := 3) (by decide) (by decide) (fun _ j => j.elim0)
  (fun i _ => i.elim0)

/-! ## The dot product -/

theorem cx32 : ConjImplements (Complex.toCx (MInt.toInt : I32 → ℤ)) Cx.star :=
  C36_complex_conj i32 implementsV_checked.add
/-- Complex conjugation as a ring homomorphism. -/
def starHom : Cx ℤ →+* Cx ℤ where
  toFun := Cx.star
  map_one' := by ext <;> simp [Cx.star]
  map_mul' x y := by ext <;> simp [Cx.star]; ring
  map_zero' := by ext <;> simp [Cx.star]
  map_add' x y := by ext <;> simp [Cx.star]; ring
/-- `[1 + 2i, 3]` -/
def du : Fin 2 → Complex I32 := ![⟨.lit 1, .lit 2⟩, ⟨.lit 3, .lit 0⟩]
/-- `[1, i]` -/
def dv : Fin 2 → Complex I32 := ![⟨.lit 1, .lit 0⟩, ⟨.lit 0, .lit 1⟩]

-- C36
example := C36_value cx32 du ![⟨.lit 1, .lit 0⟩, ⟨.lit 0, .lit 1⟩, ⟨.lit 9, .lit 9⟩] ⟨.lit 1, .lit 1⟩ rfl
example := C36_value_same_length cx32 du dv ⟨.lit 1, .lit 1⟩ rfl
example := C36_never_panics (T := W8) (fun _ _ => ⟨_, rfl⟩) (fun _ _ => ⟨_, rfl⟩) (fun _ => ⟨_, rfl⟩)
  ⟨[.lit 100, .lit 100]⟩ ⟨[.lit 100, .lit 100, .lit 3]⟩
example := C36_additive (σ := starHom.toAddMonoidHom) cx32 du dv du (DVector.ofFn ![⟨.lit 2, .lit 2⟩, ⟨.lit 3, .lit 1⟩])
  ⟨.lit 15, .lit 1⟩ ⟨.lit 1, .lit 1⟩ ⟨.lit 14, .lit 0⟩
example : (do (← ((DVector.ofFn dv).add (DVector.ofFn du).asExpr : Res (VExpr (Complex I32)))).eval) =
      .ok (DVector.ofFn ![⟨.lit 2, .lit 2⟩, ⟨.lit 3, .lit 1⟩]) ∧
    (DVector.ofFn du).dotRef (DVector.ofFn ![⟨.lit 2, .lit 2⟩, ⟨.lit 3, .lit 1⟩]) = .ok ⟨.lit 15, .lit 1⟩ ∧
    (DVector.ofFn du).dotRef (DVector.ofFn dv) = .ok ⟨.lit 1, .lit 1⟩ ∧
    (DVector.ofFn du).dotRef (DVector.ofFn du) = .ok ⟨.lit 14, .lit 0⟩ := by decide +kernel
example := C36_homogeneous (σ := starHom) cx32 (⟨0, 2⟩ : Cx ℤ) du dv ![⟨.lit (-4), .lit 2⟩, ⟨.lit 0, .lit 6⟩]
  ![⟨.lit 0, .lit 2⟩, ⟨.lit (-2), .lit 0⟩] ⟨.lit 1, .lit 1⟩ ⟨.lit (-2), .lit 2⟩ ⟨.lit 2, .lit (-2)⟩
  (by decide +kernel) (by decide +kernel) rfl rfl rfl
example := C36_conj_symmetric (σ := starHom) (fun a => by ext <;> simp [starHom, Cx.star]) cx32 du dv ⟨.lit 1, .lit 1⟩
  ⟨.lit 1, .lit (-1)⟩ rfl rfl
example := C36_real_positive (C36_checked_conj (w := 32)) ![.lit 3, .lit (-4)] (.lit 25) rfl
example := C36_complex_positive cx32 du ⟨.lit 14, .lit 0⟩ rfl
example := C36_complex_conj (S := I32) i32 implementsV_checked.add

/-! ## Compound assignment -/

-- C34
example := C34_vector_add (T := I8) (U := I8) (fun _ _ => toRes_ofRes _ _) ⟨[.lit 1, .lit 100]⟩
  (sliceExpr [.lit 1, .lit 100]) rfl
example := C34_vector_sub (T := I8) (U := I8) (fun _ _ => toRes_ofRes _ _) ⟨[.lit 1, .lit 100]⟩
  (sliceExpr [.lit 1, .lit 50]) rfl
example := C34_matrix_add (p := x64) (T := I32) (U := I32) (fun _ _ => toRes_ofRes _ _) fits fa (arrayExpr fa) rfl rfl
example := C34_matrix_sub (p := x64) (T := I32) (U := I32) (fun _ _ => toRes_ofRes _ _) fits fa (arrayExpr fa) rfl rfl
example := C34_longer_operand_truncated (T := I8) (U := I8) ⟨[.lit 1, .lit 100]⟩ [.lit 1, .lit 2] [.lit 5, .lit 6] rfl
example := C34_shorter_operand_panics (T := W8) (U := W8) ⟨[.lit 1, .lit 100]⟩ [.lit 100] (by decide) (fun _ _ => rfl)
example := C34_wrong_stride (p := x64) (T := W8) (U := W8) (r := 2) (c := 2) (r' := 3) (c' := 1) fits fits
  ![![.lit 1, .lit 2], ![.lit 3, .lit 4]] ![![.lit 10], ![.lit 20], ![.lit 30]] (fun _ _ => rfl) (by decide) (by decide)

-- C35
example := (C35_dmatrix (p := x64) (T := I8) (U := I8) fits ![![.lit 1, .lit 2], ![.lit 100, .lit 4]]
  (arrayExpr ![![.lit 1, .lit 2], ![.lit 100, .lit 4]]) .overflow).1 (by decide +kernel)
example := C35_polynomial_add_value (⟨[.lit 1, .lit 100, .lit 1]⟩ : Poly I8) ⟨[.lit 1, .lit 100, .lit 1]⟩ .overflow
  (by decide +kernel)
example := C35_polynomial_mul (⟨[.lit 1, .lit 100, .lit 1]⟩ : Poly I8) ⟨[.lit 1, .lit 100]⟩ .overflow
  (by decide +kernel)

end Magnesia.Witness
