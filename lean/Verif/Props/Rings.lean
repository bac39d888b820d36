import Verif.Proof.Laws
import Verif.Spec.Program
import Verif.Proof.ProgramRel
import Verif.Proof.ProgramPan

/-!
# Properties C08 - C10: integers, nesting
-/

namespace Magnesia

open RZero ROne MulRefs

variable {T R : Type} [RRing T] [Ring R] {φ : T → R}

/-! ## C08 -/

/-- The unbounded integer a machine integer stands for. -/
def MInt.exact {w : ℕ} {chk : Bool} (x : MInt w chk) : Exact ℤ := ⟨x.toInt⟩

private theorem hom_exact {w : ℕ} (hw : 1 < w) : Hom false (MInt.exact : MInt w true → Exact ℤ) :=
  (implements_checked hw).hom

/-- C08: with overflow checks, whatever program over the API is run on whatever inputs (containers nested to any
depth): if it returns a value, the same program run on the same inputs over the unbounded integers returns exactly the
same value. -/
theorem C08_checked_exact_or_panic (w : ℕ) (hw : 1 < w) (pr : Profile) (Γ : ℕ → Ty) (hΓ : ∀ i, (Γ i).IsData)
    (ty : Ty) (hty : ty.IsData) (p : Prog Γ ty) (env : (i : ℕ) → (Γ i).type (MInt w true))
    (v : ty.type (MInt w true)) (hv : p.run pr env = .ok v) :
    p.run pr (fun i => (Γ i).map MInt.exact (hΓ i) (env i)) = .ok (ty.map MInt.exact hty v) := by
  have := Prog.run_rel (hom_exact hw) ((hom_exact hw).toV valueOpsAgree_mint valueOpsAgree_exact)
    (fun _ => ResRel.ok rfl) pr env _ (fun i => ((Γ i).rel_iff (hΓ i) _ _).2 rfl) p
  rw [hv] at this
  obtain ⟨b, hb, hr⟩ := this
  rw [hb, (ty.rel_iff hty _ _).1 hr]

/-- C08: the same with `Complex<iN>` as the element type of the (dynamic and static) containers. -/
theorem C08_checked_exact_or_panic_complex (w : ℕ) (hw : 1 < w) (pr : Profile) (Γ : ℕ → Ty) (hΓ : ∀ i, (Γ i).IsData)
    (ty : Ty) (hty : ty.IsData) (p : Prog Γ ty) (env : (i : ℕ) → (Γ i).type (Complex (MInt w true)))
    (v : ty.type (Complex (MInt w true))) (hv : p.run pr env = .ok v) :
    p.run pr (fun i => (Γ i).map (Complex.map MInt.exact) (hΓ i) (env i)) =
      .ok (ty.map (Complex.map MInt.exact) hty v) := by
  have := Prog.run_rel (hom_exact hw).complex
    ((hom_exact hw).complex.toV valueOpsAgree_mint.complex valueOpsAgree_exact.complex)
    (hom_exact hw).cconj pr env _ (fun i => ((Γ i).rel_iff (hΓ i) _ _).2 rfl) p
  rw [hv] at this
  obtain ⟨b, hb, hr⟩ := this
  rw [hb, (ty.rel_iff hty _ _).1 hr]

/-- C08: and values are not conflated: different machine integers stand for different integers. -/
theorem C08_exact_injective (w : ℕ) (chk : Bool) : Function.Injective (MInt.exact : MInt w chk → Exact ℤ) := by
  intro a b h
  exact toInt_injective (congrArg Exact.val h)

/-- A program: `(x * x + y)(z)` for polynomials `x`, `y` over 2×2 matrices. -/
example : Prog (fun i => if i = 2 then .ring (.matrix 2 .scalar) else .ring (.poly (.matrix 2 .scalar)))
    (.ring (.matrix 2 .scalar)) :=
  .pEval (.addAssign (.mulRefs (.input 0) (.input 0)) (.input 1)) (.input 2)

/-- A run that returns and a run that panics. -/
example : Prog.run (T := I8) (Γ := fun _ => .ring .scalar) (ty := .ring .scalar) ⟨64, true⟩
      (fun i => show I8 from if i = 0 then MInt.lit 12 else MInt.lit 10)
      (Prog.mulRefs (t := .scalar) (.input 0) (.input 1)) = .ok (show I8 from MInt.lit 120) ∧
    Prog.run (T := I8) (Γ := fun _ => .ring .scalar) (ty := .ring .scalar) ⟨64, true⟩
      (fun i => show I8 from if i = 0 then MInt.lit 12 else MInt.lit 11)
      (Prog.mulRefs (t := .scalar) (.input 0) (.input 1)) = .error .overflow := ⟨rfl, rfl⟩

/-! ## C09 -/

/-- The machine integer an unbounded integer is reduced to. -/
def MInt.reduce {w : ℕ} (x : Exact ℤ) : MInt w false := ⟨BitVec.ofInt w x.val⟩

/-- C09: without overflow checks every program gives exactly the result (or index/shape panic) of the same program over
the unbounded integers, reduced modulo `2^w` at the end. -/
theorem C09_wrapping_is_reduction (w : ℕ) (pr : Profile) (Γ : ℕ → Ty) (hΓ : ∀ i, (Γ i).IsData) (ty : Ty)
    (hty : ty.IsData) (p : Prog Γ ty) (env : (i : ℕ) → (Γ i).type (Exact ℤ)) :
    p.run pr (fun i => (Γ i).map (MInt.reduce (w := w)) (hΓ i) (env i)) =
      (p.run pr env).map (ty.map MInt.reduce hty) := by
  have := Prog.run_rel (f := MInt.reduce (w := w)) hom_wrapping (hom_wrapping.toV valueOpsAgree_exact valueOpsAgree_mint)
    (fun _ => ResRel.ok rfl) pr env _ (fun i => ((Γ i).rel_iff (hΓ i) _ _).2 rfl) p
  cases hr : p.run pr env with
  | ok v =>
    rw [hr] at this
    obtain ⟨b, hb, hv⟩ := this
    rw [hb, (ty.rel_iff hty _ _).1 hv]
    rfl
  | error e =>
    rw [hr] at this
    exact this rfl

/-- C09: every machine integer is the reduction of the integer it stands for, so the previous theorem applies to all
inputs. -/
theorem C09_every_input_is_a_reduction (w : ℕ) (x : MInt w false) : MInt.reduce x.exact = x := by
  simp [MInt.reduce, MInt.exact, MInt.toInt, BitVec.ofInt_toInt]

/-- C09: the reduction is modulo `2^w`. -/
theorem C09_reduce_eq_iff (w : ℕ) (x y : ℤ) :
    (MInt.reduce ⟨x⟩ : MInt w false) = MInt.reduce ⟨y⟩ ↔ (2 ^ w : ℤ) ∣ x - y := by
  simp only [MInt.reduce, MInt.mk.injEq]
  rw [← BitVec.toInt_inj, BitVec.toInt_ofInt, BitVec.toInt_ofInt, Int.bmod_eq_bmod_iff_bmod_sub_eq_zero,
    ← Int.dvd_iff_bmod_eq_zero]
  push_cast
  rfl

/-- C09: no arithmetic panic ever occurs: all that can go wrong is an out-of-range index or a shape mismatch. -/
theorem C09_wrapping_no_arithmetic_panic (w : ℕ) (pr : Profile) (hpr : pr.checked = false) (Γ : ℕ → Ty)
    (hΓ : ∀ i, (Γ i).IsData) (ty : Ty) (p : Prog Γ ty) (env : (i : ℕ) → (Γ i).type (MInt w false)) (e : Panic)
    (he : p.run pr env = .error e) : e = .indexOutOfBounds ∨ e = .assertFailed := by
  refine (Prog.run_good (P := fun e => e = .indexOutOfBounds ∨ e = .assertFailed) neverPanics_wrapping
    (neverPanics_wrapping.toV valueOpsAgree_mint) (fun _ => ⟨_, rfl⟩) (.inl rfl) (.inr rfl) hpr env (fun i => ?_) p).pan
    e he
  have := hΓ i
  revert this
  generalize env i = x
  revert x
  cases Γ i <;> intro x h <;> trivial

/-- C09: ring operations of every nesting never panic at all. -/
theorem C09_wrapping_ring_operations_return (w : ℕ) (t : Nest) :
    @NeverPanics (t.type (MInt w false)) (t.rring (MInt w false)) :=
  NeverPanics.nest neverPanics_wrapping t

/-- C09: commutative ring identities hold exactly. -/
theorem C09_wrapping_ring_laws (w : ℕ) : RingLaws (MInt w false) ∧
    ∀ a b : MInt w false, mulRefs a b = mulRefs b a := by
  refine ⟨ringLaws implements_wrapping bv_injective neverPanics_wrapping, fun a b => ?_⟩
  obtain ⟨x, hx⟩ := neverPanics_wrapping.mul a b
  obtain ⟨y, hy⟩ := neverPanics_wrapping.mul b a
  rw [hx, hy]
  congr 1
  apply bv_injective
  rw [implements_wrapping.mul _ _ _ hx, implements_wrapping.mul _ _ _ hy, mul_comm]

example : Prog.run (T := W8) (Γ := fun _ => .ring .scalar) (ty := .ring .scalar) ⟨64, false⟩
      (fun i => show W8 from if i = 0 then MInt.lit 12 else MInt.lit 11)
      (Prog.mulRefs (t := .scalar) (.input 0) (.input 1)) = .ok (show W8 from MInt.lit (-124)) := rfl

/-! ## C10 -/

/-- C10: `Complex<T>` implements `R[i]`. -/
theorem C10_complex_implements (h : Implements φ) : Implements (Complex.toCx φ) := h.complex

/-- C10: `Polynomial<T>` implements `R[X]` (Mathlib's polynomials). -/
theorem C10_polynomial_implements (h : Implements φ) : Implements (Poly.toPolynomial φ) := h.poly

/-- C10: `SMatrix<T, N, N>` implements the `N × N` matrices over `R` (Mathlib's matrices). -/
theorem C10_matrix_implements (h : Implements φ) (n : ℕ) :
    Implements (SMatrix.toMatrix φ : SMatrix T n n → Matrix (Fin n) (Fin n) R) := h.matrix

/-- C10: none of the containers adds panics. -/
theorem C10_containers_never_panic (h : NeverPanics T) (n : ℕ) :
    NeverPanics (Complex T) ∧ NeverPanics (Poly T) ∧ NeverPanics (SMatrix T n n) := ⟨h.complex, h.poly, h.matrix⟩

/-- C10: the ring laws, as equations between computations, for complex numbers and square matrices. -/
theorem C10_ring_laws (h : Implements φ) (hi : Function.Injective φ) (hn : NeverPanics T) (n : ℕ) :
    RingLaws T ∧ RingLaws (Complex T) ∧ RingLaws (SMatrix T n n) :=
  ⟨ringLaws h hi hn, ringLaws h.complex (toCx_injective hi) hn.complex,
    ringLaws h.matrix (toMatrix_injective hi) hn.matrix⟩

/-- C10: any nesting implements the corresponding mathematical ring, and never panics if the scalar type does not. -/
theorem C10_any_nesting (h : Implements φ) (t : Nest) :
    @Implements _ _ (t.rring T) (t.ring R).ring (t.denote φ) ∧
      (NeverPanics T → @NeverPanics _ (t.rring T)) := by
  induction t with
  | scalar => exact ⟨h, id⟩
  | complex t ih =>
    exact ⟨@Implements.complex _ _ (t.rring T) (t.ring R).ring _ ih.1, fun hn => @NeverPanics.complex _ (t.rring T) (ih.2 hn)⟩
  | poly t ih =>
    exact ⟨@Implements.poly _ _ (t.rring T) (t.ring R).ring _ ih.1, fun hn => @NeverPanics.poly _ (t.rring T) (ih.2 hn)⟩
  | matrix n t ih =>
    exact ⟨@Implements.matrix _ _ (t.rring T) (t.ring R).ring _ _ ih.1, fun hn => @NeverPanics.matrix _ (t.rring T) _ (ih.2 hn)⟩

end Magnesia
