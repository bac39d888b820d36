import Verif.Proof.Containers
import Mathlib.Algebra.Field.Basic
import Mathlib.Tactic.FieldSimp
import Mathlib.Tactic.LinearCombination

/-!
# Ring laws from implementations; complex numbers (helper lemmas)
-/

set_option linter.unusedSectionVars false

namespace Magnesia

open RZero ROne MulRefs

variable {T R : Type} [RRing T] [Ring R] {φ : T → R}

namespace Implements

theorem ringAdd_ok (h : Implements φ) {a b c : T} (e : ringAdd a b = .ok c) : φ c = φ a + φ b := h.addR e
theorem ringSub_ok (h : Implements φ) {a b c : T} (e : ringSub a b = .ok c) : φ c = φ a - φ b := h.subR e

end Implements

theorem NeverPanics.ringAdd (h : NeverPanics T) (a b : T) : ∃ c, ringAdd a b = .ok c :=
  ⟨_, toRes_done (h.add a b)⟩
theorem NeverPanics.ringSub (h : NeverPanics T) (a b : T) : ∃ c, ringSub a b = .ok c :=
  ⟨_, toRes_done (h.sub a b)⟩

/-- If a type implements a ring faithfully and never panics, the laws hold as equations between computations. -/
theorem ringLaws (h : Implements φ) (hi : Function.Injective φ) (hn : NeverPanics T) : RingLaws T where
  add_assoc a b c := by
    obtain ⟨x, hx⟩ := hn.ringAdd a b
    obtain ⟨y, hy⟩ := hn.ringAdd x c
    obtain ⟨z, hz⟩ := hn.ringAdd b c
    obtain ⟨w, hw⟩ := hn.ringAdd a z
    simp only [hx, hy, hz, hw, bind, Except.bind]
    congr 1
    apply hi
    rw [h.ringAdd_ok hy, h.ringAdd_ok hx, h.ringAdd_ok hw, h.ringAdd_ok hz, add_assoc]
  add_comm a b := by
    obtain ⟨x, hx⟩ := hn.ringAdd a b
    obtain ⟨y, hy⟩ := hn.ringAdd b a
    rw [hx, hy]
    congr 1
    apply hi
    rw [h.ringAdd_ok hx, h.ringAdd_ok hy, add_comm]
  add_zero a := by
    obtain ⟨x, hx⟩ := hn.ringAdd a RZero.zero
    rw [hx]
    congr 1
    apply hi
    rw [h.ringAdd_ok hx, h.zero, add_zero]
  add_neg a := by
    obtain ⟨x, hx⟩ := hn.neg a
    obtain ⟨y, hy⟩ := hn.ringAdd a x
    simp only [hx, hy, bind, Except.bind]
    congr 1
    apply hi
    rw [h.ringAdd_ok hy, h.neg _ _ hx, h.zero, add_neg_cancel]
  sub_eq a b := by
    obtain ⟨x, hx⟩ := hn.ringSub a b
    obtain ⟨y, hy⟩ := hn.neg b
    obtain ⟨z, hz⟩ := hn.ringAdd a y
    simp only [hx, hy, hz, bind, Except.bind]
    congr 1
    apply hi
    rw [h.ringSub_ok hx, h.ringAdd_ok hz, h.neg _ _ hy, sub_eq_add_neg]
  mul_assoc a b c := by
    obtain ⟨x, hx⟩ := hn.mul a b
    obtain ⟨y, hy⟩ := hn.mul x c
    obtain ⟨z, hz⟩ := hn.mul b c
    obtain ⟨w, hw⟩ := hn.mul a z
    simp only [hx, hy, hz, hw, bind, Except.bind]
    congr 1
    apply hi
    rw [h.mul _ _ _ hy, h.mul _ _ _ hx, h.mul _ _ _ hw, h.mul _ _ _ hz, mul_assoc]
  mul_one a := by
    obtain ⟨x, hx⟩ := hn.mul a ROne.one
    rw [hx]
    congr 1
    apply hi
    rw [h.mul _ _ _ hx, h.one, mul_one]
  one_mul a := by
    obtain ⟨x, hx⟩ := hn.mul ROne.one a
    rw [hx]
    congr 1
    apply hi
    rw [h.mul _ _ _ hx, h.one, one_mul]
  left_distrib a b c := by
    obtain ⟨x, hx⟩ := hn.ringAdd b c
    obtain ⟨y, hy⟩ := hn.mul a x
    obtain ⟨z, hz⟩ := hn.mul a b
    obtain ⟨w, hw⟩ := hn.mul a c
    obtain ⟨v, hv⟩ := hn.ringAdd z w
    simp only [hx, hy, hz, hw, hv, bind, Except.bind]
    congr 1
    apply hi
    rw [h.mul _ _ _ hy, h.ringAdd_ok hx, h.ringAdd_ok hv, h.mul _ _ _ hz, h.mul _ _ _ hw, mul_add]
  right_distrib a b c := by
    obtain ⟨x, hx⟩ := hn.ringAdd a b
    obtain ⟨y, hy⟩ := hn.mul x c
    obtain ⟨z, hz⟩ := hn.mul a c
    obtain ⟨w, hw⟩ := hn.mul b c
    obtain ⟨v, hv⟩ := hn.ringAdd z w
    simp only [hx, hy, hz, hw, hv, bind, Except.bind]
    congr 1
    apply hi
    rw [h.mul _ _ _ hy, h.ringAdd_ok hx, h.ringAdd_ok hv, h.mul _ _ _ hz, h.mul _ _ _ hw, add_mul]

theorem toCx_injective (hi : Function.Injective φ) : Function.Injective (Complex.toCx φ) := by
  intro a b h
  simp only [Complex.toCx, Cx.mk.injEq] at h
  exact Complex.ext (hi h.1) (hi h.2)

theorem toMatrix_injective {r c : ℕ} (hi : Function.Injective φ) :
    Function.Injective (SMatrix.toMatrix φ : SMatrix T r c → _) := by
  intro a b h
  apply SMatrix.ext
  funext i j
  exact hi (congrFun (congrFun h i) j)

/-! ### Complex -/
namespace Implements

theorem sqrNorm (h : Implements φ) {z : Complex T} {n : T} (e : z.sqrNorm = .ok n) :
    φ n = φ z.re * φ z.re + φ z.im * φ z.im := by
  obtain ⟨p, hp, e⟩ := bind_ok e
  obtain ⟨q, hq, e⟩ := bind_ok e
  rw [h.addR e, h.mul _ _ _ hp, h.mul _ _ _ hq]

theorem cconj (h : Implements φ) {z w : Complex T} (e : z.conj = .ok w) : w.toCx φ = ⟨φ z.re, -φ z.im⟩ := by
  obtain ⟨p, hp, e⟩ := bind_ok e
  cases pure_ok e
  simp only [Complex.toCx, h.neg _ _ hp]

theorem cmulScalar (h : Implements φ) {z w : Complex T} {s : T} (e : z.mulScalar s = .ok w) :
    w.toCx φ = ⟨φ z.re * φ s, φ z.im * φ s⟩ := by
  obtain ⟨p, hp, e⟩ := bind_ok e
  obtain ⟨q, hq, e⟩ := bind_ok e
  cases pure_ok e
  simp only [Complex.toCx, h.mul _ _ _ hp, h.mul _ _ _ hq]

end Implements

theorem ImplementsField.cdiv {T R : Type} [RField T] [CommRing R] {φ : T → R} (h : ImplementsField φ)
    {a b q : Complex T} (hb : φ b.re * φ b.re + φ b.im * φ b.im ≠ 0) (e : a.divRef b = .ok q) :
    ∃ k : R, k * (φ b.re * φ b.re + φ b.im * φ b.im) = 1 ∧
      φ q.re = (φ a.re * φ b.re + φ a.im * φ b.im) * k ∧ φ q.im = (φ a.im * φ b.re - φ a.re * φ b.im) * k := by
  obtain ⟨n, hn, e⟩ := bind_ok e
  obtain ⟨k, hk, e⟩ := bind_ok e
  obtain ⟨p1, h1, e⟩ := bind_ok e
  obtain ⟨p2, h2, e⟩ := bind_ok e
  obtain ⟨p3, h3, e⟩ := bind_ok e
  obtain ⟨p4, h4, e⟩ := bind_ok e
  obtain ⟨p5, h5, e⟩ := bind_ok e
  obtain ⟨p6, h6, e⟩ := bind_ok e
  obtain ⟨p7, h7, e⟩ := bind_ok e
  obtain ⟨p8, h8, e⟩ := bind_ok e
  cases pure_ok e
  have en := h.toImplements.sqrNorm hn
  refine ⟨φ k, ?_, ?_, ?_⟩
  · rw [← en, h.div _ _ _ (by rwa [en]) hk, h.one]
  · simp only [h.mul _ _ _ h7, h.toImplements.addR h5, h.mul _ _ _ h1, h.mul _ _ _ h4]
  · simp only [h.mul _ _ _ h8, h.toImplements.subR h6, h.mul _ _ _ h2, h.mul _ _ _ h3]

theorem implementsField_exact {R : Type} [DivisionRing R] [DecidableEq R] :
    ImplementsField (Exact.val : Exact R → R) where
  toImplements := implements_exact
  div a b c hb h := by
    cases h
    exact div_mul_cancel₀ _ hb

/-! ### Value operators -/

theorem Hom.toV {T T' : Type} {s : Keep} {f : T → T'} [RRing T] [RAdd T T T] [RSub T T T] [RMul T T T]
    [RAddAssign T T] [RSubAssign T T] [RRing T'] [RAdd T' T' T'] [RSub T' T' T'] [RMul T' T' T'] [RAddAssign T' T']
    [RSubAssign T' T'] (h : Hom s f) (a : ValueOpsAgree T) (a' : ValueOpsAgree T') : HomV s f where
  zero := h.zero
  add x y := by rw [a.add, a'.add]; exact (h.add x y).toRes
  sub x y := by rw [a.sub, a'.sub]; exact (h.sub x y).toRes
  mul x y := by rw [a.mul, a'.mul]; exact h.mul x y
  addAssign x y := by rw [a.addAssign, a'.addAssign]; exact h.add x y
  subAssign x y := by rw [a.subAssign, a'.subAssign]; exact h.sub x y

theorem NeverPanics.toV {T : Type} [RRing T] [RAdd T T T] [RSub T T T] [RMul T T T]
    [RAddAssign T T] [RSubAssign T T] (h : NeverPanics T) (a : ValueOpsAgree T) : NeverPanicsV T where
  add x y := by rw [a.add]; exact h.ringAdd x y
  sub x y := by rw [a.sub]; exact h.ringSub x y
  mul x y := by rw [a.mul]; exact h.mul x y
  addAssign x y := by rw [a.addAssign]; exact h.add x y
  subAssign x y := by rw [a.subAssign]; exact h.sub x y

theorem ValueOpsAgree.complex {T : Type} [RRing T] [RAdd T T T] [RSub T T T] [RMul T T T]
    [RAddAssign T T] [RSubAssign T T] (h : ValueOpsAgree T) : ValueOpsAgree (Complex T) where
  add a b := by
    show Complex.add a b = (Complex.addAssignRef a b).toRes
    unfold Complex.add Complex.addAssignRef
    rw [h.add, h.add]
    cases h1 : AddAssignRef.addAssign a.re b.re with
    | mk v1 p1 =>
      cases p1 with
      | some e => rfl
      | none =>
        cases h2 : AddAssignRef.addAssign a.im b.im with
        | mk v2 p2 => cases p2 <;> (simp [Upd.toRes, Upd.into, Upd.andThen, bind, Except.bind, h2]; try rfl)
  sub a b := by
    show Complex.sub a b = (Complex.subAssignRef a b).toRes
    unfold Complex.sub Complex.subAssignRef
    rw [h.sub, h.sub]
    cases h1 : SubAssignRef.subAssign a.re b.re with
    | mk v1 p1 =>
      cases p1 with
      | some e => rfl
      | none =>
        cases h2 : SubAssignRef.subAssign a.im b.im with
        | mk v2 p2 => cases p2 <;> (simp [Upd.toRes, Upd.into, Upd.andThen, bind, Except.bind, h2]; try rfl)
  mul a b := rfl
  addAssign a b := by
    show Complex.addAssignV a b = Complex.addAssignRef a b
    simp only [Complex.addAssignV, Complex.addAssignRef, h.addAssign]
  subAssign a b := by
    show Complex.subAssignV a b = Complex.subAssignRef a b
    simp only [Complex.subAssignV, Complex.subAssignRef, h.subAssign]

end Magnesia
