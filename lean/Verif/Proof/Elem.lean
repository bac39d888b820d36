import Verif.Model.Scalars
import Verif.Proof.Hom

/-!
# Element types: links between `Implements`, `NeverPanics` and simulations (helper lemmas)
-/

namespace Magnesia

open RZero ROne MulRefs

variable {T R : Type}

/-- An implementation of `R` is simulated by exact arithmetic in `R`. -/
theorem Implements.hom [RRing T] [Ring R] [DecidableEq R] {φ : T → R} (h : Implements φ) :
    Hom false (fun x => Exact.mk (φ x)) where
  zero := congrArg Exact.mk h.zero
  one := congrArg Exact.mk h.one
  add a b := by
    unfold UpdRel
    have := h.add a b
    cases hp : (AddAssignRef.addAssign a b).panic with
    | none => simp only [this hp]; rfl
    | some e => simp
  sub a b := by
    unfold UpdRel
    have := h.sub a b
    cases hp : (SubAssignRef.subAssign a b).panic with
    | none => simp only [this hp]; rfl
    | some e => simp
  mul a b := by
    cases hm : mulRefs a b with
    | ok c => simp only [ResRel, h.mul a b c hm]; rfl
    | error e => simp [ResRel]
  neg a := by
    cases hm : RNeg.neg a with
    | ok c => simp only [ResRel, h.neg a c hm]; rfl
    | error e => simp [ResRel]

theorem Implements.homTotal [RRing T] [Ring R] [DecidableEq R] {φ : T → R} (h : Implements φ) (hn : NeverPanics T) :
    Hom true (fun x => Exact.mk (φ x)) where
  zero := h.hom.zero
  one := h.hom.one
  add a b := by
    have := h.hom.add a b
    simpa only [UpdRel, hn.add a b] using this
  sub a b := by
    have := h.hom.sub a b
    simpa only [UpdRel, hn.sub a b] using this
  mul a b := by
    have := h.hom.mul a b
    obtain ⟨c, hc⟩ := hn.mul a b
    rw [hc] at this ⊢
    exact this
  neg a := by
    have := h.hom.neg a
    obtain ⟨c, hc⟩ := hn.neg a
    rw [hc] at this ⊢
    exact this

theorem implements_exact [Ring R] [DecidableEq R] : Implements (Exact.val : Exact R → R) where
  zero := rfl
  one := rfl
  add _ _ _ := rfl
  sub _ _ _ := rfl
  mul a b c h := by cases h; rfl
  neg a c h := by cases h; rfl

theorem neverPanics_exact [Ring R] [DecidableEq R] : NeverPanics (Exact R) where
  add _ _ := rfl
  sub _ _ := rfl
  mul _ _ := ⟨_, rfl⟩
  neg _ := ⟨_, rfl⟩

theorem implementsV_exact [Ring R] : ImplementsV (Exact.val : Exact R → R) where
  zero := rfl
  add a b c h := by cases h; rfl
  sub a b c h := by cases h; rfl
  mul a b c h := by cases h; rfl
  addAssign _ _ _ := rfl
  subAssign _ _ _ := rfl

theorem neverPanicsV_exact [Ring R] : NeverPanicsV (Exact R) where
  add _ _ := ⟨_, rfl⟩
  sub _ _ := ⟨_, rfl⟩
  mul _ _ := ⟨_, rfl⟩
  addAssign _ _ := rfl
  subAssign _ _ := rfl

theorem valueOpsAgree_exact [Ring R] [DecidableEq R] : ValueOpsAgree (Exact R) where
  add _ _ := rfl
  sub _ _ := rfl
  mul _ _ := rfl
  addAssign _ _ := rfl
  subAssign _ _ := rfl

/-! ## Machine integers -/

section MInt
variable {w : Nat} {chk : Bool}

@[simp] theorem MInt.guard_false (o : Bool) (r : BitVec w) : (MInt.guard o r : Res (MInt w false)) = .ok ⟨r⟩ := by
  simp [MInt.guard]

theorem MInt.guard_ok {o : Bool} {r : BitVec w} {c : MInt w true} (h : MInt.guard o r = .ok c) :
    o = false ∧ c = ⟨r⟩ := by
  unfold MInt.guard at h
  cases o <;> simp_all

theorem ofRes_panic {σ : Type} {a : σ} {x : Res σ} (h : (Upd.ofRes a x).panic = none) :
    x = .ok (Upd.ofRes a x).val := by
  cases x <;> simp_all [Upd.ofRes]

theorem toRes_ofRes {σ : Type} (a : σ) (x : Res σ) : (Upd.ofRes a x).toRes = x := by
  cases x <;> simp [Upd.ofRes, Upd.toRes]

theorem MInt.add_ok {a b c : MInt w true} (h : MInt.add a b = .ok c) : c.toInt = a.toInt + b.toInt := by
  obtain ⟨ho, rfl⟩ := MInt.guard_ok h
  exact BitVec.toInt_add_of_not_saddOverflow (by simp [ho])

theorem MInt.sub_ok {a b c : MInt w true} (h : MInt.sub a b = .ok c) : c.toInt = a.toInt - b.toInt := by
  obtain ⟨ho, rfl⟩ := MInt.guard_ok h
  exact BitVec.toInt_sub_of_not_ssubOverflow (by simp [ho])

theorem MInt.mul_ok {a b c : MInt w true} (h : MInt.mul a b = .ok c) : c.toInt = a.toInt * b.toInt := by
  obtain ⟨ho, rfl⟩ := MInt.guard_ok h
  exact BitVec.toInt_mul_of_not_smulOverflow (by simp [ho])

theorem MInt.neg_ok {a c : MInt w true} (h : MInt.neg a = .ok c) : c.toInt = -a.toInt := by
  obtain ⟨ho, rfl⟩ := MInt.guard_ok h
  exact BitVec.toInt_neg_of_not_negOverflow (by simp [ho])

/-- Overflow-checked integers of at least two bits implement ℤ. -/
theorem implements_checked (hw : 1 < w) : Implements (MInt.toInt : MInt w true → ℤ) where
  zero := by simp [MInt.toInt, zero]
  one := by
    show (1#w).toInt = 1
    exact BitVec.toInt_one hw
  add a b h := MInt.add_ok (ofRes_panic h)
  sub a b h := MInt.sub_ok (ofRes_panic h)
  mul a b c h := MInt.mul_ok h
  neg a c h := MInt.neg_ok h

theorem implementsV_checked : ImplementsV (MInt.toInt : MInt w true → ℤ) where
  zero := by simp [MInt.toInt, zero]
  add a b c h := MInt.add_ok h
  sub a b c h := MInt.sub_ok h
  mul a b c h := MInt.mul_ok h
  addAssign a b h := MInt.add_ok (ofRes_panic h)
  subAssign a b h := MInt.sub_ok (ofRes_panic h)

theorem toInt_injective : Function.Injective (MInt.toInt : MInt w chk → ℤ) := by
  intro a b h
  cases a; cases b
  simpa [MInt.toInt] using BitVec.toInt_inj.1 h

/-- Wrapping integers implement arithmetic modulo `2^w`. -/
theorem implements_wrapping : Implements (MInt.bv : MInt w false → BitVec w) where
  zero := rfl
  one := rfl
  add a b _ := by simp [AddAssignRef.addAssign, MInt.add, Upd.ofRes]
  sub a b _ := by simp [SubAssignRef.subAssign, MInt.sub, Upd.ofRes]
  mul a b c h := by
    simp only [mulRefs, MInt.mul, MInt.guard_false, Except.ok.injEq] at h; rw [← h]
  neg a c h := by
    simp only [RNeg.neg, MInt.neg, MInt.guard_false, Except.ok.injEq] at h; rw [← h]

theorem neverPanics_wrapping : NeverPanics (MInt w false) where
  add a b := by simp [AddAssignRef.addAssign, MInt.add, Upd.ofRes]
  sub a b := by simp [SubAssignRef.subAssign, MInt.sub, Upd.ofRes]
  mul a b := ⟨⟨a.bv * b.bv⟩, by simp [mulRefs, MInt.mul]⟩
  neg a := ⟨⟨-a.bv⟩, by simp [RNeg.neg, MInt.neg]⟩

theorem valueOpsAgree_mint : ValueOpsAgree (MInt w chk) where
  add _ _ := (toRes_ofRes _ _).symm
  sub _ _ := (toRes_ofRes _ _).symm
  mul _ _ := rfl
  addAssign _ _ := rfl
  subAssign _ _ := rfl

theorem bv_injective : Function.Injective (MInt.bv : MInt w chk → BitVec w) := by
  intro a b h
  cases a; cases b
  simpa using h

/-- Wrapping arithmetic is the image of ℤ under reduction modulo `2^w`. -/
theorem hom_wrapping : Hom true (fun x : Exact ℤ => (⟨BitVec.ofInt w x.val⟩ : MInt w false)) where
  zero := by simp [zero]
  one := by
    show MInt.mk (BitVec.ofInt w 1) = ⟨1#w⟩
    congr 1
  add a b := by simp [UpdRel, AddAssignRef.addAssign, MInt.add, Upd.ofRes, BitVec.ofInt_add]
  sub a b := by simp [UpdRel, SubAssignRef.subAssign, MInt.sub, Upd.ofRes, Int.sub_eq_add_neg, BitVec.ofInt_add,
    BitVec.ofInt_neg, BitVec.sub_eq_add_neg]
  mul a b := by simp [ResRel, mulRefs, MInt.mul, BitVec.ofInt_mul]
  neg a := by simp [ResRel, RNeg.neg, MInt.neg, BitVec.ofInt_neg]

end MInt

end Magnesia
