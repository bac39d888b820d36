import Verif.Proof.SLin

/-!
# Properties C22 - C25: vectors and matrices of static size
-/

namespace Magnesia

open RZero ROne MulRefs

variable {T R : Type} {n r c L M N K : ℕ}

/-! ## C22 -/
section C22
variable [RRing T]

/-- C22: `u + v` returns exactly if every entry sum does, and then its entries are the entry sums (for every element
type, floating point included: no law is assumed). -/
theorem C22_add_entries (u v w : SVector T n) :
    u.add v = .ok w ↔ ∀ i, ringAdd (u.val i) (v.val i) = .ok (w.val i) := vloop_iff _ u w

/-- C22: the same for `u - v`. -/
theorem C22_sub_entries (u v w : SVector T n) :
    u.sub v = .ok w ↔ ∀ i, ringSub (u.val i) (v.val i) = .ok (w.val i) := vloop_iff _ u w

/-- C22: `u * s` multiplies every entry by `s` on the right. -/
theorem C22_scale_entries (u w : SVector T n) (s : T) :
    u.mulScalar s = .ok w ↔ ∀ i, mulRefs (u.val i) s = .ok (w.val i) := by
  refine (vloop_iff (fun _ x => Upd.ofRes x (mulRefs x s)) u w).trans (forall_congr' fun i => ?_)
  rw [toRes_ofRes]

/-- C22: the by-value, by-reference and in-place forms of every operator agree, including panics (and, for the
in-place forms, the state left by a panic). -/
theorem C22_operators_agree (u v : SVector T n) (s : T) :
    u.addRef v = u.add v ∧ u.addAssignV v = u.addAssignRef v ∧ (u.addAssignRef v).toRes = u.add v ∧
    u.subRef v = u.sub v ∧ u.subAssignV v = u.subAssignRef v ∧ (u.subAssignRef v).toRes = u.sub v ∧
    u.mulScalarRef s = u.mulScalar s ∧ u.mulAssign s = u.mulAssignRef s ∧ (u.mulAssignRef s).toRes = u.mulScalar s ∧
    u.dotRef v = u.dot v := ⟨rfl, rfl, rfl, rfl, rfl, rfl, rfl, rfl, rfl, rfl⟩

/-- C22: `u * v` is the sum of the products of corresponding entries. -/
theorem C22_dot_value [Ring R] {φ : T → R} (h : Implements φ) (u v : SVector T n) (x : T) (hx : u.dot v = .ok x) :
    φ x = ∑ i, φ (u.val i) * φ (v.val i) := h.vdot hx

/-- C22: nothing panics if the element operations do not. -/
theorem C22_never_panics (h : NeverPanics T) (u v : SVector T n) (s : T) :
    Returns (u.add v) ∧ Returns (u.sub v) ∧ Returns (u.mulScalar s) ∧ Returns (u.dot v) :=
  ⟨(pan_vadd u v).toRes.exists_ok h.noElementPanic, (pan_vsub u v).toRes.exists_ok h.noElementPanic,
    (pan_vmul u s).toRes.exists_ok h.noElementPanic, (pan_vdot u v).exists_ok h.noElementPanic⟩

/-- C22: and whatever panic occurs is a panic of an element operation: no index is ever out of bounds. -/
theorem C22_only_element_panics (u v : SVector T n) (s : T) (e : Panic)
    (he : u.add v = .error e ∨ u.sub v = .error e ∨ u.mulScalar s = .error e ∨ u.dot v = .error e) :
    ElementPanic T e := by
  rcases he with h | h | h | h
  · exact (pan_vadd u v).toRes e h
  · exact (pan_vsub u v).toRes e h
  · exact (pan_vmul u s).toRes e h
  · exact pan_vdot u v e h

/-- C22: `zero()` has all entries zero. -/
theorem C22_zero_entries (i : Fin n) : (zero : SVector T n).val i = zero := by rw [vzero_val]

section laws
variable [Ring R] {φ : T → R} (h : Implements φ) (hi : Function.Injective φ) (hn : NeverPanics T)
include h hi hn

/-- C22: vectors form an additive group under `+`, `-`, with neutral element `zero()`. -/
theorem C22_additive_group (u v w : SVector T n) :
    (do (← u.add v).add w) = (do u.add (← v.add w)) ∧ u.add v = v.add u ∧ u.add zero = .ok u ∧
    u.sub u = .ok zero ∧ (do (← u.sub v).add v) = .ok u := by
  have ha := fun (u v : SVector T n) => (C22_never_panics hn u v zero).1
  have hs := fun (u v : SVector T n) => (C22_never_panics hn u v zero).2.1
  have va : ∀ {u v w : SVector T n}, u.add v = .ok w → ∀ i, φ (w.val i) = φ (u.val i) + φ (v.val i) :=
    fun e i => h.addR ((C22_add_entries _ _ _).1 e i)
  have vs : ∀ {u v w : SVector T n}, u.sub v = .ok w → ∀ i, φ (w.val i) = φ (u.val i) - φ (v.val i) :=
    fun e i => h.subR ((C22_sub_entries _ _ _).1 e i)
  have ext : ∀ {u v : SVector T n}, (∀ i, φ (u.val i) = φ (v.val i)) → u = v :=
    fun e => SVector.ext (funext fun i => hi (e i))
  refine ⟨?_, ?_, ?_, ?_, ?_⟩
  · refine res_ext ((ha _ _).bind fun _ _ => ha _ _) ((ha _ _).bind fun _ _ => ha _ _) fun a b e1 e2 => ext fun i => ?_
    obtain ⟨x, f1, f2⟩ := bind_ok e1
    obtain ⟨y, g1, g2⟩ := bind_ok e2
    rw [va f2, va f1, va g2, va g1, add_assoc]
  · refine res_ext (ha _ _) (ha _ _) fun a b e1 e2 => ext fun i => ?_
    rw [va e1, va e2, add_comm]
  · refine res_ext (ha _ _) ⟨_, rfl⟩ fun a b e1 e2 => ext fun i => ?_
    cases e2
    rw [va e1, C22_zero_entries, h.zero, add_zero]
  · refine res_ext (hs _ _) ⟨_, rfl⟩ fun a b e1 e2 => ext fun i => ?_
    cases e2
    rw [vs e1, C22_zero_entries, h.zero, sub_self]
  · refine res_ext ((hs _ _).bind fun _ _ => ha _ _) ⟨_, rfl⟩ fun a b e1 e2 => ext fun i => ?_
    cases e2
    obtain ⟨x, f1, f2⟩ := bind_ok e1
    rw [va f2, vs f1, sub_add_cancel]

/-- C22: scaling is distributive in both arguments, associative and unital (a right module). -/
theorem C22_module (u v : SVector T n) (s t : T) :
    (do (← u.add v).mulScalar s) = (do (← u.mulScalar s).add (← v.mulScalar s)) ∧
    (do u.mulScalar (← ringAdd s t)) = (do (← u.mulScalar s).add (← u.mulScalar t)) ∧
    (do u.mulScalar (← mulRefs s t)) = (do (← u.mulScalar s).mulScalar t) ∧
    u.mulScalar one = .ok u := by
  have ha := fun (u v : SVector T n) => (C22_never_panics hn u v zero).1
  have hm := fun (u : SVector T n) s => (C22_never_panics hn u u s).2.2.1
  have va : ∀ {u v w : SVector T n}, u.add v = .ok w → ∀ i, φ (w.val i) = φ (u.val i) + φ (v.val i) :=
    fun e i => h.addR ((C22_add_entries _ _ _).1 e i)
  have vm : ∀ {u w : SVector T n} {s : T}, u.mulScalar s = .ok w → ∀ i, φ (w.val i) = φ (u.val i) * φ s :=
    fun e i => h.mul _ _ _ ((C22_scale_entries _ _ _).1 e i)
  have ext : ∀ {u v : SVector T n}, (∀ i, φ (u.val i) = φ (v.val i)) → u = v :=
    fun e => SVector.ext (funext fun i => hi (e i))
  refine ⟨?_, ?_, ?_, ?_⟩
  · refine res_ext ((ha _ _).bind fun _ _ => hm _ _) ((hm _ _).bind fun _ _ => (hm _ _).bind fun _ _ => ha _ _)
      fun a b e1 e2 => ext fun i => ?_
    obtain ⟨x, f1, f2⟩ := bind_ok e1
    obtain ⟨y, g1, e2⟩ := bind_ok e2
    obtain ⟨z, g2, g3⟩ := bind_ok e2
    rw [vm f2, va f1, va g3, vm g1, vm g2, add_mul]
  · refine res_ext (Returns.bind (hn.ringAdd s t) fun _ _ => hm _ _)
      ((hm _ _).bind fun _ _ => (hm _ _).bind fun _ _ => ha _ _) fun a b e1 e2 => ext fun i => ?_
    obtain ⟨x, f1, f2⟩ := bind_ok e1
    obtain ⟨y, g1, e2⟩ := bind_ok e2
    obtain ⟨z, g2, g3⟩ := bind_ok e2
    rw [vm f2, h.ringAdd_ok f1, va g3, vm g1, vm g2, mul_add]
  · refine res_ext (Returns.bind (hn.mul s t) fun _ _ => hm _ _) ((hm _ _).bind fun _ _ => hm _ _)
      fun a b e1 e2 => ext fun i => ?_
    obtain ⟨x, f1, f2⟩ := bind_ok e1
    obtain ⟨y, g1, g2⟩ := bind_ok e2
    rw [vm f2, h.mul _ _ _ f1, vm g2, vm g1, mul_assoc]
  · refine res_ext (hm _ _) ⟨_, rfl⟩ fun a b e1 e2 => ext fun i => ?_
    cases e2
    rw [vm e1, h.one, mul_one]

/-- C22: the dot product is additive in both arguments and zero for `zero()`. -/
theorem C22_dot_bilinear (u v w : SVector T n) :
    (do (← u.add v).dot w) = (do ringAdd (← u.dot w) (← v.dot w)) ∧
    (do u.dot (← v.add w)) = (do ringAdd (← u.dot v) (← u.dot w)) ∧
    u.dot zero = .ok zero ∧ SVector.dot zero u = .ok (zero : T) := by
  have ha := fun (u v : SVector T n) => (C22_never_panics hn u v zero).1
  have hd := fun (u v : SVector T n) => (C22_never_panics hn u v zero).2.2.2
  have va : ∀ {u v w : SVector T n}, u.add v = .ok w → ∀ i, φ (w.val i) = φ (u.val i) + φ (v.val i) :=
    fun e i => h.addR ((C22_add_entries _ _ _).1 e i)
  refine ⟨?_, ?_, ?_, ?_⟩
  · refine res_ext ((ha _ _).bind fun _ _ => hd _ _) ((hd _ _).bind fun _ _ => (hd _ _).bind fun _ _ => hn.ringAdd _ _)
      fun a b e1 e2 => hi ?_
    obtain ⟨x, f1, f2⟩ := bind_ok e1
    obtain ⟨y, g1, e2⟩ := bind_ok e2
    obtain ⟨z, g2, g3⟩ := bind_ok e2
    rw [h.vdot f2, h.ringAdd_ok g3, h.vdot g1, h.vdot g2, ← Finset.sum_add_distrib]
    exact Finset.sum_congr rfl fun i _ => by rw [va f1, add_mul]
  · refine res_ext ((ha _ _).bind fun _ _ => hd _ _) ((hd _ _).bind fun _ _ => (hd _ _).bind fun _ _ => hn.ringAdd _ _)
      fun a b e1 e2 => hi ?_
    obtain ⟨x, f1, f2⟩ := bind_ok e1
    obtain ⟨y, g1, e2⟩ := bind_ok e2
    obtain ⟨z, g2, g3⟩ := bind_ok e2
    rw [h.vdot f2, h.ringAdd_ok g3, h.vdot g1, h.vdot g2, ← Finset.sum_add_distrib]
    exact Finset.sum_congr rfl fun i _ => by rw [va f1, mul_add]
  · refine res_ext (hd _ _) ⟨_, rfl⟩ fun a b e1 e2 => hi ?_
    cases e2
    rw [h.vdot e1, h.zero]
    exact Finset.sum_eq_zero fun i _ => by rw [C22_zero_entries, h.zero, mul_zero]
  · refine res_ext (hd _ _) ⟨_, rfl⟩ fun a b e1 e2 => hi ?_
    cases e2
    rw [h.vdot e1, h.zero]
    exact Finset.sum_eq_zero fun i _ => by rw [C22_zero_entries, h.zero, zero_mul]

end laws

/-- C22: the dot product is symmetric over a commutative ring. -/
theorem C22_dot_symmetric [CommRing R] {φ : T → R} (h : Implements φ) (hi : Function.Injective φ) (hn : NeverPanics T)
    (u v : SVector T n) : u.dot v = v.dot u := by
  refine res_ext (C22_never_panics hn u v zero).2.2.2 (C22_never_panics hn v u zero).2.2.2 fun a b e1 e2 => hi ?_
  rw [h.vdot e1, h.vdot e2]
  exact Finset.sum_congr rfl fun i _ => mul_comm _ _

end C22

example : (⟨![.lit 1, .lit 2, .lit 3]⟩ : SVector I32 3).dot ⟨![.lit 4, .lit 5, .lit 6]⟩ = .ok (.lit 32) := by
  decide +kernel
example : (⟨![]⟩ : SVector I32 0).dot ⟨![]⟩ = .ok (.lit 0) := by decide +kernel
/-- The hypotheses of the laws hold for `i8` in release builds. -/
example : Implements (MInt.bv : W8 → BitVec 8) ∧ Function.Injective (MInt.bv : W8 → BitVec 8) ∧ NeverPanics W8 :=
  ⟨implements_wrapping, bv_injective, neverPanics_wrapping⟩

/-! ## C23 -/
section C23
variable [RRing T]

/-- C23: the entries of `a * b` are the sums of products. -/
theorem C23_mul_value [Ring R] {φ : T → R} (h : Implements φ) (a : SMatrix T L M) (b : SMatrix T M N)
    (m : SMatrix T L N) (hm : a.mul b = .ok m) (l : Fin L) (k : Fin N) :
    φ (m.val l k) = ∑ i, φ (a.val l i) * φ (b.val i k) := h.mmul hm l k

/-- C23: that is, `a * b` denotes the matrix product. -/
theorem C23_mul_denotes [Ring R] {φ : T → R} (h : Implements φ) (a : SMatrix T L M) (b : SMatrix T M N)
    (m : SMatrix T L N) (hm : a.mul b = .ok m) : m.toMatrix φ = a.toMatrix φ * b.toMatrix φ := by
  ext i j
  rw [Matrix.mul_apply]
  exact h.mmul hm i j

/-- C23: whatever panic occurs is one of an element operation: no index is out of bounds, for any shape. -/
theorem C23_only_element_panics (a : SMatrix T L M) (b : SMatrix T M N) (e : Panic) (he : a.mul b = .error e) :
    ElementPanic T e := pan_mmul a b e he

theorem C23_never_panics (h : NeverPanics T) (a : SMatrix T L M) (b : SMatrix T M N) : Returns (a.mul b) :=
  (pan_mmul a b).exists_ok h.noElementPanic

/-- C23: the by-value, by-reference and in-place products agree; a panicking `*=` leaves the matrix unchanged. -/
theorem C23_operators_agree (a : SMatrix T L M) (b : SMatrix T M N) (s : SMatrix T M M) :
    a.mulRef b = a.mul b ∧ (a.mulAssign s).toRes = a.mul s ∧ a.mulAssignRef s = a.mulAssign s ∧
    ((a.mulAssign s).panic ≠ none → (a.mulAssign s).val = a) := by
  refine ⟨rfl, toRes_ofRes _ _, rfl, fun hp => ?_⟩
  show (Upd.ofRes a (a.mulRef s)).val = a
  cases hm : a.mulRef s with
  | ok m => exact absurd (show (Upd.ofRes a (a.mulRef s)).panic = none by rw [hm]; rfl) hp
  | error e => rfl

/-- C23: `one()` has ones exactly on the diagonal, for every shape. -/
theorem C23_one_entries (i : Fin r) (j : Fin c) :
    (one : SMatrix T r c).val i j = if (i : ℕ) = (j : ℕ) then one else zero := by rw [SMatrix.one_val]

/-- C23: `zero()` has all entries zero. -/
theorem C23_zero_entries (i : Fin r) (j : Fin c) : (zero : SMatrix T r c).val i j = zero := by rw [SMatrix.zero_val]

section laws
variable [Ring R] {φ : T → R} (h : Implements φ) (hi : Function.Injective φ) (hn : NeverPanics T)
include h hi hn

theorem C23_mul_assoc (a : SMatrix T K L) (b : SMatrix T L M) (c : SMatrix T M N) :
    (do (← a.mul b).mul c) = (do a.mul (← b.mul c)) := by
  refine res_ext ((C23_never_panics hn _ _).bind fun _ _ => C23_never_panics hn _ _)
    ((C23_never_panics hn _ _).bind fun _ _ => C23_never_panics hn _ _) fun x y e1 e2 => toMatrix_injective hi ?_
  obtain ⟨p, f1, f2⟩ := bind_ok e1
  obtain ⟨q, g1, g2⟩ := bind_ok e2
  rw [C23_mul_denotes h _ _ _ f2, C23_mul_denotes h _ _ _ f1, C23_mul_denotes h _ _ _ g2, C23_mul_denotes h _ _ _ g1,
    Matrix.mul_assoc]

omit [Ring R] h hi in
private theorem add_returns (a b : SMatrix T r c) : Returns (a.add b) :=
  (pan_madd a b).toRes.exists_ok hn.noElementPanic

omit hi hn in
private theorem add_denotes (a b m : SMatrix T r c) (e : a.add b = .ok m) :
    m.toMatrix φ = a.toMatrix φ + b.toMatrix φ := by
  obtain ⟨h1, rfl⟩ := toRes_ok e
  ext i j
  exact h.madd a b h1 i j

theorem C23_distrib (a a' : SMatrix T L M) (b b' : SMatrix T M N) :
    (do a.mul (← b.add b')) = (do (← a.mul b).add (← a.mul b')) ∧
    (do (← a.add a').mul b) = (do (← a.mul b).add (← a'.mul b)) := by
  have hm := fun (a : SMatrix T L M) (b : SMatrix T M N) => C23_never_panics hn a b
  have vm := fun (a : SMatrix T L M) (b : SMatrix T M N) m => C23_mul_denotes h a b m
  have ha {r c : ℕ} := @add_returns _ r c _ hn
  have va {r c : ℕ} := @add_denotes _ _ r c _ _ _ h
  constructor
  · refine res_ext ((ha _ _).bind fun _ _ => hm _ _) ((hm _ _).bind fun _ _ => (hm _ _).bind fun _ _ => ha _ _)
      fun x y e1 e2 => toMatrix_injective hi ?_
    obtain ⟨p, f1, f2⟩ := bind_ok e1
    obtain ⟨q, g1, e2⟩ := bind_ok e2
    obtain ⟨z, g2, g3⟩ := bind_ok e2
    rw [vm _ _ _ f2, va _ _ _ f1, va _ _ _ g3, vm _ _ _ g1, vm _ _ _ g2, Matrix.mul_add]
  · refine res_ext ((ha _ _).bind fun _ _ => hm _ _) ((hm _ _).bind fun _ _ => (hm _ _).bind fun _ _ => ha _ _)
      fun x y e1 e2 => toMatrix_injective hi ?_
    obtain ⟨p, f1, f2⟩ := bind_ok e1
    obtain ⟨q, g1, e2⟩ := bind_ok e2
    obtain ⟨z, g2, g3⟩ := bind_ok e2
    rw [vm _ _ _ f2, va _ _ _ f1, va _ _ _ g3, vm _ _ _ g1, vm _ _ _ g2, Matrix.add_mul]

/-- C23: `one()` is a left and right identity for matrices of every shape. -/
theorem C23_one_identity (a : SMatrix T r c) :
    (one : SMatrix T r r).mul a = .ok a ∧ a.mul (one : SMatrix T c c) = .ok a := by
  have ho : ∀ k, (one : SMatrix T k k).toMatrix φ = 1 := fun k => h.matrix.one
  constructor
  · refine res_ext (C23_never_panics hn _ _) ⟨_, rfl⟩ fun x y e1 e2 => toMatrix_injective hi ?_
    cases e2
    rw [C23_mul_denotes h _ _ _ e1, ho, Matrix.one_mul]
  · refine res_ext (C23_never_panics hn _ _) ⟨_, rfl⟩ fun x y e1 e2 => toMatrix_injective hi ?_
    cases e2
    rw [C23_mul_denotes h _ _ _ e1, ho, Matrix.mul_one]

end laws
end C23

/-- A 2×3 by 3×2 product. -/
example : ∃ m, (⟨![![.lit 1, .lit 2, .lit 3], ![.lit 4, .lit 5, .lit 6]]⟩ : SMatrix I32 2 3).mul
    (⟨![![.lit 1, .lit 0], ![.lit 0, .lit 1], ![.lit 2, .lit 2]]⟩ : SMatrix I32 3 2) = .ok m ∧
    m.val = ![![.lit 7, .lit 8], ![.lit 16, .lit 17]] := ⟨_, rfl, by decide +kernel⟩
/-- An inner dimension 0 gives the zero matrix. -/
example : ∃ m, (⟨![![], ![]]⟩ : SMatrix I32 2 0).mul (⟨![]⟩ : SMatrix I32 0 2) = .ok m ∧
    m.val = ![![.lit 0, .lit 0], ![.lit 0, .lit 0]] := ⟨_, rfl, by decide +kernel⟩

/-! ## C24 -/
section C24
variable [RRing T]

/-- C24: `a + b` returns exactly if every entry sum does, and then has the entry sums as entries (no law assumed). -/
theorem C24_add_entries (a b m : SMatrix T r c) :
    a.add b = .ok m ↔ ∀ i j, ringAdd (a.val i j) (b.val i j) = .ok (m.val i j) :=
  mloop_iff (fun i j li => AddAssignRef.addAssign li (b.val i j)) a m

theorem C24_sub_entries (a b m : SMatrix T r c) :
    a.sub b = .ok m ↔ ∀ i j, ringSub (a.val i j) (b.val i j) = .ok (m.val i j) :=
  mloop_iff (fun i j li => SubAssignRef.subAssign li (b.val i j)) a m

theorem C24_neg_entries (a m : SMatrix T r c) :
    a.neg = .ok m ↔ ∀ i j, RNeg.neg (a.val i j) = .ok (m.val i j) := by
  unfold SMatrix.neg
  constructor
  · intro e i j
    obtain ⟨v, e1, e⟩ := bind_ok e
    cases pure_ok e
    exact fromFnM_ok_iff.1 (fromFnM_ok_iff.1 e1 i) j
  · intro e
    rw [fromFnM_ok_iff.2 (fun i => fromFnM_ok_iff.2 (e i))]
    rfl

theorem C24_conj_entries {T : Type} [RConj T] (a m : SMatrix T r c) :
    a.conj = .ok m ↔ ∀ i j, RConj.conj (a.val i j) = .ok (m.val i j) := by
  unfold SMatrix.conj
  constructor
  · intro e i j
    obtain ⟨v, e1, e⟩ := bind_ok e
    cases pure_ok e
    exact fromFnM_ok_iff.1 (fromFnM_ok_iff.1 e1 i) j
  · intro e
    rw [fromFnM_ok_iff.2 (fun i => fromFnM_ok_iff.2 (e i))]
    rfl

/-- C24: the by-value, by-reference and in-place forms agree (including panics). -/
theorem C24_operators_agree (a b : SMatrix T r c) :
    a.addRef b = a.add b ∧ a.addAssignV b = a.addAssignRef b ∧ (a.addAssignRef b).toRes = a.add b ∧
    a.subRef b = a.sub b ∧ a.subAssignV b = a.subAssignRef b ∧ (a.subAssignRef b).toRes = a.sub b :=
  ⟨rfl, rfl, rfl, rfl, rfl, rfl⟩

/-- C24: `(a * b).conj() = a.conj() * b.conj()` if conjugation of elements denotes a ring homomorphism `σ` (e.g. the
identity, or complex conjugation). -/
theorem C24_conj_mul [RConj T] [Ring R] {φ : T → R} (h : Implements φ) (hi : Function.Injective φ) (σ : R →+* R)
    (hσ : ∀ x y : T, RConj.conj x = .ok y → φ y = σ (φ x)) (a a' : SMatrix T L M) (b b' : SMatrix T M N)
    (m m' m'' : SMatrix T L N) (h1 : a.mul b = .ok m) (h2 : m.conj = .ok m') (h3 : a.conj = .ok a')
    (h4 : b.conj = .ok b') (h5 : a'.mul b' = .ok m'') : m' = m'' := by
  apply toMatrix_injective hi
  ext i j
  simp only [SMatrix.toMatrix, Matrix.of_apply]
  rw [hσ _ _ ((C24_conj_entries m m').1 h2 i j), h.mmul h1, h.mmul h5, map_sum]
  refine Finset.sum_congr rfl fun k _ => ?_
  rw [hσ _ _ ((C24_conj_entries a a').1 h3 i k), hσ _ _ ((C24_conj_entries b b').1 h4 k j), map_mul]

/-- C24: complex conjugation meets the hypothesis of `C24_conj_mul` over any commutative ring. -/
theorem C24_complex_conj_is_hom [CommRing R] {φ : T → R} (h : Implements φ) :
    ∃ σ : Cx R →+* Cx R, ∀ x y : Complex T, RConj.conj x = .ok y → y.toCx φ = σ (x.toCx φ) := by
  refine ⟨{ toFun := fun z => ⟨z.re, -z.im⟩, map_one' := ?_, map_mul' := ?_, map_zero' := ?_, map_add' := ?_ },
    fun x y e => h.cconj e⟩
  · ext <;> simp
  · intro x y; ext
    · simp
    · simp; ring
  · ext <;> simp
  · intro x y; ext
    · simp
    · simp; ring

end C24

example : ∃ m, (⟨![![⟨.lit 1, .lit 2⟩]]⟩ : SMatrix (Complex I32) 1 1).conj = .ok m ∧
    m.val = ![![⟨.lit 1, .lit (-2)⟩]] := ⟨_, rfl, by decide +kernel⟩

/-! ## C25 -/
section C25
variable [RRing T]

/-- C25: the entries of `&m * &v`. -/
theorem C25_mul_vec_value [Ring R] {φ : T → R} (h : Implements φ) (m : SMatrix T M N) (v : SVector T N)
    (w : SVector T M) (hw : m.mulVec v = .ok w) (i : Fin M) : φ (w.val i) = ∑ j, φ (m.val i j) * φ (v.val j) :=
  h.mmulVec hw i

/-- C25: for every element type (no law assumed): entry `i` is computed as the dot product of row `i` and `v`. -/
theorem C25_mul_vec_rows (m : SMatrix T M N) (v : SVector T N) (w : SVector T M) :
    m.mulVec v = .ok w ↔ ∀ i, (⟨m.val i⟩ : SVector T N).dot v = .ok (w.val i) := by
  rw [SMatrix.mulVec_eq]
  constructor
  · intro e i
    obtain ⟨x, e1, e⟩ := bind_ok e
    cases pure_ok e
    exact fromFnM_ok_iff.1 e1 i
  · intro e
    exact congrArg (fun x : Res (Fin M → T) => (do let w ← x; pure (SVector.mk w)))
      (fromFnM_ok_iff.2 e : fromFnM (m := Res) M _ = .ok w.val)

theorem C25_only_element_panics (m : SMatrix T M N) (v : SVector T N) (e : Panic) (he : m.mulVec v = .error e) :
    ElementPanic T e := pan_mmulVec m v e he

theorem C25_never_panics (h : NeverPanics T) (m : SMatrix T M N) (v : SVector T N) : Returns (m.mulVec v) :=
  (pan_mmulVec m v).exists_ok h.noElementPanic

section laws
variable [Ring R] {φ : T → R} (h : Implements φ) (hi : Function.Injective φ) (hn : NeverPanics T)
include h hi hn

/-- C25: `(&a * &b) * v = a * (b * v)`. -/
theorem C25_mul_vec_assoc (a : SMatrix T L M) (b : SMatrix T M N) (v : SVector T N) :
    (do (← a.mul b).mulVec v) = (do a.mulVec (← b.mulVec v)) := by
  refine res_ext ((C23_never_panics hn _ _).bind fun _ _ => C25_never_panics hn _ _)
    ((C25_never_panics hn _ _).bind fun _ _ => C25_never_panics hn _ _)
    fun x y e1 e2 => SVector.ext (funext fun i => hi ?_)
  obtain ⟨p, f1, f2⟩ := bind_ok e1
  obtain ⟨q, g1, g2⟩ := bind_ok e2
  have hp := C23_mul_denotes h _ _ _ f1
  have e : ∀ {r c : ℕ} {m : SMatrix T r c} {u : SVector T c} {w : SVector T r}, m.mulVec u = .ok w →
      w.toFun φ = (m.toMatrix φ).mulVec (u.toFun φ) := fun e => funext fun i => h.mmulVec e i
  have h1 := e f2
  have h2 := e g2
  rw [hp] at h1
  rw [e g1, Matrix.mulVec_mulVec] at h2
  exact congrFun (h1.trans h2.symm) i

/-- C25: `one()` applied to `v` is `v`. -/
theorem C25_one_mul_vec (v : SVector T N) : (one : SMatrix T N N).mulVec v = .ok v := by
  refine res_ext (C25_never_panics hn _ _) ⟨_, rfl⟩ fun x y e1 e2 => SVector.ext (funext fun i => hi ?_)
  cases e2
  rw [h.mmulVec e1 i, Finset.sum_eq_single i]
  · rw [C23_one_entries, if_pos rfl, h.one, one_mul]
  · intro j _ hj
    rw [C23_one_entries, if_neg (fun e => hj (Fin.ext e.symm)), h.zero, zero_mul]
  · intro hi; exact absurd (Finset.mem_univ i) hi

/-- C25: `m * (u + v) = m * u + m * v`. -/
theorem C25_mul_vec_add (m : SMatrix T M N) (u v : SVector T N) :
    (do m.mulVec (← u.add v)) = (do (← m.mulVec u).add (← m.mulVec v)) := by
  refine res_ext ((C22_never_panics hn _ _ zero).1.bind fun _ _ => C25_never_panics hn _ _)
    ((C25_never_panics hn _ _).bind fun _ _ => (C25_never_panics hn _ _).bind fun _ _ =>
      (C22_never_panics hn _ _ zero).1) fun x y e1 e2 => SVector.ext (funext fun i => hi ?_)
  obtain ⟨p, f1, f2⟩ := bind_ok e1
  obtain ⟨q, g1, e2⟩ := bind_ok e2
  obtain ⟨z, g2, g3⟩ := bind_ok e2
  rw [h.mmulVec f2 i, h.addR ((C22_add_entries _ _ _).1 g3 i), h.mmulVec g1 i, h.mmulVec g2 i, ← Finset.sum_add_distrib]
  refine Finset.sum_congr rfl fun j _ => ?_
  rw [h.addR ((C22_add_entries _ _ _).1 f1 j), mul_add]

end laws
end C25

example : ∃ w, (⟨![![.lit 1, .lit 2, .lit 3], ![.lit 4, .lit 5, .lit 6]]⟩ : SMatrix I32 2 3).mulVec
    (⟨![.lit 1, .lit 0, .lit (-1)]⟩ : SVector I32 3) = .ok w ∧ w.val = ![.lit (-2), .lit (-2)] :=
  ⟨_, rfl, by decide +kernel⟩

end Magnesia
