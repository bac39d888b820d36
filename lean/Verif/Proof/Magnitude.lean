import Verif.Spec.Magnitude
import Verif.Proof.Elem
import Verif.Proof.IntFloat

/-!
# Worst cases (helper lemmas)
-/

namespace Magnesia

open RZero ROne MulRefs

variable {w : ℕ}

/-! ## When an operation returns -/

theorem MInt.range (hw : 1 < w) (z : MInt w true) : -2 ^ (w - 1) ≤ z.toInt ∧ z.toInt < 2 ^ (w - 1) := by
  have h1 := BitVec.two_mul_toInt_lt (x := z.bv)
  have h2 := BitVec.le_two_mul_toInt (x := z.bv)
  have h3 : (2 : ℤ) ^ w = 2 * 2 ^ (w - 1) := by
    rw [← pow_succ']
    congr 1
    omega
  unfold MInt.toInt
  constructor <;> omega

private theorem guard_of {o : Bool} {r : BitVec w} (h : o = false) : (MInt.guard o r : Res (MInt w true)) = .ok ⟨r⟩ := by
  simp [MInt.guard, h]

theorem MInt.add_of {a b : MInt w true} (h : |a.toInt + b.toInt| < 2 ^ (w - 1)) :
    ∃ c, MInt.add a b = .ok c ∧ c.toInt = a.toInt + b.toInt := by
  rw [abs_lt] at h
  have : a.bv.saddOverflow b.bv = false := by
    rw [BitVec.saddOverflow, Bool.or_eq_false_iff, decide_eq_false_iff_not, decide_eq_false_iff_not]
    unfold MInt.toInt at h
    constructor <;> omega
  have e := guard_of (r := a.bv + b.bv) this
  exact ⟨_, e, MInt.add_ok e⟩

theorem MInt.sub_of {a b : MInt w true} (h : |a.toInt - b.toInt| < 2 ^ (w - 1)) :
    ∃ c, MInt.sub a b = .ok c ∧ c.toInt = a.toInt - b.toInt := by
  rw [abs_lt] at h
  have : a.bv.ssubOverflow b.bv = false := by
    rw [BitVec.ssubOverflow, Bool.or_eq_false_iff, decide_eq_false_iff_not, decide_eq_false_iff_not]
    unfold MInt.toInt at h
    constructor <;> omega
  have e := guard_of (r := a.bv - b.bv) this
  exact ⟨_, e, MInt.sub_ok e⟩

theorem MInt.mul_of {a b : MInt w true} (h : |a.toInt * b.toInt| < 2 ^ (w - 1)) :
    ∃ c, MInt.mul a b = .ok c ∧ c.toInt = a.toInt * b.toInt := by
  rw [abs_lt] at h
  have : a.bv.smulOverflow b.bv = false := by
    rw [BitVec.smulOverflow, Bool.or_eq_false_iff, decide_eq_false_iff_not, decide_eq_false_iff_not]
    unfold MInt.toInt at h
    constructor <;> omega
  have e := guard_of (r := a.bv * b.bv) this
  exact ⟨_, e, MInt.mul_ok e⟩

theorem MInt.neg_of {a : MInt w true} (h : |a.toInt| < 2 ^ (w - 1)) : ∃ c, MInt.neg a = .ok c ∧ c.toInt = -a.toInt := by
  rw [abs_lt] at h
  have : a.bv.negOverflow = false := by
    rw [BitVec.negOverflow, beq_eq_false_iff_ne]
    unfold MInt.toInt at h
    omega
  have e := guard_of (r := -a.bv) this
  exact ⟨_, e, MInt.neg_ok e⟩

theorem InRange.of_lt {x : ℤ} (h : |x| < 2 ^ (w - 1)) : InRange w x := by
  rw [abs_lt] at h
  exact ⟨h.1.le, h.2⟩

/-- An operation returns iff the exact result can be held, and then it is the result. -/
theorem MInt.ops_iff (hw : 1 < w) (a b c : MInt w true) :
    (MInt.add a b = .ok c ↔ c.toInt = a.toInt + b.toInt) ∧ (MInt.sub a b = .ok c ↔ c.toInt = a.toInt - b.toInt) ∧
    (MInt.mul a b = .ok c ↔ c.toInt = a.toInt * b.toInt) ∧ (MInt.neg a = .ok c ↔ c.toInt = -a.toInt) := by
  have hc := MInt.range hw c
  refine ⟨⟨MInt.add_ok, fun h => ?_⟩, ⟨MInt.sub_ok, fun h => ?_⟩, ⟨MInt.mul_ok, fun h => ?_⟩, MInt.neg_ok, fun h => ?_⟩ <;>
    rw [h] at hc
  · have : a.bv.saddOverflow b.bv = false := by
      rw [BitVec.saddOverflow, Bool.or_eq_false_iff, decide_eq_false_iff_not, decide_eq_false_iff_not]
      unfold MInt.toInt at hc
      constructor <;> omega
    have e : MInt.add a b = _ := guard_of this
    rw [e, toInt_injective ((MInt.add_ok e).trans h.symm)]
  · have : a.bv.ssubOverflow b.bv = false := by
      rw [BitVec.ssubOverflow, Bool.or_eq_false_iff, decide_eq_false_iff_not, decide_eq_false_iff_not]
      unfold MInt.toInt at hc
      constructor <;> omega
    have e : MInt.sub a b = _ := guard_of this
    rw [e, toInt_injective ((MInt.sub_ok e).trans h.symm)]
  · have : a.bv.smulOverflow b.bv = false := by
      rw [BitVec.smulOverflow, Bool.or_eq_false_iff, decide_eq_false_iff_not, decide_eq_false_iff_not]
      unfold MInt.toInt at hc
      constructor <;> omega
    have e : MInt.mul a b = _ := guard_of this
    rw [e, toInt_injective ((MInt.mul_ok e).trans h.symm)]
  · have : a.bv.negOverflow = false := by
      rw [BitVec.negOverflow, beq_eq_false_iff_ne]
      unfold MInt.toInt at hc
      omega
    have e : MInt.neg a = _ := guard_of this
    rw [e, toInt_injective ((MInt.neg_ok e).trans h.symm)]

theorem MInt.exists_of (hw : 1 < w) {x : ℤ} : InRange w x ↔ ∃ c : MInt w true, c.toInt = x := by
  constructor
  · rintro ⟨h1, h2⟩
    have h3 : (2 : ℤ) ^ w = 2 * 2 ^ (w - 1) := by
      rw [← pow_succ']
      congr 1
      omega
    refine ⟨⟨BitVec.ofInt w x⟩, ?_⟩
    show (BitVec.ofInt w x).toInt = x
    rw [BitVec.toInt_ofInt]
    apply Int.bmod_eq_of_le_mul_two
    · push_cast; omega
    · push_cast; omega
  · rintro ⟨c, rfl⟩; exact MInt.range hw c

theorem MInt.returns_iff (hw : 1 < w) (a b : MInt w true) :
    (Returns (MInt.add a b) ↔ InRange w (a.toInt + b.toInt)) ∧ (Returns (MInt.sub a b) ↔ InRange w (a.toInt - b.toInt)) ∧
    (Returns (MInt.mul a b) ↔ InRange w (a.toInt * b.toInt)) ∧ (Returns (MInt.neg a) ↔ InRange w (-a.toInt)) := by
  simp only [MInt.exists_of hw]
  exact ⟨exists_congr fun c => (MInt.ops_iff hw a b c).1, exists_congr fun c => (MInt.ops_iff hw a b c).2.1,
    exists_congr fun c => (MInt.ops_iff hw a b c).2.2.1, exists_congr fun c => (MInt.ops_iff hw a b c).2.2.2⟩

theorem Mag.upTo_ok {M x : ℕ} {c : Mag M} (h : Mag.upTo x = .ok c) : x ≤ M ∧ c = ⟨x⟩ := by
  unfold Mag.upTo at h
  split at h
  · next h1 => cases h; exact ⟨h1, rfl⟩
  · cases h

/-! ## Bounded integers -/

/-- The size conditions, as an instance argument. -/
class Within (w M : ℕ) : Prop where
  one_lt : 1 < w
  lt : M < 2 ^ (w - 1)

namespace Bounded

variable {M : ℕ} [hM : Within w M]

theorem lt_of_le {x : ℕ} (h : x ≤ M) : (x : ℤ) < 2 ^ (w - 1) := by
  have := hM.lt
  exact_mod_cast h.trans_lt this

theorem add_ok (a b : Bounded w M) {c : Mag M} (h : a.mag.add b.mag = .ok c) :
    ∃ d, MInt.add a.num b.num = .ok d ∧ |d.toInt| ≤ c.val := by
  obtain ⟨h1, rfl⟩ := Mag.upTo_ok h
  have h2 : |a.num.toInt + b.num.toInt| ≤ ((a.mag.val + b.mag.val : ℕ) : ℤ) := by
    push_cast
    exact (abs_add_le _ _).trans (add_le_add a.le b.le)
  obtain ⟨d, e, h3⟩ := MInt.add_of (h2.trans_lt (lt_of_le (hM := hM) h1))
  exact ⟨d, e, by rwa [h3]⟩

theorem sub_ok (a b : Bounded w M) {c : Mag M} (h : a.mag.add b.mag = .ok c) :
    ∃ d, MInt.sub a.num b.num = .ok d ∧ |d.toInt| ≤ c.val := by
  obtain ⟨h1, rfl⟩ := Mag.upTo_ok h
  have h2 : |a.num.toInt - b.num.toInt| ≤ ((a.mag.val + b.mag.val : ℕ) : ℤ) := by
    push_cast
    exact (abs_sub _ _).trans (add_le_add a.le b.le)
  obtain ⟨d, e, h3⟩ := MInt.sub_of (h2.trans_lt (lt_of_le (hM := hM) h1))
  exact ⟨d, e, by rwa [h3]⟩

theorem mul_ok (a b : Bounded w M) {c : Mag M} (h : a.mag.mul b.mag = .ok c) :
    ∃ d, MInt.mul a.num b.num = .ok d ∧ |d.toInt| ≤ c.val := by
  obtain ⟨h1, rfl⟩ := Mag.upTo_ok h
  have h2 : |a.num.toInt * b.num.toInt| ≤ ((a.mag.val * b.mag.val : ℕ) : ℤ) := by
    push_cast
    rw [abs_mul]
    exact mul_le_mul a.le b.le (abs_nonneg _) (Nat.cast_nonneg _)
  obtain ⟨d, e, h3⟩ := MInt.mul_of (h2.trans_lt (lt_of_le (hM := hM) h1))
  exact ⟨d, e, by rwa [h3]⟩

theorem neg_ok (a : Bounded w M) {c : Mag M} (h : a.mag.neg = .ok c) :
    ∃ d, MInt.neg a.num = .ok d ∧ |d.toInt| ≤ c.val := by
  obtain ⟨h1, rfl⟩ := Mag.upTo_ok h
  obtain ⟨d, e, h3⟩ := MInt.neg_of (a.le.trans_lt (lt_of_le (hM := hM) h1))
  exact ⟨d, e, by rw [h3, abs_neg]; exact a.le⟩

/-- Combine the bound with the integer result. -/
def both (x : Res (MInt w true)) (m : Res (Mag M)) (h : ∀ c, m = .ok c → ∃ d, x = .ok d ∧ |d.toInt| ≤ c.val) : Res (Bounded w M) :=
  match m, x, h with
  | .ok c, .ok d, h => .ok ⟨d, c, by obtain ⟨d', h1, h2⟩ := h c rfl; cases h1; exact h2⟩
  | .ok c, .error e, h => False.elim (by obtain ⟨d', h1, _⟩ := h c rfl; cases h1)
  | .error e, _, _ => .error e

def add (a b : Bounded w M) : Res (Bounded w M) := both _ _ fun _ => add_ok a b
def sub (a b : Bounded w M) : Res (Bounded w M) := both _ _ fun _ => sub_ok a b
def mul (a b : Bounded w M) : Res (Bounded w M) := both _ _ fun _ => mul_ok a b
def neg (a : Bounded w M) : Res (Bounded w M) := both _ _ fun _ => neg_ok a

instance : RZero (Bounded w M) := ⟨⟨zero, zero, by
  have : (zero : MInt w true).toInt = 0 := (implements_checked hM.one_lt).zero
  rw [this]; exact le_of_eq rfl⟩⟩
instance : ROne (Bounded w M) := ⟨⟨one, one, by
  have : (one : MInt w true).toInt = 1 := (implements_checked hM.one_lt).one
  rw [this]; exact le_of_eq rfl⟩⟩
instance : AddAssignRef (Bounded w M) := ⟨fun a b => Upd.ofRes a (add a b)⟩
instance : SubAssignRef (Bounded w M) := ⟨fun a b => Upd.ofRes a (sub a b)⟩
instance : MulRefs (Bounded w M) := ⟨mul⟩
instance : RNeg (Bounded w M) := ⟨neg⟩
instance : RPartialEq (Bounded w M) := ⟨fun a b => decide (a.num = b.num)⟩
instance : RRing (Bounded w M) where
instance : RAdd (Bounded w M) (Bounded w M) (Bounded w M) := ⟨add⟩
instance : RSub (Bounded w M) (Bounded w M) (Bounded w M) := ⟨sub⟩
instance : RMul (Bounded w M) (Bounded w M) (Bounded w M) := ⟨mul⟩
instance : RAddAssign (Bounded w M) (Bounded w M) := ⟨fun a b => Upd.ofRes a (add a b)⟩
instance : RSubAssign (Bounded w M) (Bounded w M) := ⟨fun a b => Upd.ofRes a (sub a b)⟩
instance : RConj (Bounded w M) := ⟨fun a => .ok a⟩

omit hM in
theorem both_mag {x : Res (MInt w true)} {m : Res (Mag M)} (h : ∀ c, m = .ok c → ∃ d, x = .ok d ∧ |d.toInt| ≤ c.val) :
    ResRel true mag (both x m h) m := by
  cases m with
  | ok c =>
    cases x with
    | ok d => exact ResRel.ok rfl
    | error e => obtain ⟨d', h1, _⟩ := h c rfl; cases h1
  | error e => exact ResRel.error _ e

omit hM in
theorem both_num {x : Res (MInt w true)} {m : Res (Mag M)} (h : ∀ c, m = .ok c → ∃ d, x = .ok d ∧ |d.toInt| ≤ c.val) :
    ResRel false num (both x m h) x := by
  cases m with
  | ok c =>
    cases x with
    | ok d => exact ResRel.ok rfl
    | error e => obtain ⟨d', h1, _⟩ := h c rfl; cases h1
  | error e => exact fun h => nomatch h

omit hM in
theorem ofRes_mag {a : Bounded w M} {r : Res (Bounded w M)} {r' : Res (Mag M)} (h : ResRel true mag r r') :
    UpdRel true mag (Upd.ofRes a r) (Upd.ofRes a.mag r') := by
  cases r with
  | ok c => simp only [ResRel] at h; subst h; rfl
  | error e => simp only [ResRel, forall_const] at h; subst h; exact fun _ => rfl

omit hM in
theorem ofRes_num {a : Bounded w M} {r : Res (Bounded w M)} {r' : Res (MInt w true)} (h : ResRel false num r r') :
    UpdRel false num (Upd.ofRes a r) (Upd.ofRes a.num r') := by
  cases r with
  | ok c => simp only [ResRel] at h; subst h; rfl
  | error e => exact fun h => nomatch h

theorem hom_mag : Hom true (mag : Bounded w M → Mag M) :=
  ⟨rfl, rfl, fun _ _ => ofRes_mag (both_mag _), fun _ _ => ofRes_mag (both_mag _), fun _ _ => both_mag _, fun _ => both_mag _⟩
theorem hom_num : Hom false (num : Bounded w M → MInt w true) :=
  ⟨rfl, rfl, fun _ _ => ofRes_num (both_num _), fun _ _ => ofRes_num (both_num _), fun _ _ => both_num _, fun _ => both_num _⟩

theorem valueOpsAgree : ValueOpsAgree (Bounded w M) where
  add _ _ := (toRes_ofRes _ _).symm
  sub _ _ := (toRes_ofRes _ _).symm
  mul _ _ := rfl
  addAssign _ _ := rfl
  subAssign _ _ := rfl

theorem valueOpsAgree_mag : ValueOpsAgree (Mag M) where
  add _ _ := (toRes_ofRes _ _).symm
  sub _ _ := (toRes_ofRes _ _).symm
  mul _ _ := rfl
  addAssign _ _ := rfl
  subAssign _ _ := rfl

end Bounded

end Magnesia
