import Verif.Spec.IntFloat
import Verif.Proof.Track
import Verif.Proof.IeeeRange
import Verif.Proof.IeeeMono

/-!
# Integers as floating point numbers (helper lemmas)
-/

namespace Magnesia

open RZero ROne

variable {F : Fmt} {w : ℕ}

theorem MInt.abs_le (hw : 1 < w) (z : MInt w true) : |z.toInt| ≤ 2 ^ (w - 1) := by
  rw [_root_.abs_le]
  have h1 := BitVec.two_mul_toInt_lt (x := z.bv)
  have h2 := BitVec.le_two_mul_toInt (x := z.bv)
  have h3 : (2 : ℤ) ^ w = 2 * 2 ^ (w - 1) := by
    rw [← pow_succ']
    congr 1
    omega
  unfold MInt.toInt
  constructor <;> omega

theorem Fmt.Holds.representable (h : F.Holds w) (hw : 1 < w) (z : MInt w true) : F.Representable (z.toInt : ℚ) := by
  have h0 : w - 1 ≤ F.p := by
    unfold Fmt.Holds at h
    omega
  have h1 := z.abs_le hw
  have h2 : |z.toInt| ≤ 2 ^ F.p := h1.trans (pow_le_pow_right₀ (by norm_num) h0)
  have h3 : |((z.toInt : ℤ) : ℚ)| ≤ 2 ^ (w - 1) := by exact_mod_cast h1
  have hp := F.p_le_emax
  have hp' := F.two_le_p
  have := F.representable_of (m := z.toInt) (e := 0) h2 (by unfold Fmt.emin; omega) (by
    rw [zpow_zero, mul_one]
    refine h3.trans_lt ?_
    rw [← zpow_natCast]
    refine zpow_lt_zpow_right₀ (by norm_num) ?_
    omega)
  rwa [zpow_zero, mul_one] at this

theorem Ieee.finite_of_num {x : Ieee F} (h : x.Finite) : x.num = some x.value := by
  cases x with
  | nan => exact h.elim
  | inf s => exact h.elim
  | zero s => rfl
  | fin v h0 hv => rfl

theorem Ieee.ofInt_representable {z : ℤ} (h : F.Representable (z : ℚ)) :
    (ofInt z : Ieee F).Finite ∧ (ofInt z : Ieee F).value = z := by
  unfold ofInt
  split
  · rename_i h0
    subst h0
    exact ⟨trivial, by simp [value]⟩
  · have hf : (round (z : ℚ) : Ieee F).Finite := round_finite_iff.2 (by rw [F.roundQ_representable h]; exact h.2)
    exact ⟨hf, by rw [round_finite hf, F.roundQ_representable h]⟩

/-- An integer and a floating point number of the same value, for a format that holds all the integers. -/
structure IntFloat (F : Fmt) (w : ℕ) where
  float : Ieee F
  int : MInt w true
  finite : float.Finite
  value : float.value = int.toInt

/-- The size conditions, as an instance argument. -/
class Fits (F : Fmt) (w : ℕ) : Prop where
  one_lt : 1 < w
  holds : F.Holds w

namespace IntFloat

variable [hF : Fits F w]

theorem rep (z : MInt w true) : F.Representable (z.toInt : ℚ) := hF.holds.representable hF.one_lt z

theorem add_ok (a b : IntFloat F w) {c : MInt w true} (h : MInt.add a.int b.int = .ok c) :
    (a.float.add b.float).Finite ∧ (a.float.add b.float).value = c.toInt := by
  have hc := MInt.add_ok h
  have hr := rep (F := F) c
  have e : a.float.value + b.float.value = c.toInt := by rw [a.value, b.value, hc]; push_cast; rfl
  have hf : (a.float.add b.float).Finite := (Ieee.add_finite_iff a.finite b.finite).2 (by
    rw [e, F.roundQ_representable hr]; exact hr.2)
  exact ⟨hf, by rw [(Ieee.add_finite hf).2.2, e, F.roundQ_representable hr]⟩

theorem mul_ok (a b : IntFloat F w) {c : MInt w true} (h : MInt.mul a.int b.int = .ok c) :
    (a.float.mul b.float).Finite ∧ (a.float.mul b.float).value = c.toInt := by
  have hc := MInt.mul_ok h
  have hr := rep (F := F) c
  have e : a.float.value * b.float.value = c.toInt := by rw [a.value, b.value, hc]; push_cast; rfl
  have hf : (a.float.mul b.float).Finite := (Ieee.mul_finite_iff a.finite b.finite).2 (by
    rw [e, F.roundQ_representable hr]; exact hr.2)
  exact ⟨hf, by rw [(Ieee.mul_finite hf).2.2, e, F.roundQ_representable hr]⟩

theorem neg_finite {x : Ieee F} : x.neg.Finite ↔ x.Finite := by cases x <;> rfl

theorem sub_ok (a b : IntFloat F w) {c : MInt w true} (h : MInt.sub a.int b.int = .ok c) :
    (a.float.sub b.float).Finite ∧ (a.float.sub b.float).value = c.toInt := by
  have hc := MInt.sub_ok h
  have hr := rep (F := F) c
  have e : a.float.value + b.float.neg.value = c.toInt := by
    rw [Ieee.neg_value, a.value, b.value, hc]; push_cast; ring
  have hf : (a.float.add b.float.neg).Finite := (Ieee.add_finite_iff a.finite (neg_finite.2 b.finite)).2 (by
    rw [e, F.roundQ_representable hr]; exact hr.2)
  have := (Ieee.add_finite hf).2.2
  rw [e, F.roundQ_representable hr] at this
  exact ⟨hf, this⟩

omit hF in
theorem neg_ok (a : IntFloat F w) {c : MInt w true} (h : MInt.neg a.int = .ok c) :
    a.float.neg.Finite ∧ a.float.neg.value = c.toInt :=
  ⟨neg_finite.2 a.finite, by rw [Ieee.neg_value, a.value, MInt.neg_ok h]; push_cast; rfl⟩

/-- Combine the floating point result with the integer result, if there is one. -/
def both (x : Ieee F) (r : Res (MInt w true)) (h : ∀ c, r = .ok c → x.Finite ∧ x.value = c.toInt) :
    Res (IntFloat F w) :=
  match r, h with
  | .ok c, h => .ok ⟨x, c, (h c rfl).1, (h c rfl).2⟩
  | .error e, _ => .error e

def add (a b : IntFloat F w) : Res (IntFloat F w) := both _ _ fun _ => add_ok a b
def sub (a b : IntFloat F w) : Res (IntFloat F w) := both _ _ fun _ => sub_ok a b
def mul (a b : IntFloat F w) : Res (IntFloat F w) := both _ _ fun _ => mul_ok a b
def neg (a : IntFloat F w) : Res (IntFloat F w) := both _ _ fun _ => neg_ok a

/-- An integer with its floating point number. -/
def given (z : MInt w true) : IntFloat F w :=
  ⟨z.toFloat F, z, (Ieee.ofInt_representable (rep z)).1, (Ieee.ofInt_representable (rep z)).2⟩

instance : RZero (IntFloat F w) := ⟨⟨zero, zero, trivial, by
  have : (zero : MInt w true).toInt = 0 := (implements_checked hF.one_lt).zero
  rw [this]; simp [zero, Ieee.value]⟩⟩
instance : ROne (IntFloat F w) := ⟨⟨one, one, trivial, by
  have : (one : MInt w true).toInt = 1 := (implements_checked hF.one_lt).one
  rw [this]; simp [one, Ieee.value]⟩⟩
instance : AddAssignRef (IntFloat F w) := ⟨fun a b => Upd.ofRes a (add a b)⟩
instance : SubAssignRef (IntFloat F w) := ⟨fun a b => Upd.ofRes a (sub a b)⟩
instance : MulRefs (IntFloat F w) := ⟨mul⟩
instance : RNeg (IntFloat F w) := ⟨neg⟩
instance : RPartialEq (IntFloat F w) := ⟨fun a b => decide (a.int = b.int)⟩
instance : RRing (IntFloat F w) where
instance : RAdd (IntFloat F w) (IntFloat F w) (IntFloat F w) := ⟨add⟩
instance : RSub (IntFloat F w) (IntFloat F w) (IntFloat F w) := ⟨sub⟩
instance : RMul (IntFloat F w) (IntFloat F w) (IntFloat F w) := ⟨mul⟩
instance : RAddAssign (IntFloat F w) (IntFloat F w) := ⟨fun a b => Upd.ofRes a (add a b)⟩
instance : RSubAssign (IntFloat F w) (IntFloat F w) := ⟨fun a b => Upd.ofRes a (sub a b)⟩
instance : RConj (IntFloat F w) := ⟨fun a => .ok a⟩

omit hF in
theorem both_int {x : Ieee F} {r : Res (MInt w true)} (h : ∀ c, r = .ok c → x.Finite ∧ x.value = c.toInt) :
    ResRel true int (both x r h) r := by
  cases r with
  | ok c => exact ResRel.ok rfl
  | error e => exact ResRel.error _ e

omit hF in
theorem both_float {x : Ieee F} {r : Res (MInt w true)} (h : ∀ c, r = .ok c → x.Finite ∧ x.value = c.toInt) :
    ResRel false float (both x r h) (.ok x) := by
  cases r with
  | ok c => exact ResRel.ok rfl
  | error e => exact fun h => nomatch h

omit hF in
theorem ofRes_int {a : IntFloat F w} {r : Res (IntFloat F w)} {r' : Res (MInt w true)} (h : ResRel true int r r') :
    UpdRel true int (Upd.ofRes a r) (Upd.ofRes a.int r') := by
  cases r with
  | ok c => simp only [ResRel] at h; subst h; rfl
  | error e => simp only [ResRel, forall_const] at h; subst h; exact fun _ => rfl

omit hF in
theorem ofRes_float {a : IntFloat F w} {r : Res (IntFloat F w)} {x : Ieee F} (h : ResRel false float r (.ok x)) :
    UpdRel false float (Upd.ofRes a r) (.done x) := by
  cases r with
  | ok c =>
    simp only [ResRel] at h
    injection h with h
    subst h
    rfl
  | error e => exact fun h => nomatch h

theorem hom_int : Hom true (int : IntFloat F w → MInt w true) :=
  ⟨rfl, rfl, fun _ _ => ofRes_int (both_int _), fun _ _ => ofRes_int (both_int _), fun _ _ => both_int _,
    fun _ => both_int _⟩
theorem hom_float : Hom false (float : IntFloat F w → Ieee F) :=
  ⟨rfl, rfl, fun _ _ => ofRes_float (both_float _), fun _ _ => ofRes_float (both_float _), fun _ _ => both_float _,
    fun _ => both_float _⟩

theorem valueOpsAgree : ValueOpsAgree (IntFloat F w) where
  add _ _ := (toRes_ofRes _ _).symm
  sub _ _ := (toRes_ofRes _ _).symm
  mul _ _ := rfl
  addAssign _ _ := rfl
  subAssign _ _ := rfl

end IntFloat

end Magnesia
