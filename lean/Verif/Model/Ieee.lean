import Verif.Model.Traits
import Mathlib.Data.Int.Log
import Mathlib.Algebra.Order.Field.Power
import Mathlib.Data.Nat.Sqrt
import Mathlib.Algebra.Order.Round
import Mathlib.Data.Rat.Floor
import Mathlib.Tactic.Linarith
import Mathlib.Tactic.Positivity
import Mathlib.Tactic.Ring
import Mathlib.Tactic.FieldSimp
import Mathlib.Tactic.NormNum

/-!
# IEEE-754 binary floating point numbers

`Ieee F` is the set of numbers of the binary interchange format `F` (all NaNs identified; Rust does not specify NaN
payloads), with the operations of IEEE-754-2008 in the default rounding direction (to nearest, ties to even), as used by
Rust's `f32` and `f64`. The operations `+ - * / sqrt` are correctly rounded, i.e. the exact rational (or, for the square
root, algebraic) result rounded once.
-/

namespace Magnesia

/-- A binary format: precision `p` (significand bits including the leading one) and largest exponent `emax`. -/
structure Fmt where
  p : ℕ
  emax : ℤ
  two_le_p : 2 ≤ p
  p_le_emax : (p : ℤ) ≤ emax

namespace Fmt

/-- Rust's `f32`: IEEE-754 binary32. -/
def f32 : Fmt := ⟨24, 127, by norm_num, by norm_num⟩
/-- Rust's `f64`: IEEE-754 binary64. -/
def f64 : Fmt := ⟨53, 1023, by norm_num, by norm_num⟩

variable (F : Fmt)

/-- Smallest exponent of a normal number. -/
def emin : ℤ := 1 - F.emax

/-- The exponent of the last significand bit of numbers of the magnitude of `x`. -/
def ulpExp (x : ℚ) : ℤ := max (Int.log 2 |x|) F.emin - (F.p - 1)

/-- The unit in the last place for numbers of the magnitude of `x`. -/
def ulp (x : ℚ) : ℚ := 2 ^ F.ulpExp x

/-- A non-zero rational is a finite number of the format: an integer of at most `p` bits times a power of two that is
not too small, below the overflow threshold. -/
def Representable (x : ℚ) : Prop :=
  (∃ m e : ℤ, x = m * 2 ^ e ∧ |m| < 2 ^ F.p ∧ F.emin - (F.p - 1) ≤ e) ∧ |x| < 2 ^ (F.emax + 1)

end Fmt

/-- Round to the nearest integer, ties to the even one. -/
def rne (q : ℚ) : ℤ :=
  if q - ⌊q⌋ < 1 / 2 then ⌊q⌋
  else if 1 / 2 < q - ⌊q⌋ then ⌊q⌋ + 1
  else if ⌊q⌋ % 2 = 0 then ⌊q⌋ else ⌊q⌋ + 1

/-- The nearest integer to `√q`, ties to the even one (`q ≥ 0`). -/
def rneSqrt (q : ℚ) : ℤ :=
  let f : ℤ := (Nat.sqrt ⌊q⌋.toNat : ℕ)
  if q < (f + 1 / 2) ^ 2 then f
  else if ((f : ℚ) + 1 / 2) ^ 2 < q then f + 1
  else if f % 2 = 0 then f else f + 1

/-- The nearest number to `x` in a format with the precision and the smallest exponent of `F` but no largest exponent. -/
def Fmt.roundQ (F : Fmt) (x : ℚ) : ℚ := rne (x / F.ulp x) * F.ulp x

/-- The exponent of the last significand bit of `√x` (never subnormal). -/
def Fmt.sqrtUlpExp (F : Fmt) (x : ℚ) : ℤ := Int.log 2 x / 2 - (F.p - 1)

/-- The nearest number to `√x`. -/
def Fmt.roundSqrt (F : Fmt) (x : ℚ) : ℚ := rneSqrt (x / (2 ^ F.sqrtUlpExp x) ^ 2) * 2 ^ F.sqrtUlpExp x

theorem floor_bounds (q : ℚ) : (⌊q⌋ : ℚ) ≤ q ∧ q < ⌊q⌋ + 1 := ⟨Int.floor_le q, Int.lt_floor_add_one q⟩

theorem rne_err (q : ℚ) : |(rne q : ℚ) - q| ≤ 1 / 2 := by
  obtain ⟨h1, h2⟩ := floor_bounds q
  unfold rne
  rw [abs_le]
  split_ifs <;> push_cast <;> constructor <;> linarith

theorem rne_intCast (n : ℤ) : rne (n : ℚ) = n := by
  unfold rne
  rw [Int.floor_intCast, sub_self, if_pos (by norm_num)]

namespace Fmt

variable (F : Fmt)

theorem ulp_pos (x : ℚ) : 0 < F.ulp x := zpow_pos (by norm_num) _

theorem abs_lt_ulp (x : ℚ) : |x| < 2 ^ F.p * F.ulp x := by
  have h1 : |x| < 2 ^ (Int.log 2 |x| + 1) := Int.lt_zpow_succ_log_self (b := 2) (by norm_num) |x|
  refine h1.trans_le ?_
  rw [ulp, ulpExp, ← zpow_natCast, ← zpow_add₀ (by norm_num)]
  exact zpow_le_zpow_right₀ (by norm_num) (by have := le_max_left (Int.log 2 |x|) F.emin; omega)

theorem abs_rne_le (x : ℚ) : |rne (x / F.ulp x)| ≤ 2 ^ F.p := by
  have h1 := rne_err (x / F.ulp x)
  have h2 : |x / F.ulp x| < 2 ^ F.p := by
    rw [abs_div, abs_of_pos (F.ulp_pos x), div_lt_iff₀ (F.ulp_pos x)]; exact F.abs_lt_ulp x
  have h3 : |(rne (x / F.ulp x) : ℚ)| < 2 ^ F.p + 1 := by
    have := abs_add_le ((rne (x / F.ulp x) : ℚ) - x / F.ulp x) (x / F.ulp x)
    rw [sub_add_cancel] at this
    linarith
  have h4 : |rne (x / F.ulp x)| < 2 ^ F.p + 1 := by exact_mod_cast h3
  omega

theorem emin_le_ulpExp (x : ℚ) : F.emin - (F.p - 1) ≤ F.ulpExp x := by
  have := le_max_right (Int.log 2 |x|) F.emin
  unfold ulpExp; omega

/-- An integer of at most `p` bits, or `± 2^p`, times a power of two. -/
theorem representable_of {m e : ℤ} (hm : |m| ≤ 2 ^ F.p) (he : F.emin - (F.p - 1) ≤ e)
    (hx : |(m : ℚ) * 2 ^ e| < 2 ^ (F.emax + 1)) : F.Representable (m * 2 ^ e) := by
  refine ⟨?_, hx⟩
  rcases lt_or_eq_of_le hm with h | h
  · exact ⟨m, e, rfl, h, he⟩
  · have hp := F.two_le_p
    obtain ⟨k, hk⟩ : ∃ k, F.p = k + 1 := ⟨F.p - 1, by omega⟩
    have h2 : ∃ s : ℤ, |s| = 1 ∧ m = s * 2 ^ F.p := by
      rcases abs_choice m with h3 | h3
      · exact ⟨1, by simp, by omega⟩
      · exact ⟨-1, by simp, by omega⟩
    obtain ⟨s, hs, rfl⟩ := h2
    refine ⟨s * 2 ^ k, e + 1, ?_, ?_, by omega⟩
    · rw [zpow_add₀ (by norm_num), hk]; push_cast; ring
    · rw [abs_mul, hs, one_mul, abs_of_pos (by positivity), hk]
      exact pow_lt_pow_right₀ (by norm_num) (by omega)

theorem representable_roundQ (x : ℚ) (h : |F.roundQ x| < 2 ^ (F.emax + 1)) : F.Representable (F.roundQ x) :=
  F.representable_of (F.abs_rne_le x) (F.emin_le_ulpExp x) h


theorem Representable.log_ge {F : Fmt} {x : ℚ} (h : F.Representable x) (h0 : x ≠ 0) :
    F.emin - (F.p - 1) ≤ Int.log 2 |x| := by
  obtain ⟨⟨m, e, rfl, _, he⟩, _⟩ := h
  refine he.trans ?_
  rw [← Int.zpow_le_iff_le_log (b := 2) (by norm_num) (abs_pos.2 h0), abs_mul, abs_of_pos (zpow_pos (by norm_num) e : (0 : ℚ) < 2 ^ e)]
  have h1 : m ≠ 0 := by rintro rfl; simp at h0
  have h2 : (1 : ℚ) ≤ |(m : ℚ)| := by exact_mod_cast Int.one_le_abs h1
  calc ((2 : ℕ) : ℚ) ^ e = 1 * 2 ^ e := by norm_num
    _ ≤ _ := mul_le_mul_of_nonneg_right h2 (by positivity)

theorem Representable.log_le {F : Fmt} {x : ℚ} (h : F.Representable x) (h0 : x ≠ 0) : Int.log 2 |x| ≤ F.emax := by
  have h1 : |x| < ((2 : ℕ) : ℚ) ^ (F.emax + 1) := by exact_mod_cast h.2
  have := (Int.lt_zpow_iff_log_lt (b := 2) (by norm_num) (abs_pos.2 h0)).1 h1
  omega

end Fmt

/-- `f = ⌊√q⌋` -/
theorem rneSqrt_floor (q : ℚ) (hq : 0 ≤ q) :
    ((Nat.sqrt ⌊q⌋.toNat : ℕ) : ℚ) ^ 2 ≤ q ∧ q < ((Nat.sqrt ⌊q⌋.toNat : ℕ) + 1 : ℚ) ^ 2 := by
  obtain ⟨h1, h2⟩ := floor_bounds q
  have h0 : 0 ≤ ⌊q⌋ := Int.floor_nonneg.2 hq
  obtain ⟨n, hn⟩ := Int.eq_ofNat_of_zero_le h0
  rw [hn] at h1 h2 ⊢
  have h3 := Nat.sqrt_le' n
  have h4 := Nat.lt_succ_sqrt' n
  simp only [Int.toNat_natCast, Int.cast_natCast] at *
  constructor
  · refine le_trans ?_ h1; exact_mod_cast h3
  · have h5 : ((n : ℚ) + 1) ≤ ((n.sqrt : ℚ) + 1) ^ 2 := by exact_mod_cast h4
    linarith

theorem rneSqrt_nonneg (q : ℚ) : 0 ≤ rneSqrt q := by
  unfold rneSqrt
  have : (0 : ℤ) ≤ (Nat.sqrt ⌊q⌋.toNat : ℕ) := Int.natCast_nonneg _
  simp only
  split_ifs <;> omega

theorem rneSqrt_le {q : ℚ} (hq : 0 ≤ q) {k : ℕ} (h : q < (2 ^ k) ^ 2) : rneSqrt q ≤ 2 ^ k := by
  obtain ⟨h1, h2⟩ := rneSqrt_floor q hq
  unfold rneSqrt
  generalize Nat.sqrt ⌊q⌋.toNat = f at *
  have h3 : (f : ℚ) < 2 ^ k := lt_of_pow_lt_pow_left₀ 2 (by positivity) (h1.trans_lt h)
  have h4 : f < 2 ^ k := by exact_mod_cast h3
  have h5 : (f : ℤ) + 1 ≤ 2 ^ k := by exact_mod_cast h4
  simp only
  split_ifs <;> omega

namespace Fmt

variable (F : Fmt)

theorem sqrt_scaled_lt (x : ℚ) : x / (2 ^ F.sqrtUlpExp x) ^ 2 < (2 ^ F.p) ^ 2 := by
  have h1 : x < 2 ^ (Int.log 2 x + 1) := Int.lt_zpow_succ_log_self (b := 2) (by norm_num) x
  rw [div_lt_iff₀ (by positivity)]
  refine h1.trans_le ?_
  rw [← mul_pow, ← zpow_natCast (2 : ℚ) F.p, ← zpow_add₀ (by norm_num), ← zpow_natCast, ← zpow_mul]
  exact zpow_le_zpow_right₀ (by norm_num) (by unfold sqrtUlpExp; omega)

theorem representable_roundSqrt {x : ℚ} (hx : 0 < x) (h : F.Representable x) : F.Representable (F.roundSqrt x) := by
  have h1 := rneSqrt_le (div_nonneg hx.le (sq_nonneg _)) (F.sqrt_scaled_lt x)
  have h2 := rneSqrt_nonneg (x / (2 ^ F.sqrtUlpExp x) ^ 2)
  have h3 := h.log_ge hx.ne'
  have h4 := h.log_le hx.ne'
  rw [abs_of_pos hx] at h3 h4
  have hp := F.two_le_p
  have he := F.p_le_emax
  refine F.representable_of (by rwa [abs_of_nonneg h2]) (by unfold sqrtUlpExp; unfold emin at *; omega) ?_
  rw [abs_of_nonneg (by positivity)]
  calc (rneSqrt (x / (2 ^ F.sqrtUlpExp x) ^ 2) : ℚ) * 2 ^ F.sqrtUlpExp x ≤ 2 ^ F.p * 2 ^ F.sqrtUlpExp x :=
        mul_le_mul_of_nonneg_right (by exact_mod_cast h1) (by positivity)
    _ = 2 ^ ((F.p : ℤ) + F.sqrtUlpExp x) := by rw [zpow_add₀ (by norm_num), zpow_natCast]
    _ < _ := zpow_lt_zpow_right₀ (by norm_num) (by unfold sqrtUlpExp; omega)

theorem roundSqrt_ne_zero {x : ℚ} (hx : 0 < x) : F.roundSqrt x ≠ 0 := by
  have h1 : (2 : ℚ) ^ Int.log 2 x ≤ x := Int.zpow_log_le_self (b := 2) (by norm_num) hx
  have h2 : 1 ≤ x / (2 ^ F.sqrtUlpExp x) ^ 2 := by
    rw [le_div_iff₀ (by positivity), one_mul]
    refine le_trans ?_ h1
    rw [← zpow_natCast, ← zpow_mul]
    exact zpow_le_zpow_right₀ (by norm_num) (by have := F.two_le_p; unfold sqrtUlpExp; push_cast; omega)
  refine mul_ne_zero ?_ (by positivity)
  have h3 : 1 ≤ Nat.sqrt ⌊x / (2 ^ F.sqrtUlpExp x) ^ 2⌋.toNat := by
    rw [Nat.le_sqrt']
    have : 1 ≤ ⌊x / (2 ^ F.sqrtUlpExp x) ^ 2⌋ := Int.le_floor.2 (by exact_mod_cast h2)
    omega
  unfold rneSqrt
  generalize Nat.sqrt ⌊x / (2 ^ F.sqrtUlpExp x) ^ 2⌋.toNat = f at *
  simp only
  intro h
  norm_cast at h
  revert h
  split_ifs <;> intro h <;> omega

theorem representable_neg {x : ℚ} (h : F.Representable x) : F.Representable (-x) := by
  obtain ⟨⟨m, e, rfl, h1, h2⟩, h3⟩ := h
  exact ⟨⟨-m, e, by push_cast; ring, by rwa [abs_neg], h2⟩, by rwa [abs_neg]⟩

theorem representable_abs {x : ℚ} (h : F.Representable x) : F.Representable |x| := by
  rcases abs_choice x with h1 | h1 <;> rw [h1]
  · exact h
  · exact F.representable_neg h

theorem representable_one : F.Representable 1 := by
  have hp := F.two_le_p
  have he := F.p_le_emax
  refine ⟨⟨1, 0, by norm_num, ?_, by unfold emin; omega⟩, ?_⟩
  · rw [abs_one]; exact one_lt_pow₀ (by norm_num) (by omega)
  · rw [abs_one]; exact one_lt_zpow₀ (by norm_num) (by omega)

end Fmt

/-- A floating point number of the format `F`. `fin` holds the non-zero finite numbers; `neg` is the sign bit. -/
inductive Ieee (F : Fmt)
  | nan
  | inf (neg : Bool)
  | zero (neg : Bool)
  | fin (x : ℚ) (h0 : x ≠ 0) (hr : F.Representable x)

namespace Ieee

variable {F : Fmt}

instance : DecidableEq (Ieee F)
  | nan, nan => .isTrue rfl
  | inf s, inf t => decidable_of_iff (s = t) (by simp)
  | zero s, zero t => decidable_of_iff (s = t) (by simp)
  | fin x _ _, fin y _ _ => decidable_of_iff (x = y) (by simp)
  | nan, inf _ => .isFalse (by simp)
  | nan, zero _ => .isFalse (by simp)
  | nan, fin _ _ _ => .isFalse (by simp)
  | inf _, nan => .isFalse (by simp)
  | inf _, zero _ => .isFalse (by simp)
  | inf _, fin _ _ _ => .isFalse (by simp)
  | zero _, nan => .isFalse (by simp)
  | zero _, inf _ => .isFalse (by simp)
  | zero _, fin _ _ _ => .isFalse (by simp)
  | fin _ _ _, nan => .isFalse (by simp)
  | fin _ _ _, inf _ => .isFalse (by simp)
  | fin _ _ _, zero _ => .isFalse (by simp)

/-- IEEE-754 §4.3.1, §7.4, §7.5: the floating point number for the exact result `x ≠ 0`: overflow gives an infinity,
underflow to zero keeps the sign. -/
def round (x : ℚ) : Ieee F :=
  if h0 : F.roundQ x = 0 then zero (decide (x < 0))
  else if h : |F.roundQ x| < 2 ^ (F.emax + 1) then fin (F.roundQ x) h0 (F.representable_roundQ x h)
  else inf (decide (x < 0))

/-- Unary minus flips the sign bit. -/
def neg : Ieee F → Ieee F
  | nan => nan
  | inf s => inf (!s)
  | zero s => zero (!s)
  | fin x h0 hr => fin (-x) (neg_ne_zero.2 h0) (F.representable_neg hr)

/-- `f32::abs`, `f64::abs` clear the sign bit. -/
def abs : Ieee F → Ieee F
  | nan => nan
  | inf _ => inf false
  | zero _ => zero false
  | fin x h0 hr => fin |x| (abs_ne_zero.2 h0) (F.representable_abs hr)

/-- `a + b` (IEEE-754 §5.4.1, §6.1, §6.3: an exact zero sum of operands of opposite sign is `+0`). -/
def add : Ieee F → Ieee F → Ieee F
  | nan, _ => nan
  | _, nan => nan
  | inf s, inf t => if s = t then inf s else nan
  | inf s, _ => inf s
  | _, inf t => inf t
  | zero s, zero t => zero (s && t)
  | zero _, b => b
  | a, zero _ => a
  | fin x _ _, fin y _ _ => if x + y = 0 then zero false else round (x + y)

/-- `a - b` is `a + (-b)` in IEEE-754. -/
def sub (a b : Ieee F) : Ieee F := add a (neg b)

/-- `a * b` (the sign is the exclusive or of the signs; zero times infinity is NaN). -/
def mul : Ieee F → Ieee F → Ieee F
  | nan, _ => nan
  | _, nan => nan
  | inf _, zero _ => nan
  | zero _, inf _ => nan
  | inf s, inf t => inf (xor s t)
  | inf s, fin y _ _ => inf (xor s (decide (y < 0)))
  | fin x _ _, inf t => inf (xor (decide (x < 0)) t)
  | zero s, zero t => zero (xor s t)
  | zero s, fin y _ _ => zero (xor s (decide (y < 0)))
  | fin x _ _, zero t => zero (xor (decide (x < 0)) t)
  | fin x _ _, fin y _ _ => round (x * y)

/-- `a / b` (`0/0` and `inf/inf` are NaN, a non-zero number divided by zero is an infinity). -/
def div : Ieee F → Ieee F → Ieee F
  | nan, _ => nan
  | _, nan => nan
  | inf _, inf _ => nan
  | inf s, zero t => inf (xor s t)
  | inf s, fin y _ _ => inf (xor s (decide (y < 0)))
  | zero _, zero _ => nan
  | zero s, inf t => zero (xor s t)
  | zero s, fin y _ _ => zero (xor s (decide (y < 0)))
  | fin x _ _, inf t => zero (xor (decide (x < 0)) t)
  | fin x _ _, zero t => inf (xor (decide (x < 0)) t)
  | fin x _ _, fin y _ _ => round (x / y)

/-- `f32::sqrt`, `f64::sqrt`. -/
def sqrt : Ieee F → Ieee F
  | nan => nan
  | inf s => if s then nan else inf false
  | zero s => zero s
  | fin x _ hr =>
    if h : 0 < x then fin (F.roundSqrt x) (F.roundSqrt_ne_zero h) (F.representable_roundSqrt h hr) else nan

/-- The position of a number on the extended real line; none for NaN. The first component is -1, 0, 1 for -inf, finite
numbers, +inf. -/
def key : Ieee F → Option (ℤ × ℚ)
  | nan => none
  | inf true => some (-1, 0)
  | inf false => some (1, 0)
  | zero _ => some (0, 0)
  | fin x _ _ => some (0, x)

/-- `a == b`: false if an operand is NaN; `0 == -0`. -/
def feq (a b : Ieee F) : Bool :=
  match a.key, b.key with
  | some k, some l => decide (k = l)
  | _, _ => false

/-- `a < b`: false if an operand is NaN. -/
def flt (a b : Ieee F) : Bool :=
  match a.key, b.key with
  | some k, some l => decide (k.1 < l.1 ∨ k.1 = l.1 ∧ k.2 < l.2)
  | _, _ => false

/-- `a <= b`: false if an operand is NaN. -/
def fle (a b : Ieee F) : Bool :=
  match a.key, b.key with
  | some k, some l => decide (k.1 < l.1 ∨ k.1 = l.1 ∧ k.2 ≤ l.2)
  | _, _ => false

/-- src/algebra/ring.rs:15-19 `T::from(0i8)`. -/
instance : RZero (Ieee F) := ⟨zero false⟩
/-- src/algebra/ring.rs:34-38 `T::from(1i8)`. -/
instance : ROne (Ieee F) := ⟨fin 1 one_ne_zero F.representable_one⟩
instance : AddAssignRef (Ieee F) := ⟨fun a b => .done (add a b)⟩
instance : SubAssignRef (Ieee F) := ⟨fun a b => .done (sub a b)⟩
instance : MulRefs (Ieee F) := ⟨fun a b => .ok (mul a b)⟩
instance : DivRefs (Ieee F) := ⟨fun a b => .ok (div a b)⟩
instance : RNeg (Ieee F) := ⟨fun a => .ok (neg a)⟩
instance : RPartialEq (Ieee F) := ⟨feq⟩
instance : RPartialOrd (Ieee F) := ⟨flt, fle⟩
/-- src/algebra/ring.rs:128-129. -/
instance : RRing (Ieee F) where
instance : RField (Ieee F) where
instance : RAdd (Ieee F) (Ieee F) (Ieee F) := ⟨fun a b => .ok (add a b)⟩
instance : RSub (Ieee F) (Ieee F) (Ieee F) := ⟨fun a b => .ok (sub a b)⟩
instance : RMul (Ieee F) (Ieee F) (Ieee F) := ⟨fun a b => .ok (mul a b)⟩
instance : RDiv (Ieee F) (Ieee F) (Ieee F) := ⟨fun a b => .ok (div a b)⟩
instance : RAddAssign (Ieee F) (Ieee F) := ⟨fun a b => .done (add a b)⟩
instance : RSubAssign (Ieee F) (Ieee F) := ⟨fun a b => .done (sub a b)⟩
/-- src/functions/sqrt.rs:9-13, 47-51. -/
instance : RSqrt (Ieee F) := ⟨fun a => .ok (sqrt a)⟩
/-- src/functions/abs.rs:10-16, 28-34, 46-52, 64-70. -/
instance : RAbs (Ieee F) (Ieee F) := ⟨fun a => .ok (abs a)⟩
/-- src/algebra/conj.rs:10-21. -/
instance : RConj (Ieee F) := ⟨fun a => .ok a⟩

end Ieee

end Magnesia
