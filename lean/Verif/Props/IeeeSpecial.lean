import Verif.Props.Ieee

/-!
# Property C50: special values of IEEE-754 arithmetic in complex numbers and polynomials

All statements hold for every binary format `F`, in particular `f32` and `f64`.
-/

namespace Magnesia

open RZero ROne MulRefs

variable {F : Fmt}

namespace Ieee

@[simp] theorem nan_add (a : Ieee F) : add nan a = nan := by cases a <;> rfl
@[simp] theorem add_nan (a : Ieee F) : add a nan = nan := by cases a <;> rfl
@[simp] theorem nan_sub (a : Ieee F) : sub nan a = nan := nan_add _
@[simp] theorem sub_nan (a : Ieee F) : sub a nan = nan := add_nan _
@[simp] theorem nan_mul (a : Ieee F) : mul nan a = nan := by cases a <;> rfl
@[simp] theorem mul_nan (a : Ieee F) : mul a nan = nan := by cases a <;> rfl
@[simp] theorem nan_div (a : Ieee F) : div nan a = nan := by cases a <;> rfl
@[simp] theorem div_nan (a : Ieee F) : div a nan = nan := by cases a <;> rfl

/-- NaN or infinite with either sign. -/
def Huge (a : Ieee F) : Prop := a = nan ∨ ∃ s, a = inf s

theorem huge_iff {a : Ieee F} : a.Huge ↔ ¬ a.Finite := by
  cases a <;> simp [Huge, Finite]

theorem huge_mul_inf (a : Ieee F) (s : Bool) : (a.mul (inf s)).Huge := by
  cases a
  · exact .inl rfl
  · exact .inr ⟨_, rfl⟩
  · exact .inl rfl
  · exact .inr ⟨_, rfl⟩

theorem Huge.add {a : Ieee F} (h : a.Huge) (b : Ieee F) : (a.add b).Huge :=
  huge_iff.2 fun h1 => huge_iff.1 h (add_finite h1).1

theorem Huge.add' {a : Ieee F} (h : a.Huge) (b : Ieee F) : (b.add a).Huge :=
  huge_iff.2 fun h1 => huge_iff.1 h (add_finite h1).2.1

theorem Huge.sub {a : Ieee F} (h : a.Huge) (b : Ieee F) : (a.sub b).Huge := h.add _

theorem Huge.sub' {a : Ieee F} (h : a.Huge) (b : Ieee F) : (b.sub a).Huge :=
  huge_iff.2 fun h1 => huge_iff.1 h (sub_finite h1).2.1

theorem Huge.mul_zero {a : Ieee F} (h : a.Huge) (s : Bool) : a.mul (.zero s) = nan := by
  rcases h with rfl | ⟨t, rfl⟩ <;> rfl

end Ieee

open Ieee (nan inf)

/-- The complex quotient in IEEE arithmetic, written out. -/
theorem ieee_cdiv (z w : Complex (Ieee F)) : z.div w =
    let r := (one : Ieee F).div ((w.re.mul w.re).add (w.im.mul w.im))
    .ok ⟨((z.re.mul w.re).add (z.im.mul w.im)).mul r, ((z.im.mul w.re).sub (z.re.mul w.im)).mul r⟩ := rfl

/-! ## Division -/

/-- C50: dividing any complex number by a complex zero, of whatever signs, gives NaN in both parts, never an infinity. -/
theorem C50_div_zero (z : Complex (Ieee F)) (s t : Bool) : z.div ⟨.zero s, .zero t⟩ = .ok ⟨nan, nan⟩ := by
  rw [ieee_cdiv]
  have key : ∀ (a b : Ieee F) (s t : Bool), ((a.mul (.zero s)).add (b.mul (.zero t))).mul (inf false) = nan := by
    intro a b s t; cases a <;> cases b <;> rfl
  have key' : ∀ (a b : Ieee F) (s t : Bool), ((a.mul (.zero s)).sub (b.mul (.zero t))).mul (inf false) = nan := by
    intro a b s t; cases a <;> cases b <;> rfl
  have e : (one : Ieee F).div (((.zero s : Ieee F).mul (.zero s)).add ((.zero t : Ieee F).mul (.zero t))) = inf false := by
    cases s <;> cases t <;> simp [Ieee.mul, Ieee.add, Ieee.div, one]
  simp only [e, key, key']

/-- C50: dividing anything, even a finite number, by a complex number with an infinite part gives NaN in both parts
(never zero). -/
theorem C50_div_infinite (z w : Complex (Ieee F)) (h : (∃ s, w.re = inf s) ∨ ∃ s, w.im = inf s) :
    z.div w = .ok ⟨nan, nan⟩ := by
  rw [ieee_cdiv]
  have hr : (one : Ieee F).div ((w.re.mul w.re).add (w.im.mul w.im)) = nan ∨
      ∃ s, (one : Ieee F).div ((w.re.mul w.re).add (w.im.mul w.im)) = .zero s := by
    have : ((w.re.mul w.re).add (w.im.mul w.im)).Huge := by
      rcases h with ⟨s, h⟩ | ⟨s, h⟩ <;> rw [h]
      · exact (Ieee.huge_mul_inf _ s).add _
      · exact (Ieee.huge_mul_inf _ s).add' _
    rcases this with h1 | ⟨t, h1⟩ <;> rw [h1]
    · exact .inl (by simp)
    · exact .inr ⟨_, rfl⟩
  have h1 : ((z.re.mul w.re).add (z.im.mul w.im)).Huge := by
    rcases h with ⟨s, h⟩ | ⟨s, h⟩ <;> rw [h]
    · exact (Ieee.huge_mul_inf _ s).add _
    · exact (Ieee.huge_mul_inf _ s).add' _
  have h2 : ((z.im.mul w.re).sub (z.re.mul w.im)).Huge := by
    rcases h with ⟨s, h⟩ | ⟨s, h⟩ <;> rw [h]
    · exact (Ieee.huge_mul_inf _ s).sub _
    · exact (Ieee.huge_mul_inf _ s).sub' _
  rcases hr with e | ⟨s, e⟩ <;> simp only [e]
  · simp
  · rw [h1.mul_zero, h2.mul_zero]

/-- C50: if `sqr_norm` of the divisor overflows, both parts of the quotient are zero or NaN, whatever the true quotient. -/
theorem C50_div_norm_overflow (z w q : Complex (Ieee F)) (s : Bool) (hw : w.sqrNorm = .ok (inf s))
    (hq : z.div w = .ok q) : (q.re = nan ∨ ∃ t, q.re = .zero t) ∧ (q.im = nan ∨ ∃ t, q.im = .zero t) := by
  rw [ieee_cdiv] at hq
  have e : (w.re.mul w.re).add (w.im.mul w.im) = inf s := Except.ok.inj hw
  simp only [e] at hq
  cases hq
  have key : ∀ (a : Ieee F), a.mul ((one : Ieee F).div (inf s)) = nan ∨ ∃ t, a.mul ((one : Ieee F).div (inf s)) = .zero t := by
    intro a
    cases a
    · exact .inl rfl
    · exact .inl rfl
    · exact .inr ⟨_, rfl⟩
    · exact .inr ⟨_, rfl⟩
  exact ⟨key _, key _⟩

/-- C50: if `sqr_norm` of the divisor underflows to zero, no part of the quotient is finite, whatever the true quotient. -/
theorem C50_div_norm_underflow (z w q : Complex (Ieee F)) (s : Bool) (hw : w.sqrNorm = .ok (.zero s))
    (hq : z.div w = .ok q) : ¬ q.re.Finite ∧ ¬ q.im.Finite := by
  rw [ieee_cdiv] at hq
  have e : (w.re.mul w.re).add (w.im.mul w.im) = .zero s := Except.ok.inj hw
  simp only [e] at hq
  cases hq
  exact ⟨fun h => (Ieee.mul_finite h).2.1, fun h => (Ieee.mul_finite h).2.1⟩

/-! ## NaN operands -/

/-- C50: a NaN part of an operand makes both parts of the product and of the quotient NaN. -/
theorem C50_nan_mul_div (z w : Complex (Ieee F)) (h : z.re = nan ∨ z.im = nan ∨ w.re = nan ∨ w.im = nan) :
    z.mul w = .ok ⟨nan, nan⟩ ∧ z.div w = .ok ⟨nan, nan⟩ := by
  rw [ieee_cmul, ieee_cdiv]
  rcases h with h | h | h | h <;> simp [h]

/-- C50: a NaN part of an operand makes that part of the sum and the difference NaN. -/
theorem C50_nan_add_sub (z w : Complex (Ieee F)) :
    (z.re = nan ∨ w.re = nan → (∃ y, z.add w = .ok (⟨nan, y⟩ : Complex (Ieee F))) ∧
      ∃ y, z.sub w = .ok (⟨nan, y⟩ : Complex (Ieee F))) ∧
    (z.im = nan ∨ w.im = nan → (∃ x, z.add w = .ok (⟨x, nan⟩ : Complex (Ieee F))) ∧
      ∃ x, z.sub w = .ok (⟨x, nan⟩ : Complex (Ieee F))) := by
  have e1 : (z.add w : Res (Complex (Ieee F))) = .ok ⟨z.re.add w.re, z.im.add w.im⟩ := rfl
  have e2 : (z.sub w : Res (Complex (Ieee F))) = .ok ⟨z.re.sub w.re, z.im.sub w.im⟩ := rfl
  rw [e1, e2]
  constructor <;> rintro (h | h) <;> rw [h] <;> simp

theorem ieee_sqrNorm (z : Complex (Ieee F)) : z.sqrNorm = .ok ((z.re.mul z.re).add (z.im.mul z.im)) := rfl

theorem ieee_abs (z : Complex (Ieee F)) : z.abs = .ok ((z.re.mul z.re).add (z.im.mul z.im)).sqrt := rfl

/-- C50: a NaN part makes `sqr_norm`, `abs` and both parts of `sqrt` NaN (also if the other part is infinite). -/
theorem C50_nan_abs_sqrt (z : Complex (Ieee F)) (h : z.re = nan ∨ z.im = nan) :
    z.sqrNorm = .ok nan ∧ z.abs = .ok nan ∧ z.sqrt = .ok ⟨nan, nan⟩ := by
  obtain ⟨x, y⟩ := z
  have e : (x.mul x).add (y.mul y) = nan := by rcases h with rfl | rfl <;> simp
  refine ⟨by rw [ieee_sqrNorm, e], by rw [ieee_abs, e]; rfl, ?_⟩
  have hc : RPartialOrd.le x.abs (y.abs.mul ((one : Ieee F).add one)) = false := by
    rcases h with rfl | rfl
    · rfl
    · rw [show (nan : Ieee F).abs = nan from rfl, Ieee.nan_mul]
      show Ieee.fle _ _ = _
      unfold Ieee.fle
      cases x.abs.key <;> rfl
  have hs : ∀ t o : Ieee F, (⟨x, y⟩ : Complex (Ieee F)).sqrtStable nan t o = .ok (nan, nan) := by
    intro t o
    show (if RPartialOrd.le zero x = true then _ else _) = _
    simp only [Ieee.nan_add, Ieee.nan_mul, show (nan : Ieee F).sqrt = nan from rfl, Ieee.div_nan]
    exact ite_self _
  show (do
    let parts ← (if RPartialOrd.le x.abs (y.abs.mul ((one : Ieee F).add one)) then
      (⟨x, y⟩ : Complex (Ieee F)).sqrtDirect ((x.mul x).add (y.mul y)).sqrt ((one : Ieee F).div ((one : Ieee F).add one))
      else (⟨x, y⟩ : Complex (Ieee F)).sqrtStable ((x.mul x).add (y.mul y)).sqrt ((one : Ieee F).add one)
        ((one : Ieee F).div ((one : Ieee F).add one)))
    let im ← (if RPartialOrd.lt y zero then RNeg.neg parts.2 else pure parts.2)
    (pure ⟨parts.1, im⟩ : Res (Complex (Ieee F)))) = _
  rw [hc, e, show (nan : Ieee F).sqrt = nan from rfl]
  simp only [Bool.false_eq_true, if_false, hs]
  show (do
    let im ← (if RPartialOrd.lt y zero then RNeg.neg (nan : Ieee F) else pure nan)
    (pure ⟨nan, im⟩ : Res (Complex (Ieee F)))) = _
  split <;> rfl

theorem horner_nan (x : Ieee F) (l : List (Ieee F)) : l.foldlM (fun y a => do
    let y ← mulRefs y x
    (AddAssignRef.addAssign y a).toRes) nan = .ok nan := by
  induction l with
  | nil => rfl
  | cons a l ih => 
    rw [List.foldlM_cons, horner_step]
    show l.foldlM _ (((nan : Ieee F).mul x).add a) = _
    rw [Ieee.nan_mul, Ieee.nan_add]
    exact ih

/-- C50: a NaN coefficient makes every value of a polynomial NaN. -/
theorem C50_eval_nan (a : List (Ieee F)) (x : Ieee F) (h : nan ∈ a) : (Poly.fromCoefficients a).eval x = .ok nan := by
  have key : ∀ (l : List (Ieee F)) (s : Ieee F), nan ∈ l → l.foldlM (fun y a => do
      let y ← mulRefs y x
      (AddAssignRef.addAssign y a).toRes) s = .ok nan := by
    intro l
    induction l with
    | nil => intro s h; cases h
    | cons a l ih =>
      intro s h
      rw [List.foldlM_cons, horner_step]
      rcases List.mem_cons.1 h with rfl | h
      · show l.foldlM _ ((s.mul x).add nan) = _
        rw [Ieee.add_nan, horner_nan]
      · exact ih _ h
  exact key _ _ (List.mem_reverse.2 h)

/-- C50: the value of any polynomial with at least one coefficient - even a constant one - at an infinity or at NaN is
NaN, as evaluation starts with `0 * x`. -/
theorem C50_eval_at_infinity (a : List (Ieee F)) (x : Ieee F) (ha : a ≠ []) (hx : ¬ x.Finite) :
    (Poly.fromCoefficients a).eval x = .ok nan := by
  show a.reverse.foldlM _ _ = _
  cases hr : a.reverse with
  | nil => exact (ha (by simpa using hr)).elim
  | cons b l =>
    rw [List.foldlM_cons, horner_step]
    have : (zero : Ieee F).mul x = nan := by
      cases x with
      | nan => rfl
      | inf => rfl
      | zero => exact (hx trivial).elim
      | fin => exact (hx trivial).elim
    show l.foldlM _ (((zero : Ieee F).mul x).add b) = _
    rw [this, Ieee.nan_add, horner_nan]

/-- C50: multiplying a complex number that has an infinite part by one that has a zero part (such as `one()`, or any real
or purely imaginary number) gives a NaN part. -/
theorem C50_mul_infinite (z w p : Complex (Ieee F)) (hz : (∃ s, z.re = inf s) ∨ ∃ s, z.im = inf s)
    (hw : (∃ s, w.re = .zero s) ∨ ∃ s, w.im = .zero s) (hp : z.mul w = .ok p) : p.re = nan ∨ p.im = nan := by
  rw [ieee_cmul] at hp
  cases hp
  have e : ∀ s t : Bool, (inf s : Ieee F).mul (.zero t) = nan := fun _ _ => rfl
  rcases hz with ⟨s, hz⟩ | ⟨s, hz⟩ <;> rcases hw with ⟨t, hw⟩ | ⟨t, hw⟩ <;> simp [hz, hw, e]

/-! ## Overflow and underflow of the squares -/

namespace Ieee

theorem fin_eq_round {x : ℚ} (h0 : x ≠ 0) (hr : F.Representable x) : (fin x h0 hr : Ieee F) = round x := by
  unfold round
  have := F.roundQ_representable hr
  rw [dif_neg (by rwa [this]), dif_pos (by rw [this]; exact hr.2)]
  simp only [this]

/-- Overflow. -/
theorem round_inf {x : ℚ} (h : 2 ^ (F.emax + 1) ≤ |x|) : (round x : Ieee F) = inf (decide (x < 0)) := by
  have h1 := F.le_abs_roundQ (by have := F.emin_le_emax; omega) h
  unfold round
  rw [dif_neg, dif_neg (not_lt.2 h1)]
  intro h2
  rw [h2, abs_zero] at h1
  exact absurd h1 (not_le.2 (by positivity))

theorem eta_lt_emin (F : Fmt) : F.η < 2 ^ F.emin := by
  unfold Fmt.η
  exact zpow_lt_zpow_right₀ (by norm_num) (by have := F.two_le_p; omega)

theorem ulp_tiny (F : Fmt) {x : ℚ} (h0 : x ≠ 0) (h : |x| < 2 ^ F.emin) : F.ulp x = 2 * F.η := by
  rw [Fmt.ulp, Fmt.ulpExp, F.max_log_of_tiny h0 h, Fmt.η, ← zpow_one_add₀ (by norm_num)]
  congr 1; ring

/-- Underflow to zero. -/
theorem roundQ_underflow {x : ℚ} (h0 : 0 ≤ x) (h : x ≤ F.η) : F.roundQ x = 0 := by
  by_cases hx : x = 0
  · rw [hx, F.roundQ_zero]
  have h1 : |x| < 2 ^ F.emin := by rw [abs_of_nonneg h0]; exact h.trans_lt (eta_lt_emin F)
  rw [Fmt.roundQ, ulp_tiny F hx h1]
  have hη := F.η_pos
  have h2 : 0 ≤ x / (2 * F.η) := by positivity
  have h3 : x / (2 * F.η) ≤ 1 / 2 := by rw [div_le_iff₀ (by positivity)]; linarith
  have h4 : ⌊x / (2 * F.η)⌋ = 0 := Int.floor_eq_zero_iff.2 ⟨h2, by linarith⟩
  have : rne (x / (2 * F.η)) = 0 := by
    unfold rne
    rw [h4]
    simp only [Int.cast_zero, sub_zero]
    split_ifs with h5 h6 h7
    · rfl
    · exact absurd h6 (not_lt.2 h3)
    · rfl
    · exact (h7 rfl).elim
  rw [this]; simp

theorem sq_overflow {a : Ieee F} (h : 2 ^ (F.emax + 1) ≤ a.value ^ 2) : a.mul a = inf false := by
  have h0 : a.value ≠ 0 := by
    intro h0; rw [h0] at h
    exact absurd h (not_le.2 (by rw [zero_pow two_ne_zero]; positivity))
  rw [mul_fin h0 h0, round_inf (by rw [← pow_two, abs_of_nonneg (sq_nonneg _)]; exact h)]
  rw [decide_eq_false]
  exact not_lt.2 (mul_self_nonneg _)

theorem sq_underflow {a : Ieee F} (ha : a.Finite) (h : a.value ^ 2 ≤ F.η) : a.mul a = .zero false := by
  cases a with
  | nan => exact ha.elim
  | inf => exact ha.elim
  | zero s => cases s <;> rfl
  | fin x h0 hr =>
    have h1 : F.roundQ (x * x) = 0 := roundQ_underflow (mul_self_nonneg _) (by rw [← pow_two]; exact h)
    show round (x * x) = _
    unfold round
    rw [dif_pos h1, decide_eq_false (not_lt.2 (mul_self_nonneg _))]

/-- The square of a finite number is `+0`, a positive number or `+inf`. -/
theorem sq_cases {a : Ieee F} (ha : a.Finite) : a.mul a = .zero false ∨ a.mul a = inf false ∨ (a.mul a).Finite := by
  cases a with
  | nan => exact ha.elim
  | inf => exact ha.elim
  | zero s => cases s <;> exact .inl rfl
  | fin x h0 hr =>
    show (round (x * x) : Ieee F) = _ ∨ (round (x * x) : Ieee F) = _ ∨ (round (x * x) : Ieee F).Finite
    unfold round
    rw [decide_eq_false (not_lt.2 (mul_self_nonneg _))]
    split_ifs
    · exact .inl rfl
    · exact .inr (.inr trivial)
    · exact .inr (.inl rfl)

theorem inf_add_sq {a : Ieee F} (ha : a.Finite) : (inf false : Ieee F).add (a.mul a) = inf false ∧
    (a.mul a).add (inf false) = inf false := by
  rcases sq_cases ha with h | h | h
  · rw [h]; exact ⟨rfl, rfl⟩
  · rw [h]; exact ⟨rfl, rfl⟩
  · generalize a.mul a = b at h
    cases b
    · exact h.elim
    · exact h.elim
    · exact ⟨rfl, rfl⟩
    · exact ⟨rfl, rfl⟩

end Ieee

/-- C50: if the square of a part of a finite `z` is at least `2^(emax+1)`, `sqr_norm` and `abs` are infinite - although
`|z|` itself may be far below the largest number. -/
theorem C50_abs_overflow (z : Complex (Ieee F)) (hr : z.re.Finite) (hi : z.im.Finite)
    (h : 2 ^ (F.emax + 1) ≤ z.re.value ^ 2 ∨ 2 ^ (F.emax + 1) ≤ z.im.value ^ 2) :
    z.sqrNorm = .ok (inf false) ∧ z.abs = .ok (inf false) := by
  have e : (z.re.mul z.re).add (z.im.mul z.im) = inf false := by
    rcases h with h | h <;> rw [Ieee.sq_overflow h]
    · exact (Ieee.inf_add_sq hi).1
    · exact (Ieee.inf_add_sq hr).2
  rw [ieee_sqrNorm, ieee_abs, e]
  exact ⟨rfl, rfl⟩

/-- C50: if the squares of both parts are at most half the smallest positive number, `sqr_norm` and `abs` are zero, even
if `z` is not. -/
theorem C50_abs_underflow (z : Complex (Ieee F)) (hr : z.re.Finite) (hi : z.im.Finite) (h1 : z.re.value ^ 2 ≤ F.η)
    (h2 : z.im.value ^ 2 ≤ F.η) : z.sqrNorm = .ok (.zero false) ∧ z.abs = .ok (.zero false) := by
  rw [ieee_sqrNorm, ieee_abs, Ieee.sq_underflow hr h1, Ieee.sq_underflow hi h2]
  exact ⟨rfl, rfl⟩

theorem Fmt.representable_zpow (F : Fmt) {e : ℤ} (h1 : F.emin - (F.p - 1) ≤ e) (h2 : e ≤ F.emax) :
    F.Representable (2 ^ e) := by
  have := F.two_le_p
  refine ⟨⟨1, e, by simp, ?_, h1⟩, ?_⟩
  · rw [abs_one]; exact one_lt_pow₀ (by norm_num) (by omega)
  · rw [abs_of_pos (by positivity)]; exact zpow_lt_zpow_right₀ (by norm_num) (by omega)

/-- C50: in every format there are a non-zero representable real number whose `abs()` as a complex number is zero and a
finite one whose `abs()` is infinite. -/
theorem C50_abs_wrong (F : Fmt) :
    (∃ x : Ieee F, x.Finite ∧ 0 < x.value ∧ (⟨x, .zero false⟩ : Complex (Ieee F)).abs = .ok (.zero false)) ∧
    ∃ x : Ieee F, x.Finite ∧ 0 < x.value ∧ (⟨x, .zero false⟩ : Complex (Ieee F)).abs = .ok (inf false) := by
  have hp := F.two_le_p
  have he := F.p_le_emax
  have hm : F.emin = 1 - F.emax := rfl
  constructor
  · refine ⟨.fin (2 ^ (F.emin - (F.p - 1))) (by positivity) (F.representable_zpow le_rfl (by omega)), trivial,
      by show (0 : ℚ) < 2 ^ _; positivity, (C50_abs_underflow ⟨.fin _ _ _, .zero _⟩ trivial trivial ?_ ?_).2⟩
    · show ((2 : ℚ) ^ (F.emin - (F.p - 1))) ^ 2 ≤ 2 ^ (F.emin - F.p)
      rw [← zpow_natCast, ← zpow_mul]
      exact zpow_le_zpow_right₀ (by norm_num) (by push_cast; omega)
    · show (0 : ℚ) ^ 2 ≤ _
      rw [zero_pow two_ne_zero]; exact F.η_pos.le
  · refine ⟨.fin (2 ^ F.emax) (by positivity) (F.representable_zpow (by omega) le_rfl), trivial,
      by show (0 : ℚ) < 2 ^ _; positivity, (C50_abs_overflow ⟨.fin _ _ _, .zero _⟩ trivial trivial (.inl ?_)).2⟩
    show (2 : ℚ) ^ (F.emax + 1) ≤ (2 ^ F.emax) ^ 2
    rw [← zpow_natCast, ← zpow_mul]
    exact zpow_le_zpow_right₀ (by norm_num) (by push_cast; omega)

/-! ## Square root -/

theorem ieee_two : (one : Ieee F).add one = .round 2 := by
  rw [Ieee.add_fin (a := (one : Ieee F)) (b := one) trivial trivial (by show (1 : ℚ) + 1 ≠ 0; norm_num)]
  show Ieee.round ((1 : ℚ) + 1) = _
  norm_num

theorem Fmt.representable_two (F : Fmt) : F.Representable 2 := by
  have hp := F.two_le_p
  have he := F.p_le_emax
  have hm : F.emin = 1 - F.emax := rfl
  simpa using F.representable_zpow (e := 1) (by omega) (by omega)

theorem Fmt.representable_half (F : Fmt) : F.Representable (1 / 2) := by
  have hp := F.two_le_p
  have he := F.p_le_emax
  have hm : F.emin = 1 - F.emax := rfl
  simpa using F.representable_zpow (e := -1) (by omega) (by omega)

theorem ieee_two' : (one : Ieee F).add one = .fin 2 two_ne_zero F.representable_two := by
  rw [ieee_two, Ieee.fin_eq_round]

theorem ieee_half : (one : Ieee F).div ((one : Ieee F).add one) = .fin (1 / 2) (by norm_num) F.representable_half := by
  rw [ieee_two', Ieee.div_fin (a := (one : Ieee F)) (b := .fin 2 two_ne_zero F.representable_two)
    (by show (1 : ℚ) ≠ 0; norm_num) (by show (2 : ℚ) ≠ 0; norm_num)]
  exact (Ieee.fin_eq_round _ _).symm

/-- The square root in IEEE arithmetic, written out. -/
theorem ieee_csqrt (z : Complex (Ieee F)) : z.sqrt = (
    let two : Ieee F := .fin 2 two_ne_zero F.representable_two
    let half : Ieee F := .fin (1 / 2) (by norm_num) F.representable_half
    let h := ((z.re.mul z.re).add (z.im.mul z.im)).sqrt
    let r := if z.re.abs.fle (z.im.abs.mul two) then (((h.add z.re).mul half).sqrt, ((h.sub z.re).mul half).sqrt)
      else
        let a := z.im.abs.div ((h.add z.re.abs).mul two).sqrt
        let b := ((h.add z.re.abs).mul half).sqrt
        if (zero : Ieee F).fle z.re then (b, a) else (a, b)
    .ok ⟨r.1, if z.im.flt zero then r.2.neg else r.2⟩) := by
  rw [← ieee_half]
  simp only [← ieee_two']
  show (do
    let parts ← (if RPartialOrd.le z.re.abs (z.im.abs.mul ((one : Ieee F).add one)) then _ else _ : Res (Ieee F × Ieee F))
    let im ← (if RPartialOrd.lt z.im zero then RNeg.neg parts.2 else pure parts.2)
    (pure ⟨parts.1, im⟩ : Res (Complex (Ieee F)))) = _
  show (do
    let parts ← (if Ieee.fle z.re.abs (z.im.abs.mul ((one : Ieee F).add one)) then _ else _ : Res (Ieee F × Ieee F))
    let im ← (if Ieee.flt z.im zero then RNeg.neg parts.2 else pure parts.2)
    (pure ⟨parts.1, im⟩ : Res (Complex (Ieee F)))) = _
  split
  · split <;> rfl
  · show (do
      let parts ← (if Ieee.fle zero z.re then _ else _ : Res (Ieee F × Ieee F))
      let im ← (if Ieee.flt z.im zero then RNeg.neg parts.2 else pure parts.2)
      (pure ⟨parts.1, im⟩ : Res (Complex (Ieee F)))) = _
    split <;> split <;> rfl

/-- C50: `sqrt` treats `x - 0i` like `x + 0i`: the sign of a zero imaginary part is ignored, so for `x < 0` the result is
not the conjugate (the limit from below the branch cut). -/
theorem C50_sqrt_signed_zero (x : Ieee F) :
    (⟨x, .zero true⟩ : Complex (Ieee F)).sqrt = (⟨x, .zero false⟩ : Complex (Ieee F)).sqrt := by
  rw [ieee_csqrt, ieee_csqrt]
  rfl

namespace Ieee

theorem inf_add {a : Ieee F} (ha : a.Finite) : (inf false : Ieee F).add a = inf false := by
  cases a <;> first | exact ha.elim | rfl

theorem inf_mul {x : ℚ} (h0 : x ≠ 0) (hr : F.Representable x) (hx : 0 < x) :
    (inf false : Ieee F).mul (fin x h0 hr) = inf false := by
  show inf (xor false (decide (x < 0))) = _
  rw [decide_eq_false (not_lt.2 hx.le)]; rfl

theorem zero_add {a : Ieee F} (h0 : a.value ≠ 0) : (.zero false : Ieee F).add a = a := by
  cases a <;> first | exact (h0 rfl).elim | rfl

theorem zero_sub {a : Ieee F} (h0 : a.value ≠ 0) : (.zero false : Ieee F).sub a = a.neg := by
  cases a <;> first | exact (h0 rfl).elim | rfl

theorem sqrt_neg {a : Ieee F} (h : a.value < 0) : a.sqrt = nan := by
  cases a with
  | fin x _ _ => exact dif_neg (not_lt.2 (le_of_lt h))
  | _ => exact absurd h (lt_irrefl 0)

/-- Rounding a negative number that does not underflow. -/
theorem round_neg {x : ℚ} (h : x < 0) (h1 : F.η < |x|) (h2 : |x| ≤ 1) : (round x : Ieee F).value < 0 := by
  have hx0 : x ≠ 0 := h.ne
  have h3 : F.roundQ x < 0 := by
    by_cases h4 : |x| < 2 ^ F.emin
    · have h5 := (abs_le.1 (F.roundQ_err_tiny h4)).2
      rw [abs_of_neg h] at h1
      linarith
    · have h5 := (abs_le.1 (F.roundQ_err_normal (not_lt.1 h4))).2
      rw [abs_of_neg h] at h5
      have := F.u_le_quarter
      nlinarith
  have he := F.emin_le_emax
  have hp := F.two_le_p
  have hpe := F.p_le_emax
  have h4 : |F.roundQ x| ≤ 2 ^ (0 : ℤ) := F.abs_roundQ_le (by show 1 - F.emax ≤ 0; omega) (by simpa using h2)
  unfold round
  rw [dif_neg h3.ne, dif_pos (h4.trans_lt (zpow_lt_zpow_right₀ (by norm_num) (by omega)))]
  exact h3

theorem eta_le_one (F : Fmt) : F.η ≤ 1 := by
  have hp := F.two_le_p
  have hpe := F.p_le_emax
  unfold Fmt.η
  exact zpow_le_one_of_nonpos₀ (by norm_num) (by show 1 - F.emax - (F.p : ℤ) ≤ 0; omega)

end Ieee

/-- C50: if the square of a part of a finite `z` overflows, `sqrt` has an infinite part - although the true square root of
every finite number is far below the largest number. -/
theorem C50_sqrt_overflow (z : Complex (Ieee F)) (hr : z.re.Finite) (hi : z.im.Finite)
    (h : 2 ^ (F.emax + 1) ≤ z.re.value ^ 2 ∨ 2 ^ (F.emax + 1) ≤ z.im.value ^ 2) :
    ∃ s, z.sqrt = .ok s ∧ ((∃ t, s.re = inf t) ∨ ∃ t, s.im = inf t) := by
  have e : ((z.re.mul z.re).add (z.im.mul z.im)).sqrt = inf false := by
    have := (C50_abs_overflow z hr hi h).2
    rw [ieee_abs] at this
    exact Except.ok.inj this
  refine ⟨_, ieee_csqrt z, ?_⟩
  simp only [e]
  have hb : (((inf false : Ieee F).add z.re.abs).mul (.fin (1 / 2) (by norm_num) F.representable_half)).sqrt = inf false := by
    rw [Ieee.inf_add (Ieee.abs_finite.2 hr), Ieee.inf_mul _ _ (by norm_num)]; rfl
  have hd : (((inf false : Ieee F).add z.re).mul (.fin (1 / 2) (by norm_num) F.representable_half)).sqrt = inf false := by
    rw [Ieee.inf_add hr, Ieee.inf_mul _ _ (by norm_num)]; rfl
  rw [hb, hd]
  split
  · exact .inl ⟨_, rfl⟩
  · split
    · exact .inl ⟨_, rfl⟩
    · right
      split
      · exact ⟨_, rfl⟩
      · exact ⟨_, rfl⟩

/-- C50: if the squares of both parts of `z` underflow and `|re| ≤ 2 |im|`, then a part of `sqrt` is NaN. (`2 F.η` is the
smallest positive number.) -/
theorem C50_sqrt_nan (z : Complex (Ieee F)) (hr : z.re.Finite) (hi : z.im.Finite) (h1 : z.re.value ^ 2 ≤ F.η)
    (h2 : z.im.value ^ 2 ≤ F.η) (h3 : |z.re.value| ≤ 2 * |z.im.value|) (h4 : 2 * F.η < |z.re.value|) :
    ∃ s, z.sqrt = .ok s ∧ (s.re = nan ∨ s.im = nan) := by
  have e : ((z.re.mul z.re).add (z.im.mul z.im)).sqrt = .zero false := by
    have := (C50_abs_underflow z hr hi h1 h2).2
    rw [ieee_abs] at this
    exact Except.ok.inj this
  have hη := F.η_pos
  have hη1 := Ieee.eta_le_one F
  have hre : z.re.value ≠ 0 := by intro h; rw [h, abs_zero] at h4; linarith
  have hre1 : |z.re.value| ≤ 1 := by
    rw [← sq_abs] at h1
    nlinarith [abs_nonneg z.re.value]
  have him : z.im.value ≠ 0 := by
    intro h; rw [h, abs_zero, mul_zero] at h3
    exact hre (abs_eq_zero.1 (le_antisymm h3 (abs_nonneg _)))
  refine ⟨_, ieee_csqrt z, ?_⟩
  simp only [e]
  have hc : z.re.abs.fle (z.im.abs.mul (.fin 2 two_ne_zero F.representable_two)) = true := by
    have hrep : F.Representable (|z.im.value| * 2) := by
      obtain ⟨⟨m, ex, h5, h6, h7⟩, _⟩ := F.representable_abs (Ieee.value_representable z.im)
      refine ⟨⟨m, ex + 1, ?_, h6, by omega⟩, ?_⟩
      · rw [h5, zpow_add_one₀ (by norm_num)]; ring
      · have h8 : |z.im.value| ≤ 1 := by
          rw [← sq_abs] at h2
          nlinarith [abs_nonneg z.im.value]
        have hp := F.two_le_p
        have hpe := F.p_le_emax
        rw [abs_of_nonneg (by positivity)]
        calc |z.im.value| * 2 ≤ 2 ^ (1 : ℤ) := by norm_num; linarith
          _ < _ := zpow_lt_zpow_right₀ (by norm_num) (by omega)
    have h0 : |z.im.value| * 2 ≠ 0 := mul_ne_zero (abs_ne_zero.2 him) two_ne_zero
    have : z.im.abs.mul (.fin 2 two_ne_zero F.representable_two) = .fin (|z.im.value| * 2) h0 hrep := by
      rw [Ieee.mul_fin (by rw [Ieee.abs_value]; exact abs_ne_zero.2 him) (by show (2 : ℚ) ≠ 0; norm_num), Ieee.abs_value]
      exact (Ieee.fin_eq_round _ _).symm
    rw [this]
    cases hz : z.re with
    | nan => rw [hz] at hre; exact (hre rfl).elim
    | inf => rw [hz] at hre; exact (hre rfl).elim
    | zero => rw [hz] at hre; exact (hre rfl).elim
    | fin x hx hx' =>
      rw [hz] at h3
      show decide (_ ∨ _) = true
      exact decide_eq_true (.inr ⟨rfl, by show |x| ≤ |z.im.value| * 2; have : |x| ≤ _ := h3; linarith⟩)
  rw [if_pos hc]
  have key : ∀ a : Ieee F, a.value < 0 → 2 * F.η < |a.value| → |a.value| ≤ 1 →
      (a.mul (.fin (1 / 2) (by norm_num) F.representable_half)).sqrt = nan := by
    intro a ha hb hc
    rw [Ieee.mul_fin ha.ne (by show (1 / 2 : ℚ) ≠ 0; norm_num)]
    refine Ieee.sqrt_neg (Ieee.round_neg ?_ ?_ ?_)
    · show a.value * (1 / 2) < 0; linarith
    · show F.η < |a.value * (1 / 2)|; rw [abs_mul]; norm_num; linarith
    · show |a.value * (1 / 2)| ≤ 1; rw [abs_mul]; norm_num; linarith
  rcases lt_or_gt_of_ne hre with hneg | hpos
  · left
    show (((.zero false : Ieee F).add z.re).mul _).sqrt = nan
    rw [Ieee.zero_add hre]
    exact key _ hneg h4 hre1
  · right
    have : (((.zero false : Ieee F).sub z.re).mul (.fin (1 / 2) (by norm_num) F.representable_half)).sqrt = nan := by
      rw [Ieee.zero_sub hre]
      exact key _ (by rw [Ieee.neg_value]; linarith) (by rw [Ieee.neg_value, abs_neg]; exact h4)
        (by rw [Ieee.neg_value, abs_neg]; exact hre1)
    show (if _ then _ else _) = nan
    rw [this]
    exact ite_self _

/-- C50: for a positive real number whose square underflows, `sqrt` returns the square root of half the number: it is too
small by a factor of about `√2`. -/
theorem C50_sqrt_half (x : ℚ) (h0 : x ≠ 0) (hr : F.Representable x) (hx : 2 ^ (F.emin + 1) ≤ x) (h : x ^ 2 ≤ F.η)
    (s : Bool) :
    ∃ r : Ieee F, (⟨.fin x h0 hr, .zero s⟩ : Complex (Ieee F)).sqrt = .ok ⟨r, .zero false⟩ ∧ r.Finite ∧ 0 ≤ r.value ∧
      (1 - F.u) ^ 2 * (x / 2) ≤ r.value ^ 2 ∧ r.value ^ 2 ≤ (1 + F.u) ^ 2 * (x / 2) := by
  have hpos : 0 < x := lt_of_lt_of_le (by positivity) hx
  have hrep : F.Representable (x / 2) := by
    refine ⟨?_, ?_⟩
    · obtain ⟨⟨m, e, hm, h1, h2⟩, _⟩ := hr
      have h3 : F.emin - (F.p - 1) < e := by
        rcases h2.lt_or_eq with h2 | h2
        · exact h2
        · exfalso
          have h4 : (m : ℚ) < 2 ^ F.p := by exact_mod_cast lt_of_abs_lt h1
          have h5 : x < 2 ^ (F.emin + 1) := by
            rw [hm, show F.emin + 1 = (F.p : ℤ) + e by omega, zpow_add₀ (by norm_num), zpow_natCast]
            exact mul_lt_mul_of_pos_right h4 (by positivity)
          linarith
      refine ⟨m, e - 1, ?_, h1, by omega⟩
      rw [hm, zpow_sub_one₀ (by norm_num)]; ring
    · rw [abs_of_pos (by positivity)]
      have := hr.2
      rw [abs_of_pos hpos] at this
      linarith
  have hx1 : x ≤ 1 := by have := Ieee.eta_le_one F; nlinarith
  have e : (((.fin x h0 hr : Ieee F).mul (.fin x h0 hr)).add ((.zero s : Ieee F).mul (.zero s))).sqrt = .zero false := by
    have := (C50_abs_underflow ⟨.fin x h0 hr, .zero s⟩ trivial trivial h (by
      show (0 : ℚ) ^ 2 ≤ _
      rw [zero_pow two_ne_zero]; exact F.η_pos.le)).2
    rw [ieee_abs] at this
    exact Except.ok.inj this
  have hb : (((.zero false : Ieee F).add (Ieee.fin x h0 hr).abs).mul
      (.fin (1 / 2) (by norm_num) F.representable_half)).sqrt =
      .fin (F.roundSqrt (x / 2)) (F.roundSqrt_ne_zero (by positivity)) (F.representable_roundSqrt (by positivity) hrep) := by
    have hv : (Ieee.fin x h0 hr).abs.value ≠ 0 := by rw [Ieee.abs_value]; exact abs_ne_zero.2 h0
    rw [Ieee.zero_add hv, Ieee.mul_fin hv (by show (1 / 2 : ℚ) ≠ 0; norm_num), Ieee.abs_value]
    show (Ieee.round (|x| * (1 / 2)) : Ieee F).sqrt = _
    rw [abs_of_pos hpos, show x * (1 / 2) = x / 2 by ring, ← Ieee.fin_eq_round (by positivity) hrep]
    exact dif_pos (by positivity)
  have hd : (.zero false : Ieee F).div (((.zero false : Ieee F).add (Ieee.fin x h0 hr).abs).mul
      (.fin 2 two_ne_zero F.representable_two)).sqrt = .zero false := by
    have hv : (Ieee.fin x h0 hr).abs.value ≠ 0 := by rw [Ieee.abs_value]; exact abs_ne_zero.2 h0
    have hp := F.two_le_p
    have hpe := F.p_le_emax
    rw [Ieee.zero_add hv, Ieee.mul_fin hv (by show (2 : ℚ) ≠ 0; norm_num), Ieee.abs_value]
    show (.zero false : Ieee F).div (Ieee.round (|x| * 2)).sqrt = _
    have hrep2 : F.Representable (x * 2) := by
      obtain ⟨⟨m, ex, hm, h1, h2⟩, _⟩ := hr
      refine ⟨⟨m, ex + 1, ?_, h1, by omega⟩, ?_⟩
      · rw [zpow_add_one₀ (by norm_num), hm]; ring
      · rw [abs_of_pos (by positivity)]
        calc x * 2 ≤ 2 ^ (1 : ℤ) := by norm_num; linarith
          _ < _ := zpow_lt_zpow_right₀ (by norm_num) (by omega)
    rw [abs_of_pos hpos, ← Ieee.fin_eq_round (by positivity) hrep2]
    have e3 : (Ieee.fin (x * 2) (by positivity) hrep2 : Ieee F).sqrt = .fin (F.roundSqrt (x * 2))
      (F.roundSqrt_ne_zero (by positivity)) (F.representable_roundSqrt (by positivity) hrep2) := dif_pos (by positivity)
    rw [e3]
    show Ieee.zero (xor false (decide (F.roundSqrt (x * 2) < 0))) = _
    rw [decide_eq_false (not_lt.2 (F.roundSqrt_err (x := x * 2) (by positivity)).1)]
    rfl
  have hc : (Ieee.fin x h0 hr).abs.fle ((.zero s : Ieee F).abs.mul (.fin 2 two_ne_zero F.representable_two)) = false := by
    show decide (_ ∨ _) = false
    refine decide_eq_false ?_
    rintro (h1 | ⟨_, h1⟩)
    · exact absurd h1 (lt_irrefl _)
    · exact absurd (show |x| ≤ 0 from h1) (not_le.2 (abs_pos.2 h0))
  have hz : (zero : Ieee F).fle (Ieee.fin x h0 hr) = true := decide_eq_true (.inr ⟨rfl, hpos.le⟩)
  have hl : (Ieee.zero s : Ieee F).flt zero = false := by
    cases s <;> rfl
  refine ⟨.fin (F.roundSqrt (x / 2)) (F.roundSqrt_ne_zero (by positivity)) (F.representable_roundSqrt (by positivity) hrep),
    ?_, trivial, F.roundSqrt_err (x := x / 2) (by positivity)⟩
  rw [ieee_csqrt]
  simp only [e, hc, hz, hl, hb, if_true, Bool.false_eq_true, if_false]
  rw [show (Ieee.zero s : Ieee F).abs = .zero false from rfl, hd]

/-! ## Examples -/

section examples

/-- `f32`: `1 / 0` is NaN, and so is `1 / (inf + i)`; `2^70 / 2^70` is NaN, `1 / 2^70` is zero, `2^-80 / 2^-80` is NaN. -/
example : (⟨f32 1, f32 0⟩ : Complex _).div ⟨f32 0, f32 0⟩ = .ok ⟨nan, nan⟩ ∧
    (⟨f32 1, f32 0⟩ : Complex _).div ⟨inf false, f32 1⟩ = .ok ⟨nan, nan⟩ ∧
    (⟨f32 (2 ^ 70), f32 0⟩ : Complex _).div ⟨f32 (2 ^ 70), f32 0⟩ = .ok ⟨nan, .zero false⟩ ∧
    (⟨f32 1, f32 0⟩ : Complex _).div ⟨f32 (2 ^ 70), f32 0⟩ = .ok ⟨.zero false, .zero false⟩ ∧
    (⟨f32 (1 / 2 ^ 80), f32 0⟩ : Complex _).div ⟨f32 (1 / 2 ^ 80), f32 0⟩ = .ok ⟨nan, nan⟩ := by decide +kernel

/-- `f64`: `abs` of `2^512` is infinite and `abs` of `2^-538` is zero. -/
example : (⟨f64 (2 ^ 512), f64 0⟩ : Complex _).abs = .ok (inf false) ∧
    (⟨f64 (1 / 2 ^ 538), f64 0⟩ : Complex _).abs = .ok (.zero false) := by decide +kernel

/-- `f32`: `2^-80 (1 + i)` satisfies the hypotheses of `C50_sqrt_nan`; `2^-80` those of `C50_sqrt_half`, and its computed
square root is `2^-40.5`, rounded, instead of `2^-40`. -/
example : (f32 (1 / 2 ^ 80)).value ^ 2 ≤ Fmt.f32.η ∧ 2 * Fmt.f32.η < |(f32 (1 / 2 ^ 80)).value| ∧
    2 ^ (Fmt.f32.emin + 1) ≤ (f32 (1 / 2 ^ 80)).value := by decide +kernel

example : (⟨f32 (1 / 2 ^ 80), f32 (1 / 2 ^ 80)⟩ : Complex _).sqrt =
      .ok ⟨f32 (11863283 / 2 ^ 64), nan⟩ ∧
    (⟨f32 (1 / 2 ^ 80), f32 0⟩ : Complex _).sqrt = .ok ⟨f32 (11863283 / 2 ^ 64), .zero false⟩ ∧
    (⟨f32 (2 ^ 80), f32 0⟩ : Complex _).sqrt = .ok ⟨inf false, .zero false⟩ ∧
    (⟨f32 (-4), .zero true⟩ : Complex _).sqrt = .ok ⟨.zero false, f32 2⟩ := by decide +kernel

/-- The constant polynomial 1 at infinity. -/
example : (Poly.fromCoefficients [f32 1]).eval (inf false) = .ok nan := by decide +kernel

end examples

end Magnesia
