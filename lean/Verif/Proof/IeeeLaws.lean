import Verif.Props.IeeeSpecial
import Verif.Spec.IeeeSame

/-!
# Algebraic laws of IEEE arithmetic (helper lemmas)
-/

namespace Magnesia

variable {F : Fmt}

theorem rne_neg (q : ℚ) : rne (-q) = -rne q := by
  by_cases hq : (⌊q⌋ : ℚ) = q
  · rw [← hq, ← Int.cast_neg, rne_intCast, rne_intCast]
  · obtain ⟨h1, h2⟩ := floor_bounds q
    have h3 : (⌊q⌋ : ℚ) < q := lt_of_le_of_ne h1 hq
    have hf : ⌊-q⌋ = -⌊q⌋ - 1 := by
      rw [Int.floor_eq_iff]; push_cast; constructor <;> linarith
    unfold rne
    rw [hf]
    push_cast
    split_ifs <;> first | (exfalso; linarith) | omega

theorem Fmt.ulp_neg (F : Fmt) (x : ℚ) : F.ulp (-x) = F.ulp x := by unfold ulp ulpExp; rw [abs_neg]

theorem Fmt.roundQ_neg (F : Fmt) (x : ℚ) : F.roundQ (-x) = -F.roundQ x := by
  unfold roundQ
  rw [F.ulp_neg, neg_div, rne_neg]
  push_cast
  ring

namespace Ieee

theorem round_neg_eq {x : ℚ} (hx : x ≠ 0) : (round (-x) : Ieee F) = neg (round x) := by
  have hs : decide (-x < 0) = !decide (x < 0) := by
    rcases lt_or_gt_of_ne hx with h | h
    · simp [h, h.le]
    · simp [h, h.le]
  unfold round
  simp only [F.roundQ_neg, neg_eq_zero, abs_neg]
  split_ifs
  · rw [hs, neg]
  · simp [neg]
  · rw [hs, neg]

theorem add_comm (a b : Ieee F) : add a b = add b a := by
  cases a <;> cases b <;> simp only [add]
  · rename_i s t; cases s <;> cases t <;> rfl
  · rename_i s t; cases s <;> cases t <;> rfl
  · rename_i x _ _ y _ _; rw [_root_.add_comm x y]

theorem mul_comm (a b : Ieee F) : mul a b = mul b a := by
  cases a <;> cases b <;> simp only [mul, Bool.xor_comm, _root_.mul_comm]

theorem neg_neg (a : Ieee F) : neg (neg a) = a := by cases a <;> simp [neg]

theorem neg_mul (a b : Ieee F) : mul (neg a) b = neg (mul a b) := by
  have hs : ∀ {x : ℚ}, x ≠ 0 → decide (-x < 0) = !decide (x < 0) := by
    intro x hx
    rcases lt_or_gt_of_ne hx with h | h
    · simp [h, h.le]
    · simp [h, h.le]
  cases a <;> cases b <;> simp only [mul, neg, Bool.not_xor]
  · rename_i x h0 _ _; rw [hs h0, Bool.not_xor]
  · rename_i x h0 _ _; rw [hs h0, Bool.not_xor]
  · rename_i x h0 _ y h0' _
    rw [_root_.neg_mul, round_neg_eq (mul_ne_zero h0 h0')]
    rfl

theorem mul_neg (a b : Ieee F) : mul a (neg b) = neg (mul a b) := by rw [mul_comm, neg_mul, mul_comm]

theorem Same.refl (a : Ieee F) : Same a a := .inl rfl
theorem Same.symm {a b : Ieee F} (h : Same a b) : Same b a := by
  rcases h with rfl | ⟨s, t, rfl, rfl⟩
  · exact .refl _
  · exact .inr ⟨t, s, rfl, rfl⟩

/-- The sign of a zero sum is not symmetric: `-(1 + (-1)) = -0` but `(-1) + 1 = 0`. -/
theorem neg_add (a b : Ieee F) : Same (add (neg a) (neg b)) (neg (add a b)) := by
  cases a <;> cases b <;> simp only [add, neg] <;> try exact .refl _
  · rename_i s t; cases s <;> cases t <;> exact .refl _
  · exact .inr ⟨_, _, rfl, rfl⟩
  · rename_i x h0 _ y h0' _
    by_cases h : x + y = 0
    · rw [if_pos h, if_pos (by linarith)]; exact .inr ⟨_, _, rfl, rfl⟩
    · rw [if_neg h, if_neg (by intro h1; apply h; linarith)]
      refine .inl ?_
      have := round_neg_eq (F := F) h
      rw [neg_add_rev, _root_.add_comm] at this
      exact this

theorem Same.add {a a' b b' : Ieee F} (h : Same a a') (h' : Same b b') : Same (a.add b) (a'.add b') := by
  rcases h with rfl | ⟨s, t, rfl, rfl⟩ <;> rcases h' with rfl | ⟨s', t', rfl, rfl⟩
  · exact .refl _
  · cases a <;> simp only [Ieee.add] <;> first | exact .refl _ | exact .inr ⟨_, _, rfl, rfl⟩
  · cases b <;> simp only [Ieee.add] <;> first | exact .refl _ | exact .inr ⟨_, _, rfl, rfl⟩
  · exact .inr ⟨_, _, rfl, rfl⟩

theorem Same.mul {a a' b b' : Ieee F} (h : Same a a') (h' : Same b b') : Same (a.mul b) (a'.mul b') := by
  rcases h with rfl | ⟨s, t, rfl, rfl⟩ <;> rcases h' with rfl | ⟨s', t', rfl, rfl⟩
  · exact .refl _
  · cases a <;> simp only [Ieee.mul] <;> first | exact .refl _ | exact .inr ⟨_, _, rfl, rfl⟩
  · cases b <;> simp only [Ieee.mul] <;> first | exact .refl _ | exact .inr ⟨_, _, rfl, rfl⟩
  · exact .inr ⟨_, _, rfl, rfl⟩

theorem Same.neg {a a' : Ieee F} (h : Same a a') : Same a.neg a'.neg := by
  rcases h with rfl | ⟨s, t, rfl, rfl⟩
  · exact .refl _
  · exact .inr ⟨_, _, rfl, rfl⟩

theorem Same.sub {a a' b b' : Ieee F} (h : Same a a') (h' : Same b b') : Same (a.sub b) (a'.sub b') := h.add h'.neg

theorem Same.trans {a b c : Ieee F} (h : Same a b) (h' : Same b c) : Same a c := by
  rcases h with rfl | ⟨s, t, rfl, rfl⟩
  · exact h'
  · rcases h' with rfl | ⟨s', t', h1, rfl⟩
    · exact .inr ⟨_, _, rfl, rfl⟩
    · exact .inr ⟨_, _, rfl, rfl⟩

/-- `==` is the same number, not NaN. -/
theorem feq_iff (a b : Ieee F) : feq a b = true ↔ a ≠ nan ∧ Same a b := by
  unfold Same
  cases a with
  | nan => simp [feq, key]
  | inf s => cases b with
    | inf t => cases s <;> cases t <;> simp [feq, key]
    | _ => cases s <;> simp [feq, key]
  | zero s => cases b with
    | inf t => cases t <;> simp [feq, key]
    | fin y h0 _ => simp [feq, key, h0.symm]
    | _ => simp [feq, key]
  | fin x h0 _ => cases b with
    | inf t => cases t <;> simp [feq, key]
    | zero t => simp [feq, key, h0]
    | fin y h0 _ => simp [feq, key]
    | nan => simp [feq, key]

/-- For finite numbers `==` compares values. -/
theorem feq_value {a b : Ieee F} (ha : a.Finite) (hb : b.Finite) : feq a b = true ↔ a.value = b.value := by
  cases a <;> cases b <;> first | exact ha.elim | exact hb.elim | simp [feq, key, value]

theorem add_zero (a : Ieee F) (s : Bool) : Same (add a (zero s)) a := by
  cases a <;> simp only [add] <;> first | exact .refl _ | exact .inr ⟨_, _, rfl, rfl⟩

theorem zero_add_same (a : Ieee F) (s : Bool) : Same (add (zero s) a) a := by rw [add_comm]; exact add_zero a s

theorem round_representable {x : ℚ} (h0 : x ≠ 0) (hr : F.Representable x) : round x = fin x h0 hr := by
  unfold round
  have e := F.roundQ_representable hr
  rw [dif_neg (by rwa [e]), dif_pos (by rw [e]; exact hr.2)]
  simp only [e]

theorem mul_one (a : Ieee F) : mul a ROne.one = a := by
  cases a with
  | nan => rfl
  | inf s => cases s <;> simp [mul, ROne.one]
  | zero s => cases s <;> simp [mul, ROne.one]
  | fin x h0 hr => simpa [mul, ROne.one] using round_representable h0 hr

theorem one_mul (a : Ieee F) : mul ROne.one a = a := by rw [mul_comm, mul_one]

theorem add_neg (a : Ieee F) : (a.Finite → add a (neg a) = zero false) ∧ (¬ a.Finite → add a (neg a) = nan) := by
  cases a with
  | zero s => cases s <;> simp [add, neg, Finite]
  | inf s => cases s <;> simp [add, neg, Finite]
  | nan => simp [add, Finite]
  | fin x h0 hr => simp [add, neg, Finite]

/-- Adding a zero value to a finite number. -/
theorem add_value_zero {a b : Ieee F} (ha : a.Finite) (hb : b.Finite) (h : b.value = 0) :
    (a.add b).Finite ∧ (a.add b).value = a.value := by
  cases b with
  | zero t => cases a <;> simp_all [add, Finite, value]
  | fin y h0 _ => exact (h0 h).elim
  | nan => exact hb.elim
  | inf _ => exact hb.elim

end Ieee

end Magnesia
