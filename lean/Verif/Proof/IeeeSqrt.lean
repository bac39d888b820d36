import Verif.Proof.IeeeMono

/-!
# Square roots of floating point numbers (helper lemmas)
-/

namespace Magnesia

theorem rneSqrt_eq {q : ℚ} {m : ℤ} (hm : 1 ≤ m) (h1 : ((m : ℚ) - 1 / 2) ^ 2 < q) (h2 : q < ((m : ℚ) + 1 / 2) ^ 2) :
    rneSqrt q = m := by
  have hm' : (1 : ℚ) ≤ m := by exact_mod_cast hm
  have hq : 0 ≤ q := (sq_nonneg _).trans h1.le
  obtain ⟨h3, h4⟩ := rneSqrt_floor q hq
  unfold rneSqrt
  generalize Nat.sqrt ⌊q⌋.toNat = f at *
  have h5 : (f : ℚ) < m + 1 / 2 := lt_of_pow_lt_pow_left₀ 2 (by linarith) (h3.trans_lt h2)
  have h6 : (m : ℚ) - 1 / 2 < f + 1 := lt_of_pow_lt_pow_left₀ 2 (by positivity) (h1.trans h4)
  have h7 : (f : ℤ) < m + 1 := by
    have : (f : ℚ) < m + 1 := by linarith
    exact_mod_cast this
  have h8 : m < (f : ℤ) + 2 := by
    have : (m : ℚ) < f + 2 := by linarith
    exact_mod_cast this
  rcases (show m = f ∨ m = f + 1 by omega) with rfl | rfl
  · simp only [Int.cast_natCast] at *
    rw [if_pos h2]
  · push_cast at *
    rw [if_neg (not_lt.2 ?_), if_pos ?_]
    · rw [show (f : ℚ) + 1 / 2 = f + 1 - 1 / 2 by ring]; exact h1
    · rw [show (f : ℚ) + 1 / 2 = f + 1 - 1 / 2 by ring]; exact h1.le

theorem rneSqrt_sq {m : ℤ} (hm : 1 ≤ m) : rneSqrt ((m : ℚ) ^ 2) = m := by
  have hm' : (1 : ℚ) ≤ m := by exact_mod_cast hm
  exact rneSqrt_eq hm (by nlinarith) (by nlinarith)

theorem rneSqrt_mono {q r : ℚ} (h : q ≤ r) : rneSqrt q ≤ rneSqrt r := by
  have hf : Nat.sqrt ⌊q⌋.toNat ≤ Nat.sqrt ⌊r⌋.toNat := Nat.sqrt_le_sqrt (Int.toNat_le_toNat (Int.floor_mono h))
  unfold rneSqrt
  rcases lt_or_eq_of_le hf with h1 | h1
  · generalize Nat.sqrt ⌊q⌋.toNat = f at *
    generalize Nat.sqrt ⌊r⌋.toNat = g at *
    have h2 : (f : ℤ) + 1 ≤ g := by exact_mod_cast h1
    simp only
    split_ifs <;> omega
  · rw [h1]
    simp only
    split_ifs <;> first | omega | (exfalso; linarith)

namespace Fmt

variable (F : Fmt)

theorem roundSqrt_mono {x y : ℚ} (hx : 0 < x) (h : x ≤ y) : F.roundSqrt x ≤ F.roundSqrt y := by
  have hy : 0 < y := hx.trans_le h
  have hl : Int.log 2 x ≤ Int.log 2 y := Int.log_mono_right hx h
  have hle : F.sqrtUlpExp x ≤ F.sqrtUlpExp y := by unfold sqrtUlpExp; omega
  rcases eq_or_lt_of_le hle with he | he
  · unfold roundSqrt
    rw [he]
    refine mul_le_mul_of_nonneg_right ?_ (by positivity)
    have : x / ((2 : ℚ) ^ F.sqrtUlpExp y) ^ 2 ≤ y / (2 ^ F.sqrtUlpExp y) ^ 2 :=
      div_le_div_of_nonneg_right h (by positivity)
    exact_mod_cast rneSqrt_mono this
  · have h1 : F.roundSqrt x ≤ 2 ^ (F.p + F.sqrtUlpExp x) := by
      have := rneSqrt_le (div_nonneg hx.le (sq_nonneg _)) (F.sqrt_scaled_lt x)
      rw [zpow_add₀ (by norm_num), zpow_natCast]
      exact mul_le_mul_of_nonneg_right (by exact_mod_cast this) (by positivity)
    have h2 : (2 : ℚ) ^ (F.p - 1 + F.sqrtUlpExp y) ≤ F.roundSqrt y := by
      have h3 : (2 : ℚ) ^ Int.log 2 y ≤ y := Int.zpow_log_le_self (b := 2) (by norm_num) hy
      have hp := F.two_le_p
      have h4 : (((2 ^ (F.p - 1) : ℕ) : ℤ) : ℚ) ^ 2 ≤ y / (2 ^ F.sqrtUlpExp y) ^ 2 := by
        rw [le_div_iff₀ (by positivity)]
        refine le_trans ?_ h3
        push_cast
        rw [← mul_pow, ← zpow_natCast (2 : ℚ) (F.p - 1), ← zpow_add₀ (by norm_num), ← zpow_natCast, ← zpow_mul]
        exact zpow_le_zpow_right₀ (by norm_num) (by unfold sqrtUlpExp; push_cast; omega)
      have h5 := rneSqrt_mono h4
      rw [rneSqrt_sq (by exact_mod_cast Nat.one_le_two_pow)] at h5
      rw [zpow_add₀ (by norm_num), show ((F.p : ℤ) - 1) = ((F.p - 1 : ℕ) : ℤ) by omega, zpow_natCast]
      refine mul_le_mul_of_nonneg_right ?_ (by positivity)
      exact_mod_cast h5
    refine h1.trans (le_trans (zpow_le_zpow_right₀ (by norm_num) (by omega)) h2)

/-- In binary arithmetic the square root undoes the rounding of a square. -/
theorem roundSqrt_roundQ_sq {x : ℚ} (hx : 0 < x) (hr : F.Representable x) (hn : 2 ^ F.emin ≤ x ^ 2) :
    F.roundSqrt (F.roundQ (x ^ 2)) = x := by
  have hp := F.two_le_p
  have he := F.p_le_emax
  have hm : F.emin = 1 - F.emax := rfl
  set l := Int.log 2 x with hl
  have a1 : (2 : ℚ) ^ l ≤ x := Int.zpow_log_le_self (b := 2) (by norm_num) hx
  have a2 : x < 2 ^ (l + 1) := Int.lt_zpow_succ_log_self (b := 2) (by norm_num) x
  have hle : F.emin ≤ l := by
    have : (2 : ℚ) ^ F.emin < 2 ^ (2 * (l + 1)) := hn.trans_lt (by
      rw [mul_comm, zpow_mul, zpow_ofNat]
      exact pow_lt_pow_left₀ a2 hx.le two_ne_zero)
    have := (zpow_lt_zpow_iff_right₀ (by norm_num : (1 : ℚ) < 2)).1 this
    omega
  obtain ⟨m, hxm⟩ := hr.multiple (lo := l) (by rwa [abs_of_pos hx])
  set e := l - ((F.p : ℤ) - 1) with hedef
  have he0 : (0 : ℚ) < 2 ^ e := by positivity
  have hpl : (2 : ℚ) ^ l = 2 ^ (F.p - 1) * 2 ^ e := by
    rw [← zpow_natCast, ← zpow_add₀ (by norm_num)]; congr 1; omega
  have hpl1 : (2 : ℚ) ^ (l + 1) = 2 ^ F.p * 2 ^ e := by
    rw [← zpow_natCast, ← zpow_add₀ (by norm_num)]; congr 1; omega
  have b1 : (2 : ℚ) ^ (F.p - 1) ≤ m := by
    rw [hpl, hxm] at a1; exact le_of_mul_le_mul_right a1 he0
  have b2 : (m : ℚ) < 2 ^ F.p := by
    rw [hpl1, hxm] at a2; exact lt_of_mul_lt_mul_right a2 he0.le
  have b3 : (m : ℚ) + 1 ≤ 2 ^ F.p := by
    have : m < 2 ^ F.p := by exact_mod_cast b2
    have : m + 1 ≤ 2 ^ F.p := by omega
    exact_mod_cast this
  have hpow : (2 : ℚ) ^ F.p = 2 * 2 ^ (F.p - 1) := by
    rw [← pow_succ']; congr 1; omega
  have hK : (2 : ℚ) ≤ 2 ^ (F.p - 1) := by
    calc (2 : ℚ) = 2 ^ 1 := by norm_num
      _ ≤ _ := pow_le_pow_right₀ (by norm_num) (by omega)
  have hx2 : x ^ 2 = (m : ℚ) ^ 2 * 2 ^ (2 * e) := by
    rw [hxm, mul_pow, mul_comm 2 e, zpow_mul, zpow_ofNat]
  have hu : F.u * 2 ^ F.p = 1 := by
    unfold u; rw [zpow_neg, zpow_natCast]; exact inv_mul_cancel₀ (by positivity)
  have hu0 := F.u_pos
  have hx20 : 0 < x ^ 2 := by positivity
  have herr := F.roundQ_err_normal (x := x ^ 2) (by rwa [abs_of_pos hx20])
  rw [abs_of_pos hx20] at herr
  set y := F.roundQ (x ^ 2) with hy
  have hE : (0 : ℚ) < 2 ^ (2 * e) := by positivity
  set q := y / 2 ^ (2 * e) with hq
  have hyq : y = q * 2 ^ (2 * e) := by rw [hq, div_mul_cancel₀ _ hE.ne']
  have hqe : |q - (m : ℚ) ^ 2| ≤ F.u * (m : ℚ) ^ 2 := by
    rw [hyq, hx2, ← sub_mul, abs_mul, abs_of_pos hE, ← mul_assoc] at herr
    exact le_of_mul_le_mul_right herr hE
  have hm0 : (0 : ℚ) < m := by linarith
  have hum : F.u * (m : ℚ) ^ 2 < m - 1 / 4 := by
    have c1 : 1 / 2 ≤ F.u * m := by
      have := mul_le_mul_of_nonneg_left b1 hu0.le
      rw [hpow] at hu
      linarith
    have c2 : F.u * m ≤ 1 - F.u := by
      have := mul_le_mul_of_nonneg_left b3 hu0.le
      linarith
    have c3 := mul_le_mul_of_nonneg_right c2 hm0.le
    nlinarith
  obtain ⟨d1, d2⟩ := abs_le.1 hqe
  have e1 : ((m : ℚ) - 1 / 2) ^ 2 < q := by nlinarith
  have e2 : q < ((m : ℚ) + 1 / 2) ^ 2 := by nlinarith
  have hylo : (2 : ℚ) ^ (2 * l) ≤ y := by
    have h1 : (2 : ℚ) ^ (2 * l) ≤ x ^ 2 := by
      rw [mul_comm, zpow_mul, zpow_ofNat]; exact pow_le_pow_left₀ (by positivity) a1 2
    by_cases h2 : F.emin ≤ 2 * l
    · have := F.le_abs_roundQ h2 (by rwa [abs_of_pos hx20])
      rwa [abs_of_nonneg (F.roundQ_nonneg hx20.le)] at this
    · have := F.le_abs_roundQ le_rfl (x := x ^ 2) (by rwa [abs_of_pos hx20])
      rw [abs_of_nonneg (F.roundQ_nonneg hx20.le)] at this
      exact (zpow_le_zpow_right₀ (by norm_num) (by omega)).trans this
  have hyhi : y < (2 : ℚ) ^ (2 * l + 2) := by
    have h1 : q < (2 ^ F.p) ^ 2 := e2.trans_le (pow_le_pow_left₀ (by linarith) (by linarith) 2)
    have h2 := mul_lt_mul_of_pos_right h1 hE
    rw [← hyq] at h2
    refine h2.trans_le (le_of_eq ?_)
    rw [← pow_mul, ← zpow_natCast, ← zpow_add₀ (by norm_num)]; congr 1; push_cast; omega
  have hy0 : 0 < y := lt_of_lt_of_le (by positivity) hylo
  have hlog1 : 2 * l ≤ Int.log 2 y := by
    rw [← Int.zpow_le_iff_le_log (b := 2) (by norm_num) hy0]; exact_mod_cast hylo
  have hlog2 : Int.log 2 y < 2 * l + 2 := by
    rw [← Int.lt_zpow_iff_log_lt (b := 2) (by norm_num) hy0]; exact_mod_cast hyhi
  have hse : F.sqrtUlpExp y = e := by unfold sqrtUlpExp; omega
  unfold roundSqrt
  rw [hse, show ((2 : ℚ) ^ e) ^ 2 = 2 ^ (2 * e) by rw [mul_comm, zpow_mul, zpow_ofNat], ← hq,
    rneSqrt_eq (by exact_mod_cast (show (1 : ℚ) ≤ m by linarith)) e1 e2]
  exact hxm.symm

end Fmt

/-! ## Numbers that are not negative -/

namespace Ieee

variable {F : Fmt}

/-- Zero, positive or `+inf` (not NaN). -/
def NonNeg (a : Ieee F) : Prop := a = inf false ∨ a.Finite ∧ 0 ≤ a.value

theorem fle_nonneg {a b : Ieee F} (ha : a.NonNeg) (hb : b.NonNeg) :
    fle a b = true ↔ b = inf false ∨ a.Finite ∧ b.Finite ∧ a.value ≤ b.value := by
  rcases ha with rfl | ⟨ha, ha0⟩ <;> rcases hb with rfl | ⟨hb, hb0⟩
  · simp [fle, key]
  · cases b <;> first | exact hb.elim | simp [fle, key, Finite]
  · cases a <;> first | exact ha.elim | simp [fle, key]
  · rw [fle_value ha hb]
    constructor
    · intro h; exact .inr ⟨ha, hb, h⟩
    · rintro (rfl | h)
      · exact hb.elim
      · exact h.2.2

theorem nonneg_iff {a : Ieee F} : (zero false : Ieee F).fle a = true ↔ a.NonNeg := by
  cases a with
  | nan => simp [fle, key, NonNeg, Finite]
  | inf s => cases s <;> simp [fle, key, NonNeg, Finite]
  | zero s => simp [fle, key, NonNeg, Finite, value]
  | fin x h0 hr => simp [fle, key, NonNeg, Finite, value]

theorem NonNeg.ne_nan {a : Ieee F} (h : a.NonNeg) : a ≠ nan := by
  rintro rfl
  rcases h with h | h
  · cases h
  · exact h.1

theorem NonNeg.inf_or {a : Ieee F} (h : a.NonNeg) (hf : ¬ a.Finite) : a = inf false :=
  h.resolve_right fun h1 => hf h1.1

theorem round_nonneg {x : ℚ} (hx : 0 ≤ x) : (round x : Ieee F).NonNeg := by
  unfold round
  rw [decide_eq_false (not_lt.2 hx)]
  split_ifs
  · exact .inr ⟨trivial, le_rfl⟩
  · exact .inr ⟨trivial, F.roundQ_nonneg hx⟩
  · exact .inl rfl

theorem round_le_round {x y : ℚ} (hx : 0 ≤ x) (h : x ≤ y) : fle (round x : Ieee F) (round y) = true := by
  rw [fle_nonneg (round_nonneg hx) (round_nonneg (hx.trans h))]
  by_cases hf : (round y : Ieee F).Finite
  · right
    have h1 := F.roundQ_mono h
    have hx' : (round x : Ieee F).Finite := by
      rw [round_finite_iff] at hf ⊢
      rw [abs_of_nonneg (F.roundQ_nonneg (hx.trans h))] at hf
      rw [abs_of_nonneg (F.roundQ_nonneg hx)]
      linarith
    exact ⟨hx', hf, by rw [round_finite hx', round_finite hf]; exact h1⟩
  · exact .inl ((round_nonneg (hx.trans h)).inf_or hf)

theorem sq_eq_round {a : Ieee F} (ha : a.Finite) : a.mul a = round (a.value ^ 2) := by
  cases a with
  | nan => exact ha.elim
  | inf => exact ha.elim
  | zero s =>
    show zero (xor s s) = round ((0 : ℚ) ^ 2)
    unfold round
    rw [dif_pos (by rw [zero_pow two_ne_zero]; exact F.roundQ_zero)]
    simp
  | fin x h0 hr => show round (x * x) = round (x ^ 2); rw [pow_two]

theorem sq_nonNeg {a : Ieee F} (ha : a ≠ nan) : (a.mul a).NonNeg := by
  by_cases hf : a.Finite
  · rw [sq_eq_round hf]; exact round_nonneg (sq_nonneg _)
  · cases a with
    | nan => exact (ha rfl).elim
    | inf s => left; show inf (xor s s) = _; simp
    | zero s => exact (hf trivial).elim
    | fin => exact (hf trivial).elim

theorem abs_nonNeg {a : Ieee F} (ha : a ≠ nan) : a.abs.NonNeg := by
  cases a with
  | nan => exact (ha rfl).elim
  | inf s => exact .inl rfl
  | zero s => exact .inr ⟨trivial, le_rfl⟩
  | fin x h0 hr => exact .inr ⟨trivial, abs_nonneg x⟩

theorem sq_mono {a b : Ieee F} (ha : a ≠ nan) (hb : b ≠ nan) (h : fle a.abs b.abs = true) :
    fle (a.mul a) (b.mul b) = true := by
  rw [fle_nonneg (abs_nonNeg ha) (abs_nonNeg hb)] at h
  rcases h with h | ⟨h1, h2, h3⟩
  · have : b.mul b = inf false := by
      cases b with
      | inf s => show inf (xor s s) = _; simp
      | _ => cases h
    rw [fle_nonneg (sq_nonNeg ha) (sq_nonNeg hb)]
    exact .inl this
  · rw [abs_finite] at h1 h2
    rw [abs_value, abs_value] at h3
    rw [sq_eq_round h1, sq_eq_round h2]
    exact round_le_round (sq_nonneg _) (sq_le_sq.2 h3)

theorem add_nonNeg {a b : Ieee F} (ha : a.NonNeg) (hb : b.NonNeg) : (a.add b).NonNeg := by
  rcases ha with rfl | ⟨ha, ha0⟩
  · rcases hb with rfl | ⟨hb, hb0⟩
    · exact .inl rfl
    · cases b <;> first | exact hb.elim | exact .inl rfl
  · rcases hb with rfl | ⟨hb, hb0⟩
    · cases a <;> first | exact ha.elim | exact .inl rfl
    · by_cases h : a.value + b.value = 0
      · obtain ⟨h1, h2⟩ := add_zero_value ha hb h
        exact .inr ⟨h1, h2.ge⟩
      · rw [add_fin ha hb h]; exact round_nonneg (add_nonneg ha0 hb0)

theorem add_inf_nonNeg {a b : Ieee F} (ha : a.NonNeg) (hb : b.NonNeg) (h : a = inf false ∨ b = inf false) :
    a.add b = inf false := by
  rcases ha with rfl | ⟨ha, ha0⟩ <;> rcases hb with rfl | ⟨hb, hb0⟩
  · rfl
  · cases b <;> first | exact hb.elim | rfl
  · cases a <;> first | exact ha.elim | rfl
  · rcases h with rfl | rfl
    · exact ha.elim
    · exact hb.elim

theorem add_mono {a b a' b' : Ieee F} (ha : a.NonNeg) (hb : b.NonNeg) (ha' : a'.NonNeg) (hb' : b'.NonNeg)
    (h1 : fle a a' = true) (h2 : fle b b' = true) : fle (a.add b) (a'.add b') = true := by
  rw [fle_nonneg (add_nonNeg ha hb) (add_nonNeg ha' hb')]
  rw [fle_nonneg ha ha'] at h1
  rw [fle_nonneg hb hb'] at h2
  rcases h1 with h1 | ⟨f1, f2, h1⟩
  · exact .inl (add_inf_nonNeg ha' hb' (.inl h1))
  rcases h2 with h2 | ⟨f3, f4, h2⟩
  · exact .inl (add_inf_nonNeg ha' hb' (.inr h2))
  have p1 : 0 ≤ a.value := (ha.resolve_left (by rintro rfl; exact f1)).2
  have p2 : 0 ≤ b.value := (hb.resolve_left (by rintro rfl; exact f3)).2
  by_cases hf : (a'.add b').Finite
  · right
    have hfa : (a.add b).Finite := by
      rw [add_finite_iff f2 f4, abs_of_nonneg (F.roundQ_nonneg (by linarith))] at hf
      rw [add_finite_iff f1 f3, abs_of_nonneg (F.roundQ_nonneg (by linarith))]
      exact (F.roundQ_mono (by linarith)).trans_lt hf
    refine ⟨hfa, hf, ?_⟩
    rw [(add_finite hfa).2.2, (add_finite hf).2.2]
    exact F.roundQ_mono (by linarith)
  · exact .inl ((add_nonNeg ha' hb').inf_or hf)

theorem sqrt_nonNeg {a : Ieee F} (ha : a.NonNeg) : a.sqrt.NonNeg := by
  rcases ha with rfl | ⟨ha, ha0⟩
  · exact .inl rfl
  · cases a with
    | nan => exact ha.elim
    | inf => exact ha.elim
    | zero s => exact .inr ⟨trivial, le_rfl⟩
    | fin x h0 hr =>
      have hx : 0 < x := lt_of_le_of_ne ha0 (Ne.symm h0)
      have e : (fin x h0 hr : Ieee F).sqrt = fin (F.roundSqrt x) (F.roundSqrt_ne_zero hx)
        (F.representable_roundSqrt hx hr) := dif_pos hx
      rw [e]
      exact .inr ⟨trivial, (F.roundSqrt_err hx).1⟩

theorem sqrt_finite_iff {a : Ieee F} (ha : a.NonNeg) : a.sqrt.Finite ↔ a.Finite := by
  rcases ha with rfl | ⟨ha, ha0⟩
  · exact Iff.rfl
  · refine ⟨fun _ => ha, fun _ => ?_⟩
    cases a with
    | nan => exact ha.elim
    | inf => exact ha.elim
    | zero s => trivial
    | fin x h0 hr =>
      have hx : 0 < x := lt_of_le_of_ne ha0 (Ne.symm h0)
      have e : (fin x h0 hr : Ieee F).sqrt = fin (F.roundSqrt x) (F.roundSqrt_ne_zero hx)
        (F.representable_roundSqrt hx hr) := dif_pos hx
      rw [e]; trivial

theorem sqrt_mono {a b : Ieee F} (ha : a.NonNeg) (hb : b.NonNeg) (h : fle a b = true) :
    fle a.sqrt b.sqrt = true := by
  rw [fle_nonneg (sqrt_nonNeg ha) (sqrt_nonNeg hb)]
  rw [fle_nonneg ha hb] at h
  rcases h with rfl | ⟨f1, f2, h⟩
  · exact .inl rfl
  · right
    have g1 := (sqrt_finite_iff ha).2 f1
    have g2 := (sqrt_finite_iff hb).2 f2
    refine ⟨g1, g2, ?_⟩
    rcases sqrt_finite f1 g1 with ⟨_, h2⟩ | ⟨h1, h2⟩
    · rw [h2]
      exact ((sqrt_nonNeg hb).resolve_left (by intro h; rw [h] at g2; exact g2)).2
    · rcases sqrt_finite f2 g2 with ⟨h3, _⟩ | ⟨_, h4⟩
      · linarith
      · rw [h2, h4]; exact F.roundSqrt_mono h1 h

end Ieee

end Magnesia
