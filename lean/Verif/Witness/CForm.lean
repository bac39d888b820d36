import Verif.Props.CForm
import Verif.Witness.Libm

/-!
# Concrete cases of property C69
-/

namespace Magnesia.Witness

open RZero ROne

section Accurate

variable {F : Fmt}

noncomputable local instance : RExp (Ieee F) := ⟨fun a => .ok (roundReal F (Real.exp a.value))⟩
noncomputable local instance : RSin (Ieee F) := ⟨fun a => .ok (roundReal F (Real.sin a.value))⟩
noncomputable local instance : RCos (Ieee F) := ⟨fun a => .ok (roundReal F (Real.cos a.value))⟩
noncomputable local instance : RSinh (Ieee F) := ⟨fun a => .ok (roundReal F (Real.sinh a.value))⟩
noncomputable local instance : RCosh (Ieee F) := ⟨fun a => .ok (roundReal F (Real.cosh a.value))⟩
noncomputable local instance : RLn (Ieee F) := ⟨fun a => .ok (roundReal F (Real.log a.value))⟩
noncomputable local instance : RAtan2 (Ieee F) := ⟨fun y x => .ok (roundReal F (_root_.Complex.arg ⟨x.value, y.value⟩))⟩

/-- `1 + 2i`, `3 - i`, `1 + i`, … -/
def inputs (i : ℕ) : Complex (Ieee .f64) := if i = 0 then ⟨f64 1, f64 2⟩ else if i = 1 then ⟨f64 3, f64 (-1)⟩ else ⟨f64 1, f64 1⟩

theorem p8 : 8 ≤ Fmt.f64.p := by decide
theorem k4 : 4 * 4 + (Fmt.f64.p : ℤ) + 1 ≤ Fmt.f64.emax := by decide
theorem accLog : AccurateLog Fmt.f64 Fmt.f64.u (3 * Fmt.f64.η) := accurateLog_example

theorem out_of {f : CForm} {p : Complex (Ieee .f64) → Prop} {r : Complex (Ieee .f64)} (h : f.run inputs = .ok r) (hp : p r) :
    f.Out inputs p := fun z hz => by cases h.symm.trans hz; exact hp

instance (k : ℕ) (z : Complex (Ieee .f64)) : Decidable (CForm.Moderate k z) := by unfold CForm.Moderate Ieee.Between; infer_instance

theorem inputs0 : cval (inputs 0) = ⟨1, 2⟩ := by
  have h1 : (inputs 0).re.value = 1 := by decide +kernel
  have h2 : (inputs 0).im.value = 2 := by decide +kernel
  simp [cval, h1, h2]
theorem inputs2 : (inputs 2).re.value = 1 ∧ (inputs 2).im.value = 1 := by decide +kernel

/-- `(a * b) / b` with `a = 1 + 2i`, `b = 3 - i`. -/
theorem safe_div : (CForm.div (.mul (.var 0) (.var 1)) (.var 1)).Safe 4 (Fmt.f64.u : ℝ) (3 * Fmt.f64.η) inputs := by
  refine ⟨⟨?_, ?_, out_of rfl ?_⟩, ?_, out_of rfl ?_, out_of rfl ?_, ?_⟩
  · show CFinite _; decide +kernel
  · show CFinite _; decide +kernel
  · decide +kernel
  · show CFinite _; decide +kernel
  · decide +kernel
  · decide +kernel
  · show (0 : ℝ) < ‖cval (inputs 1)‖
    rw [norm_pos_iff]
    intro h
    have := congrArg _root_.Complex.re h
    have h3 : (inputs 1).re.value = 3 := by decide +kernel
    simp [cval, h3] at this
example := C69_mul_div p8 4 k4 accurate accLog inputs (.var 0) (.var 1) safe_div
example := C69_formulas p8 4 k4 accurate accLog inputs _ safe_div
example := C69_two_ways p8 4 k4 accurate accLog inputs (.add (.var 0) (.var 1)) (.add (.var 1) (.var 0))
  ⟨(by show CFinite _; decide +kernel), (by show CFinite _; decide +kernel), out_of rfl (by decide +kernel)⟩
  ⟨(by show CFinite _; decide +kernel), (by show CFinite _; decide +kernel), out_of rfl (by decide +kernel)⟩ (add_comm _ _)

theorem safe_sqrt : (CForm.mul (.sqrt (.var 0)) (.sqrt (.var 0))).Safe 4 (Fmt.f64.u : ℝ) (3 * Fmt.f64.η) inputs := by
  have hs : (CForm.sqrt (.var 0)).Safe 4 (Fmt.f64.u : ℝ) (3 * Fmt.f64.η) inputs := by
    refine ⟨?_, out_of rfl ?_, .inl rfl⟩
    · show CFinite _; decide +kernel
    · decide +kernel
  refine ⟨hs, hs, fun z hz => ?_⟩
  have h : ∀ c, (do (← (inputs 0).sqrt).mul (← (inputs 0).sqrt)) = .ok c → CFinite c := by
    have h1 : ((do (← (inputs 0).sqrt).mul (← (inputs 0).sqrt)) : Res (Complex (Ieee .f64))).isOk = true := by decide +kernel
    have h2 : CFinite (((do (← (inputs 0).sqrt).mul (← (inputs 0).sqrt)) : Res (Complex (Ieee .f64))).getD zero) := by decide +kernel
    intro c hc
    rw [hc] at h2
    exact h2
  exact h z hz
example := C69_sqrt_sq p8 4 k4 accurate accLog inputs (.var 0) safe_sqrt

/-- Finite and at most `2 ^ k`. -/
def Small (k : ℕ) (a : Ieee .f64) : Prop := a.Finite ∧ |a.value| ≤ 2 ^ (k : ℤ)
def CSmall (k : ℕ) (z : Complex (Ieee .f64)) : Prop := Small k z.re ∧ Small k z.im

theorem emin_le (k : ℕ) : Fmt.f64.emin ≤ k := by have : Fmt.f64.emin ≤ 0 := by norm_num [Fmt.emin, Fmt.f64]
                                                 omega
theorem pow_lt_max {k : ℕ} (h : k ≤ 100) {x : ℚ} (hx : x ≤ 2 ^ (k : ℤ)) : x < 2 ^ (Fmt.f64.emax + 1) := by
  refine hx.trans_lt (zpow_lt_zpow_right₀ (by norm_num) ?_)
  have : Fmt.f64.emax = 1023 := rfl
  omega

theorem small_mul {k l : ℕ} (hkl : k + l ≤ 100) {a b : Ieee .f64} (ha : Small k a) (hb : Small l b) : Small (k + l) (a.mul b) := by
  have h1 : |Fmt.f64.roundQ (a.value * b.value)| ≤ 2 ^ ((k + l : ℕ) : ℤ) := by
    refine Fmt.f64.abs_roundQ_le (emin_le _) ?_
    rw [abs_mul, Nat.cast_add, zpow_add₀ (by norm_num)]
    exact mul_le_mul ha.2 hb.2 (abs_nonneg _) (by positivity)
  have hf := (Ieee.mul_finite_iff ha.1 hb.1).2 (pow_lt_max hkl h1)
  exact ⟨hf, by rw [(Ieee.mul_finite hf).2.2]; exact h1⟩
theorem small_add {k : ℕ} (hk : k + 1 ≤ 100) {a b : Ieee .f64} (ha : Small k a) (hb : Small k b) : Small (k + 1) (a.add b) := by
  have h1 : |Fmt.f64.roundQ (a.value + b.value)| ≤ 2 ^ ((k + 1 : ℕ) : ℤ) := by
    refine Fmt.f64.abs_roundQ_le (emin_le _) ((abs_add_le _ _).trans ?_)
    rw [Nat.cast_add, zpow_add₀ (by norm_num)]
    have := ha.2
    have := hb.2
    rw [show (2 : ℚ) ^ ((1 : ℕ) : ℤ) = 2 by norm_num]
    linarith
  have hf := (Ieee.add_finite_iff ha.1 hb.1).2 (pow_lt_max hk h1)
  exact ⟨hf, by rw [(Ieee.add_finite hf).2.2]; exact h1⟩
theorem small_neg {k : ℕ} {a : Ieee .f64} (ha : Small k a) : Small k a.neg := ⟨Ieee.neg_finite.2 ha.1, by rw [Ieee.neg_value, abs_neg]; exact ha.2⟩
theorem small_sub {k : ℕ} (hk : k + 1 ≤ 100) {a b : Ieee .f64} (ha : Small k a) (hb : Small k b) : Small (k + 1) (a.sub b) :=
  small_add hk ha (small_neg hb)
theorem csmall_mul {k : ℕ} (hk : k + k + 1 ≤ 100) {a b : Complex (Ieee .f64)} (ha : CSmall k a) (hb : CSmall k b) :
    ∃ r, a.mul b = .ok r ∧ CSmall (k + k + 1) r :=
  ⟨_, rfl, small_sub hk (small_mul (by omega) ha.1 hb.1) (small_mul (by omega) ha.2 hb.2),
    small_add hk (small_mul (by omega) ha.1 hb.2) (small_mul (by omega) ha.2 hb.1)⟩
theorem csmall_add {k : ℕ} (hk : k + 1 ≤ 100) {a b : Complex (Ieee .f64)} (ha : CSmall k a) (hb : CSmall k b) :
    ∃ r, a.add b = .ok r ∧ CSmall (k + 1) r := ⟨_, rfl, small_add hk ha.1 hb.1, small_add hk ha.2 hb.2⟩
theorem csmall_sub {k : ℕ} (hk : k + 1 ≤ 100) {a b : Complex (Ieee .f64)} (ha : CSmall k a) (hb : CSmall k b) :
    ∃ r, a.sub b = .ok r ∧ CSmall (k + 1) r := ⟨_, rfl, small_sub hk ha.1 hb.1, small_sub hk ha.2 hb.2⟩

theorem small_round {y : ℝ} (k : ℕ) (hk : k ≤ 100) (h : |y| + 1 ≤ 2 ^ (k : ℤ)) : Small k (roundReal .f64 y) :=
  roundReal_le (emin_le k) (by have : Fmt.f64.emax = 1023 := rfl
                               omega) h

theorem small_unit {y : ℝ} (h : |y| ≤ 1) : Small 1 (roundReal .f64 y) := small_round 1 (by norm_num) (by norm_num; linarith)
theorem small_exp {x : Ieee .f64} (hx : x.value ≤ 4) : Small 6 (roundReal .f64 (Real.exp x.value)) := by
  have e1 := Real.exp_one_lt_d9
  have h1 : Real.exp x.value ≤ 2.7182818286 ^ 4 := by
    have h4 : (x.value : ℝ) ≤ 4 := by exact_mod_cast hx
    calc _ ≤ Real.exp 4 := Real.exp_le_exp.2 h4
      _ = Real.exp 1 ^ 4 := by rw [← Real.exp_nat_mul]; norm_num
      _ ≤ _ := by gcongr
  norm_num at h1
  refine small_round 6 (by norm_num) ?_
  rw [abs_of_pos (Real.exp_pos _)]; norm_num; linarith
theorem csmall_exp {z : Complex (Ieee .f64)} (hx : z.re.value ≤ 4) : ∃ r, z.exp = .ok r ∧ CSmall 7 r :=
  ⟨_, rfl, small_mul (k := 6) (l := 1) (by norm_num) (small_exp hx) (small_unit (Real.abs_cos_le_one _)),
    small_mul (k := 6) (l := 1) (by norm_num) (small_exp hx) (small_unit (Real.abs_sin_le_one _))⟩

theorem CSmall.finite {k : ℕ} {z : Complex (Ieee .f64)} (h : CSmall k z) : CFinite z := ⟨h.1.1, h.2.1⟩

/-- `exp(a + b)` and `exp(a) * exp(b)` with `a = 1 + i = b`. -/
theorem safe_exp_add : (CForm.exp (.add (.var 2) (.var 2))).Safe 4 (Fmt.f64.u : ℝ) (3 * Fmt.f64.η) inputs := by
  refine ⟨⟨(by show CFinite _; decide +kernel), (by show CFinite _; decide +kernel), out_of rfl (by decide +kernel)⟩, ?_⟩
  obtain ⟨r, h1, h2⟩ := csmall_exp (z := ⟨(inputs 2).re.add (inputs 2).re, (inputs 2).im.add (inputs 2).im⟩) (by decide +kernel)
  exact out_of h1 h2.finite
theorem safe_exp_mul : (CForm.mul (.exp (.var 2)) (.exp (.var 2))).Safe 4 (Fmt.f64.u : ℝ) (3 * Fmt.f64.η) inputs := by
  obtain ⟨r, h1, h2⟩ := csmall_exp (z := inputs 2) (by decide +kernel)
  obtain ⟨s, h3, h4⟩ := csmall_mul (by norm_num) h2 h2
  have hs : (CForm.exp (.var 2)).Safe 4 (Fmt.f64.u : ℝ) (3 * Fmt.f64.η) inputs := ⟨by show CFinite _; decide +kernel, out_of h1 h2.finite⟩
  refine ⟨hs, hs, out_of (r := s) ?_ h4.finite⟩
  show (do (← (inputs 2).exp).mul (← (inputs 2).exp)) = .ok s
  rw [h1]; exact h3
example := C69_exp_add p8 4 k4 accurate accLog inputs (.var 2) (.var 2) safe_exp_add safe_exp_mul

/-- `sin`, `cos`, `sinh` and `cosh` at `1 + i`. -/
theorem csmall_trig : (∃ r, (inputs 2).sin = .ok r ∧ CSmall 4 r) ∧ (∃ r, (inputs 2).cos = .ok r ∧ CSmall 4 r) ∧
    (∃ r, (inputs 2).sinh = .ok r ∧ CSmall 4 r) ∧ (∃ r, (inputs 2).cosh = .ok r ∧ CSmall 4 r) := by
  obtain ⟨_, v1, v2, v3, v4⟩ := values
  have r1 := small_round 2 (by norm_num) (v1.trans (by norm_num))
  have r2 := small_round 2 (by norm_num) (v2.trans (by norm_num))
  have r3 := small_round 2 (by norm_num) (v3.trans (by norm_num))
  have r4 := small_round 2 (by norm_num) (v4.trans (by norm_num))
  have m : ∀ {a b : Ieee .f64}, Small 2 a → Small 2 b → Small 4 (a.mul b) := fun ha hb => small_mul (by norm_num) ha hb
  exact ⟨⟨_, rfl, m r3 r2, m r4 r1⟩, ⟨_, rfl, m r4 r2, small_neg (m r3 r1)⟩, ⟨_, rfl, m r1 r4, m r2 r3⟩, ⟨_, rfl, m r2 r4, m r1 r3⟩⟩

theorem safe_pythagoras :
    (CForm.add (.mul (.sin (.var 2)) (.sin (.var 2))) (.mul (.cos (.var 2)) (.cos (.var 2)))).Safe 4 (Fmt.f64.u : ℝ) (3 * Fmt.f64.η) inputs ∧
    (CForm.sub (.mul (.cosh (.var 2)) (.cosh (.var 2))) (.mul (.sinh (.var 2)) (.sinh (.var 2)))).Safe 4 (Fmt.f64.u : ℝ) (3 * Fmt.f64.η) inputs := by
  obtain ⟨⟨s, es, hs⟩, ⟨c, ec, hc⟩, ⟨s', es', hs'⟩, ⟨c', ec', hc'⟩⟩ := csmall_trig
  obtain ⟨ss, ess, hss⟩ := csmall_mul (by norm_num) hs hs
  obtain ⟨cc, ecc, hcc⟩ := csmall_mul (by norm_num) hc hc
  obtain ⟨ss', ess', hss'⟩ := csmall_mul (by norm_num) hs' hs'
  obtain ⟨cc', ecc', hcc'⟩ := csmall_mul (by norm_num) hc' hc'
  obtain ⟨t, et, ht⟩ := csmall_add (by norm_num) hss hcc
  obtain ⟨t', et', ht'⟩ := csmall_sub (by norm_num) hcc' hss'
  have fin : CFinite (inputs 2) := by decide +kernel
  have e1 : (CForm.mul (.sin (.var 2)) (.sin (.var 2))).run inputs = .ok ss := by
    show (do (← (inputs 2).sin).mul (← (inputs 2).sin)) = _
    rw [es]; exact ess
  have e2 : (CForm.mul (.cos (.var 2)) (.cos (.var 2))).run inputs = .ok cc := by
    show (do (← (inputs 2).cos).mul (← (inputs 2).cos)) = _
    rw [ec]; exact ecc
  have e3 : (CForm.mul (.sinh (.var 2)) (.sinh (.var 2))).run inputs = .ok ss' := by
    show (do (← (inputs 2).sinh).mul (← (inputs 2).sinh)) = _
    rw [es']; exact ess'
  have e4 : (CForm.mul (.cosh (.var 2)) (.cosh (.var 2))).run inputs = .ok cc' := by
    show (do (← (inputs 2).cosh).mul (← (inputs 2).cosh)) = _
    rw [ec']; exact ecc'
  have e5 : (CForm.add (.mul (.sin (.var 2)) (.sin (.var 2))) (.mul (.cos (.var 2)) (.cos (.var 2)))).run inputs = .ok t := by
    unfold CForm.run; rw [e1, e2]; exact et
  have e6 : (CForm.sub (.mul (.cosh (.var 2)) (.cosh (.var 2))) (.mul (.sinh (.var 2)) (.sinh (.var 2)))).run inputs = .ok t' := by
    unfold CForm.run; rw [e3, e4]; exact et'
  refine ⟨⟨⟨⟨fin, ?_⟩, ⟨fin, ?_⟩, ?_⟩, ⟨⟨fin, ?_⟩, ⟨fin, ?_⟩, ?_⟩, ?_⟩, ⟨⟨⟨fin, ?_⟩, ⟨fin, ?_⟩, ?_⟩, ⟨⟨fin, ?_⟩, ⟨fin, ?_⟩, ?_⟩, ?_⟩⟩
  · exact out_of es hs.finite
  · exact out_of es hs.finite
  · exact out_of e1 hss.finite
  · exact out_of ec hc.finite
  · exact out_of ec hc.finite
  · exact out_of e2 hcc.finite
  · exact out_of e5 ht.finite
  · exact out_of ec' hc'.finite
  · exact out_of ec' hc'.finite
  · exact out_of e4 hcc'.finite
  · exact out_of es' hs'.finite
  · exact out_of es' hs'.finite
  · exact out_of e3 hss'.finite
  · exact out_of e6 ht'.finite
example := (C69_pythagoras p8 4 k4 accurate accLog inputs (.var 2)).1 _ rfl safe_pythagoras.1
example := (C69_pythagoras p8 4 k4 accurate accLog inputs (.var 2)).2 _ rfl safe_pythagoras.2

/-- `exp(ln a)` with `a = 1 + 2i`. -/
theorem safe_exp_ln : (CForm.exp (.ln (.var 0))).Safe 4 (Fmt.f64.u : ℝ) (3 * Fmt.f64.η) inputs := by
  have l1 : Real.log 5 ≤ 4 := by have := Real.log_le_sub_one_of_pos (x := 5) (by norm_num); linarith
  have l0 : (1 / 2 : ℝ) ≤ Real.log 5 := by
    rw [Real.le_log_iff_exp_le (by norm_num)]
    have h1 : Real.exp (1 / 2) ≤ Real.exp 1 := Real.exp_le_exp.2 (by norm_num)
    have h2 := Real.exp_one_lt_d9
    refine h1.trans (h2.le.trans (by norm_num))
  have hb := roundReal_between (F := .f64) (y := Real.log 5) (lo := -1) (hi := 3) (by norm_num [Fmt.emin, Fmt.f64])
    (by norm_num [Fmt.f64]) (by norm_num; linarith) (by norm_num; linarith)
  have h2 : (f64 2).value = 2 := by decide +kernel
  have hd : ((roundReal .f64 (Real.log 5)).div (f64 2)).Between (-2) 2 := by
    rw [Ieee.div_fin hb.2 (by rw [h2]; norm_num), h2]
    obtain ⟨a1, a2⟩ := hb.1.2.resolve_left hb.2
    refine (Ieee.round_between (by norm_num [Fmt.emin, Fmt.f64]) (by norm_num [Fmt.f64]) ?_ ?_).1 <;> rw [abs_div, abs_two]
    · norm_num at a1 ⊢; linarith
    · norm_num at a2 ⊢; linarith
  have ha : Small 3 (roundReal .f64 (_root_.Complex.arg ⟨(inputs 0).re.value, (inputs 0).im.value⟩)) := by
    refine small_round 3 (by norm_num) ?_
    have := _root_.Complex.abs_arg_le_pi ⟨(inputs 0).re.value, (inputs 0).im.value⟩
    have := Real.pi_lt_four
    norm_num; linarith
  have el : (inputs 0).ln = .ok ⟨(roundReal .f64 (Real.log 5)).div (f64 2),
      roundReal .f64 (_root_.Complex.arg ⟨(inputs 0).re.value, (inputs 0).im.value⟩)⟩ := by
    have e1 : (inputs 0).sqrNorm = .ok (f64 5) := by decide +kernel
    have e2 : ((f64 5).value : ℝ) = 5 := by
      have : (f64 5).value = 5 := by decide +kernel
      rw [this]; norm_num
    have e3 : (AddAssignRef.addAssign (one : Ieee .f64) one).toRes = .ok (f64 2) := by decide +kernel
    unfold Complex.ln
    rw [e3, e1]
    show Except.ok (Complex.mk ((roundReal .f64 (Real.log ((f64 5).value : ℝ))).div (f64 2)) _) = _
    rw [e2]
  have hf : CFinite (⟨(roundReal .f64 (Real.log 5)).div (f64 2),
      roundReal .f64 (_root_.Complex.arg ⟨(inputs 0).re.value, (inputs 0).im.value⟩)⟩ : Complex (Ieee .f64)) := ⟨hd.1, ha.1⟩
  have hv : ((roundReal .f64 (Real.log 5)).div (f64 2)).value ≤ 4 := by
    rcases hd.2 with h0 | h0
    · rw [h0]; norm_num
    · have := (le_abs_self _).trans h0.2; norm_num at this ⊢; linarith
  obtain ⟨r, er, hr⟩ := csmall_exp (z := ⟨(roundReal .f64 (Real.log 5)).div (f64 2),
      roundReal .f64 (_root_.Complex.arg ⟨(inputs 0).re.value, (inputs 0).im.value⟩)⟩) hv
  refine ⟨⟨?_, out_of rfl ?_, ?_, ?_, out_of el hf⟩, out_of (r := r) ?_ hr.finite⟩
  · show CFinite _; decide +kernel
  · intro s hs
    have e1 : (inputs 0).sqrNorm = .ok (f64 5) := by decide +kernel
    cases e1.symm.trans hs
    decide +kernel
  · exact ln_example.2.2.2.2
  · show (0 : ℝ) < cutDist (cval (inputs 0))
    rw [inputs0]
    unfold cutDist
    rw [if_pos (by norm_num), norm_pos_iff]
    intro h
    have := congrArg _root_.Complex.re h
    norm_num at this
  · show (do (← (inputs 0).ln).exp) = _
    rw [el]; exact er
example := C69_exp_ln p8 4 k4 accurate accLog inputs (.var 0) safe_exp_ln
-- `tan` of `1 + i`: its formula is `sin / cos`.
example := C69_tan (F := .f64) inputs (.var 2)

end Accurate

end Magnesia.Witness
