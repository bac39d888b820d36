import Verif.Proof.CxRound
import Mathlib.Analysis.Complex.Basic

/-!
# Property C57: accuracy of algorithms over `Complex<f32>` and `Complex<f64>`

`cval z` is the point of the complex plane `z` stands for, `CFinite z` says that neither part is NaN or infinite,
`F.u = 2^-p` is the unit roundoff, `F.cu = (1 + u)(1 + √2 u) - 1` and `F.cη` is the error due to underflow.
-/

namespace Magnesia

open RZero ROne MulRefs

variable {F : Fmt}

theorem norm_le_of_parts {e s : ℂ} {u : ℝ} (hu : 0 ≤ u) (h1 : |e.re| ≤ u * |s.re|) (h2 : |e.im| ≤ u * |s.im|) :
    ‖e‖ ≤ u * ‖s‖ := by
  refine abs_le_of_sq_le_sq' ?_ (by positivity) |>.2
  have h3 := pow_le_pow_left₀ (abs_nonneg _) h1 2
  have h4 := pow_le_pow_left₀ (abs_nonneg _) h2 2
  rw [sq_abs, mul_pow, sq_abs] at h3 h4
  rw [mul_pow, Complex.sq_norm, Complex.sq_norm, Complex.normSq_apply, Complex.normSq_apply]
  linarith

theorem norm_le_of_parts_le {e : ℂ} {M : ℝ} (hM : 0 ≤ M) (h1 : |e.re| ≤ M) (h2 : |e.im| ≤ M) :
    ‖e‖ ≤ Real.sqrt 2 * M := by
  refine abs_le_of_sq_le_sq' ?_ (by positivity) |>.2
  have h3 := pow_le_pow_left₀ (abs_nonneg _) h1 2
  have h4 := pow_le_pow_left₀ (abs_nonneg _) h2 2
  rw [sq_abs] at h3 h4
  rw [mul_pow, Complex.sq_norm, Complex.normSq_apply, Real.sq_sqrt (by norm_num)]
  linarith

theorem prods_le_norm (z w : ℂ) : |z.re| * |w.re| + |z.im| * |w.im| ≤ ‖z‖ * ‖w‖ ∧
    |z.re| * |w.im| + |z.im| * |w.re| ≤ ‖z‖ * ‖w‖ := by
  have h1 := cauchy_schwarz_two z.re z.im w.re w.im
  have h2 := cauchy_schwarz_two z.re z.im w.im w.re
  have e : ∀ z : ℂ, ‖z‖ ^ 2 = z.re ^ 2 + z.im ^ 2 := fun z => by
    rw [Complex.sq_norm, Complex.normSq_apply]; ring
  rw [add_comm (w.im ^ 2)] at h2
  rw [← e, ← e, ← mul_pow] at h1 h2
  exact ⟨(abs_le_of_sq_le_sq' h1 (by positivity)).2, (abs_le_of_sq_le_sq' h2 (by positivity)).2⟩

theorem Ieee.add_errR {a b : Ieee F} (h : (a.add b).Finite) :
    |((a.add b).value : ℝ) - (a.value + b.value)| ≤ F.u * |(a.value : ℝ) + b.value| := by
  exact_mod_cast Ieee.add_err h

theorem Ieee.sub_errR {a b : Ieee F} (h : (a.sub b).Finite) :
    |((a.sub b).value : ℝ) - (a.value - b.value)| ≤ F.u * |(a.value : ℝ) - b.value| := by
  exact_mod_cast Ieee.sub_err h

theorem Fmt.cu_nonneg (F : Fmt) : 0 ≤ F.cu := by
  have h : (0 : ℝ) ≤ F.u := by exact_mod_cast F.u_pos.le
  have h2 := Real.sqrt_nonneg 2
  unfold Fmt.cu
  nlinarith [mul_nonneg h2 h, mul_nonneg (mul_nonneg h2 h) h]

theorem Fmt.cη_nonneg (F : Fmt) : 0 ≤ F.cη := by
  have h : (0 : ℝ) ≤ F.u := by exact_mod_cast F.u_pos.le
  have h2 : (0 : ℝ) ≤ F.η := by exact_mod_cast F.η_pos.le
  unfold Fmt.cη
  positivity

/-- C57: the sum of two complex numbers always returns. If both parts of the result are finite, so are the operands, and
the error is at most `u |z + w|`. -/
theorem C57_add_error (z w : Complex (Ieee F)) : ∃ s, z.add w = .ok s ∧ (CFinite s → CFinite z ∧ CFinite w ∧
    ‖cval s - (cval z + cval w)‖ ≤ F.u * ‖cval z + cval w‖) := by
  refine ⟨⟨z.re.add w.re, z.im.add w.im⟩, rfl, fun ⟨h1, h2⟩ => ?_⟩
  obtain ⟨h3, h4, _⟩ := Ieee.add_finite h1
  obtain ⟨h5, h6, _⟩ := Ieee.add_finite h2
  refine ⟨⟨h3, h5⟩, ⟨h4, h6⟩, norm_le_of_parts (by exact_mod_cast F.u_pos.le) ?_ ?_⟩
  · exact Ieee.add_errR h1
  · exact Ieee.add_errR h2

/-- C57: the same for the difference. -/
theorem C57_sub_error (z w : Complex (Ieee F)) : ∃ s, z.sub w = .ok s ∧ (CFinite s → CFinite z ∧ CFinite w ∧
    ‖cval s - (cval z - cval w)‖ ≤ F.u * ‖cval z - cval w‖) := by
  refine ⟨⟨z.re.sub w.re, z.im.sub w.im⟩, rfl, fun ⟨h1, h2⟩ => ?_⟩
  obtain ⟨h3, h4, _⟩ := Ieee.sub_finite h1
  obtain ⟨h5, h6, _⟩ := Ieee.sub_finite h2
  refine ⟨⟨h3, h5⟩, ⟨h4, h6⟩, norm_le_of_parts (by exact_mod_cast F.u_pos.le) ?_ ?_⟩
  · exact Ieee.sub_errR h1
  · exact Ieee.sub_errR h2

/-- C57: the product of two complex numbers always returns. If both parts of the result are finite, so are the operands,
and the error is at most `((1 + u)(1 + √2 u) - 1) |z w|`, unless a product of parts underflows. -/
theorem C57_mul_error (z w : Complex (Ieee F)) : ∃ p, z.mul w = .ok p ∧ (CFinite p → CFinite z ∧ CFinite w ∧
    ‖cval p - cval z * cval w‖ ≤ F.cu * ‖cval z * cval w‖ + F.cη) := by
  refine ⟨_, ieee_cmul z w, fun ⟨h1, h2⟩ => ?_⟩
  obtain ⟨a1, a2, _⟩ := Ieee.sub_finite h1
  obtain ⟨a3, a4, _⟩ := Ieee.add_finite h2
  obtain ⟨b1, b2, _⟩ := Ieee.mul_finite a1
  obtain ⟨b3, b4, _⟩ := Ieee.mul_finite a2
  refine ⟨⟨b1, b3⟩, ⟨b2, b4⟩, ?_⟩
  have hu : (0 : ℝ) ≤ F.u := by exact_mod_cast F.u_pos.le
  have hη : (0 : ℝ) ≤ F.η := by exact_mod_cast F.η_pos.le
  set s : ℂ := ⟨(z.re.mul w.re).value - (z.im.mul w.im).value, (z.re.mul w.im).value + (z.im.mul w.re).value⟩ with hs
  set p : Complex (Ieee F) := ⟨(z.re.mul w.re).sub (z.im.mul w.im), (z.re.mul w.im).add (z.im.mul w.re)⟩ with hp
  have c1 : ‖cval p - s‖ ≤ F.u * ‖s‖ := by
    refine norm_le_of_parts hu ?_ ?_
    · exact Ieee.sub_errR h1
    · exact Ieee.add_errR h2
  have key : ∀ {a b : Ieee F}, (a.mul b).Finite →
      |((a.mul b).value : ℝ) - a.value * b.value| ≤ F.u * (|(a.value : ℝ)| * |(b.value : ℝ)|) + F.η := by
    intro a b h
    have := F.roundQ_err_any (a.value * b.value)
    rw [← (Ieee.mul_finite h).2.2, abs_mul] at this
    exact_mod_cast this
  have d1 := key a1; have d2 := key a2; have d3 := key a3; have d4 := key a4
  obtain ⟨e1, e2⟩ := prods_le_norm (cval z) (cval w)
  have e1' := mul_le_mul_of_nonneg_left e1 hu
  have e2' := mul_le_mul_of_nonneg_left e2 hu
  have c2 : ‖s - cval z * cval w‖ ≤ Real.sqrt 2 * (F.u * (‖cval z‖ * ‖cval w‖) + 2 * F.η) := by
    refine norm_le_of_parts_le (by positivity) ?_ ?_
    · have : (s - cval z * cval w).re = (((z.re.mul w.re).value : ℝ) - z.re.value * w.re.value) -
          (((z.im.mul w.im).value : ℝ) - z.im.value * w.im.value) := by
        simp [hs, cval]; ring
      rw [this]
      refine (abs_sub _ _).trans ?_
      have e0 : (F.u : ℝ) * (|(z.re.value : ℝ)| * |(w.re.value : ℝ)| + |(z.im.value : ℝ)| * |(w.im.value : ℝ)|) ≤
        F.u * (‖cval z‖ * ‖cval w‖) := e1'
      linarith
    · have : (s - cval z * cval w).im = (((z.re.mul w.im).value : ℝ) - z.re.value * w.im.value) +
          (((z.im.mul w.re).value : ℝ) - z.im.value * w.re.value) := by
        simp [hs, cval]; ring
      rw [this]
      refine (abs_add_le _ _).trans ?_
      have e0 : (F.u : ℝ) * (|(z.re.value : ℝ)| * |(w.im.value : ℝ)| + |(z.im.value : ℝ)| * |(w.re.value : ℝ)|) ≤
        F.u * (‖cval z‖ * ‖cval w‖) := e2'
      linarith
  have c3 : ‖s‖ ≤ ‖s - cval z * cval w‖ + ‖cval z * cval w‖ := by
    simpa using norm_add_le (s - cval z * cval w) (cval z * cval w)
  have c4 : ‖cval p - cval z * cval w‖ ≤ ‖cval p - s‖ + ‖s - cval z * cval w‖ := by
    simpa using norm_add_le (cval p - s) (s - cval z * cval w)
  rw [← norm_mul] at c2
  have c5 := mul_le_mul_of_nonneg_left c3 hu
  have c6 := mul_le_mul_of_nonneg_left c2 (by linarith : 0 ≤ 1 + (F.u : ℝ))
  calc ‖cval p - cval z * cval w‖ ≤ F.u * ‖cval z * cval w‖ + (1 + F.u) * ‖s - cval z * cval w‖ := by linarith
    _ ≤ F.u * ‖cval z * cval w‖ + (1 + F.u) * (Real.sqrt 2 * (F.u * ‖cval z * cval w‖ + 2 * F.η)) := by linarith
    _ = F.cu * ‖cval z * cval w‖ + F.cη := by unfold Fmt.cu Fmt.cη; ring

/-- C57: for `f32`, `f64` and all formats with at least 6 bits the error of a product is at most `2.5 u`. -/
theorem C57_cu_le (hp : 6 ≤ F.p) : F.cu ≤ 5 / 2 * F.u := by
  have hu : (0 : ℝ) ≤ F.u := by exact_mod_cast F.u_pos.le
  have h1 : (F.u : ℝ) ≤ 1 / 64 := by
    have h : F.u ≤ 2 ^ (-6 : ℤ) := zpow_le_zpow_right₀ (by norm_num) (by omega)
    have h2 : F.u ≤ 1 / 64 := by norm_num at h ⊢; exact h
    have h3 : (F.u : ℝ) ≤ ((1 / 64 : ℚ) : ℝ) := by exact_mod_cast h2
    norm_num at h3 ⊢; exact h3
  have h2 : Real.sqrt 2 ≤ 1.42 := by
    rw [show (1.42 : ℝ) = Real.sqrt (1.42 ^ 2) by rw [Real.sqrt_sq (by norm_num)]]
    exact Real.sqrt_le_sqrt (by norm_num)
  have h3 : Real.sqrt 2 * (1 + F.u) ≤ 1.42 * (1 + 1 / 64) :=
    mul_le_mul h2 (by linarith) (by linarith) (by norm_num)
  have h4 := mul_le_mul_of_nonneg_right h3 hu
  unfold Fmt.cu
  linarith

/-- C57: the quotient of two complex numbers whose parts are zero or between `2^-k` and `2^k` in magnitude, in the norm. -/
theorem C57_div_error (k : ℕ) (hk : 4 * k + F.p + 1 ≤ F.emax) (z w : Complex (Ieee F))
    (hzr : z.re.Between (-k) k) (hzi : z.im.Between (-k) k) (hwr : w.re.Between (-k) k) (hwi : w.im.Between (-k) k)
    (hw : cval w ≠ 0) :
    ∃ q, z.div w = .ok q ∧ CFinite q ∧
      ‖cval q - cval z / cval w‖ ≤ Real.sqrt 2 * ((1 + F.u) ^ 4 / (2 - (1 + F.u) ^ 2) - 1) * ‖cval z / cval w‖ := by
  have hw' : w.re.value ≠ 0 ∨ w.im.value ≠ 0 := by
    by_contra h
    push Not at h
    exact hw (_root_.Complex.ext (by simp [cval, h.1]) (by simp [cval, h.2]))
  obtain ⟨q, e, hr, hi, h1, h2⟩ := C49_ieee_div_error k hk z w hzr hzi hwr hwi hw'
  refine ⟨q, e, ⟨hr, hi⟩, ?_⟩
  have hu : (0 : ℝ) ≤ F.u := by exact_mod_cast F.u_pos.le
  have hu4 : (F.u : ℝ) ≤ 1 / 4 := by
    have h3 : (F.u : ℝ) ≤ ((1 / 4 : ℚ) : ℝ) := by exact_mod_cast F.u_le_quarter
    norm_num at h3 ⊢; exact h3
  set c : ℝ := (1 + F.u) ^ 4 / (2 - (1 + F.u) ^ 2) - 1 with hc
  have hc0 : 0 ≤ c := by
    have h3 : 0 < 2 - (1 + (F.u : ℝ)) ^ 2 := by nlinarith
    have h4 : (1 : ℝ) ≤ (1 + F.u) ^ 2 := one_le_pow₀ (by linarith)
    rw [hc, sub_nonneg, le_div_iff₀ h3]
    have : (1 : ℝ) ≤ (1 + F.u) ^ 4 := one_le_pow₀ (by linarith)
    linarith
  have hn : 0 < ‖cval w‖ := norm_pos_iff.2 hw
  have hN : (w.re.value : ℝ) ^ 2 + (w.im.value : ℝ) ^ 2 = ‖cval w‖ ^ 2 := by
    rw [Complex.sq_norm, Complex.normSq_apply]; simp [cval]; ring
  have hq : ‖cval z / cval w‖ = ‖cval z‖ * ‖cval w‖ / ‖cval w‖ ^ 2 := by
    rw [norm_div]; field_simp
  obtain ⟨p1, p2⟩ := prods_le_norm (cval z) (cval w)
  rw [mul_assoc]
  refine norm_le_of_parts_le (by positivity) ?_ ?_
  · have h1' : |(q.re.value : ℝ) - (z.re.value * w.re.value + z.im.value * w.im.value) / (w.re.value ^ 2 + w.im.value ^ 2)| ≤
        c * ((|(z.re.value : ℝ)| * |(w.re.value : ℝ)| + |(z.im.value : ℝ)| * |(w.im.value : ℝ)|) /
          (w.re.value ^ 2 + w.im.value ^ 2)) := by rw [hc]; exact_mod_cast h1
    have e1 : (cval q - cval z / cval w).re = (q.re.value : ℝ) -
        (z.re.value * w.re.value + z.im.value * w.im.value) / (w.re.value ^ 2 + w.im.value ^ 2) := by
      rw [Complex.sub_re, Complex.div_re, Complex.normSq_apply]
      simp only [cval]
      ring
    rw [e1]
    refine h1'.trans (mul_le_mul_of_nonneg_left ?_ hc0)
    rw [hq, hN]
    exact div_le_div_of_nonneg_right p1 (by positivity)
  · have h2' : |(q.im.value : ℝ) - (z.im.value * w.re.value - z.re.value * w.im.value) / (w.re.value ^ 2 + w.im.value ^ 2)| ≤
        c * ((|(z.im.value : ℝ)| * |(w.re.value : ℝ)| + |(z.re.value : ℝ)| * |(w.im.value : ℝ)|) /
          (w.re.value ^ 2 + w.im.value ^ 2)) := by rw [hc]; exact_mod_cast h2
    have e1 : (cval q - cval z / cval w).im = (q.im.value : ℝ) -
        (z.im.value * w.re.value - z.re.value * w.im.value) / (w.re.value ^ 2 + w.im.value ^ 2) := by
      rw [Complex.sub_im, Complex.div_im, Complex.normSq_apply]
      simp only [cval]
      ring
    rw [e1]
    refine h2'.trans (mul_le_mul_of_nonneg_left ?_ hc0)
    rw [hq, hN, add_comm]
    exact div_le_div_of_nonneg_right p2 (by positivity)

/-- The operators of `Complex<f32>` and `Complex<f64>`. -/
theorem cx_rounds : RoundsN (fun z w : Complex (Ieee F) => z.add w) (fun z w => z.mul w) zero CFinite cval F.u F.cu F.cη where
  u_nonneg := by exact_mod_cast F.u_pos.le
  v_nonneg := F.cu_nonneg
  η_nonneg := F.cη_nonneg
  zero := by
    show cval (⟨.zero false, .zero false⟩ : Complex (Ieee F)) = 0
    simp [cval, Ieee.value]; rfl
  add := fun a b c h hc => by
    obtain ⟨s, h1, h2⟩ := C57_add_error a b
    cases h.symm.trans h1
    exact h2 hc
  mul := fun a b c h hc => by
    obtain ⟨s, h1, h2⟩ := C57_mul_error a b
    cases h.symm.trans h1
    exact h2 hc

/-! ## Polynomials -/

/-- C57: evaluating a polynomial with complex coefficients always returns. -/
theorem C57_horner_returns (a : List (Complex (Ieee F))) (x : Complex (Ieee F)) :
    ∃ y, (Poly.fromCoefficients a).eval x = .ok y := by
  suffices h : ∀ (l : List (Complex (Ieee F))) (s : Complex (Ieee F)), ∃ y, l.foldlM (fun y a => do
      let y ← mulRefs y x
      (AddAssignRef.addAssign y a).toRes) s = .ok y from h _ _
  intro l
  induction l with
  | nil => exact fun s => ⟨s, rfl⟩
  | cons a l ih => intro s; rw [List.foldlM_cons]; exact ih _

/-- C57: if both parts of the value of the polynomial are finite, then so are all coefficients and (if there are any
coefficients) `x`, and the value is accurate. -/
theorem C57_horner_error (a : List (Complex (Ieee F))) (x y : Complex (Ieee F))
    (hy : (Poly.fromCoefficients a).eval x = .ok y) (hf : CFinite y) :
    (∀ i : Fin a.length, CFinite a[i]) ∧ (a ≠ [] → CFinite x) ∧
    ‖cval y - ∑ i : Fin a.length, cval a[i] * cval x ^ (i : ℕ)‖ ≤
      (((1 + F.u) * (1 + F.cu)) ^ a.length - 1) * ∑ i : Fin a.length, ‖cval a[i]‖ * ‖cval x‖ ^ (i : ℕ) +
      ((1 + F.u) * (1 + F.cu)) ^ a.length * (F.cη * ∑ i ∈ Finset.range a.length, ‖cval x‖ ^ i) := by
  obtain ⟨_, h2, h3, h⟩ := napprox_horner cx_rounds x a.reverse zero y hy hf
  refine ⟨fun i => h2 _ (by simp), fun h => h3 (by simpa using h), ?_⟩
  have h := h 0 0 0 0 ⟨by simp, le_rfl, by simp, by simp [cx_rounds.zero]⟩
  rw [horner_sum cval, horner_sum (fun b => ‖cval b‖), horner_const, List.length_reverse, zero_add] at h
  rw [add_comm]
  exact h.err

/-! ## Vectors and matrices -/

/-- C57: the dot product of `SVector`s. -/
theorem C57_dot_error {n : ℕ} (v w : SVector (Complex (Ieee F)) n) :
    ∃ x, v.dot w = .ok x ∧ (CFinite x → (∀ i, CFinite (v.val i) ∧ CFinite (w.val i)) ∧
    ‖cval x - ∑ i, cval (v.val i) * cval (w.val i)‖ ≤
      ((1 + F.u) ^ n * (1 + F.cu) - 1) * ∑ i, ‖cval (v.val i)‖ * ‖cval (w.val i)‖ +
      (1 + F.u) ^ n * (1 + F.cu) * (n * F.cη)) := by
  have hr : ∀ (l : List (Fin n)) (s : Complex (Ieee F)), ∃ y, l.foldlM (fun sum i => do
      let prod ← mulRefs (v.val i) (w.val i)
      (AddAssignRef.addAssign sum prod).toRes) s = .ok y := by
    intro l
    induction l with
    | nil => exact fun s => ⟨s, rfl⟩
    | cons a l ih => intro s; rw [List.foldlM_cons]; exact ih _
  obtain ⟨x, hx⟩ := hr (List.finRange n) zero
  refine ⟨x, hx, fun hf => ?_⟩
  obtain ⟨_, h2, h⟩ := napprox_dot cx_rounds v.val w.val _ _ _ hx hf
  refine ⟨fun i => h2 i (List.mem_finRange i), ?_⟩
  have h := h 0 0 0 0 ⟨by simpa using F.cu_nonneg, le_rfl, by simp, by simp [cx_rounds.zero]⟩
  simp only [zero_add, List.length_finRange, ← Fin.sum_univ_def] at h
  rw [add_comm]
  exact h.err

/-- C57: the product of `SMatrix`es: every entry of the result with finite parts is accurate. -/
theorem C57_smatrix_mul_error {l m n : ℕ} (a : SMatrix (Complex (Ieee F)) l m) (b : SMatrix (Complex (Ieee F)) m n) :
    ∃ c, a.mul b = .ok c ∧ ∀ i j, CFinite (c.val i j) →
    ‖cval (c.val i j) - ∑ k, cval (a.val i k) * cval (b.val k j)‖ ≤
      ((1 + F.u) ^ m * (1 + F.cu) - 1) * ∑ k, ‖cval (a.val i k)‖ * ‖cval (b.val k j)‖ +
      (1 + F.u) ^ m * (1 + F.cu) * (m * F.cη) := by
  choose y hy h using fun (i : Fin l) (j : Fin n) => C57_dot_error (SVector.mk (a.val i)) (SVector.mk fun k => b.val k j)
  exact ⟨⟨y⟩, (smatrix_mul_entries a b ⟨y⟩).2 hy, fun i j hf => (h i j hf).2⟩

/-- C57: the product of an `SMatrix` and an `SVector`. -/
theorem C57_mul_vec_error {m n : ℕ} (a : SMatrix (Complex (Ieee F)) m n) (v : SVector (Complex (Ieee F)) n) :
    ∃ w, a.mulVec v = .ok w ∧ ∀ i, CFinite (w.val i) →
    ‖cval (w.val i) - ∑ k, cval (a.val i k) * cval (v.val k)‖ ≤
      ((1 + F.u) ^ n * (1 + F.cu) - 1) * ∑ k, ‖cval (a.val i k)‖ * ‖cval (v.val k)‖ +
      (1 + F.u) ^ n * (1 + F.cu) * (n * F.cη) := by
  choose y hy h using fun (i : Fin m) => C57_dot_error (SVector.mk (a.val i)) v
  refine ⟨⟨y⟩, ?_, fun i hf => (h i hf).2⟩
  rw [SMatrix.mulVec_eq]
  have e : fromFnM m (fun i => (SVector.mk (a.val i)).dot v) = .ok y := fromFnM_ok_iff.2 hy
  show (do let w ← fromFnM m (fun i => (SVector.mk (a.val i)).dot v); pure (SVector.mk w)) = _
  rw [e]
  rfl

/-- C57: the product of `DMatrix`es (with at least one column on the left). -/
theorem C57_dmatrix_mul_error {p : Profile} {l m n : ℕ} (hp : p.Fits l (m + 1)) (hq : p.Fits (m + 1) n)
    (f : Fin l → Fin (m + 1) → Complex (Ieee F)) (g : Fin (m + 1) → Fin n → Complex (Ieee F)) :
    ∃ y : Fin l → Fin n → Complex (Ieee F),
      (do (← (DMatrix.ofFn f).mul p (DMatrix.ofFn g)).eval) = .ok (DMatrix.ofFn y) ∧ ∀ i j, CFinite (y i j) →
      (∀ k, CFinite (f i k) ∧ CFinite (g k j)) ∧
      ‖cval (y i j) - ∑ k, cval (f i k) * cval (g k j)‖ ≤
        ((1 + F.u) ^ m * (1 + F.cu) - 1) * ∑ k, ‖cval (f i k)‖ * ‖cval (g k j)‖ +
        (1 + F.u) ^ m * (1 + F.cu) * ((m + 1) * F.cη) := by
  have ht : ∀ i j k, k < m + 1 → ∃ y : Complex (Ieee F), prodTerms f g i j k = .ok y := fun i j k hk => by
    simp only [prodTerms, dif_pos hk]; exact ⟨_, rfl⟩
  have key : ∀ i j, ∀ k < m + 1, ∃ y : Complex (Ieee F), Tree.sumTerms (prodTerms f g i j) (k + 1) = .ok y := by
    intro i j k
    induction k with
    | zero => exact ht i j 0
    | succ k ih =>
      intro hk
      obtain ⟨s, hs⟩ := ih (by omega)
      obtain ⟨t, h1⟩ := ht i j (k + 1) hk
      exact ⟨_, show (do
        let s ← Tree.sumTerms (prodTerms f g i j) (k + 1)
        let x ← prodTerms f g i j (k + 1)
        (RAddAssign.addAssign s x).toRes) = .ok ⟨s.re.add t.re, s.im.add t.im⟩ by rw [hs, h1]; rfl⟩
  choose y hy using fun i j => key i j m (by omega)
  refine ⟨y, (mul_eval_iff hp hq f g _).2 ⟨y, hy, rfl⟩, fun i j hf => ?_⟩
  have hk : ∀ k < m + 1, prodTerms f g i j k =
      (if hk : k < m + 1 then f i ⟨k, hk⟩ else zero).mul (if hk : k < m + 1 then g ⟨k, hk⟩ j else zero) := by
    intro k hk
    simp only [prodTerms, dif_pos hk]
    rfl
  obtain ⟨h1, h⟩ := napprox_sumTerms cx_rounds (fun _ _ => rfl) hk (hy i j) hf
  refine ⟨fun k => by have := h1 k k.2; simpa only [Fin.is_lt, dite_true, Fin.eta] using this, ?_⟩
  rw [← Fin.sum_univ_eq_sum_range (fun k => ‖cval (if hk : k < m + 1 then f i ⟨k, hk⟩ else zero)‖ *
      ‖cval (if hk : k < m + 1 then g ⟨k, hk⟩ j else zero)‖),
    ← Fin.sum_univ_eq_sum_range (fun k => cval (if hk : k < m + 1 then f i ⟨k, hk⟩ else zero) *
      cval (if hk : k < m + 1 then g ⟨k, hk⟩ j else zero))] at h
  simp only [Fin.is_lt, dite_true, Fin.eta] at h
  have := h.err
  linarith

/-- C57: the inner product of `DVector`s, `Σ conj(f i) g i`. -/
theorem C57_dvector_dot_error {n : ℕ} (f g : Fin n → Complex (Ieee F)) :
    ∃ x, (DVector.ofFn f).dot (DVector.ofFn g) = .ok x ∧ (CFinite x → (∀ i, CFinite (f i) ∧ CFinite (g i)) ∧
    ‖cval x - ∑ i, (starRingEnd ℂ) (cval (f i)) * cval (g i)‖ ≤
      ((1 + F.u) ^ n * (1 + F.cu) - 1) * ∑ i, ‖cval (f i)‖ * ‖cval (g i)‖ +
      (1 + F.u) ^ n * (1 + F.cu) * (n * F.cη)) := by
  let cj : Complex (Ieee F) → Complex (Ieee F) := fun z => ⟨z.re, z.im.neg⟩
  have hc : ∀ z, cval (cj z) = (starRingEnd ℂ) (cval z) := fun z => by
    apply _root_.Complex.ext
    · simp [cj, cval]
    · simp [cj, cval, Ieee.neg_value]
  obtain ⟨x, hx, h⟩ := C57_dot_error (SVector.mk fun i => cj (f i)) ⟨g⟩
  refine ⟨x, ?_, fun hf => ?_⟩
  · rw [← hx]
    show (List.zip (List.ofFn f) (List.ofFn g)).foldlM _ _ = _
    rw [List.ofFn_eq_map, List.ofFn_eq_map, List.zip_map', List.foldlM_map]
    rfl
  · obtain ⟨h1, h2⟩ := h hf
    refine ⟨fun i => ⟨⟨(h1 i).1.1, Ieee.neg_finite.1 (h1 i).1.2⟩, (h1 i).2⟩, ?_⟩
    simpa only [hc, Complex.norm_conj] using h2

/-! ## Concrete cases -/

instance (z : Complex (Ieee F)) : Decidable (CFinite z) := inferInstanceAs (Decidable (_ ∧ _))

/-- `(1 + i) + (2 - i) x + 3 x²` at `x = 0.1 + 0.2 i` in `f32`: the result is finite in both parts, both parts are rounded (the
exact value is `1.31 + 1.42 i`). -/
example : ∃ y, (Poly.fromCoefficients [(⟨f32 1, f32 1⟩ : Complex _), ⟨f32 2, f32 (-1)⟩, ⟨f32 3, f32 0⟩]).eval
    ⟨f32 (1 / 10), f32 (2 / 10)⟩ = .ok y ∧ CFinite y ∧ y.re.value ≠ 131 / 100 ∧ y.im.value ≠ 142 / 100 :=
  ⟨⟨f32 (2747269 / 2097152), f32 (744489 / 524288)⟩, by decide +kernel⟩

/-- The inner product of `(0.1 + i, 2)` and `(3 i, 0.7)` conjugates the left vector: about `4.4 + 0.3 i`. -/
example : ∃ y, (DVector.ofFn ![(⟨f64 (1 / 10), f64 1⟩ : Complex _), ⟨f64 2, f64 0⟩]).dot
    (DVector.ofFn ![⟨f64 0, f64 3⟩, ⟨f64 (7 / 10), f64 0⟩]) = .ok y ∧ CFinite y :=
  ⟨⟨f64 (2476979795053773 / 562949953421312), f64 (1351079888211149 / 4503599627370496)⟩, by decide +kernel⟩

/-- `cval w ≠ 0` for `w = 0.1 + 3i`, which meets the other hypotheses of `C57_div_error` (see the example for
`C49_ieee_div_error`). -/
example : cval (⟨f32 (1 / 10), f32 3⟩ : Complex _) ≠ 0 := by
  intro h
  have h1 := congrArg _root_.Complex.im h
  have h2 : (f32 3).value ≠ 0 := by decide +kernel
  exact h2 (by simpa [cval] using h1)

end Magnesia
