import Verif.Proof.CxMul5
import Verif.Props.CxRound

/-!
# Property C93: the sharp error bound of products over `Complex<f32>` and `Complex<f64>`

For all formats with at least four bits the product of two complex numbers has a relative error of at most `√5 u` in the
norm (plus `2√2 η` if partial products underflow), and there are `f32` and `f64` numbers for which the error is as large as
that up to a factor extremely close to one.
-/

namespace Magnesia

open RZero ROne MulRefs

variable {F : Fmt}

/-- The exact product of two finite parts is zero or not below the smallest positive normal number. -/
def NoUnderflow (a b : Ieee F) : Prop := a.value * b.value = 0 ∨ 2 ^ F.emin ≤ |a.value * b.value|

theorem norm_mk_sq (a b : ℝ) : ‖(⟨a, b⟩ : ℂ)‖ ^ 2 = a ^ 2 + b ^ 2 := by
  rw [Complex.sq_norm, Complex.normSq_apply]; ring

/-- A vector whose parts are at most `d` and `e`. -/
theorem norm_le_parts {v : ℂ} {d e : ℝ} (h1 : |v.re| ≤ d) (h2 : |v.im| ≤ e) : ‖v‖ ≤ ‖(⟨d, e⟩ : ℂ)‖ := by
  refine abs_le_of_sq_le_sq' ?_ (norm_nonneg _) |>.2
  rw [norm_mk_sq, Complex.sq_norm, Complex.normSq_apply]
  have h3 := pow_le_pow_left₀ (abs_nonneg _) h1 2
  have h4 := pow_le_pow_left₀ (abs_nonneg _) h2 2
  rw [sq_abs] at h3 h4
  linarith

theorem mul5_aux (hp : 4 ≤ F.p) {z w : Complex (Ieee F)} {p : Complex (Ieee F)} (h : z.mul w = .ok p) (hf : CFinite p) :
    CFinite z ∧ CFinite w ∧ ∃ d e : ℝ, ‖(⟨d, e⟩ : ℂ)‖ ≤ Real.sqrt 5 * F.u * ‖cval z * cval w‖ ∧
      |(cval p - cval z * cval w).re| ≤ d + 2 * F.η ∧ |(cval p - cval z * cval w).im| ≤ e + 2 * F.η ∧
      (NoUnderflow z.re w.re → NoUnderflow z.im w.im → NoUnderflow z.re w.im → NoUnderflow z.im w.re →
        |(cval p - cval z * cval w).re| ≤ d ∧ |(cval p - cval z * cval w).im| ≤ e) := by
  rw [ieee_cmul] at h
  cases h
  obtain ⟨h1, h2⟩ := hf
  obtain ⟨a1, a2, v1⟩ := Ieee.sub_finite h1
  obtain ⟨a3, a4, v2⟩ := Ieee.add_finite h2
  obtain ⟨b1, b2, c1⟩ := Ieee.mul_finite a1
  obtain ⟨b3, b4, c2⟩ := Ieee.mul_finite a2
  obtain ⟨_, _, c3⟩ := Ieee.mul_finite a3
  obtain ⟨_, _, c4⟩ := Ieee.mul_finite a4
  refine ⟨⟨b1, b3⟩, ⟨b2, b4⟩, ?_⟩
  rw [c1, c2] at v1
  rw [c3, c4] at v2
  obtain ⟨d, e, hd, he, h3, h4, h5, h6⟩ := F.parts5 hp (x := z.re.value * w.re.value) (y := z.im.value * w.im.value)
    (s := z.re.value * w.im.value) (t := z.im.value * w.re.value) (by ring)
  rw [← v1] at h4 h6
  rw [← v2] at h5 h6
  have hu : (0 : ℝ) ≤ F.u := by exact_mod_cast F.u_pos.le
  refine ⟨d, e, ?_, ?_, ?_, fun n1 n2 n3 n4 => ?_⟩
  · refine abs_le_of_sq_le_sq' ?_ (by positivity) |>.2
    rw [norm_mk_sq, mul_pow, mul_pow, Real.sq_sqrt (by norm_num), Complex.sq_norm, Complex.normSq_apply]
    simp only [cval, Complex.mul_re, Complex.mul_im]
    have h7 : (d : ℝ) ^ 2 + (e : ℝ) ^ 2 ≤ 5 * F.u ^ 2 * ((z.re.value * w.re.value - z.im.value * w.im.value) ^ 2 +
      (z.re.value * w.im.value + z.im.value * w.re.value) ^ 2) := by exact_mod_cast h3
    linarith
  · simp only [cval, Complex.sub_re, Complex.mul_re]; exact_mod_cast h4
  · simp only [cval, Complex.sub_im, Complex.mul_im]; exact_mod_cast h5
  · obtain ⟨h8, h9⟩ := h6 n1 n2 n3 n4
    constructor
    · simp only [cval, Complex.sub_re, Complex.mul_re]; exact_mod_cast h8
    · simp only [cval, Complex.sub_im, Complex.mul_im]; exact_mod_cast h9

/-- C93: the product of two complex numbers always returns. If both parts of the result are finite, so are the operands, and
the error is at most `√5 u |z w|`, plus `2 √2 η` for products of parts which underflow. -/
theorem C93_mul_error (hp : 4 ≤ F.p) (z w : Complex (Ieee F)) : ∃ p, z.mul w = .ok p ∧ (CFinite p → CFinite z ∧ CFinite w ∧
    ‖cval p - cval z * cval w‖ ≤ Real.sqrt 5 * F.u * ‖cval z * cval w‖ + 2 * Real.sqrt 2 * F.η) := by
  refine ⟨_, ieee_cmul z w, fun hf => ?_⟩
  obtain ⟨hz, hw, d, e, h1, h2, h3, _⟩ := mul5_aux hp (ieee_cmul z w) hf
  refine ⟨hz, hw, ?_⟩
  have hη : (0 : ℝ) ≤ F.η := by exact_mod_cast F.η_pos.le
  have h4 := norm_le_parts h2 h3
  have h5 : ‖(⟨2 * F.η, 2 * F.η⟩ : ℂ)‖ ≤ Real.sqrt 2 * (2 * F.η) :=
    norm_le_of_parts_le (by positivity) (by simp [abs_of_nonneg hη]) (by simp [abs_of_nonneg hη])
  have h6 : (⟨d + 2 * F.η, e + 2 * F.η⟩ : ℂ) = ⟨d, e⟩ + ⟨2 * F.η, 2 * F.η⟩ := by
    apply _root_.Complex.ext <;> rfl
  have h7 := norm_add_le (⟨d, e⟩ : ℂ) ⟨2 * F.η, 2 * F.η⟩
  rw [h6] at h4
  linarith

/-- C93: without underflow the relative error is at most `√5 u`. -/
theorem C93_mul_error_normal (hp : 4 ≤ F.p) (z w p : Complex (Ieee F)) (h : z.mul w = .ok p) (hf : CFinite p)
    (h1 : NoUnderflow z.re w.re) (h2 : NoUnderflow z.im w.im) (h3 : NoUnderflow z.re w.im) (h4 : NoUnderflow z.im w.re) :
    ‖cval p - cval z * cval w‖ ≤ Real.sqrt 5 * F.u * ‖cval z * cval w‖ := by
  obtain ⟨_, _, d, e, h5, _, _, h6⟩ := mul5_aux hp h hf
  obtain ⟨h7, h8⟩ := h6 h1 h2 h3 h4
  exact (norm_le_parts h7 h8).trans h5

/-! ## The bound is sharp -/

theorem sharp_aux {z w p : Complex (Ieee F)} {c : ℚ}
    (h : c * F.u ^ 2 * ((z.re.value * w.re.value - z.im.value * w.im.value) ^ 2 +
        (z.re.value * w.im.value + z.im.value * w.re.value) ^ 2) ≤
      (p.re.value - (z.re.value * w.re.value - z.im.value * w.im.value)) ^ 2 +
      (p.im.value - (z.re.value * w.im.value + z.im.value * w.re.value)) ^ 2) (hc : 0 ≤ c) :
    Real.sqrt c * F.u * ‖cval z * cval w‖ ≤ ‖cval p - cval z * cval w‖ := by
  refine abs_le_of_sq_le_sq' ?_ (norm_nonneg _) |>.2
  rw [mul_pow, mul_pow, Real.sq_sqrt (by exact_mod_cast hc), Complex.sq_norm, Complex.normSq_apply, Complex.sq_norm,
    Complex.normSq_apply]
  simp only [cval, Complex.mul_re, Complex.mul_im, Complex.sub_re, Complex.sub_im]
  have h' : (c : ℝ) * F.u ^ 2 * ((z.re.value * w.re.value - z.im.value * w.im.value) ^ 2 +
        (z.re.value * w.im.value + z.im.value * w.re.value) ^ 2) ≤
      (p.re.value - (z.re.value * w.re.value - z.im.value * w.im.value)) ^ 2 +
      (p.im.value - (z.re.value * w.im.value + z.im.value * w.re.value)) ^ 2 := by exact_mod_cast h
  linarith

instance (a b : Ieee F) : Decidable (NoUnderflow a b) := inferInstanceAs (Decidable (_ ∨ _))

/-- C93: there are `f32` numbers whose product has an error of more than `2.23606 u` (and `√5 = 2.236067…`), without
underflow. -/
theorem C93_sharp_f32 : ∃ z w p : Complex (Ieee .f32), z.mul w = .ok p ∧ CFinite p ∧
    NoUnderflow z.re w.re ∧ NoUnderflow z.im w.im ∧ NoUnderflow z.re w.im ∧ NoUnderflow z.im w.re ∧
    0 < ‖cval z * cval w‖ ∧
    Real.sqrt (5 - 168 * Fmt.f32.u : ℚ) * Fmt.f32.u * ‖cval z * cval w‖ ≤ ‖cval p - cval z * cval w‖ := by
  refine ⟨⟨f32 (3 / 4), f32 (12582909 / 16777216)⟩, ⟨f32 (5592409 / 8388608), f32 (5592407 / 8388608)⟩,
    ⟨f32 (3 / 8388608), f32 (4194305 / 4194304)⟩, by decide +kernel, by decide +kernel, by decide +kernel, by decide +kernel,
    by decide +kernel, by decide +kernel, ?_, sharp_aux (by decide +kernel) (by decide +kernel)⟩
  refine norm_pos_iff.2 fun h => ?_
  have h1 := congrArg _root_.Complex.im h
  simp only [cval, Complex.mul_im, Complex.zero_im] at h1
  exact (by decide +kernel : (f32 (3 / 4)).value * (f32 (5592407 / 8388608)).value +
    (f32 (12582909 / 16777216)).value * (f32 (5592409 / 8388608)).value ≠ 0) (by exact_mod_cast h1)

/-- C93: there are `f64` numbers whose product has an error of more than `2.236067 u`, without underflow. -/
theorem C93_sharp_f64 : ∃ z w p : Complex (Ieee .f64), z.mul w = .ok p ∧ CFinite p ∧
    NoUnderflow z.re w.re ∧ NoUnderflow z.im w.im ∧ NoUnderflow z.re w.im ∧ NoUnderflow z.im w.re ∧
    0 < ‖cval z * cval w‖ ∧
    Real.sqrt (5 - 96 * Fmt.f64.u : ℚ) * Fmt.f64.u * ‖cval z * cval w‖ ≤ ‖cval p - cval z * cval w‖ := by
  refine ⟨⟨f64 (6755399441055747 / 9007199254740992), f64 (3 / 4)⟩,
    ⟨f64 (3002399751580333 / 4503599627370496), f64 (3002399751580331 / 4503599627370496)⟩,
    ⟨f64 (3 / 4503599627370496), f64 (1125899906842625 / 1125899906842624)⟩,
    by decide +kernel, by decide +kernel, by decide +kernel, by decide +kernel,
    by decide +kernel, by decide +kernel, ?_, sharp_aux (by decide +kernel) (by decide +kernel)⟩
  refine norm_pos_iff.2 fun h => ?_
  have h1 := congrArg _root_.Complex.im h
  simp only [cval, Complex.mul_im, Complex.zero_im] at h1
  exact (by decide +kernel : (f64 (6755399441055747 / 9007199254740992)).value * (f64 (3002399751580331 / 4503599627370496)).value +
    (f64 (3 / 4)).value * (f64 (3002399751580333 / 4503599627370496)).value ≠ 0) (by exact_mod_cast h1)

/-! ## Algorithms -/

/-- The operators of `Complex<f32>` and `Complex<f64>`. -/
theorem cx_rounds5 (hp : 4 ≤ F.p) : RoundsN (fun z w : Complex (Ieee F) => z.add w) (fun z w => z.mul w) zero CFinite cval
    F.u (Real.sqrt 5 * F.u) (2 * Real.sqrt 2 * F.η) where
  u_nonneg := by exact_mod_cast F.u_pos.le
  v_nonneg := mul_nonneg (Real.sqrt_nonneg _) (by exact_mod_cast F.u_pos.le)
  η_nonneg := mul_nonneg (by positivity) (by exact_mod_cast F.η_pos.le)
  zero := cx_rounds.zero
  add := cx_rounds.add
  mul := fun a b c h hc => by
    obtain ⟨s, h1, h2⟩ := C93_mul_error hp a b
    cases h.symm.trans h1
    exact h2 hc

/-- C93: polynomials with complex coefficients. -/
theorem C93_horner_error (hp : 4 ≤ F.p) (a : List (Complex (Ieee F))) (x y : Complex (Ieee F))
    (hy : (Poly.fromCoefficients a).eval x = .ok y) (hf : CFinite y) :
    ‖cval y - ∑ i : Fin a.length, cval a[i] * cval x ^ (i : ℕ)‖ ≤
      (((1 + F.u) * (1 + Real.sqrt 5 * F.u)) ^ a.length - 1) * ∑ i : Fin a.length, ‖cval a[i]‖ * ‖cval x‖ ^ (i : ℕ) +
      ((1 + F.u) * (1 + Real.sqrt 5 * F.u)) ^ a.length *
        (2 * Real.sqrt 2 * F.η * ∑ i ∈ Finset.range a.length, ‖cval x‖ ^ i) := by
  obtain ⟨_, h2, h3, h⟩ := napprox_horner (cx_rounds5 hp) x a.reverse zero y hy hf
  have h := h 0 0 0 0 ⟨by simp, le_rfl, by simp, by simp [cx_rounds.zero]⟩
  rw [horner_sum cval, horner_sum (fun b => ‖cval b‖), horner_const, List.length_reverse, zero_add] at h
  rw [add_comm]
  exact h.err

/-- C93: the dot product of `SVector`s. -/
theorem C93_dot_error (hp : 4 ≤ F.p) {n : ℕ} (v w : SVector (Complex (Ieee F)) n) :
    ∃ x, v.dot w = .ok x ∧ (CFinite x →
    ‖cval x - ∑ i, cval (v.val i) * cval (w.val i)‖ ≤
      ((1 + F.u) ^ n * (1 + Real.sqrt 5 * F.u) - 1) * ∑ i, ‖cval (v.val i)‖ * ‖cval (w.val i)‖ +
      (1 + F.u) ^ n * (1 + Real.sqrt 5 * F.u) * (n * (2 * Real.sqrt 2 * F.η))) := by
  obtain ⟨x, hx, _⟩ := C57_dot_error v w
  refine ⟨x, hx, fun hf => ?_⟩
  obtain ⟨_, h2, h⟩ := napprox_dot (cx_rounds5 hp) v.val w.val _ _ _ hx hf
  have h := h 0 0 0 0 ⟨by simpa using (cx_rounds5 hp).v_nonneg, le_rfl, by simp, by simp [cx_rounds.zero]⟩
  simp only [zero_add, List.length_finRange, ← Fin.sum_univ_def] at h
  rw [add_comm]
  exact h.err

/-- C93: the product of `SMatrix`es: every entry of the result with finite parts is accurate. -/
theorem C93_smatrix_mul_error (hp : 4 ≤ F.p) {l m n : ℕ} (a : SMatrix (Complex (Ieee F)) l m)
    (b : SMatrix (Complex (Ieee F)) m n) :
    ∃ c, a.mul b = .ok c ∧ ∀ i j, CFinite (c.val i j) →
    ‖cval (c.val i j) - ∑ k, cval (a.val i k) * cval (b.val k j)‖ ≤
      ((1 + F.u) ^ m * (1 + Real.sqrt 5 * F.u) - 1) * ∑ k, ‖cval (a.val i k)‖ * ‖cval (b.val k j)‖ +
      (1 + F.u) ^ m * (1 + Real.sqrt 5 * F.u) * (m * (2 * Real.sqrt 2 * F.η)) := by
  choose y hy h using fun (i : Fin l) (j : Fin n) => C93_dot_error hp (SVector.mk (a.val i)) (SVector.mk fun k => b.val k j)
  exact ⟨⟨y⟩, (smatrix_mul_entries a b ⟨y⟩).2 hy, fun i j hf => h i j hf⟩

/-- C93: the product of `DMatrix`es (with at least one column on the left). -/
theorem C93_dmatrix_mul_error (h4 : 4 ≤ F.p) {p : Profile} {l m n : ℕ} (hp : p.Fits l (m + 1)) (hq : p.Fits (m + 1) n)
    (f : Fin l → Fin (m + 1) → Complex (Ieee F)) (g : Fin (m + 1) → Fin n → Complex (Ieee F)) :
    ∃ y : Fin l → Fin n → Complex (Ieee F),
      (do (← (DMatrix.ofFn f).mul p (DMatrix.ofFn g)).eval) = .ok (DMatrix.ofFn y) ∧ ∀ i j, CFinite (y i j) →
      ‖cval (y i j) - ∑ k, cval (f i k) * cval (g k j)‖ ≤
        ((1 + F.u) ^ m * (1 + Real.sqrt 5 * F.u) - 1) * ∑ k, ‖cval (f i k)‖ * ‖cval (g k j)‖ +
        (1 + F.u) ^ m * (1 + Real.sqrt 5 * F.u) * ((m + 1) * (2 * Real.sqrt 2 * F.η)) := by
  have ht : ∀ i j k, k < m + 1 → ∃ y : Complex (Ieee F), prodTerms f g i j k = .ok y := fun i j k hk => by
    simp only [prodTerms, dif_pos hk]; exact ⟨_, rfl⟩
  have key : ∀ i j, ∀ k < m + 1, ∃ y : Complex (Ieee F), Tree.sumTerms (prodTerms f g i j) (k + 1) = .ok y := by
    intro i j k
    induction k with
    | zero => exact ht i j 0
    | succ k ih =>
      intro hk
      obtain ⟨s, hs⟩ := ih (by omega)
      obtain ⟨t, h1⟩ := ht i j (k + 1) hk
      exact ⟨_, show (do
        let s ← Tree.sumTerms (prodTerms f g i j) (k + 1)
        let x ← prodTerms f g i j (k + 1)
        (RAddAssign.addAssign s x).toRes) = .ok ⟨s.re.add t.re, s.im.add t.im⟩ by rw [hs, h1]; rfl⟩
  choose y hy using fun i j => key i j m (by omega)
  refine ⟨y, (mul_eval_iff hp hq f g _).2 ⟨y, hy, rfl⟩, fun i j hf => ?_⟩
  have hk : ∀ k < m + 1, prodTerms f g i j k =
      (if hk : k < m + 1 then f i ⟨k, hk⟩ else zero).mul (if hk : k < m + 1 then g ⟨k, hk⟩ j else zero) := by
    intro k hk
    simp only [prodTerms, dif_pos hk]
    rfl
  obtain ⟨h1, h⟩ := napprox_sumTerms (cx_rounds5 h4) (fun _ _ => rfl) hk (hy i j) hf
  rw [← Fin.sum_univ_eq_sum_range (fun k => ‖cval (if hk : k < m + 1 then f i ⟨k, hk⟩ else zero)‖ *
      ‖cval (if hk : k < m + 1 then g ⟨k, hk⟩ j else zero)‖),
    ← Fin.sum_univ_eq_sum_range (fun k => cval (if hk : k < m + 1 then f i ⟨k, hk⟩ else zero) *
      cval (if hk : k < m + 1 then g ⟨k, hk⟩ j else zero))] at h
  simp only [Fin.is_lt, dite_true, Fin.eta] at h
  have := h.err
  linarith

/-! ## Quotients -/

theorem trap_cdiv_returns (k : ℕ) (hk : 4 * k + F.p + 1 ≤ F.emax) (z w : Complex (Trap F true))
    (hzr : z.re.val.Between (-k) k) (hzi : z.im.val.Between (-k) k) (hwr : w.re.val.Between (-k) k)
    (hwi : w.im.val.Between (-k) k) (hw : w.re.value ≠ 0 ∨ w.im.value ≠ 0) : ∃ q, z.div w = .ok q := by
  have hp := F.two_le_p
  have he : F.emin = 1 - F.emax := rfl
  obtain ⟨s, es, hs, _, hs'⟩ := trap_sqrNorm (w := w) (k := k) hwr hwi (by omega) (by omega)
  have h1 : (one : Trap F true).val.Between 0 0 := ⟨trivial, .inr (by
    show (2 : ℚ) ^ (0 : ℤ) ≤ |1| ∧ |(1 : ℚ)| ≤ 2 ^ (0 : ℤ)
    norm_num)⟩
  obtain ⟨r, er, hr, _⟩ := Trap.div_between h1 hs (hs' hw) (by omega) (by omega)
  obtain ⟨p1, e1, h1, _⟩ := Trap.mul_between (a := z.re) (b := w.re) hzr hwr (by omega) (by omega)
  obtain ⟨p2, e2, h2, _⟩ := Trap.mul_between (a := z.im) (b := w.re) hzi hwr (by omega) (by omega)
  obtain ⟨p3, e3, h3, _⟩ := Trap.mul_between (a := z.re) (b := w.im) hzr hwi (by omega) (by omega)
  obtain ⟨p4, e4, h4, _⟩ := Trap.mul_between (a := z.im) (b := w.im) hzi hwi (by omega) (by omega)
  obtain ⟨q1, e5, h5⟩ := Trap.add_between h1 h4 (by omega) (by omega)
  obtain ⟨q2, e6, h6⟩ := Trap.sub_between h2 h3 (by omega) (by omega)
  obtain ⟨x, e7, h7, _⟩ := Trap.mul_between h5 hr (by omega) (by omega)
  obtain ⟨y, e8, h8, _⟩ := Trap.mul_between h6 hr (by omega) (by omega)
  refine ⟨⟨x, y⟩, ?_⟩
  show (do
    let s ← w.sqrNorm
    let r ← Trap.div one s
    let p1 ← Trap.mul z.re w.re
    let p2 ← Trap.mul z.im w.re
    let p3 ← Trap.mul z.re w.im
    let p4 ← Trap.mul z.im w.im
    let q1 ← (Upd.ofRes p1 (Trap.add p1 p4)).toRes
    let q2 ← (Upd.ofRes p2 (Trap.sub p2 p3)).toRes
    let x ← Trap.mul q1 r
    let y ← Trap.mul q2 r
    (.ok ⟨x, y⟩ : Res (Complex (Trap F true)))) = _
  simp only [toRes_ofRes, es, er, e1, e2, e3, e4, e5, e6, e7, e8, bind, Except.bind]

theorem normal_of_trap {x : ℚ} (hx : ¬ (true = true ∧ x ≠ 0 ∧ |x| < 2 ^ F.emin)) : F.Normal x := by
  by_contra hc
  unfold Fmt.Normal at hc
  push Not at hc
  exact hx ⟨rfl, hc.1, hc.2⟩

/-- The squared norm of a complex number, in arithmetic without overflow and underflow. -/
theorem trap_sqrNorm_err {w : Complex (Trap F true)} {s : Trap F true} (h : w.sqrNorm = .ok s) :
    |s.value - (w.re.value ^ 2 + w.im.value ^ 2)| ≤ 2 * F.u * (w.re.value ^ 2 + w.im.value ^ 2) := by
  obtain ⟨a, ha, h⟩ := bind_ok h
  obtain ⟨b, hb, h⟩ := bind_ok h
  rw [show (AddAssignRef.addAssign a b).toRes = Trap.add a b from toRes_ofRes _ _] at h
  obtain ⟨a1, a2, a3⟩ := Trap.ret_ok ha
  obtain ⟨b1, b2, b3⟩ := Trap.ret_ok hb
  rw [(Trap.add_ok h).2, Trap.value, Trap.value, a2, b2, (Ieee.mul_finite a1).2.2, (Ieee.mul_finite b1).2.2, sq, sq]
  exact Fmt.add_normal (mul_self_nonneg _) (mul_self_nonneg _) (normal_of_trap a3) (normal_of_trap b3)

theorem Trap.mul_roundQ {a b c : Trap F true} (h : Trap.mul a b = .ok c) :
    c.value = F.roundQ (a.value * b.value) ∧ F.Normal (a.value * b.value) := by
  obtain ⟨a1, a2, a3⟩ := Trap.ret_ok h
  exact ⟨by rw [Trap.value, a2]; exact (Ieee.mul_finite a1).2.2, normal_of_trap a3⟩

/-- Numerator, reciprocal of the denominator, products. -/
theorem div_compose {N M q : ℂ} {n s r u v : ℝ} (hu : 0 ≤ u) (hu2 : u ≤ 1 / 4) (hv : 0 ≤ v) (hn : 0 < n)
    (h1 : ‖N - M‖ ≤ v * ‖M‖) (h2 : |s - n| ≤ 2 * u * n) (h3 : |r - 1 / s| ≤ u * |1 / s|)
    (h4 : ‖q - N * r‖ ≤ u * ‖N * r‖) :
    ‖q - M / n‖ ≤ ((1 + v) * (1 + u) ^ 2 / (1 - 2 * u) - 1) * ‖M / n‖ := by
  have hs1 := (abs_le.1 h2).1
  have hd : 0 < 1 - 2 * u := by linarith
  have hs : (1 - 2 * u) * n ≤ s := by linarith
  have hs0 : 0 < s := lt_of_lt_of_le (mul_pos hd hn) hs
  have hG : 1 / s ≤ 1 / (1 - 2 * u) * (1 / n) := by
    rw [div_mul_div_comm, one_mul]; exact one_div_le_one_div_of_le (mul_pos hd hn) hs
  set G := (1 + u) / (1 - 2 * u) with hGd
  have hG1 : G - 1 = 3 * u / (1 - 2 * u) := by
    rw [hGd, eq_div_iff hd.ne', sub_mul, div_mul_cancel₀ _ hd.ne']; ring
  have hi : (0 : ℝ) < 1 / n := by positivity
  rw [abs_of_pos (by positivity : 0 < 1 / s)] at h3
  have hr : |r - 1 / n| ≤ (G - 1) * (1 / n) := by
    have h5 : |1 / s - 1 / n| ≤ 2 * u * (1 / s) := by
      rw [show 1 / s - 1 / n = (n - s) * (1 / n) * (1 / s) by field_simp, abs_mul, abs_mul, abs_of_pos hi,
        abs_of_pos (by positivity : 0 < 1 / s)]
      refine mul_le_mul_of_nonneg_right ?_ (by positivity)
      rw [abs_sub_comm, mul_one_div, div_le_iff₀ hn]; exact h2
    have h6 := abs_sub_le r (1 / s) (1 / n)
    have h7 := mul_le_mul_of_nonneg_left hG (by linarith : 0 ≤ 3 * u)
    rw [hG1]
    calc |r - 1 / n| ≤ 3 * u * (1 / s) := by linarith
      _ ≤ _ := h7
      _ = _ := by ring
  have hr' : |r| ≤ G * (1 / n) := by
    have h5 := abs_sub_abs_le_abs_sub r (1 / n)
    rw [abs_of_pos hi] at h5
    linarith
  have hG0 : 0 ≤ G * (1 / n) := (abs_nonneg r).trans hr'
  have hM := norm_nonneg M
  have hN : ‖N‖ ≤ (1 + v) * ‖M‖ := by
    have := norm_add_le (N - M) M
    rw [sub_add_cancel] at this
    linarith
  have e1 : ‖N * r - M / n‖ ≤ (v * ‖M‖) * (G * (1 / n)) + ‖M‖ * ((G - 1) * (1 / n)) := by
    have h5 : N * r - M / n = (N - M) * r + M * ((r - 1 / n : ℝ) : ℂ) := by push_cast; ring
    rw [h5]
    refine (norm_add_le _ _).trans (add_le_add ?_ ?_)
    · rw [norm_mul, Complex.norm_real, Real.norm_eq_abs]
      exact mul_le_mul h1 hr' (abs_nonneg _) (by positivity)
    · rw [norm_mul, Complex.norm_real, Real.norm_eq_abs]
      exact mul_le_mul_of_nonneg_left hr hM
  have e2 : ‖N * r‖ ≤ (1 + v) * ‖M‖ * (G * (1 / n)) := by
    rw [norm_mul, Complex.norm_real, Real.norm_eq_abs]
    exact mul_le_mul hN hr' (abs_nonneg _) (by positivity)
  have e3 : ‖q - M / n‖ ≤ ‖q - N * r‖ + ‖N * r - M / n‖ := by
    have := norm_add_le (q - N * r) (N * r - M / n)
    rwa [sub_add_sub_cancel] at this
  have e4 : ‖M / n‖ = ‖M‖ * (1 / n) := by
    rw [norm_div, Complex.norm_real, Real.norm_eq_abs, abs_of_pos hn]; ring
  rw [e4, show (1 + v) * (1 + u) ^ 2 / (1 - 2 * u) = (1 + v) * (1 + u) * G by rw [hGd]; ring]
  have := mul_le_mul_of_nonneg_left e2 hu
  linarith

theorem trap_div_err (hp : 4 ≤ F.p) {z w q : Complex (Trap F true)} (h : z.div w = .ok q)
    (hw : w.re.value ≠ 0 ∨ w.im.value ≠ 0) :
    ‖(⟨q.re.value, q.im.value⟩ : ℂ) - ⟨z.re.value, z.im.value⟩ / ⟨w.re.value, w.im.value⟩‖ ≤
      ((1 + Real.sqrt 5 * F.u) * (1 + F.u) ^ 2 / (1 - 2 * F.u) - 1) *
        ‖(⟨z.re.value, z.im.value⟩ : ℂ) / ⟨w.re.value, w.im.value⟩‖ := by
  have hu : (0 : ℝ) ≤ F.u := by exact_mod_cast F.u_pos.le
  obtain ⟨s, hs, h⟩ := bind_ok h
  obtain ⟨r, hr, h⟩ := bind_ok h
  obtain ⟨p1, h1, h⟩ := bind_ok h
  obtain ⟨p2, h2, h⟩ := bind_ok h
  obtain ⟨p3, h3, h⟩ := bind_ok h
  obtain ⟨p4, h4, h⟩ := bind_ok h
  obtain ⟨q1, h5, h⟩ := bind_ok h
  obtain ⟨q2, h6, h⟩ := bind_ok h
  obtain ⟨x, h7, h⟩ := bind_ok h
  obtain ⟨y, h8, h⟩ := bind_ok h
  cases pure_ok h
  rw [show (AddAssignRef.addAssign p1 p4).toRes = Trap.add p1 p4 from toRes_ofRes _ _] at h5
  rw [show (SubAssignRef.subAssign p2 p3).toRes = Trap.sub p2 p3 from toRes_ofRes _ _] at h6
  have es := trap_sqrNorm_err hs
  obtain ⟨_, hs0, er⟩ := Trap.div_ok hr
  obtain ⟨v1, n1⟩ := Trap.mul_roundQ h1
  obtain ⟨v2, n2⟩ := Trap.mul_roundQ h2
  obtain ⟨v3, n3⟩ := Trap.mul_roundQ h3
  obtain ⟨v4, n4⟩ := Trap.mul_roundQ h4
  have v5 := (Trap.add_ok h5).2
  have v6 := (Trap.sub_ok h6).2
  have ex := (Trap.mul_ok h7).2
  have ey := (Trap.mul_ok h8).2
  obtain ⟨d, e, hd, he, h9, _, _, h10⟩ := F.parts5 hp (x := z.im.value * w.re.value) (y := z.re.value * w.im.value)
    (s := z.re.value * w.re.value) (t := z.im.value * w.im.value) (by ring)
  obtain ⟨h11, h12⟩ := h10 n2 n3 n1 n4
  rw [← v2, ← v3, ← v6] at h11
  rw [← v1, ← v4, ← v5] at h12
  simp only [Trap.eta, if_true, add_zero] at er ex ey
  rw [show Trap.value (one : Trap F true) = 1 from rfl] at er
  set n : ℝ := (w.re.value : ℝ) ^ 2 + (w.im.value : ℝ) ^ 2 with hn
  have hn0 : 0 < n := by
    rcases hw with h | h
    · have : (w.re.value : ℝ) ≠ 0 := by exact_mod_cast h
      positivity
    · have : (w.im.value : ℝ) ≠ 0 := by exact_mod_cast h
      positivity
  have hM : (⟨z.re.value, z.im.value⟩ : ℂ) / ⟨w.re.value, w.im.value⟩ =
      (⟨z.re.value * w.re.value + z.im.value * w.im.value, z.im.value * w.re.value - z.re.value * w.im.value⟩ : ℂ) / (n : ℂ) := by
    apply _root_.Complex.ext
    · rw [Complex.div_ofReal_re, Complex.div_re, Complex.normSq_apply, hn]; simp only []; ring
    · rw [Complex.div_ofReal_im, Complex.div_im, Complex.normSq_apply, hn]; simp only []; ring
  rw [hM]
  refine div_compose (N := ⟨q1.value, q2.value⟩) (s := s.value) (r := r.value) hu ?_
    (mul_nonneg (Real.sqrt_nonneg _) hu) hn0 ?_ ?_ ?_ ?_
  · have h3 : (F.u : ℝ) ≤ ((1 / 4 : ℚ) : ℝ) := by exact_mod_cast F.u_le_quarter
    norm_num at h3 ⊢; exact h3
  · refine (norm_le_parts (d := e) (e := d) ?_ ?_).trans ?_
    · simp only [Complex.sub_re]; exact_mod_cast h12
    · simp only [Complex.sub_im]; exact_mod_cast h11
    · refine abs_le_of_sq_le_sq' ?_ (by positivity) |>.2
      rw [norm_mk_sq, mul_pow, mul_pow, Real.sq_sqrt (by norm_num), norm_mk_sq]
      have h13 : (d : ℝ) ^ 2 + (e : ℝ) ^ 2 ≤ 5 * F.u ^ 2 * ((z.im.value * w.re.value - z.re.value * w.im.value) ^ 2 +
        (z.re.value * w.re.value + z.im.value * w.im.value) ^ 2) := by exact_mod_cast h9
      linarith
  · rw [hn]; exact_mod_cast es
  · exact_mod_cast er
  · refine norm_le_of_parts hu ?_ ?_
    · rw [Complex.sub_re, Complex.re_mul_ofReal]; simp only []; exact_mod_cast ex
    · rw [Complex.sub_im, Complex.im_mul_ofReal]; simp only []; exact_mod_cast ey

/-- C93: the quotient of two complex numbers whose parts are zero or between `2^-k` and `2^k` in magnitude. -/
theorem C93_div_error (hp : 4 ≤ F.p) (k : ℕ) (hk : 4 * k + F.p + 1 ≤ F.emax) (z w : Complex (Ieee F))
    (hzr : z.re.Between (-k) k) (hzi : z.im.Between (-k) k) (hwr : w.re.Between (-k) k) (hwi : w.im.Between (-k) k)
    (hw : cval w ≠ 0) :
    ∃ q, z.div w = .ok q ∧ CFinite q ∧
      ‖cval q - cval z / cval w‖ ≤
        ((1 + Real.sqrt 5 * F.u) * (1 + F.u) ^ 2 / (1 - 2 * F.u) - 1) * ‖cval z / cval w‖ := by
  have hw' : w.re.value ≠ 0 ∨ w.im.value ≠ 0 := by
    by_contra h
    push Not at h
    exact hw (_root_.Complex.ext (by simp [cval, h.1]) (by simp [cval, h.2]))
  obtain ⟨z', hz1, hz2⟩ : ∃ z' : Complex (Trap F true), z'.re.val = z.re ∧ z'.im.val = z.im :=
    ⟨⟨⟨z.re, hzr.1⟩, ⟨z.im, hzi.1⟩⟩, rfl, rfl⟩
  obtain ⟨w', hw1, hw2⟩ : ∃ w' : Complex (Trap F true), w'.re.val = w.re ∧ w'.im.val = w.im :=
    ⟨⟨⟨w.re, hwr.1⟩, ⟨w.im, hwi.1⟩⟩, rfl, rfl⟩
  have hv : w'.re.value ≠ 0 ∨ w'.im.value ≠ 0 := by rw [Trap.value, Trap.value, hw1, hw2]; exact hw'
  obtain ⟨q, e⟩ := trap_cdiv_returns k hk z' w' (by rwa [hz1]) (by rwa [hz2]) (by rwa [hw1]) (by rwa [hw2]) hv
  have h10 := trap_cdiv z' w'
  have h11 := trap_div_err hp e hv
  simp only [Trap.value, hz1, hz2, hw1, hw2] at h11
  rw [e, show z'.map Trap.val = z by rw [Complex.map, hz1, hz2], show w'.map Trap.val = w by rw [Complex.map, hw1, hw2]] at h10
  exact ⟨⟨q.re.val, q.im.val⟩, h10, ⟨q.re.finite, q.im.finite⟩, h11⟩

/-- C93: for `f32`, `f64` and all formats with at least 11 bits the error of a quotient is at most `6.25 u`. -/
theorem C93_div_constant (hp : 11 ≤ F.p) :
    (1 + Real.sqrt 5 * F.u) * (1 + F.u) ^ 2 / (1 - 2 * F.u) - 1 ≤ 25 / 4 * (F.u : ℝ) := by
  have hu : (0 : ℝ) < F.u := by exact_mod_cast F.u_pos
  have h1 : (F.u : ℝ) ≤ 1 / 2048 := by
    have h : F.u ≤ 2 ^ (-11 : ℤ) := zpow_le_zpow_right₀ (by norm_num) (by omega)
    have h2 : F.u ≤ 1 / 2048 := by norm_num at h ⊢; exact h
    have h3 : (F.u : ℝ) ≤ ((1 / 2048 : ℚ) : ℝ) := by exact_mod_cast h2
    norm_num at h3 ⊢; exact h3
  have h2 : Real.sqrt 5 ≤ 2.2361 := by
    rw [show (2.2361 : ℝ) = Real.sqrt (2.2361 ^ 2) by rw [Real.sqrt_sq (by norm_num)]]
    exact Real.sqrt_le_sqrt (by norm_num)
  rw [sub_le_iff_le_add, div_le_iff₀ (by linarith)]
  have h3 : (1 + Real.sqrt 5 * F.u) * (1 + F.u) ^ 2 ≤ (1 + 2.2361 * F.u) * (1 + (F.u : ℝ)) ^ 2 :=
    mul_le_mul_of_nonneg_right (by nlinarith) (by positivity)
  refine h3.trans ?_
  nlinarith [mul_pos hu hu, mul_pos (mul_pos hu hu) hu, mul_le_mul_of_nonneg_left h1 hu.le,
    mul_le_mul_of_nonneg_left h1 (mul_pos hu hu).le]

end Magnesia
