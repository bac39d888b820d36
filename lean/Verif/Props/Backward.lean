import Verif.Proof.Backward
import Verif.Props.IeeeSqrtErr
import Verif.Spec.RealCx

/-!
# Property C73: backward stability

The computed results are the exact results of the same operation for slightly changed data (up to what underflow contributes).
-/

namespace Magnesia

open RZero ROne MulRefs

variable {F : Fmt}

/-! ## Polynomials -/

/-- C73: a computed finite value of a polynomial at `x` is the exact value at the same `x` of a polynomial whose coefficient `i`
differs relatively by at most `(1+u)^(2i+1) - 1`, plus an underflow term. -/
theorem C73_horner (a : List (Ieee F)) (x y : Ieee F) (hy : (Poly.fromCoefficients a).eval x = .ok y) (hf : y.Finite) :
    ∃ (δ : ℕ → ℝ) (e : ℝ), (∀ i, |δ i| ≤ (1 + F.u) ^ (2 * i + 1) - 1) ∧
      |e| ≤ (1 + F.u) * F.η * ∑ i ∈ Finset.range a.length, ((1 + F.u) ^ 2 * |x.real|) ^ i ∧
      y.real = (∑ i : Fin a.length, a[i].real * (1 + δ i) * x.real ^ (i : ℕ)) + e := by
  have h : a.foldrM (fun a y => do
      let y ← (Except.ok (y.mul x) : Res (Ieee F))
      Except.ok (y.add a)) (zero : Ieee F) = .ok y := by
    rw [← List.foldlM_reverse]; exact hy
  obtain ⟨_, _, δ, e, h1, h2, h3⟩ := backward_horner ieee_rounds x a y h hf
  refine ⟨δ, e, fun i => (h1 i).trans (le_of_eq (by rw [← sq, ← pow_mul, pow_succ]; ring)), h2.trans (le_of_eq ?_), h3⟩
  rw [Real.norm_eq_abs, ← sq]

/-- C73: the same for complex polynomials. -/
theorem C73_horner_complex (a : List (Complex (Ieee F))) (x y : Complex (Ieee F))
    (hy : (Poly.fromCoefficients a).eval x = .ok y) (hf : CFinite y) :
    ∃ (δ : ℕ → ℂ) (e : ℂ), (∀ i, ‖δ i‖ ≤ (1 + F.u) * ((1 + F.u) * (1 + F.cu)) ^ i - 1) ∧
      ‖e‖ ≤ (1 + F.u) * F.cη * ∑ i ∈ Finset.range a.length, ((1 + F.u) * (1 + F.cu) * ‖cval x‖) ^ i ∧
      cval y = (∑ i : Fin a.length, cval a[i] * (1 + δ i) * cval x ^ (i : ℕ)) + e := by
  have h : a.foldrM (fun a y => do
      let y ← y.mul x
      y.add a) (zero : Complex (Ieee F)) = .ok y := by
    rw [← List.foldlM_reverse]; exact hy
  obtain ⟨_, _, δ, e, h1, h2, h3⟩ := backward_horner cx_rounds x a y h hf
  exact ⟨δ, e, h1, h2, h3⟩

/-- C73: a computed value of exactly 0 at `x` means, if nothing underflowed (`η = 0` in the bound, that is the absolute term
vanishes), that `x` is an exact root of a nearby polynomial; in general the nearby polynomial has a tiny value at `x`. -/
theorem C73_root (a : List (Ieee F)) (x : Ieee F) (s : Bool) (hy : (Poly.fromCoefficients a).eval x = .ok (.zero s)) :
    ∃ δ : ℕ → ℝ, (∀ i, |δ i| ≤ (1 + F.u) ^ (2 * i + 1) - 1) ∧
      |∑ i : Fin a.length, a[i].real * (1 + δ i) * x.real ^ (i : ℕ)| ≤
        (1 + F.u) * F.η * ∑ i ∈ Finset.range a.length, ((1 + F.u) ^ 2 * |x.real|) ^ i := by
  obtain ⟨δ, e, h1, h2, h3⟩ := C73_horner a x _ hy trivial
  refine ⟨δ, h1, ?_⟩
  have h0 : (Ieee.zero s : Ieee F).real = 0 := by simp [Ieee.real, Ieee.value]
  rw [h0] at h3
  rw [eq_neg_of_add_eq_zero_left h3.symm, abs_neg]
  exact h2

/-! ## Dot products -/

/-- C73: a computed finite dot product is the exact dot product of a vector that differs relatively by at most
`(1+u)^(n-i+1) - 1` in entry `i` from the left one, and the right vector, plus an underflow term. -/
theorem C73_dot {n : ℕ} (v w : SVector (Ieee F) n) (x : Ieee F) (hx : v.dot w = .ok x) (hf : x.Finite) :
    ∃ (δ : Fin n → ℝ) (e : ℝ), (∀ i, |δ i| ≤ (1 + F.u) ^ (n - i + 1) - 1) ∧ |e| ≤ n * (1 + F.u) ^ n * F.η ∧
      x.real = (∑ i, (v.val i).real * (1 + δ i) * (w.val i).real) + e := by
  obtain ⟨_, _, σ, δ, e, _, h1, h2, h3⟩ := backward_dot ieee_rounds n v.val w.val zero x hx hf
  refine ⟨δ, e, fun i => (h1 i).trans (le_of_eq (by rw [pow_succ]; ring)), h2, ?_⟩
  rw [h3, ieee_rounds.zero, zero_mul, zero_add]

/-- C73: the same for complex vectors. -/
theorem C73_dot_complex {n : ℕ} (v w : SVector (Complex (Ieee F)) n) (x : Complex (Ieee F)) (hx : v.dot w = .ok x)
    (hf : CFinite x) :
    ∃ (δ : Fin n → ℂ) (e : ℂ), (∀ i, ‖δ i‖ ≤ (1 + F.cu) * (1 + F.u) ^ (n - i) - 1) ∧ ‖e‖ ≤ n * (1 + F.u) ^ n * F.cη ∧
      cval x = (∑ i, cval (v.val i) * (1 + δ i) * cval (w.val i)) + e := by
  obtain ⟨_, _, σ, δ, e, _, h1, h2, h3⟩ := backward_dot cx_rounds n v.val w.val zero x hx hf
  refine ⟨δ, e, h1, h2, ?_⟩
  rw [h3, cx_rounds.zero, zero_mul, zero_add]

/-- C73: the conjugating inner product of `DVector`s. -/
theorem C73_dvector_dot_complex {n : ℕ} (f g : Fin n → Complex (Ieee F)) (x : Complex (Ieee F))
    (hx : (DVector.ofFn f).dot (DVector.ofFn g) = .ok x) (hf : CFinite x) :
    ∃ (δ : Fin n → ℂ) (e : ℂ), (∀ i, ‖δ i‖ ≤ (1 + F.cu) * (1 + F.u) ^ (n - i) - 1) ∧ ‖e‖ ≤ n * (1 + F.u) ^ n * F.cη ∧
      cval x = (∑ i, (starRingEnd ℂ) (cval (f i)) * (1 + δ i) * cval (g i)) + e := by
  let cj : Complex (Ieee F) → Complex (Ieee F) := fun z => ⟨z.re, z.im.neg⟩
  have hc : ∀ z, cval (cj z) = (starRingEnd ℂ) (cval z) := fun z => by
    apply _root_.Complex.ext
    · simp [cj, cval]
    · simp [cj, cval, Ieee.neg_value]
  have hx' : (SVector.mk fun i => cj (f i)).dot ⟨g⟩ = .ok x := by
    rw [← hx]
    show _ = (List.zip (List.ofFn f) (List.ofFn g)).foldlM _ _
    rw [List.ofFn_eq_map, List.ofFn_eq_map, List.zip_map', List.foldlM_map]
    rfl
  obtain ⟨δ, e, h1, h2, h3⟩ := C73_dot_complex _ _ x hx' hf
  refine ⟨δ, e, h1, h2, ?_⟩
  simpa only [hc] using h3

/-- C73: the inner product of real `DVector`s. -/
theorem C73_dvector_dot {n : ℕ} (f g : Fin n → Ieee F) (x : Ieee F) (hx : (DVector.ofFn f).dot (DVector.ofFn g) = .ok x)
    (hf : x.Finite) :
    ∃ (δ : Fin n → ℝ) (e : ℝ), (∀ i, |δ i| ≤ (1 + F.u) ^ (n - i + 1) - 1) ∧ |e| ≤ n * (1 + F.u) ^ n * F.η ∧
      x.real = (∑ i, (f i).real * (1 + δ i) * (g i).real) + e := by
  refine C73_dot ⟨f⟩ ⟨g⟩ x ?_ hf
  rw [← hx]
  show _ = (List.zip (List.ofFn f) (List.ofFn g)).foldlM _ _
  rw [List.ofFn_eq_map, List.ofFn_eq_map, List.zip_map', List.foldlM_map]
  rfl

/-! ## Matrices -/

/-- C73: a computed matrix-vector product is exact for a matrix that differs from the given one by at most
`(1+u)^(n+1) - 1` relative to each entry, up to underflow. -/
theorem C73_mul_vec {m n : ℕ} (a : SMatrix (Ieee F) m n) (v : SVector (Ieee F) n) (w : SVector (Ieee F) m)
    (hw : a.mulVec v = .ok w) (hf : ∀ i, (w.val i).Finite) :
    ∃ (Δ : Matrix (Fin m) (Fin n) ℝ) (e : Fin m → ℝ),
      (∀ i j, |Δ i j| ≤ ((1 + F.u) ^ (n + 1) - 1) * |(a.val i j).real|) ∧ (∀ i, |e i| ≤ n * (1 + F.u) ^ n * F.η) ∧
      (fun i => (w.val i).real) = (Matrix.of (fun i j => (a.val i j).real) + Δ).mulVec (fun j => (v.val j).real) + e := by
  have hu : (0 : ℝ) ≤ F.u := ieee_rounds.u_nonneg
  choose δ e h1 h2 h3 using fun i => C73_dot ⟨a.val i⟩ v (w.val i) ((C25_mul_vec_rows a v w).1 hw i) (hf i)
  refine ⟨Matrix.of fun i j => (a.val i j).real * δ i j, e, fun i j => ?_, h2, funext fun i => ?_⟩
  · rw [Matrix.of_apply, abs_mul, mul_comm]
    refine mul_le_mul_of_nonneg_right ((h1 i j).trans ?_) (abs_nonneg _)
    have : (1 + (F.u : ℝ)) ^ (n - j + 1) ≤ (1 + F.u) ^ (n + 1) := pow_le_pow_right₀ (by linarith) (by omega)
    linarith
  · rw [h3 i]
    simp only [Pi.add_apply, Matrix.mulVec, dotProduct, Matrix.add_apply, Matrix.of_apply]
    congr 1
    refine Finset.sum_congr rfl fun j _ => ?_
    ring

/-- C73: the same for complex matrices. -/
theorem C73_mul_vec_complex {m n : ℕ} (a : SMatrix (Complex (Ieee F)) m n) (v : SVector (Complex (Ieee F)) n)
    (w : SVector (Complex (Ieee F)) m) (hw : a.mulVec v = .ok w) (hf : ∀ i, CFinite (w.val i)) :
    ∃ (Δ : Matrix (Fin m) (Fin n) ℂ) (e : Fin m → ℂ),
      (∀ i j, ‖Δ i j‖ ≤ ((1 + F.cu) * (1 + F.u) ^ n - 1) * ‖cval (a.val i j)‖) ∧
      (∀ i, ‖e i‖ ≤ n * (1 + F.u) ^ n * F.cη) ∧
      (fun i => cval (w.val i)) = (Matrix.of (fun i j => cval (a.val i j)) + Δ).mulVec (fun j => cval (v.val j)) + e := by
  have hu : (0 : ℝ) ≤ F.u := ieee_rounds.u_nonneg
  have hcu : (0 : ℝ) ≤ F.cu := (cx_rounds (F := F)).v_nonneg
  choose δ e h1 h2 h3 using fun i => C73_dot_complex ⟨a.val i⟩ v (w.val i) ((C25_mul_vec_rows a v w).1 hw i) (hf i)
  refine ⟨Matrix.of fun i j => cval (a.val i j) * δ i j, e, fun i j => ?_, h2, funext fun i => ?_⟩
  · rw [Matrix.of_apply, norm_mul, mul_comm]
    refine mul_le_mul_of_nonneg_right ((h1 i j).trans ?_) (norm_nonneg _)
    have : (1 + (F.u : ℝ)) ^ (n - j : ℕ) ≤ (1 + F.u) ^ n := pow_le_pow_right₀ (by linarith) (by omega)
    have := mul_le_mul_of_nonneg_left this (by linarith : (0 : ℝ) ≤ 1 + F.cu)
    linarith
  · rw [h3 i]
    simp only [Pi.add_apply, Matrix.mulVec, dotProduct, Matrix.add_apply, Matrix.of_apply]
    congr 1
    refine Finset.sum_congr rfl fun j _ => ?_
    ring

/-- C73: each column of a computed matrix product is exact for a nearby left factor, up to underflow. -/
theorem C73_smatrix_mul {l m n : ℕ} (a : SMatrix (Ieee F) l m) (b : SMatrix (Ieee F) m n) (c : SMatrix (Ieee F) l n)
    (hc : a.mul b = .ok c) (j : Fin n) (hf : ∀ i, (c.val i j).Finite) :
    ∃ (Δ : Matrix (Fin l) (Fin m) ℝ) (e : Fin l → ℝ),
      (∀ i k, |Δ i k| ≤ ((1 + F.u) ^ (m + 1) - 1) * |(a.val i k).real|) ∧ (∀ i, |e i| ≤ m * (1 + F.u) ^ m * F.η) ∧
      (fun i => (c.val i j).real) = (Matrix.of (fun i k => (a.val i k).real) + Δ).mulVec (fun k => (b.val k j).real) + e :=
  C73_mul_vec a ⟨fun k => b.val k j⟩ ⟨fun i => c.val i j⟩
    ((C25_mul_vec_rows _ _ _).2 fun i => (smatrix_mul_entries a b c).1 hc i j) hf

/-- C73: the same for `DMatrix` (the sum starts with the first product, so there is one rounding less). -/
theorem C73_dmatrix_mul {p : Profile} {l m n : ℕ} (hp : p.Fits l (m + 1)) (hq : p.Fits (m + 1) n)
    (f : Fin l → Fin (m + 1) → Ieee F) (g : Fin (m + 1) → Fin n → Ieee F) (y : Fin l → Fin n → Ieee F)
    (hy : (do (← (DMatrix.ofFn f).mul p (DMatrix.ofFn g)).eval) = .ok (DMatrix.ofFn y)) (j : Fin n)
    (hf : ∀ i, (y i j).Finite) :
    ∃ (Δ : Matrix (Fin l) (Fin (m + 1)) ℝ) (e : Fin l → ℝ),
      (∀ i k, |Δ i k| ≤ ((1 + F.u) ^ (m + 1) - 1) * |(f i k).real|) ∧ (∀ i, |e i| ≤ (m + 1) * (1 + F.u) ^ m * F.η) ∧
      (fun i => (y i j).real) = (Matrix.of (fun i k => (f i k).real) + Δ).mulVec (fun k => (g k j).real) + e := by
  obtain ⟨y', hy', e'⟩ := (mul_eval_iff hp hq f g _).1 hy
  have hyy : y = y' := by
    funext i j
    exact congrFun (congrFun (ofFn_injective e') i) j
  subst hyy
  have hk : ∀ i, ∀ k < m + 1, prodTerms f g i j k =
      .ok ((if hk : k < m + 1 then f i ⟨k, hk⟩ else zero).mul (if hk : k < m + 1 then g ⟨k, hk⟩ j else zero)) := by
    intro i k hk
    simp only [prodTerms, dif_pos hk]
    rfl
  choose δ e h1 h2 h3 using fun i =>
    (backward_sumTerms ieee_rounds (fun _ _ => rfl) (hk i) (hy' i j) (hf i)).2
  refine ⟨Matrix.of fun i k => (f i k).real * δ i k, e, fun i k => ?_, h2, funext fun i => ?_⟩
  · rw [Matrix.of_apply, abs_mul, mul_comm]
    exact mul_le_mul_of_nonneg_right ((h1 i k).trans (le_of_eq (by rw [pow_succ]; ring))) (abs_nonneg _)
  · have := h3 i
    rw [← Fin.sum_univ_eq_sum_range (fun k => Ieee.real (if hk : k < m + 1 then f i ⟨k, hk⟩ else zero) * (1 + δ i k) *
      Ieee.real (if hk : k < m + 1 then g ⟨k, hk⟩ j else zero))] at this
    simp only [Fin.is_lt, dite_true, Fin.eta] at this
    rw [this]
    simp only [Pi.add_apply, Matrix.mulVec, dotProduct, Matrix.add_apply, Matrix.of_apply]
    congr 1
    refine Finset.sum_congr rfl fun k _ => ?_
    ring

/-! ## Square root -/

/-- C73: the computed square root of `z` is exactly the principal square root of a number within `(1+12u)² - 1` of `z`. -/
theorem C73_sqrt (hp : 6 ≤ F.p) (k : ℕ) (hk : 2 * k + 8 ≤ F.emax) (z : Complex (Ieee F))
    (hr : z.re.Between (-k) k) (hi : z.im.Between (-k) k) :
    ∃ (r : Complex (Ieee F)) (δ : ℂ), z.sqrt = .ok r ∧ CFinite r ∧ ‖δ‖ ≤ (1 + 12 * F.u) ^ 2 - 1 ∧
      IsPrincipalRoot (cval r) (cval z * (1 + δ)) := by
  obtain ⟨r, w, e1, h1, h2, h3, f1, f2, h4, h5⟩ := C56_sqrt_error hp k hk z hr hi
  obtain ⟨r', w', e1', _, _, _, _, h6⟩ := C56_sqrt_norm_error hp k hk z hr hi
  cases e1.symm.trans e1'
  have hu : (F.u : ℝ) ≤ 1 / 64 := by
    have : F.u ≤ 1 / 64 := by
      have h : F.u ≤ 2 ^ (-(6 : ℤ)) := zpow_le_zpow_right₀ (by norm_num) (by omega)
      exact h.trans (by norm_num)
    have h : ((F.u : ℚ) : ℝ) ≤ ((1 / 64 : ℚ) : ℝ) := by exact_mod_cast this
    norm_num at h ⊢
    linarith
  have hu0 : (0 : ℝ) ≤ F.u := ieee_rounds.u_nonneg
  obtain ⟨δ, e, h7, h8, h9⟩ := perturb (v := (1 + 12 * (F.u : ℝ)) ^ 2 - 1) (η := 0) (by nlinarith) le_rfl
    (by simpa using h6)
  obtain rfl : e = 0 := norm_le_zero_iff.1 h8
  have g1 : (1 - 12 * (F.u : ℝ)) * w.re ≤ r.re.value := by
    have := (abs_le.1 h4).1
    rw [abs_of_nonneg h2] at this
    linarith
  refine ⟨r, δ, e1, ⟨f1, f2⟩, h7, ?_, ?_, fun h0 => ?_⟩
  · rw [← sq]
    rw [add_zero] at h9
    exact h9
  · exact le_trans (mul_nonneg (by linarith) h2) g1
  · have h0' : (r.re.value : ℝ) = 0 := h0
    have w0 : w.re = 0 := by
      rw [h0'] at g1
      nlinarith
    have w1 := h3 w0
    have := (abs_le.1 h5).1
    rw [abs_of_nonneg w1] at this
    show (0 : ℝ) ≤ r.im.value
    nlinarith

end Magnesia
