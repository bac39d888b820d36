import Verif.Proof.Rounding
import Verif.Props.DynLinalg
import Verif.Props.DynDot

/-!
# Properties C47 - C49: floating point error bounds

`T` is any scalar type whose operations have relative error at most `u` (and underflow error at most `η`) or do not
return (`RoundsRing φ u η`); `φ x : K` is the numerical value of `x`. `K` is any ordered field, in particular `ℚ` (whose elements include all finite floating point numbers) and `ℝ`.
`Verif/Props/Ieee.lean` instantiates `T` with IEEE-754 arithmetic.
-/

namespace Magnesia

open RZero ROne MulRefs

variable {K : Type} [Field K] [LinearOrder K] [IsStrictOrderedRing K] {T : Type} {φ : T → K} {u η : K}

/-! ## C47 -/

omit [LinearOrder K] [IsStrictOrderedRing K] in
theorem horner_sum {α : Type} (f : α → K) (x : K) (l : List α) :
    l.reverse.foldl (fun y a => y * x + f a) 0 = ∑ i : Fin l.length, f l[i] * x ^ (i : ℕ) := by
  rw [List.foldl_reverse]
  induction l with
  | nil => simp
  | cons a l ih =>
    rw [List.foldr_cons, ih, Finset.sum_mul]
    show _ = ∑ i : Fin (l.length + 1), _
    rw [Fin.sum_univ_succ, add_comm]
    congr 1
    · simp
    · refine Finset.sum_congr rfl fun i _ => ?_
      simp [pow_succ, mul_assoc]

omit [LinearOrder K] [IsStrictOrderedRing K] in
theorem horner_const {α : Type} (x c : K) (l : List α) :
    l.foldl (fun y _ => y * x + c) 0 = c * ∑ i ∈ Finset.range l.length, x ^ i := by
  have := horner_sum (fun _ : α => c) x l.reverse
  rw [List.reverse_reverse] at this
  rw [this, Finset.mul_sum, ← Fin.sum_univ_eq_sum_range (fun i => c * x ^ i), List.length_reverse]

/-- C47: `eval` returns a value within `((1+u)^(2n) - 1) * Σ |a_i| |x|^i` of the exact value of the polynomial, whatever
the rounding (if `η = 0`, that is if no product underflows; otherwise see the second summand). -/
theorem C47_horner_error [RRing T] (hA : RoundsRing φ u η) (a : List (T)) (x y : T)
    (hy : (Poly.fromCoefficients a).eval x = .ok y) :
    |φ y - ∑ i : Fin a.length, φ a[i] * φ x ^ (i : ℕ)| ≤
      ((1 + u) ^ (2 * a.length) - 1) * ∑ i : Fin a.length, |φ a[i]| * |φ x| ^ (i : ℕ) +
      (1 + u) ^ (2 * a.length) * (η * ∑ i ∈ Finset.range a.length, |φ x| ^ i) := by
  have h := approx_horner hA x a.reverse 0 0 0 0 zero y
    ⟨one_le_pow_u hA _, le_rfl, by simp, by simp [hA.zero]⟩ hy
  rw [horner_sum φ, horner_sum (fun a : T => |φ a|), horner_const, List.length_reverse, zero_add] at h
  rw [add_comm]
  exact h.err

/-- C47: if all coefficients and `x` are non-negative (no cancellation) and products do not underflow, the relative error
is at most `(1+u)^(2n) - 1`. -/
theorem C47_horner_relative_error [RRing T] (hA : RoundsRing φ u 0) (a : List (T)) (x y : T)
    (ha : ∀ i : Fin a.length, 0 ≤ φ a[i]) (hx : 0 ≤ φ x) (hy : (Poly.fromCoefficients a).eval x = .ok y) :
    |φ y - ∑ i : Fin a.length, φ a[i] * φ x ^ (i : ℕ)| ≤
      ((1 + u) ^ (2 * a.length) - 1) * ∑ i : Fin a.length, φ a[i] * φ x ^ (i : ℕ) := by
  have h := C47_horner_error hA a x y hy
  rwa [show ∑ i : Fin a.length, |φ a[i]| * |φ x| ^ (i : ℕ) = ∑ i : Fin a.length, φ a[i] * φ x ^ (i : ℕ) from
    Finset.sum_congr rfl fun i _ => by rw [abs_of_nonneg (ha i), abs_of_nonneg hx], zero_mul, mul_zero, add_zero] at h

/-! ## C48 -/

/-- C48: the dot product of `SVector`s. -/
theorem C48_dot_error [RRing T] (hA : RoundsRing φ u η) {n : ℕ} (v w : SVector (T) n) (x : T) (hx : v.dot w = .ok x) :
    |φ x - ∑ i, φ (v.val i) * φ (w.val i)| ≤
      ((1 + u) ^ (n + 1) - 1) * ∑ i, |φ (v.val i)| * |φ (w.val i)| + (1 + u) ^ (n + 1) * (n * η) := by
  have h := approx_dot hA v.val w.val (List.finRange n) 0 0 0 0 zero x
    ⟨one_le_pow_u hA _, le_rfl, by simp, by simp [hA.zero]⟩ hx
  simp only [zero_add, List.length_finRange, ← Fin.sum_univ_def] at h
  rw [add_comm]
  exact h.err

/-- Every entry of a matrix product is the dot product of a row and a column. -/
theorem smatrix_mul_entries {T : Type} [RZero T] [AddAssignRef T] [MulRefs T] {l m n : ℕ} (a : SMatrix T l m)
    (b : SMatrix T m n) (c : SMatrix T l n) :
    a.mul b = .ok c ↔ ∀ i j, (SVector.mk (a.val i)).dot (SVector.mk fun k => b.val k j) = .ok (c.val i j) := by
  show a.mulRef b = .ok c ↔ _
  rw [SMatrix.mulRef_eq]
  have e : ∀ (i : Fin l) (j : Fin n), (List.range m).foldlM (fun sum k => do
      let prod ← mulRefs (← SMatrix.at2 a.val i k) (← SMatrix.at2 b.val k j)
      (AddAssignRef.addAssign sum prod).toRes) (zero : T) =
        (SVector.mk (a.val i)).dot (SVector.mk fun k => b.val k j) := fun i j =>
    Implements.foldlM_range_fin _ _ (fun s k => by simp [SMatrix.at2, arrGet, bind, Except.bind]) _
  simp only [e]
  constructor
  · intro h
    obtain ⟨w, h1, h⟩ := bind_ok h
    cases pure_ok h
    exact fun i j => fromFnM_ok_iff.1 (fromFnM_ok_iff.1 h1 i) j
  · intro h
    rw [fromFnM_ok_iff.2 fun i => fromFnM_ok_iff.2 (h i)]
    rfl

/-- C48: the entries of a product of `SMatrix`es. -/
theorem C48_smatrix_mul_error [RRing T] (hA : RoundsRing φ u η) {l m n : ℕ} (a : SMatrix (T) l m) (b : SMatrix (T) m n)
    (c : SMatrix (T) l n) (hc : a.mul b = .ok c) (i : Fin l) (j : Fin n) :
    |φ (c.val i j) - ∑ k, φ (a.val i k) * φ (b.val k j)| ≤
      ((1 + u) ^ (m + 1) - 1) * ∑ k, |φ (a.val i k)| * |φ (b.val k j)| + (1 + u) ^ (m + 1) * (m * η) :=
  C48_dot_error hA _ _ _ ((smatrix_mul_entries a b c).1 hc i j)

/-- C48: the entries of a matrix-vector product. -/
theorem C48_mul_vec_error [RRing T] (hA : RoundsRing φ u η) {m n : ℕ} (a : SMatrix (T) m n) (v : SVector (T) n)
    (w : SVector (T) m) (hw : a.mulVec v = .ok w) (i : Fin m) :
    |φ (w.val i) - ∑ k, φ (a.val i k) * φ (v.val k)| ≤
      ((1 + u) ^ (n + 1) - 1) * ∑ k, |φ (a.val i k)| * |φ (v.val k)| + (1 + u) ^ (n + 1) * (n * η) := by
  rw [SMatrix.mulVec_eq] at hw
  obtain ⟨y, h1, hw⟩ := bind_ok hw
  cases pure_ok hw
  exact C48_dot_error hA ⟨a.val i⟩ v _ (fromFnM_ok_iff.1 h1 i)

/-- C48: the entries of an evaluated product of `DMatrix`es; one rounding less, as it starts with the first product
instead of zero. -/
theorem C48_dmatrix_mul_error [RZero T] [RAdd T T T] [RMul T T T] [RAddAssign T T] (hA : RoundsV φ u η) {p : Profile} {l m n : ℕ} (hf : p.Fits l m) (hg : p.Fits m n)
    (f : Fin l → Fin m → T) (g : Fin m → Fin n → T) (x : DMatrix (T))
    (hx : (do (← (DMatrix.ofFn f).mul p (DMatrix.ofFn g)).eval) = .ok x) :
    ∃ y : Fin l → Fin n → T, x = DMatrix.ofFn y ∧ ∀ i j,
      |φ (y i j) - ∑ k, φ (f i k) * φ (g k j)| ≤
        ((1 + u) ^ m - 1) * ∑ k, |φ (f i k)| * |φ (g k j)| + (1 + u) ^ m * (m * η) := by
  obtain ⟨y, hy, rfl⟩ := (mul_eval_iff hf hg f g x).1 hx
  refine ⟨y, rfl, fun i j => ?_⟩
  have h := approx_sumTerms hA (a := fun k => if hk : k < m then φ (f i ⟨k, hk⟩) else 0)
    (b := fun k => if hk : k < m then φ (g ⟨k, hk⟩ j) else 0) ?_ (hy i j)
  · rw [← Fin.sum_univ_eq_sum_range (fun k => |if hk : k < m then φ (f i ⟨k, hk⟩) else 0| *
        |if hk : k < m then φ (g ⟨k, hk⟩ j) else 0|),
      ← Fin.sum_univ_eq_sum_range (fun k => (if hk : k < m then φ (f i ⟨k, hk⟩) else 0) *
        (if hk : k < m then φ (g ⟨k, hk⟩ j) else 0))] at h
    rw [add_comm]
    simpa using h.err
  · intro k hk z hz
    simp only [prodTerms, dif_pos hk] at hz ⊢
    exact hA.mul _ _ _ hz

/-- C48: the inner product of `DVector`s of real scalars (`conj` is the identity). -/
theorem C48_dvector_dot_error [RRing T] [RAdd T T T] [RSub T T T] [RMul T T T] [RAddAssign T T] [RSubAssign T T] [RConj T]
    (ho : ValueOpsAgree T) (hc : ∀ x : T, RConj.conj x = .ok x) (hA : RoundsRing φ u η) {n : ℕ} (f g : Fin n → T) (x : T)
    (hx : (DVector.ofFn f).dot (DVector.ofFn g) = .ok x) :
    |φ x - ∑ i, φ (f i) * φ (g i)| ≤
      ((1 + u) ^ (n + 1) - 1) * ∑ i, |φ (f i)| * |φ (g i)| + (1 + u) ^ (n + 1) * (n * η) := by
  refine C48_dot_error hA ⟨f⟩ ⟨g⟩ x ?_
  rw [← hx]
  show _ = (List.zip (List.ofFn f) (List.ofFn g)).foldlM _ _
  have e : List.zip (List.ofFn f) (List.ofFn g) = (List.finRange n).map fun i => (f i, g i) := by
    rw [List.ofFn_eq_map, List.ofFn_eq_map, List.zip_map']
  rw [e, List.foldlM_map]
  show (List.finRange n).foldlM _ _ = _
  congr 1
  funext s i
  rw [hc]
  show (do
    let prod ← mulRefs (f i) (g i)
    (AddAssignRef.addAssign s prod).toRes) = (do
    let prod ← RMul.mul (f i) (g i)
    RAdd.add s prod)
  simp only [ho.mul, ho.add]

/-! ## C49 -/

/-- C49: both parts of a complex product. -/
theorem C49_mul_error [RRing T] (hA : RoundsRing φ u η) (z w p : Complex (T)) (hp : z.mul w = .ok p) :
    |φ p.re - (φ z.re * φ w.re - φ z.im * φ w.im)| ≤
        ((1 + u) ^ 2 - 1) * (|φ z.re| * |φ w.re| + |φ z.im| * |φ w.im|) + (1 + u) ^ 2 * (2 * η) ∧
      |φ p.im - (φ z.re * φ w.im + φ z.im * φ w.re)| ≤
        ((1 + u) ^ 2 - 1) * (|φ z.re| * |φ w.im| + |φ z.im| * |φ w.re|) + (1 + u) ^ 2 * (2 * η) := by
  obtain ⟨p1, e1, hp⟩ := bind_ok hp
  obtain ⟨p2, e2, hp⟩ := bind_ok hp
  obtain ⟨p3, e3, hp⟩ := bind_ok hp
  obtain ⟨p4, e4, hp⟩ := bind_ok hp
  obtain ⟨q1, e5, hp⟩ := bind_ok hp
  obtain ⟨q2, e6, hp⟩ := bind_ok hp
  cases pure_ok hp
  have h1 := approx_prod hA e1
  have h2 := approx_prod hA e2
  have h3 := approx_prod hA e3
  have h4 := approx_prod hA e4
  have h5 := h1.sub h4 hA.u_nonneg (hA.sub _ _ _ e5)
  have h6 := h2.add h3 hA.u_nonneg (hA.add _ _ _ e6)
  rw [← pow_two, ← two_mul] at h5 h6
  rw [add_comm _ ((1 + u) ^ 2 * (2 * η)), add_comm _ ((1 + u) ^ 2 * (2 * η))]
  exact ⟨h5.err, h6.err⟩

theorem approx_sqrNorm [RRing T] (hA : RoundsRing φ u η) (z : Complex (T)) (s : T) (hs : z.sqrNorm = .ok s) :
    Approx ((1 + u) ^ 2) (2 * η) (φ z.re ^ 2 + φ z.im ^ 2) (φ z.re ^ 2 + φ z.im ^ 2) (φ s) := by
  obtain ⟨p1, e1, hs⟩ := bind_ok hs
  obtain ⟨p2, e2, hs⟩ := bind_ok hs
  have h := (approx_prod hA e1).add (approx_prod hA e2) hA.u_nonneg
    (hA.add _ _ _ hs)
  rwa [← pow_two, ← two_mul, abs_mul_abs_self, abs_mul_abs_self, ← pow_two, ← pow_two] at h

/-- C49: `sqr_norm` has a relative error of at most `(1+u)^2 - 1`. -/
theorem C49_sqr_norm_error [RRing T] (hA : RoundsRing φ u η) (z : Complex (T)) (s : T) (hs : z.sqrNorm = .ok s) :
    |φ s - (φ z.re ^ 2 + φ z.im ^ 2)| ≤
      ((1 + u) ^ 2 - 1) * (φ z.re ^ 2 + φ z.im ^ 2) + (1 + u) ^ 2 * (2 * η) := by
  rw [add_comm (_ * (φ z.re ^ 2 + φ z.im ^ 2))]; exact (approx_sqrNorm hA z s hs).err

/-- C49: `abs` has a relative error of at most `(1+u)^2 - 1`: `|h - |z|| ≤ ((1+u)^2 - 1) |z|`, written without the
square root, is `1 - ((1+u)^2 - 1) ≤ h / |z| ≤ (1+u)^2`, squared. -/
theorem C49_abs_error [RRing T] [RSqrt T] (hA : RoundsRing φ u 0) (hR : RoundsSqrt φ u) (z : Complex (T)) (h : T) (hh : z.abs = .ok h)
    (hu : (1 + u) ^ 2 ≤ 2) :
    0 ≤ φ h ∧ (2 - (1 + u) ^ 2) ^ 2 * (φ z.re ^ 2 + φ z.im ^ 2) ≤ φ h ^ 2 ∧
      φ h ^ 2 ≤ ((1 + u) ^ 2) ^ 2 * (φ z.re ^ 2 + φ z.im ^ 2) := by
  obtain ⟨s, hs, hh⟩ := bind_ok hh
  have h1 := approx_sqrNorm hA z s hs
  rw [mul_zero] at h1
  obtain ⟨h2, h3, h4⟩ := hR.sqrt _ _ hh
  obtain ⟨h5, h6⟩ := abs_le.1 h1.err
  have hS := h1.nonneg
  generalize φ z.re ^ 2 + φ z.im ^ 2 = S at *
  have h0 := hA.u_nonneg
  refine ⟨h2, le_trans ?_ h3, h4.trans ?_⟩
  · have h7 : (2 - (1 + u) ^ 2) * S ≤ φ s := by linarith
    have h8 := mul_le_mul_of_nonneg_left h7 (sq_nonneg (1 - u))
    refine le_trans ?_ h8
    have h9 : 0 ≤ (2 - (1 + u) ^ 2) * S := mul_nonneg (by linarith) hS
    nlinarith [mul_nonneg (sq_nonneg u) h9]
  · have h7 : φ s ≤ (1 + u) ^ 2 * S := by linarith
    have h8 := mul_le_mul_of_nonneg_left h7 (sq_nonneg (1 + u))
    linarith

theorem approx_inv {F S s : K} (h : Approx F 0 S S s) (hS : 0 < S) (hF : F < 2) :
    Approx (1 / (2 - F)) 0 (1 / S) (1 / S) (1 / s) := by
  have h1 : 0 < 2 - F := by linarith
  have he := h.err
  rw [mul_zero, zero_add] at he
  obtain ⟨h2, h3⟩ := abs_le.1 he
  have h4 : (2 - F) * S ≤ s := by linarith
  have hs : 0 < s := lt_of_lt_of_le (mul_pos h1 hS) h4
  refine ⟨?_, le_rfl, ?_, ?_⟩
  · rw [le_div_iff₀ h1]; linarith [h.one_le]
  · rw [abs_of_pos (by positivity)]
  · rw [div_sub_div _ _ hs.ne' hS.ne', abs_div, abs_of_pos (mul_pos hs hS), one_mul, mul_one, abs_sub_comm]
    rw [div_le_iff₀ (mul_pos hs hS)]
    have h5 : (1 / (2 - F) - 1) * (1 / S) * (s * S) = (F - 1) * (s / (2 - F)) := by field_simp; ring
    rw [mul_zero, zero_add, h5]
    refine he.trans (mul_le_mul_of_nonneg_left ?_ (by linarith [h.one_le]))
    rw [le_div_iff₀ h1]; linarith

theorem sqrNorm_pos {F S s : K} (h : Approx F 0 S S s) (hs : s ≠ 0) : 0 < S := by
  rcases h.nonneg.lt_or_eq with h0 | h0
  · exact h0
  · have := h.err
    rw [← h0] at this
    simp at this
    exact absurd this hs

/-- C49: division by zero (in exact terms) never returns: it raises the division-by-zero exception. -/
theorem C49_div_nonzero [RField T] (hA : RoundsField φ u 0) (z w q : Complex (T)) (hq : z.div w = .ok q) :
    0 < φ w.re ^ 2 + φ w.im ^ 2 := by
  obtain ⟨s, hs, hq⟩ := bind_ok hq
  obtain ⟨r, e0, hq⟩ := bind_ok hq
  have hN := approx_sqrNorm hA.toRoundsRing w s hs
  rw [mul_zero] at hN
  exact sqrNorm_pos hN (hA.div _ _ _ e0).1

/-- C49: both parts of a complex quotient, as long as `(1+u)^2 < 2`. -/
theorem C49_div_error [RField T] (hA : RoundsField φ u 0) (hu : (1 + u) ^ 2 < 2) (z w q : Complex (T))
    (hq : z.div w = .ok q) :
    |φ q.re - (φ z.re * φ w.re + φ z.im * φ w.im) / (φ w.re ^ 2 + φ w.im ^ 2)| ≤
        ((1 + u) ^ 4 / (2 - (1 + u) ^ 2) - 1) *
          ((|φ z.re| * |φ w.re| + |φ z.im| * |φ w.im|) / (φ w.re ^ 2 + φ w.im ^ 2)) ∧
      |φ q.im - (φ z.im * φ w.re - φ z.re * φ w.im) / (φ w.re ^ 2 + φ w.im ^ 2)| ≤
        ((1 + u) ^ 4 / (2 - (1 + u) ^ 2) - 1) *
          ((|φ z.im| * |φ w.re| + |φ z.re| * |φ w.im|) / (φ w.re ^ 2 + φ w.im ^ 2)) := by
  obtain ⟨s, hs, hq⟩ := bind_ok hq
  obtain ⟨r, e0, hq⟩ := bind_ok hq
  obtain ⟨p1, e1, hq⟩ := bind_ok hq
  obtain ⟨p2, e2, hq⟩ := bind_ok hq
  obtain ⟨p3, e3, hq⟩ := bind_ok hq
  obtain ⟨p4, e4, hq⟩ := bind_ok hq
  obtain ⟨q1, e5, hq⟩ := bind_ok hq
  obtain ⟨q2, e6, hq⟩ := bind_ok hq
  obtain ⟨x, e7, hq⟩ := bind_ok hq
  obtain ⟨y, e8, hq⟩ := bind_ok hq
  cases pure_ok hq
  have hN := approx_sqrNorm hA.toRoundsRing w s hs
  rw [mul_zero] at hN
  have hS := sqrNorm_pos hN (hA.div _ _ _ e0).1
  have hi := approx_inv hN hS hu
  have hd := (hA.div _ _ _ e0).2
  rw [hA.one] at hd
  have hr := hi.round hA.u_nonneg le_rfl hd
  have h1 := approx_prod hA.toRoundsRing e1
  have h2 := approx_prod hA.toRoundsRing e2
  have h3 := approx_prod hA.toRoundsRing e3
  have h4 := approx_prod hA.toRoundsRing e4
  have h5 := h1.add h4 hA.u_nonneg (hA.add _ _ _ e5)
  have h6 := h2.sub h3 hA.u_nonneg (hA.sub _ _ _ e6)
  have h7 := h5.mul hr hA.u_nonneg le_rfl (hA.mul _ _ _ e7)
  have h8 := h6.mul hr hA.u_nonneg le_rfl (hA.mul _ _ _ e8)
  have e : (1 + u) * (1 + u) * (1 / (2 - (1 + u) ^ 2) * (1 + u)) * (1 + u) = (1 + u) ^ 4 / (2 - (1 + u) ^ 2) := by
    ring
  rw [e] at h7 h8
  have h7' := h7.err
  have h8' := h8.err
  simp only [add_zero, mul_zero, zero_div, zero_add, mul_one_div] at h7' h8'
  exact ⟨h7', h8'⟩

/-- `(|a||c| + |b||d|)^2 ≤ (a^2 + b^2) (c^2 + d^2)` -/
theorem cauchy_schwarz_two (a b c d : K) : (|a| * |c| + |b| * |d|) ^ 2 ≤ (a ^ 2 + b ^ 2) * (c ^ 2 + d ^ 2) := by
  have h := sq_nonneg (|a| * |d| - |b| * |c|)
  have := sq_abs a; have := sq_abs b; have := sq_abs c; have := sq_abs d
  calc (|a| * |c| + |b| * |d|) ^ 2 ≤ (|a| * |c| + |b| * |d|) ^ 2 + (|a| * |d| - |b| * |c|) ^ 2 := by linarith
    _ = (|a| ^ 2 + |b| ^ 2) * (|c| ^ 2 + |d| ^ 2) := by ring
    _ = _ := by rw [sq_abs, sq_abs, sq_abs, sq_abs]

theorem sq_le_of_abs_le {x y : K} (h : |x| ≤ y) : x ^ 2 ≤ y ^ 2 := by
  rw [← sq_abs x]; exact pow_le_pow_left₀ (abs_nonneg x) h 2

/-- C49: consequently the product is off by at most `√2 ((1+u)^2 - 1) |z| |w|` in the complex plane (stated with the
squares of the absolute values). -/
theorem C49_mul_norm_error [RRing T] (hA : RoundsRing φ u 0) (z w p : Complex (T)) (hp : z.mul w = .ok p) :
    (φ p.re - (φ z.re * φ w.re - φ z.im * φ w.im)) ^ 2 +
        (φ p.im - (φ z.re * φ w.im + φ z.im * φ w.re)) ^ 2 ≤
      2 * ((1 + u) ^ 2 - 1) ^ 2 * ((φ z.re ^ 2 + φ z.im ^ 2) * (φ w.re ^ 2 + φ w.im ^ 2)) := by
  obtain ⟨h1, h2⟩ := C49_mul_error hA z w p hp
  have h3 := sq_le_of_abs_le h1
  have h4 := sq_le_of_abs_le h2
  rw [mul_zero, mul_zero, add_zero, mul_pow] at h3 h4
  have h5 := mul_le_mul_of_nonneg_left (cauchy_schwarz_two (φ z.re) (φ z.im) (φ w.re) (φ w.im))
    (sq_nonneg ((1 + u) ^ 2 - 1))
  have h6 := mul_le_mul_of_nonneg_left (cauchy_schwarz_two (φ z.re) (φ z.im) (φ w.im) (φ w.re))
    (sq_nonneg ((1 + u) ^ 2 - 1))
  rw [add_comm (φ w.im ^ 2)] at h6
  linarith

/-- C49: and the quotient by at most `√2 ((1+u)^4 / (2 - (1+u)^2) - 1) |z| / |w|` (again squared). -/
theorem C49_div_norm_error [RField T] (hA : RoundsField φ u 0) (hu : (1 + u) ^ 2 < 2) (z w q : Complex (T))
    (hq : z.div w = .ok q) :
    (φ q.re - (φ z.re * φ w.re + φ z.im * φ w.im) / (φ w.re ^ 2 + φ w.im ^ 2)) ^ 2 +
        (φ q.im - (φ z.im * φ w.re - φ z.re * φ w.im) / (φ w.re ^ 2 + φ w.im ^ 2)) ^ 2 ≤
      2 * ((1 + u) ^ 4 / (2 - (1 + u) ^ 2) - 1) ^ 2 *
        ((φ z.re ^ 2 + φ z.im ^ 2) / (φ w.re ^ 2 + φ w.im ^ 2)) := by
  obtain ⟨h1, h2⟩ := C49_div_error hA hu z w q hq
  have hS : 0 < φ w.re ^ 2 + φ w.im ^ 2 := C49_div_nonzero hA z w q hq
  have h3 := sq_le_of_abs_le h1
  have h4 := sq_le_of_abs_le h2
  rw [mul_pow, div_pow] at h3 h4
  have key : ∀ X : K, X ≤ (φ z.re ^ 2 + φ z.im ^ 2) * (φ w.re ^ 2 + φ w.im ^ 2) →
      X / (φ w.re ^ 2 + φ w.im ^ 2) ^ 2 ≤ (φ z.re ^ 2 + φ z.im ^ 2) / (φ w.re ^ 2 + φ w.im ^ 2) := by
    intro X hX
    rw [div_le_div_iff₀ (by positivity) hS]
    have := mul_le_mul_of_nonneg_right hX hS.le
    linarith
  have h5 := mul_le_mul_of_nonneg_left (key _ (cauchy_schwarz_two (φ z.re) (φ z.im) (φ w.re) (φ w.im)))
    (sq_nonneg ((1 + u) ^ 4 / (2 - (1 + u) ^ 2) - 1))
  have h6' := cauchy_schwarz_two (φ z.im) (φ z.re) (φ w.re) (φ w.im)
  rw [add_comm (φ z.im ^ 2)] at h6'
  have h6 := mul_le_mul_of_nonneg_left (key _ h6') (sq_nonneg ((1 + u) ^ 4 / (2 - (1 + u) ^ 2) - 1))
  linarith

end Magnesia
