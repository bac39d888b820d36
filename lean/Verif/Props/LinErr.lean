import Verif.Proof.LinErr
import Verif.Props.CxMul5
import Verif.Props.Ieee

/-!
# Property C94: errors of inner products and matrix products grow linearly, for every size

`F.u = 2^-p` is the unit roundoff, `F.η` half of the smallest positive number. Without underflow the error of an inner product
of `n` terms is at most `n u Σ |vᵢ| |wᵢ|`, for every `n`, also for `n u ≥ 1`.
-/

namespace Magnesia

open RZero ROne MulRefs

variable {F : Fmt}

/-- C94: no floating point number is closer to the exact sum, difference or product than the computed one. -/
theorem C94_nearest (a b c : Ieee F) :
    ((a.add b).Finite → |(a.add b).value - (a.value + b.value)| ≤ |c.value - (a.value + b.value)|) ∧
    ((a.sub b).Finite → |(a.sub b).value - (a.value - b.value)| ≤ |c.value - (a.value - b.value)|) ∧
    ((a.mul b).Finite → |(a.mul b).value - a.value * b.value| ≤ |c.value - a.value * b.value|) := by
  refine ⟨fun h => ?_, fun h => ?_, fun h => ?_⟩
  · rw [(Ieee.add_finite h).2.2]; exact Fmt.roundQ_nearest (Ieee.value_representable c)
  · rw [(Ieee.sub_finite h).2.2]; exact Fmt.roundQ_nearest (Ieee.value_representable c)
  · rw [(Ieee.mul_finite h).2.2]; exact Fmt.roundQ_nearest (Ieee.value_representable c)

/-- C94: the dot product of `SVector`s. -/
theorem C94_dot_error {n : ℕ} (v w : SVector (Ieee F) n) : ∃ x, v.dot w = .ok x ∧ (x.Finite →
    |x.value - ∑ i, (v.val i).value * (w.val i).value| ≤
      n * F.u * (∑ i, |(v.val i).value| * |(w.val i).value|) + n * (1 + n * F.u) * F.η) := by
  obtain ⟨x, hx⟩ := C48_ieee_dot_returns v w
  refine ⟨x, hx, fun hf => ?_⟩
  have h := lin_dot_zero v.val w.val (List.finRange n) x hx hf
  simp only [List.length_finRange, ← Fin.sum_univ_def, abs_mul] at h
  linarith

/-- C94: the inner product of `DVector`s. -/
theorem C94_dvector_dot_error {n : ℕ} (f g : Fin n → Ieee F) :
    ∃ x, (DVector.ofFn f).dot (DVector.ofFn g) = .ok x ∧ (x.Finite →
    |x.value - ∑ i, (f i).value * (g i).value| ≤
      n * F.u * (∑ i, |(f i).value| * |(g i).value|) + n * (1 + n * F.u) * F.η) := by
  obtain ⟨x, hx, h⟩ := C94_dot_error (SVector.mk f) (SVector.mk g)
  refine ⟨x, ?_, h⟩
  rw [← hx]
  show (List.zip (List.ofFn f) (List.ofFn g)).foldlM _ _ = _
  rw [List.ofFn_eq_map, List.ofFn_eq_map, List.zip_map', List.foldlM_map]
  rfl

/-- C94: the product of `SMatrix`es: every finite entry is accurate, even if others are not finite. -/
theorem C94_smatrix_mul_error {l m n : ℕ} (a : SMatrix (Ieee F) l m) (b : SMatrix (Ieee F) m n) :
    ∃ c, a.mul b = .ok c ∧ ∀ i j, (c.val i j).Finite →
    |(c.val i j).value - ∑ k, (a.val i k).value * (b.val k j).value| ≤
      m * F.u * (∑ k, |(a.val i k).value| * |(b.val k j).value|) + m * (1 + m * F.u) * F.η := by
  choose y hy h using fun (i : Fin l) (j : Fin n) => C94_dot_error (SVector.mk (a.val i)) (SVector.mk fun k => b.val k j)
  exact ⟨⟨y⟩, (smatrix_mul_entries a b ⟨y⟩).2 hy, fun i j hf => h i j hf⟩

/-- C94: the product of an `SMatrix` and an `SVector`. -/
theorem C94_mul_vec_error {m n : ℕ} (a : SMatrix (Ieee F) m n) (v : SVector (Ieee F) n) :
    ∃ w, a.mulVec v = .ok w ∧ ∀ i, (w.val i).Finite →
    |(w.val i).value - ∑ k, (a.val i k).value * (v.val k).value| ≤
      n * F.u * (∑ k, |(a.val i k).value| * |(v.val k).value|) + n * (1 + n * F.u) * F.η := by
  choose y hy h using fun (i : Fin m) => C94_dot_error (SVector.mk (a.val i)) v
  refine ⟨⟨y⟩, ?_, fun i hf => h i hf⟩
  rw [SMatrix.mulVec_eq]
  have e : fromFnM m (fun i => (SVector.mk (a.val i)).dot v) = .ok y := fromFnM_ok_iff.2 hy
  show (do let w ← fromFnM m (fun i => (SVector.mk (a.val i)).dot v); pure (SVector.mk w)) = _
  rw [e]
  rfl

/-- C94: the product of `DMatrix`es (with at least one column on the left). -/
theorem C94_dmatrix_mul_error {p : Profile} {l m n : ℕ} (hp : p.Fits l (m + 1)) (hq : p.Fits (m + 1) n)
    (f : Fin l → Fin (m + 1) → Ieee F) (g : Fin (m + 1) → Fin n → Ieee F) :
    ∃ y : Fin l → Fin n → Ieee F,
      (do (← (DMatrix.ofFn f).mul p (DMatrix.ofFn g)).eval) = .ok (DMatrix.ofFn y) ∧ ∀ i j, (y i j).Finite →
      |(y i j).value - ∑ k, (f i k).value * (g k j).value| ≤
        (m + 1 : ℕ) * F.u * (∑ k, |(f i k).value| * |(g k j).value|) + (m + 1 : ℕ) * (1 + (m + 1 : ℕ) * F.u) * F.η := by
  obtain ⟨x, hx⟩ := C48_ieee_dmatrix_mul_returns hp hq (by omega) f g
  obtain ⟨y, hy, rfl⟩ := (mul_eval_iff hp hq f g x).1 hx
  refine ⟨y, hx, fun i j hf => ?_⟩
  have hk : ∀ k < m + 1, prodTerms f g i j k =
      .ok ((if hk : k < m + 1 then f i ⟨k, hk⟩ else .nan).mul (if hk : k < m + 1 then g ⟨k, hk⟩ j else .nan)) := by
    intro k hk
    simp only [prodTerms, dif_pos hk]
    rfl
  have h := (lin_sumTerms hk (hy i j) hf).err
  rw [← Fin.sum_univ_eq_sum_range (fun k => |(if hk : k < m + 1 then f i ⟨k, hk⟩ else .nan).value *
      (if hk : k < m + 1 then g ⟨k, hk⟩ j else .nan).value|),
    ← Fin.sum_univ_eq_sum_range (fun k => (if hk : k < m + 1 then f i ⟨k, hk⟩ else .nan).value *
      (if hk : k < m + 1 then g ⟨k, hk⟩ j else .nan).value)] at h
  simp only [Fin.is_lt, dite_true, Fin.eta, abs_mul] at h
  linarith

/-- C94: inner products of vectors without negative entries have a relative error of at most `n u` (and an absolute one for
underflow). -/
theorem C94_dot_nonneg {n : ℕ} (v w : SVector (Ieee F) n) (hv : ∀ i, 0 ≤ (v.val i).value) (hw : ∀ i, 0 ≤ (w.val i).value) :
    ∃ x, v.dot w = .ok x ∧ (x.Finite →
    |x.value - ∑ i, (v.val i).value * (w.val i).value| ≤
      n * F.u * (∑ i, (v.val i).value * (w.val i).value) + n * (1 + n * F.u) * F.η) := by
  obtain ⟨x, hx, h⟩ := C94_dot_error v w
  refine ⟨x, hx, fun hf => ?_⟩
  have := h hf
  simpa only [abs_of_nonneg (hv _), abs_of_nonneg (hw _)] using this

/-! ### The bound is attained -/

/-- Half of a unit in the last place added to one is lost. -/
theorem roundQ_one_add_u (F : Fmt) : F.roundQ (1 + F.u) = 1 := by
  have hp := F.two_le_p
  have he := F.p_le_emax
  have hu : F.u < 1 := by
    rw [Fmt.u]; exact zpow_lt_one_of_neg₀ (by norm_num) (by omega)
  have hu0 := F.u_pos
  have hl : Int.log 2 |1 + F.u| = 0 := by
    rw [abs_of_pos (by linarith)]
    refine le_antisymm ?_ ?_
    · have := (Int.lt_zpow_iff_log_lt (b := 2) (x := 1) (by norm_num) (by linarith : (0 : ℚ) < 1 + F.u)).1 (by norm_num; linarith)
      omega
    · exact (Int.zpow_le_iff_le_log (b := 2) (by norm_num) (by linarith : (0 : ℚ) < 1 + F.u)).1 (by norm_num; linarith)
  have hx : F.ulpExp (1 + F.u) = 1 - F.p := by
    unfold Fmt.ulpExp Fmt.emin
    rw [hl, max_eq_left (by omega)]
    omega
  obtain ⟨k, hk⟩ : ∃ k, F.p = k + 2 := ⟨F.p - 2, by omega⟩
  have hulp : F.ulp (1 + F.u) = 2 * F.u := by
    rw [Fmt.ulp, hx, Fmt.u, sub_eq_add_neg, zpow_add₀ (by norm_num), zpow_one]
  have h2u : 2 * F.u * 2 ^ (k + 1) = 1 := by
    rw [Fmt.u, hk, zpow_neg, zpow_natCast]
    field_simp
    ring
  have hq : (1 + F.u) / (2 * F.u) = ((2 ^ (k + 1) : ℤ) : ℚ) + 1 / 2 := by
    rw [div_eq_iff (by linarith)]
    push_cast
    linarith
  have hf : ⌊((2 ^ (k + 1) : ℤ) : ℚ) + 1 / 2⌋ = 2 ^ (k + 1) := by
    rw [Int.floor_intCast_add, show ⌊(1 / 2 : ℚ)⌋ = 0 by norm_num, add_zero]
  have hr : rne (((2 ^ (k + 1) : ℤ) : ℚ) + 1 / 2) = 2 ^ (k + 1) := by
    unfold rne
    rw [hf, if_neg (by norm_num), if_neg (by norm_num), if_pos (by rw [pow_succ]; exact Int.mul_emod_left _ _)]
  rw [Fmt.roundQ, hulp, hq, hr]
  push_cast
  linarith

/-- The unit roundoff and one are floating point numbers. -/
theorem representable_pow (F : Fmt) {n : ℤ} (h1 : -F.p ≤ n) (h2 : n ≤ 0) : F.Representable (2 ^ n) := by
  have hp := F.two_le_p
  have he := F.p_le_emax
  have := F.representable_of (m := 1) (e := n) (by rw [abs_one]; exact one_le_pow₀ (by norm_num))
    (by unfold Fmt.emin; omega) (by
      rw [Int.cast_one, _root_.one_mul, abs_of_pos (by positivity)]
      exact zpow_lt_zpow_right₀ (by norm_num) (by omega))
  rwa [Int.cast_one, _root_.one_mul] at this

/-- C94: the linear growth of the bound is real, for every length: there are vectors of `n + 1` non-negative numbers whose
computed inner product is one, the exact one being `1 + n u`; no underflow is involved. -/
theorem C94_dot_sharp (F : Fmt) (n : ℕ) : ∃ (v w : SVector (Ieee F) (n + 1)) (x : Ieee F), v.dot w = .ok x ∧ x.Finite ∧
    (∀ i, (v.val i).Finite ∧ 0 < (v.val i).value) ∧ (∀ i, (w.val i).Finite ∧ (w.val i).value = 1) ∧
    x.value = 1 ∧ ∑ i, (v.val i).value * (w.val i).value = 1 + n * F.u := by
  have r1 : F.Representable 1 := by
    simpa using representable_pow F (n := 0) (by omega) le_rfl
  have ru : F.Representable F.u := representable_pow F le_rfl (by omega)
  let one : Ieee F := .fin 1 one_ne_zero r1
  let e : Ieee F := .fin F.u F.u_pos.ne' ru
  have hone : one.Finite ∧ one.value = 1 := ⟨trivial, rfl⟩
  have he : e.Finite ∧ e.value = F.u := ⟨trivial, rfl⟩
  have prod : ∀ {a : Ieee F}, a.Finite → (a.mul one).Finite ∧ (a.mul one).value = a.value := by
    intro a ha
    have hr : F.roundQ (a.value * one.value) = a.value := by
      rw [hone.2, _root_.mul_one, F.roundQ_representable (Ieee.value_representable a)]
    have hf : (a.mul one).Finite := (Ieee.mul_finite_iff ha hone.1).2 (by
      rw [hr]; exact (Ieee.value_representable a).2)
    exact ⟨hf, by rw [(Ieee.mul_finite hf).2.2, hr]⟩
  have step : ∀ {s : Ieee F}, s.Finite → s.value = 1 → (s.add (e.mul one)).Finite ∧ (s.add (e.mul one)).value = 1 := by
    intro s h1 h2
    have hr : F.roundQ (s.value + (e.mul one).value) = 1 := by rw [h2, (prod he.1).2, he.2, roundQ_one_add_u]
    have hf : (s.add (e.mul one)).Finite := (Ieee.add_finite_iff h1 (prod he.1).1).2 (by rw [hr]; exact r1.2)
    exact ⟨hf, by rw [(Ieee.add_finite hf).2.2, hr]⟩
  have loop : ∀ (l : List (Fin (n + 1))) (s : Ieee F), (∀ i ∈ l, i ≠ 0) → s.Finite → s.value = 1 →
      ∃ x, l.foldlM (fun sum i => do
        let prod ← mulRefs ((Fin.cons one fun _ => e : Fin (n + 1) → Ieee F) i) one
        (AddAssignRef.addAssign sum prod).toRes) s = .ok x ∧ x.Finite ∧ x.value = 1 := by
    intro l
    induction l with
    | nil => intro s _ h1 h2; exact ⟨s, rfl, h1, h2⟩
    | cons a l ih =>
      intro s hl h1 h2
      obtain ⟨j, rfl⟩ := Fin.exists_succ_eq.2 (hl a List.mem_cons_self)
      rw [List.foldlM_cons, dot_step, Fin.cons_succ]
      exact ih _ (fun i hi => hl i (List.mem_cons_of_mem _ hi)) (step h1 h2).1 (step h1 h2).2
  have first : (zero : Ieee F).Finite ∧ ((zero : Ieee F).add (one.mul one)).Finite ∧
      ((zero : Ieee F).add (one.mul one)).value = 1 := by
    have hr : F.roundQ ((zero : Ieee F).value + (one.mul one).value) = 1 := by
      rw [(prod hone.1).2, hone.2, show (zero : Ieee F).value = 0 from rfl, zero_add, F.roundQ_representable r1]
    have hf : ((zero : Ieee F).add (one.mul one)).Finite :=
      (Ieee.add_finite_iff (show (zero : Ieee F).Finite from trivial) (prod hone.1).1).2 (by rw [hr]; exact r1.2)
    exact ⟨trivial, hf, by rw [(Ieee.add_finite hf).2.2, hr]⟩
  obtain ⟨x, hx, h1, h2⟩ := loop ((List.finRange n).map Fin.succ) ((zero : Ieee F).add (one.mul one))
    (fun i hi => by obtain ⟨j, _, rfl⟩ := List.mem_map.1 hi; exact Fin.succ_ne_zero j) first.2.1 first.2.2
  refine ⟨⟨Fin.cons one fun _ => e⟩, ⟨fun _ => one⟩, x, ?_, h1, ?_, fun _ => hone, h2, ?_⟩
  · rw [← hx]
    show (List.finRange (n + 1)).foldlM _ _ = _
    rw [List.finRange_succ, List.foldlM_cons]
    rfl
  · exact Fin.cases ⟨hone.1, show 0 < one.value by rw [hone.2]; norm_num⟩ fun i =>
      ⟨he.1, show 0 < e.value by rw [he.2]; exact F.u_pos⟩
  · rw [Fin.sum_univ_succ]
    simp only [Fin.cons_zero, Fin.cons_succ, hone.2, he.2, _root_.mul_one, Finset.sum_const, Finset.card_univ, Fintype.card_fin,
      nsmul_eq_mul]

/-! ## Complex numbers -/

theorem cadd_err {z w s : Complex (Ieee F)} (h : z.add w = .ok s) (hf : CFinite s) :
    ‖cval s - (cval z + cval w)‖ ≤ ‖cval w‖ := by
  cases h
  obtain ⟨h1, h2⟩ := hf
  have key : ∀ {a b : Ieee F}, (a.add b).Finite → |((a.add b).value : ℝ) - (a.value + b.value)| ≤ |(b.value : ℝ)| := by
    intro a b h
    have h3 := (Fmt.add_err_δ (Ieee.value_representable a) (Ieee.value_representable b)).2
    rw [← (Ieee.add_finite h).2.2] at h3
    exact_mod_cast h3
  have := norm_le_of_parts (e := cval ⟨z.re.add w.re, z.im.add w.im⟩ - (cval z + cval w)) (s := cval w) (u := 1) zero_le_one
    (by rw [one_mul]; exact key h1) (by rw [one_mul]; exact key h2)
  rwa [one_mul] at this

/-- What `LinN` says for computed terms: the exact terms have the sum `P`, the absolute values of them the sum `Q`. -/
theorem LinN.of_terms {n k : ℕ} {u v e Q T : ℝ} {S P r : ℂ} (hu : 0 ≤ u) (h : LinN n u T S r)
    (h1 : ‖S - P‖ ≤ v * Q + k * e) (h2 : T ≤ (1 + v) * Q + k * e) :
    ‖r - P‖ ≤ (n * u * (1 + v) + v) * Q + k * (1 + n * u) * e := by
  have h3 : ‖r - P‖ ≤ ‖r - S‖ + ‖S - P‖ := by rw [show r - P = (r - S) + (S - P) by ring]; exact norm_add_le _ _
  have h4 := mul_le_mul_of_nonneg_left h2 (mul_nonneg (Nat.cast_nonneg n : (0 : ℝ) ≤ n) hu)
  have h5 := h.err
  nlinarith

/-- A sum of products, from some point on: `S` is the exact sum of the computed products, `T` the sum of their absolute
values. -/
theorem lin_cdot (hp : 4 ≤ F.p) {ι : Type} (f g : ι → Complex (Ieee F)) : ∀ (l : List ι) (s r : Complex (Ieee F)),
    l.foldlM (fun sum i => do
      let prod ← mulRefs (f i) (g i)
      (AddAssignRef.addAssign sum prod).toRes) s = .ok r → CFinite r →
    CFinite s ∧ ∀ (n : ℕ) (Y : ℝ) (y : ℂ), LinN n F.u Y y (cval s) →
    ∃ (S : ℂ) (T : ℝ), ‖S - (l.map fun i => cval (f i) * cval (g i)).sum‖ ≤
        Real.sqrt 5 * F.u * (l.map fun i => ‖cval (f i)‖ * ‖cval (g i)‖).sum + l.length * (2 * Real.sqrt 2 * F.η) ∧
      T ≤ (1 + Real.sqrt 5 * F.u) * (l.map fun i => ‖cval (f i)‖ * ‖cval (g i)‖).sum + l.length * (2 * Real.sqrt 2 * F.η) ∧
      LinN (n + l.length) F.u (Y + T) (y + S) (cval r) := by
  intro l
  induction l with
  | nil => intro s r h hr; cases pure_ok h; exact ⟨hr, fun n Y y hl => ⟨0, 0, by simp, by simp, by simpa using hl⟩⟩
  | cons a l ih =>
    intro s r h hr
    rw [List.foldlM_cons] at h
    obtain ⟨t, h1, h⟩ := bind_ok h
    obtain ⟨m, h2, h1⟩ := bind_ok h1
    obtain ⟨ht, ih⟩ := ih t r h hr
    obtain ⟨hs, hm, e1⟩ := (cx_rounds5 hp).add s m t h1 ht
    obtain ⟨_, _, e2⟩ := (cx_rounds5 hp).mul (f a) (g a) m h2 hm
    have e3 : ‖cval m‖ ≤ ‖cval m - cval (f a) * cval (g a)‖ + ‖cval (f a) * cval (g a)‖ := by
      simpa using norm_add_le (cval m - cval (f a) * cval (g a)) (cval (f a) * cval (g a))
    rw [norm_mul] at e2 e3
    refine ⟨hs, fun n Y y hl => ?_⟩
    obtain ⟨S, T, i1, i2, hr⟩ := ih (n + 1) _ _ (hl.step (cx_rounds5 hp).u_nonneg e1 (cadd_err h1 ht))
    refine ⟨cval m + S, ‖cval m‖ + T, ?_, ?_, ?_⟩
    · simp only [List.map_cons, List.sum_cons, List.length_cons]
      rw [show cval m + S - (cval (f a) * cval (g a) + (l.map fun i => cval (f i) * cval (g i)).sum) =
        (cval m - cval (f a) * cval (g a)) + (S - (l.map fun i => cval (f i) * cval (g i)).sum) by ring]
      refine (norm_add_le _ _).trans ?_
      push_cast
      linarith
    · simp only [List.map_cons, List.sum_cons, List.length_cons]
      push_cast
      linarith
    · rw [List.length_cons, show n + (l.length + 1) = n + 1 + l.length by ring, ← add_assoc, ← add_assoc]
      exact hr

/-- C94: the dot product of `SVector`s of complex numbers: `n` roundings of sums, one of a product. -/
theorem C94_complex_dot_error (hp : 4 ≤ F.p) {n : ℕ} (v w : SVector (Complex (Ieee F)) n) :
    ∃ x, v.dot w = .ok x ∧ (CFinite x →
    ‖cval x - ∑ i, cval (v.val i) * cval (w.val i)‖ ≤
      (n * F.u * (1 + Real.sqrt 5 * F.u) + Real.sqrt 5 * F.u) * ∑ i, ‖cval (v.val i)‖ * ‖cval (w.val i)‖ +
      n * (1 + n * F.u) * (2 * Real.sqrt 2 * F.η)) := by
  obtain ⟨x, hx, _⟩ := C57_dot_error v w
  refine ⟨x, hx, fun hf => ?_⟩
  obtain ⟨_, h⟩ := lin_cdot hp v.val w.val _ _ _ hx hf
  obtain ⟨S, T, h1, h2, h⟩ := h 0 0 0 ⟨by simp, by simp [cx_rounds.zero]⟩
  simp only [zero_add, List.length_finRange, ← Fin.sum_univ_def] at h h1 h2
  exact h.of_terms (cx_rounds5 hp).u_nonneg h1 h2

/-- C94: the product of `SMatrix`es of complex numbers: every entry of the result with finite parts is accurate. -/
theorem C94_complex_smatrix_mul_error (hp : 4 ≤ F.p) {l m n : ℕ} (a : SMatrix (Complex (Ieee F)) l m)
    (b : SMatrix (Complex (Ieee F)) m n) :
    ∃ c, a.mul b = .ok c ∧ ∀ i j, CFinite (c.val i j) →
    ‖cval (c.val i j) - ∑ k, cval (a.val i k) * cval (b.val k j)‖ ≤
      (m * F.u * (1 + Real.sqrt 5 * F.u) + Real.sqrt 5 * F.u) * ∑ k, ‖cval (a.val i k)‖ * ‖cval (b.val k j)‖ +
      m * (1 + m * F.u) * (2 * Real.sqrt 2 * F.η) := by
  choose y hy h using fun (i : Fin l) (j : Fin n) =>
    C94_complex_dot_error hp (SVector.mk (a.val i)) (SVector.mk fun k => b.val k j)
  exact ⟨⟨y⟩, (smatrix_mul_entries a b ⟨y⟩).2 hy, fun i j hf => h i j hf⟩

/-- The sum of products of a `DMatrix` product; the first term is not rounded. -/
theorem lin_csumTerms (hp : 4 ≤ F.p) {t : ℕ → Res (Complex (Ieee F))} {a b : ℕ → Complex (Ieee F)} :
    ∀ {n : ℕ} {x : Complex (Ieee F)}, (∀ k < n + 1, t k = (a k).mul (b k)) → Tree.sumTerms t (n + 1) = .ok x → CFinite x →
    ∃ (S : ℂ) (T : ℝ), ‖S - ∑ k ∈ Finset.range (n + 1), cval (a k) * cval (b k)‖ ≤
        Real.sqrt 5 * F.u * (∑ k ∈ Finset.range (n + 1), ‖cval (a k)‖ * ‖cval (b k)‖) + (n + 1 : ℕ) * (2 * Real.sqrt 2 * F.η) ∧
      T ≤ (1 + Real.sqrt 5 * F.u) * (∑ k ∈ Finset.range (n + 1), ‖cval (a k)‖ * ‖cval (b k)‖) +
        (n + 1 : ℕ) * (2 * Real.sqrt 2 * F.η) ∧
      LinN n F.u T S (cval x) := by
  have prod : ∀ {z w m : Complex (Ieee F)}, z.mul w = .ok m → CFinite m →
      ‖cval m - cval z * cval w‖ ≤ Real.sqrt 5 * F.u * (‖cval z‖ * ‖cval w‖) + 2 * Real.sqrt 2 * F.η ∧
      ‖cval m‖ ≤ ‖cval m - cval z * cval w‖ + ‖cval z‖ * ‖cval w‖ := by
    intro z w m h hm
    obtain ⟨_, _, e2⟩ := (cx_rounds5 hp).mul z w m h hm
    have e3 := norm_add_le (cval m - cval z * cval w) (cval z * cval w)
    rw [sub_add_cancel, norm_mul] at e3
    rw [norm_mul] at e2
    exact ⟨e2, e3⟩
  intro n
  induction n with
  | zero =>
    intro x h hx hf
    have hx' : t 0 = .ok x := hx
    rw [h 0 (by omega)] at hx'
    obtain ⟨e2, e3⟩ := prod hx' hf
    refine ⟨cval x, ‖cval x‖, by simpa using e2, ?_, le_rfl, by simp⟩
    simp only [zero_add, Finset.sum_range_one, Nat.cast_one, one_mul]
    linarith
  | succ n ih =>
    intro x h hx hf
    obtain ⟨s, hs, hx⟩ := bind_ok (show (do
      let s ← Tree.sumTerms t (n + 1)
      let x ← t (n + 1)
      (RAddAssign.addAssign s x).toRes) = .ok x from hx)
    obtain ⟨m, hm, hx⟩ := bind_ok hx
    rw [h (n + 1) (by omega)] at hm
    obtain ⟨hs', hm', e1⟩ := (cx_rounds5 hp).add s m x hx hf
    obtain ⟨e2, e3⟩ := prod hm hm'
    obtain ⟨S, T, i1, i2, i3⟩ := ih (fun k hk => h k (by omega)) hs hs'
    refine ⟨S + cval m, T + ‖cval m‖, ?_, ?_, i3.step (cx_rounds5 hp).u_nonneg e1 (cadd_err hx hf)⟩
    · rw [Finset.sum_range_succ, Finset.sum_range_succ (fun k => ‖cval (a k)‖ * ‖cval (b k)‖)]
      rw [show S + cval m - (∑ k ∈ Finset.range (n + 1), cval (a k) * cval (b k) + cval (a (n + 1)) * cval (b (n + 1))) =
        (S - ∑ k ∈ Finset.range (n + 1), cval (a k) * cval (b k)) + (cval m - cval (a (n + 1)) * cval (b (n + 1))) by ring]
      refine (norm_add_le _ _).trans ?_
      push_cast at i1 ⊢
      linarith
    · rw [Finset.sum_range_succ]
      push_cast at i2 ⊢
      linarith

/-- C94: the product of `DMatrix`es of complex numbers (with at least one column on the left). -/
theorem C94_complex_dmatrix_mul_error (h4 : 4 ≤ F.p) {p : Profile} {l m n : ℕ} (hp : p.Fits l (m + 1)) (hq : p.Fits (m + 1) n)
    (f : Fin l → Fin (m + 1) → Complex (Ieee F)) (g : Fin (m + 1) → Fin n → Complex (Ieee F)) :
    ∃ y : Fin l → Fin n → Complex (Ieee F),
      (do (← (DMatrix.ofFn f).mul p (DMatrix.ofFn g)).eval) = .ok (DMatrix.ofFn y) ∧ ∀ i j, CFinite (y i j) →
      ‖cval (y i j) - ∑ k, cval (f i k) * cval (g k j)‖ ≤
        (m * F.u * (1 + Real.sqrt 5 * F.u) + Real.sqrt 5 * F.u) * ∑ k, ‖cval (f i k)‖ * ‖cval (g k j)‖ +
        (m + 1 : ℕ) * (1 + m * F.u) * (2 * Real.sqrt 2 * F.η) := by
  obtain ⟨y', hy', _⟩ := C93_dmatrix_mul_error h4 hp hq f g
  obtain ⟨y, hy, e⟩ := (mul_eval_iff hp hq f g _).1 hy'
  refine ⟨y, by rw [hy', e], fun i j hf => ?_⟩
  have hk : ∀ k < m + 1, prodTerms f g i j k =
      (if hk : k < m + 1 then f i ⟨k, hk⟩ else zero).mul (if hk : k < m + 1 then g ⟨k, hk⟩ j else zero) := by
    intro k hk
    simp only [prodTerms, dif_pos hk]
    rfl
  obtain ⟨S, T, h1, h2, h⟩ := lin_csumTerms h4 hk (hy i j) hf
  rw [← Fin.sum_univ_eq_sum_range (fun k => ‖cval (if hk : k < m + 1 then f i ⟨k, hk⟩ else zero)‖ *
      ‖cval (if hk : k < m + 1 then g ⟨k, hk⟩ j else zero)‖)] at h1 h2
  rw [← Fin.sum_univ_eq_sum_range (fun k => cval (if hk : k < m + 1 then f i ⟨k, hk⟩ else zero) *
      cval (if hk : k < m + 1 then g ⟨k, hk⟩ j else zero))] at h1
  simp only [Fin.is_lt, dite_true, Fin.eta] at h1 h2
  exact h.of_terms (cx_rounds5 h4).u_nonneg h1 h2

end Magnesia
