import Verif.Proof.IeeeRange
import Mathlib.Analysis.Complex.Norm

/-!
# Properties C47 - C49 for `f32`, `f64` and every other IEEE-754 binary format

A finite final result is enough: then no intermediate result was NaN or infinite. `F.u = 2^-p` is the unit roundoff and
`F.η` half the smallest positive number (the error of an underflowing product).
-/

namespace Magnesia

open RZero ROne MulRefs

variable {F : Fmt}

/-! ## C47 -/

/-- C47: `eval` always returns. -/
theorem C47_ieee_returns (a : List (Ieee F)) (x : Ieee F) : ∃ y, (Poly.fromCoefficients a).eval x = .ok y := by
  suffices h : ∀ (l : List (Ieee F)) (s : Ieee F), ∃ y, l.foldlM (fun y a => do
      let y ← mulRefs y x
      (AddAssignRef.addAssign y a).toRes) s = .ok y from h _ _
  intro l
  induction l with
  | nil => exact fun s => ⟨s, rfl⟩
  | cons a l ih => intro s; rw [List.foldlM_cons, horner_step]; exact ih _

/-- C47: the error bound for IEEE arithmetic. If the result is finite, so are the coefficients and (if there are any
coefficients) `x`, and the error is bounded. -/
theorem C47_ieee_horner_error (a : List (Ieee F)) (x y : Ieee F) (hy : (Poly.fromCoefficients a).eval x = .ok y)
    (hf : y.Finite) :
    (∀ i : Fin a.length, a[i].Finite) ∧ (a ≠ [] → x.Finite) ∧
    |y.value - ∑ i : Fin a.length, a[i].value * x.value ^ (i : ℕ)| ≤
      ((1 + F.u) ^ (2 * a.length) - 1) * ∑ i : Fin a.length, |a[i].value| * |x.value| ^ (i : ℕ) +
      (1 + F.u) ^ (2 * a.length) * (F.η * ∑ i ∈ Finset.range a.length, |x.value| ^ i) := by
  obtain ⟨_, h2, h3⟩ := horner_finite x a.reverse _ y hy hf
  have ha : ∀ b ∈ a, b.Finite := fun b hb => h2 b (by simpa using hb)
  refine ⟨fun i => ha _ (List.getElem_mem _), fun h => h3 (by simpa using h), ?_⟩
  by_cases hn : a = []
  · subst hn
    cases hy
    simp [Ieee.value, RZero.zero]
  have hx : x.Finite := h3 (by simpa using hn)
  obtain ⟨l, rfl⟩ := list_lift (ud := false) a ha
  rw [show (Poly.fromCoefficients (l.map Trap.val)).eval x = ((l.reverse).map Trap.val).foldlM _ _ by
    rw [List.map_reverse]; rfl] at hy
  obtain ⟨y', hy', rfl⟩ := horner_trap (⟨x, hx⟩ : Trap F false) l.reverse zero y hy hf
  have h := C47_horner_error trap_roundsField.toRoundsRing l ⟨x, hx⟩ y' hy'
  have e : ∀ (G : Ieee F → ℕ → ℚ), ∑ i : Fin (l.map Trap.val).length, G (l.map Trap.val)[i] i =
      ∑ i : Fin l.length, G l[i].val i := by
    intro G
    rw [← Equiv.sum_comp (finCongr (List.length_map (as := l) Trap.val).symm)]
    refine Finset.sum_congr rfl fun i _ => ?_
    simp
  rw [e fun b i => b.value * x.value ^ i, e fun b i => |b.value| * |x.value| ^ i, List.length_map]
  exact h

/-! ## C48 -/

theorem dotLoop_returns {ι : Type} (f g : ι → Ieee F) (l : List ι) (s : Ieee F) : ∃ y, l.foldlM (fun sum i => do
      let prod ← mulRefs (f i) (g i)
      (AddAssignRef.addAssign sum prod).toRes) s = .ok y := by
  induction l generalizing s with
  | nil => exact ⟨s, rfl⟩
  | cons a l ih => rw [List.foldlM_cons, dot_step]; exact ih _

/-- C48: the dot product of `SVector`s always returns. -/
theorem C48_ieee_dot_returns {n : ℕ} (v w : SVector (Ieee F) n) : ∃ x, v.dot w = .ok x := dotLoop_returns _ _ _ _

/-- C48: the dot product of `SVector`s. -/
theorem C48_ieee_dot_error {n : ℕ} (v w : SVector (Ieee F) n) (x : Ieee F) (hx : v.dot w = .ok x) (hf : x.Finite) :
    (∀ i, (v.val i).Finite ∧ (w.val i).Finite) ∧
    |x.value - ∑ i, (v.val i).value * (w.val i).value| ≤
      ((1 + F.u) ^ (n + 1) - 1) * ∑ i, |(v.val i).value| * |(w.val i).value| + (1 + F.u) ^ (n + 1) * (n * F.η) := by
  have h1 : ∀ i, (v.val i).Finite ∧ (w.val i).Finite :=
    fun i => (dot_finite v.val w.val _ _ x hx hf).2 i (List.mem_finRange i)
  refine ⟨h1, ?_⟩
  obtain ⟨x', hx', rfl⟩ := dot_trap (fun i => (⟨v.val i, (h1 i).1⟩ : Trap F false))
    (fun i => (⟨w.val i, (h1 i).2⟩ : Trap F false)) _ zero x hx hf
  exact C48_dot_error trap_roundsField.toRoundsRing ⟨fun i => (⟨v.val i, (h1 i).1⟩ : Trap F false)⟩
    ⟨fun i => (⟨w.val i, (h1 i).2⟩ : Trap F false)⟩ x' hx'

/-- C48: the product of `SMatrix`es: every finite entry of the result is accurate, even if others are not finite. -/
theorem C48_ieee_smatrix_mul_error {l m n : ℕ} (a : SMatrix (Ieee F) l m) (b : SMatrix (Ieee F) m n)
    (c : SMatrix (Ieee F) l n) (hc : a.mul b = .ok c) (i : Fin l) (j : Fin n) (hf : (c.val i j).Finite) :
    |(c.val i j).value - ∑ k, (a.val i k).value * (b.val k j).value| ≤
      ((1 + F.u) ^ (m + 1) - 1) * ∑ k, |(a.val i k).value| * |(b.val k j).value| + (1 + F.u) ^ (m + 1) * (m * F.η) :=
  (C48_ieee_dot_error _ _ _ ((smatrix_mul_entries a b c).1 hc i j) hf).2

/-- C48: the product of `SMatrix`es always returns. -/
theorem C48_ieee_smatrix_mul_returns {l m n : ℕ} (a : SMatrix (Ieee F) l m) (b : SMatrix (Ieee F) m n) :
    ∃ c, a.mul b = .ok c := by
  choose y hy using fun (i : Fin l) (j : Fin n) =>
    C48_ieee_dot_returns (SVector.mk (a.val i)) (SVector.mk fun k => b.val k j)
  exact ⟨⟨y⟩, (smatrix_mul_entries a b ⟨y⟩).2 hy⟩

/-- C48: the matrix-vector product. -/
theorem C48_ieee_mul_vec_error {m n : ℕ} (a : SMatrix (Ieee F) m n) (v : SVector (Ieee F) n)
    (w : SVector (Ieee F) m) (hw : a.mulVec v = .ok w) (i : Fin m) (hf : (w.val i).Finite) :
    |(w.val i).value - ∑ k, (a.val i k).value * (v.val k).value| ≤
      ((1 + F.u) ^ (n + 1) - 1) * ∑ k, |(a.val i k).value| * |(v.val k).value| + (1 + F.u) ^ (n + 1) * (n * F.η) := by
  rw [SMatrix.mulVec_eq] at hw
  obtain ⟨y, h1, hw⟩ := bind_ok hw
  cases pure_ok hw
  exact (C48_ieee_dot_error ⟨a.val i⟩ v _ (fromFnM_ok_iff.1 h1 i) hf).2

/-- C48: the product of `DMatrix`es. -/
theorem C48_ieee_dmatrix_mul_error {p : Profile} {l m n : ℕ} (hp : p.Fits l m) (hq : p.Fits m n)
    (f : Fin l → Fin m → Ieee F) (g : Fin m → Fin n → Ieee F) (x : DMatrix (Ieee F))
    (hx : (do (← (DMatrix.ofFn f).mul p (DMatrix.ofFn g)).eval) = .ok x) :
    ∃ y : Fin l → Fin n → Ieee F, x = DMatrix.ofFn y ∧ ∀ i j, (y i j).Finite →
      |(y i j).value - ∑ k, (f i k).value * (g k j).value| ≤
        ((1 + F.u) ^ m - 1) * ∑ k, |(f i k).value| * |(g k j).value| + (1 + F.u) ^ m * (m * F.η) := by
  obtain ⟨y, hy, rfl⟩ := (mul_eval_iff hp hq f g x).1 hx
  refine ⟨y, rfl, fun i j hf => ?_⟩
  have e : Tree.sumTerms (prodTerms f g i j) m = Tree.sumTerms (fun k => (.ok (
      (if hk : k < m then f i ⟨k, hk⟩ else .nan).mul (if hk : k < m then g ⟨k, hk⟩ j else .nan)) : Res (Ieee F))) m := by
    have hc : ∀ {t t' : ℕ → Res (Ieee F)} (n : ℕ), (∀ k < n, t k = t' k) → Tree.sumTerms t n = Tree.sumTerms t' n := by
      intro t t' n
      induction n using Nat.strongRecOn with
      | _ n ih =>
        match n with
        | 0 => intro _; rfl
        | 1 => intro h; exact h 0 (by omega)
        | n + 2 =>
          intro h
          show (Tree.sumTerms t (n + 1) >>= fun s => t (n + 1) >>= fun x => _) =
            (Tree.sumTerms t' (n + 1) >>= fun s => t' (n + 1) >>= fun x => _)
          rw [ih (n + 1) (by omega) fun k hk => h k (by omega), h (n + 1) (by omega)]
    refine hc m fun k hk => ?_
    simp only [prodTerms, dif_pos hk]
    rfl
  obtain ⟨f', g', h1, y', h2, h3⟩ := sumTerms_trap _ _ m (y i j) (e ▸ hy i j) hf
  have h := approx_sumTerms (φ := Trap.value) trap_roundsV (t := fun k => Trap.mul (f' k) (g' k))
    (a := fun k => (f' k).value) (b := fun k => (g' k).value) (fun k _ z hz => (Trap.mul_ok hz).2) h2
  have e1 : ∀ (G : ℚ → ℚ → ℚ), ∑ k ∈ Finset.range m, G (f' k).value (g' k).value =
      ∑ k : Fin m, G (f i k).value (g k j).value := by
    intro G
    rw [← Fin.sum_univ_eq_sum_range (fun k => G (f' k).value (g' k).value)]
    refine Finset.sum_congr rfl fun k _ => ?_
    obtain ⟨h4, h5⟩ := h1 k k.2
    rw [Trap.value, Trap.value, h4, h5]
    simp
  rw [e1 fun a b => |a| * |b|, e1 fun a b => a * b] at h
  rw [← h3, add_comm]
  exact h.err

/-- C48: it always returns, if the inner dimension is not zero. -/
theorem C48_ieee_dmatrix_mul_returns {p : Profile} {l m n : ℕ} (hp : p.Fits l m) (hq : p.Fits m n) (hm : 1 ≤ m)
    (f : Fin l → Fin m → Ieee F) (g : Fin m → Fin n → Ieee F) :
    ∃ x, (do (← (DMatrix.ofFn f).mul p (DMatrix.ofFn g)).eval) = .ok x := by
  have key : ∀ i j, ∀ k < m, ∃ y, Tree.sumTerms (prodTerms f g i j) (k + 1) = .ok y := by
    intro i j k
    have ht : ∀ k, k < m → ∃ y, prodTerms f g i j k = .ok y := fun k hk => by
      simp only [prodTerms, dif_pos hk]; exact ⟨_, rfl⟩
    induction k with
    | zero => exact ht 0
    | succ k ih =>
      intro hk
      obtain ⟨s, hs⟩ := ih (by omega)
      obtain ⟨t, h1⟩ := ht (k + 1) hk
      refine ⟨s.add t, ?_⟩
      show (Tree.sumTerms (prodTerms f g i j) (k + 1) >>= fun s => prodTerms f g i j (k + 1) >>= fun x => _) = _
      rw [hs, h1]
      rfl
  obtain ⟨k, rfl⟩ : ∃ k, m = k + 1 := ⟨m - 1, by omega⟩
  choose y hy using fun i j => key i j k (by omega)
  exact ⟨_, (mul_eval_iff hp hq f g _).2 ⟨y, hy, rfl⟩⟩

/-- C48: the inner product of `DVector`s. -/
theorem C48_ieee_dvector_dot_error {n : ℕ} (f g : Fin n → Ieee F) (x : Ieee F)
    (hx : (DVector.ofFn f).dot (DVector.ofFn g) = .ok x) (hf : x.Finite) :
    |x.value - ∑ i, (f i).value * (g i).value| ≤
      ((1 + F.u) ^ (n + 1) - 1) * ∑ i, |(f i).value| * |(g i).value| + (1 + F.u) ^ (n + 1) * (n * F.η) := by
  refine (C48_ieee_dot_error ⟨f⟩ ⟨g⟩ x ?_ hf).2
  rw [← hx]
  show _ = (List.zip (List.ofFn f) (List.ofFn g)).foldlM _ _
  rw [List.ofFn_eq_map, List.ofFn_eq_map, List.zip_map', List.foldlM_map]
  rfl

/-! ## C49 -/

theorem Ieee.approx_mul {a b : Ieee F} (h : (a.mul b).Finite) :
    Approx (1 + F.u) F.η (|a.value| * |b.value|) (a.value * b.value) (a.mul b).value := by
  have := (Approx.exact a.value).mul (Approx.exact b.value) F.u_pos.le F.η_pos.le
    (t := (a.mul b).value) (by rw [(Ieee.mul_finite h).2.2]; exact F.roundQ_err_any _)
  simpa using this

theorem Ieee.add_err {a b : Ieee F} (h : (a.add b).Finite) :
    |(a.add b).value - (a.value + b.value)| ≤ F.u * |a.value + b.value| := by
  rw [(Ieee.add_finite h).2.2]
  exact F.roundQ_add_err (Ieee.value_representable _) (Ieee.value_representable _)

theorem Ieee.sub_err {a b : Ieee F} (h : (a.sub b).Finite) :
    |(a.sub b).value - (a.value - b.value)| ≤ F.u * |a.value - b.value| := by
  have := Ieee.add_err h
  rwa [neg_value, ← sub_eq_add_neg] at this

/-- The complex product in IEEE arithmetic always returns; its parts. -/
theorem ieee_cmul (z w : Complex (Ieee F)) : z.mul w =
    .ok ⟨(z.re.mul w.re).sub (z.im.mul w.im), (z.re.mul w.im).add (z.im.mul w.re)⟩ := rfl

/-- C49: each finite part of a complex product is accurate, even if the other part is not finite. -/
theorem C49_ieee_mul_error (z w p : Complex (Ieee F)) (hp : z.mul w = .ok p) :
    (p.re.Finite → |p.re.value - (z.re.value * w.re.value - z.im.value * w.im.value)| ≤
        ((1 + F.u) ^ 2 - 1) * (|z.re.value| * |w.re.value| + |z.im.value| * |w.im.value|) + (1 + F.u) ^ 2 * (2 * F.η)) ∧
      (p.im.Finite → |p.im.value - (z.re.value * w.im.value + z.im.value * w.re.value)| ≤
        ((1 + F.u) ^ 2 - 1) * (|z.re.value| * |w.im.value| + |z.im.value| * |w.re.value|) +
          (1 + F.u) ^ 2 * (2 * F.η)) := by
  rw [ieee_cmul] at hp
  cases hp
  rw [add_comm _ ((1 + F.u) ^ 2 * (2 * F.η)), add_comm _ ((1 + F.u) ^ 2 * (2 * F.η)), two_mul, pow_two]
  refine ⟨fun h => ?_, fun h => ?_⟩
  · obtain ⟨h1, h2, _⟩ := Ieee.sub_finite h
    exact ((Ieee.approx_mul h1).sub (Ieee.approx_mul h2) F.u_pos.le (Ieee.sub_err h)).err
  · obtain ⟨h1, h2, _⟩ := Ieee.add_finite h
    exact ((Ieee.approx_mul h1).add (Ieee.approx_mul h2) F.u_pos.le (Ieee.add_err h)).err

/-- C49: `sqr_norm`. -/
theorem C49_ieee_sqr_norm_error (z : Complex (Ieee F)) (s : Ieee F) (hs : z.sqrNorm = .ok s) (hf : s.Finite) :
    |s.value - (z.re.value ^ 2 + z.im.value ^ 2)| ≤
      ((1 + F.u) ^ 2 - 1) * (z.re.value ^ 2 + z.im.value ^ 2) + (1 + F.u) ^ 2 * (2 * F.η) := by
  obtain rfl : (z.re.mul z.re).add (z.im.mul z.im) = s := Except.ok.inj hs
  obtain ⟨h1, h2, _⟩ := Ieee.add_finite hf
  have h := ((Ieee.approx_mul h1).add (Ieee.approx_mul h2) F.u_pos.le (Ieee.add_err hf)).err
  simp only [← pow_two, sq_abs, ← two_mul] at h
  rw [add_comm (((1 + F.u) ^ 2 - 1) * _)]
  exact h

theorem Fmt.u_le_quarter (F : Fmt) : F.u ≤ 1 / 4 := by
  have h : F.u ≤ 2 ^ (-2 : ℤ) := zpow_le_zpow_right₀ (by norm_num) (by have := F.two_le_p; omega)
  norm_num at h ⊢
  linarith

theorem Fmt.u_sq_lt (F : Fmt) : (1 + F.u) ^ 2 < 2 := by
  have := F.u_le_quarter; have := F.u_pos; nlinarith

theorem trap_sqrNorm {w : Complex (Trap F true)} {k : ℤ} (hre : w.re.val.Between (-k) k) (him : w.im.val.Between (-k) k)
    (h1 : F.emin ≤ -k + -k) (h2 : k + k + 1 ≤ F.emax) :
    ∃ s : Trap F true, w.sqrNorm = .ok s ∧ s.val.Between (-k + -k) (k + k + 1) ∧ 0 ≤ s.value ∧
      (w.re.value ≠ 0 ∨ w.im.value ≠ 0 → s.value ≠ 0) := by
  obtain ⟨a, ea, ha, ha'⟩ := Trap.mul_between hre hre h1 (by omega)
  obtain ⟨b, eb, hb, hb'⟩ := Trap.mul_between him him h1 (by omega)
  have h3 := trap_roundsField (F := F) (ud := true)
  have ha0 : 0 ≤ a.value := by
    have h4 := (Approx.exact (w.re.value)).mul (Approx.exact w.re.value) F.u_pos.le le_rfl (t := a.value)
      (by simpa [Trap.eta] using h3.mul _ _ _ ea)
    have h5 := abs_le.1 h4.err
    simp only [mul_one, one_mul, mul_zero, add_zero, zero_add, abs_mul_abs_self] at h5
    have := F.u_le_one
    nlinarith [mul_self_nonneg w.re.value]
  have hb0 : 0 ≤ b.value := by
    have h4 := (Approx.exact (w.im.value)).mul (Approx.exact w.im.value) F.u_pos.le le_rfl (t := b.value)
      (by simpa [Trap.eta] using h3.mul _ _ _ eb)
    have h5 := abs_le.1 h4.err
    simp only [mul_one, one_mul, mul_zero, add_zero, zero_add, abs_mul_abs_self] at h5
    have := F.u_le_one
    nlinarith [mul_self_nonneg w.im.value]
  obtain ⟨s, es, hs, hs'⟩ := Trap.add_between_nonneg ha hb ha0 hb0 h1 h2
  refine ⟨s, ?_, hs, ?_, fun h => hs' (h.imp (fun h => ha' h h) (fun h => hb' h h))⟩
  · show (do
      let p1 ← Trap.mul w.re w.re
      let p2 ← Trap.mul w.im w.im
      (Upd.ofRes p1 (Trap.add p1 p2)).toRes) = _
    rw [ea, eb]
    exact (toRes_ofRes _ _).trans es
  · have h4 := abs_le.1 (Trap.add_err es)
    rw [abs_of_nonneg (add_nonneg ha0 hb0)] at h4
    have := F.u_le_one
    nlinarith [add_nonneg ha0 hb0]

/-- C49: complex division is accurate for all operands whose parts are zero or of magnitude between `2^-k` and `2^k`
with `4k + p + 1 ≤ emax` (for `f32` `k = 25`, for `f64` `k = 242`), as long as the divisor is not zero: both parts of the
quotient are finite and have the stated error. -/
theorem C49_ieee_div_error (k : ℕ) (hk : 4 * k + F.p + 1 ≤ F.emax) (z w : Complex (Ieee F))
    (hzr : z.re.Between (-k) k) (hzi : z.im.Between (-k) k) (hwr : w.re.Between (-k) k) (hwi : w.im.Between (-k) k)
    (hw : w.re.value ≠ 0 ∨ w.im.value ≠ 0) :
    ∃ q, z.div w = .ok q ∧ q.re.Finite ∧ q.im.Finite ∧
      |q.re.value - (z.re.value * w.re.value + z.im.value * w.im.value) / (w.re.value ^ 2 + w.im.value ^ 2)| ≤
        ((1 + F.u) ^ 4 / (2 - (1 + F.u) ^ 2) - 1) *
          ((|z.re.value| * |w.re.value| + |z.im.value| * |w.im.value|) / (w.re.value ^ 2 + w.im.value ^ 2)) ∧
      |q.im.value - (z.im.value * w.re.value - z.re.value * w.im.value) / (w.re.value ^ 2 + w.im.value ^ 2)| ≤
        ((1 + F.u) ^ 4 / (2 - (1 + F.u) ^ 2) - 1) *
          ((|z.im.value| * |w.re.value| + |z.re.value| * |w.im.value|) / (w.re.value ^ 2 + w.im.value ^ 2)) := by
  have hp := F.two_le_p
  have he : F.emin = 1 - F.emax := rfl
  let z' : Complex (Trap F true) := ⟨⟨z.re, hzr.1⟩, ⟨z.im, hzi.1⟩⟩
  let w' : Complex (Trap F true) := ⟨⟨w.re, hwr.1⟩, ⟨w.im, hwi.1⟩⟩
  obtain ⟨s, es, hs, _, hs'⟩ := trap_sqrNorm (w := w') (k := k) hwr hwi (by omega) (by omega)
  have h1 : (one : Trap F true).val.Between 0 0 := ⟨trivial, .inr (by
    show (2 : ℚ) ^ (0 : ℤ) ≤ |1| ∧ |(1 : ℚ)| ≤ 2 ^ (0 : ℤ)
    norm_num)⟩
  obtain ⟨r, er, hr, _⟩ := Trap.div_between h1 hs (hs' hw) (by omega) (by omega)
  obtain ⟨p1, e1, h1, _⟩ := Trap.mul_between (a := z'.re) (b := w'.re) hzr hwr (by omega) (by omega)
  obtain ⟨p2, e2, h2, _⟩ := Trap.mul_between (a := z'.im) (b := w'.re) hzi hwr (by omega) (by omega)
  obtain ⟨p3, e3, h3, _⟩ := Trap.mul_between (a := z'.re) (b := w'.im) hzr hwi (by omega) (by omega)
  obtain ⟨p4, e4, h4, _⟩ := Trap.mul_between (a := z'.im) (b := w'.im) hzi hwi (by omega) (by omega)
  obtain ⟨q1, e5, h5⟩ := Trap.add_between h1 h4 (by omega) (by omega)
  obtain ⟨q2, e6, h6⟩ := Trap.sub_between h2 h3 (by omega) (by omega)
  obtain ⟨x, e7, h7, _⟩ := Trap.mul_between h5 hr (by omega) (by omega)
  obtain ⟨y, e8, h8, _⟩ := Trap.mul_between h6 hr (by omega) (by omega)
  have e : z'.div w' = .ok ⟨x, y⟩ := by
    show (do
      let s ← w'.sqrNorm
      let r ← Trap.div one s
      let p1 ← Trap.mul z'.re w'.re
      let p2 ← Trap.mul z'.im w'.re
      let p3 ← Trap.mul z'.re w'.im
      let p4 ← Trap.mul z'.im w'.im
      let q1 ← (Upd.ofRes p1 (Trap.add p1 p4)).toRes
      let q2 ← (Upd.ofRes p2 (Trap.sub p2 p3)).toRes
      let x ← Trap.mul q1 r
      let y ← Trap.mul q2 r
      (.ok ⟨x, y⟩ : Res (Complex (Trap F true)))) = _
    simp only [toRes_ofRes, es, er, e1, e2, e3, e4, e5, e6, e7, e8, bind, Except.bind]
  have h9 := C49_div_error (φ := (Trap.value : Trap F true → ℚ)) trap_roundsField F.u_sq_lt
    z' w' _ e
  refine ⟨⟨x.val, y.val⟩, ?_, x.finite, y.finite, h9⟩
  have h10 := trap_cdiv z' w'
  rw [e] at h10
  exact h10

/-- C49: `abs` is accurate to `(1+u)^2 - 1`, relatively, for all numbers whose parts are zero or of magnitude between
`2^-k` and `2^k` with `2k + 1 ≤ emax` (for `f32` `k = 63`, for `f64` `k = 511`). -/
theorem C49_ieee_abs_error (k : ℕ) (hk : 2 * k + 1 ≤ F.emax) (z : Complex (Ieee F)) (hr : z.re.Between (-k) k)
    (hi : z.im.Between (-k) k) :
    ∃ h, z.abs = .ok h ∧ h.Finite ∧
      |(h.value : ℝ) - ‖(⟨z.re.value, z.im.value⟩ : ℂ)‖| ≤ ((1 + F.u) ^ 2 - 1) * ‖(⟨z.re.value, z.im.value⟩ : ℂ)‖ := by
  have he : F.emin = 1 - F.emax := rfl
  let z' : Complex (Trap F true) := ⟨⟨z.re, hr.1⟩, ⟨z.im, hi.1⟩⟩
  obtain ⟨s, es, hs, hs0, _⟩ := trap_sqrNorm (w := z') (k := k) hr hi (by omega) (by omega)
  have hf : s.val.sqrt.Finite := by
    have h0 : 0 ≤ s.val.value := hs0
    have h1 := s.finite
    cases hv : s.val with
    | nan => rw [hv] at h1; exact h1.elim
    | inf => rw [hv] at h1; exact h1.elim
    | zero => exact trivial
    | fin x hx hr =>
      rw [hv] at h0
      have : 0 < x := lt_of_le_of_ne h0 (Ne.symm hx)
      simp only [Ieee.sqrt, dif_pos this]
      exact trivial
  have e : z'.abs = .ok ⟨_, hf⟩ := by
    show (do let n ← z'.sqrNorm; Trap.sqrt n) = _
    rw [es]
    exact dif_pos hf
  refine ⟨s.val.sqrt, ?_, hf, ?_⟩
  · have h := trap_cabs z'
    rw [e] at h
    exact h
  · obtain ⟨h0, h1, h2⟩ := C49_abs_error (φ := (Trap.value : Trap F true → ℚ))
      trap_roundsField.toRoundsRing trap_roundsSqrt z' _ e F.u_sq_lt.le
    have hn : ‖(⟨z.re.value, z.im.value⟩ : ℂ)‖ ^ 2 = ((z.re.value ^ 2 + z.im.value ^ 2 : ℚ) : ℝ) := by
      rw [← Complex.normSq_eq_norm_sq, Complex.normSq_mk]; push_cast; ring
    have hn0 := norm_nonneg (⟨z.re.value, z.im.value⟩ : ℂ)
    have h0' : (0 : ℝ) ≤ (s.val.sqrt.value : ℝ) := by exact_mod_cast h0
    have h1' : (((2 - (1 + F.u) ^ 2) ^ 2 * (z.re.value ^ 2 + z.im.value ^ 2) : ℚ) : ℝ) ≤ (s.val.sqrt.value : ℝ) ^ 2 := by
      exact_mod_cast h1
    have h2' : (s.val.sqrt.value : ℝ) ^ 2 ≤ ((((1 + F.u) ^ 2) ^ 2 * (z.re.value ^ 2 + z.im.value ^ 2) : ℚ) : ℝ) := by
      exact_mod_cast h2
    rw [Rat.cast_mul, ← hn] at h1' h2'
    have hu : (0 : ℝ) ≤ ((2 - (1 + F.u) ^ 2 : ℚ) : ℝ) := by exact_mod_cast (by linarith [F.u_sq_lt] : 0 ≤ 2 - (1 + F.u) ^ 2)
    push_cast at h1' h2' hu ⊢
    rw [← mul_pow] at h1' h2'
    have h3 := le_of_sq_le_sq h1' h0'
    have h4 := le_of_sq_le_sq h2' (by positivity)
    rw [abs_le]
    constructor <;> linarith

/-! ## Examples: the hypotheses can be met -/

section examples

/-- The `f32` nearest to a rational number. -/
abbrev f32 (x : ℚ) : Ieee .f32 := Ieee.round x
/-- The `f64` nearest to a rational number. -/
abbrev f64 (x : ℚ) : Ieee .f64 := Ieee.round x

/-- `1 + 2x - 3x^2` at `x = 0.1` in `f32`: `0.1` and all intermediate results are rounded, the result is finite. -/
example : (Poly.fromCoefficients [f32 1, f32 2, f32 (-3)]).eval (f32 (1 / 10)) = .ok (f32 (117 / 100)) ∧
    (f32 (117 / 100)).Finite ∧ (f32 (117 / 100)).value ≠ 117 / 100 := by decide +kernel

/-- The dot product of `(0.1, 0.2)` with `(0.3, 0.7)` in `f64` is not the `f64` nearest to `0.17`: rounding occurs. -/
example : ∃ x, (SVector.mk ![f64 (1 / 10), f64 (2 / 10)]).dot (SVector.mk ![f64 (3 / 10), f64 (7 / 10)]) = .ok x ∧
    x.Finite ∧ x ≠ f64 (17 / 100) :=
  ⟨f64 (3062447746611937 / 18014398509481984), by decide +kernel⟩

/-- `(1 + 2i) / (0.1 + 3i)` in `f32` satisfies the hypotheses of `C49_ieee_div_error` with `k = 25`. -/
example : (4 * (25 : ℕ) + Fmt.f32.p + 1 : ℤ) ≤ Fmt.f32.emax ∧
    (f32 1).Between (-(25 : ℕ)) (25 : ℕ) ∧ (f32 2).Between (-(25 : ℕ)) (25 : ℕ) ∧
    (f32 (1 / 10)).Between (-(25 : ℕ)) (25 : ℕ) ∧ (f32 3).Between (-(25 : ℕ)) (25 : ℕ) ∧ (f32 3).value ≠ 0 := by
  unfold Ieee.Between
  decide +kernel

/-- `f64`: `k = 242` for the quotient, `k = 511` for `abs`; `f32`: `k = 63` for `abs`. -/
example : (4 * (242 : ℕ) + Fmt.f64.p + 1 : ℤ) ≤ Fmt.f64.emax ∧ (2 * (511 : ℕ) + 1 : ℤ) ≤ Fmt.f64.emax ∧
    (2 * (63 : ℕ) + 1 : ℤ) ≤ Fmt.f32.emax := by decide

/-- Exact arithmetic is an instance of the standard model with `u = η = 0`. -/
example : RoundsRing (T := Exact ℚ) Exact.val (0 : ℚ) 0 where
  u_nonneg := le_rfl
  η_nonneg := le_rfl
  zero := rfl
  one := rfl
  add a b c h := by cases h; simp [AddAssignRef.addAssign]
  sub a b c h := by cases h; simp [SubAssignRef.subAssign]
  mul a b c h := by cases h; simp
  neg a c h := by cases h; rfl

/-- IEEE arithmetic with trapped exceptions is an instance with `u = 2^-p` (and `η = 0` if underflow is trapped). -/
example : RoundsField (T := Trap .f32 true) Trap.value (2 ^ (-24 : ℤ)) 0 ∧
    RoundsField (T := Trap .f32 false) Trap.value (2 ^ (-24 : ℤ)) (2 ^ (-150 : ℤ)) :=
  ⟨trap_roundsField, trap_roundsField⟩

end examples

end Magnesia
