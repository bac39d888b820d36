import Verif.Proof.Word
import Verif.Proof.WordOps
import Verif.Props.Rounding
import Verif.Props.Polynomial
import Verif.Props.SLinalg
import Verif.Props.DynDot
import Verif.Props.DynLinalg

/-!
# C85: when floating point arithmetic rounds nothing
-/

namespace Magnesia

open RZero ROne MulRefs

variable {F : Fmt}

/-- C85: whatever program over the API is run on whatever floating point numbers (containers nested to any depth), given a word for
each: if the same program run on the words returns, which needs no numbers, then the program returns on the floating point numbers
and in exact arithmetic, with the same result (nothing is rounded, every entry is finite), and its entries have the words computed. -/
theorem C85_programs (pr : Profile) (Γ : ℕ → Ty) (hΓ : ∀ i, (Γ i).IsData) (ty : Ty) (hty : ty.IsData) (p : Prog Γ ty)
    (env : (i : ℕ) → (Γ i).type (Signal F)) (v : ty.type (Word F))
    (hv : p.run pr (fun i => (Γ i).map Signal.word (hΓ i) (env i)) = .ok v) :
    ∃ r : ty.type (Signal F), p.run pr (fun i => (Γ i).map Signal.num (hΓ i) (env i)) = .ok (ty.map Signal.num hty r) ∧
      p.run pr (fun i => (Γ i).map Signal.exact (hΓ i) (env i)) = .ok (ty.map Signal.exact hty r) ∧
      v = ty.map Signal.word hty r := by
  have h1 := Prog.run_map Signal.hom_word (Signal.hom_word.toV Signal.valueOpsAgree Signal.valueOpsAgree_word)
    (fun _ => ResRel.ok rfl) pr hΓ env hty p
  rw [hv] at h1
  cases hr : p.run pr env with
  | error e => rw [hr] at h1; cases h1
  | ok r =>
    rw [hr] at h1
    injection h1 with h1
    have h2 := Prog.run_rel Signal.hom_num (Signal.hom_num.toV Signal.valueOpsAgree Ieee.valueOpsAgree)
      (fun _ => ResRel.ok rfl) pr env _ (fun i => ((Γ i).rel_iff (hΓ i) _ _).2 rfl) p
    have h3 := Prog.run_rel Signal.hom_exact (Signal.hom_exact.toV Signal.valueOpsAgree valueOpsAgree_exact)
      (fun _ => ResRel.ok rfl) pr env _ (fun i => ((Γ i).rel_iff (hΓ i) _ _).2 rfl) p
    rw [hr] at h2 h3
    obtain ⟨y, hy, h4⟩ := h2
    obtain ⟨z, hz, h5⟩ := h3
    exact ⟨r, by rw [hy, (ty.rel_iff hty _ _).1 h4], by rw [hz, (ty.rel_iff hty _ _).1 h5], h1⟩

/-- C85: the same for programs over `Complex<f64>` and `Complex<f32>`, with words for the real and imaginary parts. -/
theorem C85_complex (pr : Profile) (Γ : ℕ → Ty) (hΓ : ∀ i, (Γ i).IsData) (ty : Ty) (hty : ty.IsData) (p : Prog Γ ty)
    (env : (i : ℕ) → (Γ i).type (Complex (Signal F))) (v : ty.type (Complex (Word F)))
    (hv : p.run pr (fun i => (Γ i).map (Complex.map Signal.word) (hΓ i) (env i)) = .ok v) :
    ∃ r : ty.type (Complex (Signal F)),
      p.run pr (fun i => (Γ i).map (Complex.map Signal.num) (hΓ i) (env i)) = .ok (ty.map (Complex.map Signal.num) hty r) ∧
      p.run pr (fun i => (Γ i).map (Complex.map Signal.exact) (hΓ i) (env i)) = .ok (ty.map (Complex.map Signal.exact) hty r) ∧
      v = ty.map (Complex.map Signal.word) hty r := by
  have h1 := Prog.run_map Signal.hom_word.complex
    (Signal.hom_word.complex.toV Signal.valueOpsAgree.complex Signal.valueOpsAgree_word.complex)
    Signal.hom_word.cconj pr hΓ env hty p
  rw [hv] at h1
  cases hr : p.run pr env with
  | error e => rw [hr] at h1; cases h1
  | ok r =>
    rw [hr] at h1
    injection h1 with h1
    have h2 := Prog.run_rel Signal.hom_num.complex
      (Signal.hom_num.complex.toV Signal.valueOpsAgree.complex Ieee.valueOpsAgree.complex)
      Signal.hom_num.cconj pr env _ (fun i => ((Γ i).rel_iff (hΓ i) _ _).2 rfl) p
    have h3 := Prog.run_rel Signal.hom_exact.complex
      (Signal.hom_exact.complex.toV Signal.valueOpsAgree.complex valueOpsAgree_exact.complex)
      Signal.hom_exact.cconj pr env _ (fun i => ((Γ i).rel_iff (hΓ i) _ _).2 rfl) p
    rw [hr] at h2 h3
    obtain ⟨y, hy, h4⟩ := h2
    obtain ⟨z, hz, h5⟩ := h3
    exact ⟨r, by rw [hy, (ty.rel_iff hty _ _).1 h4], by rw [hz, (ty.rel_iff hty _ _).1 h5], h1⟩

/-! ## Single operations -/

variable {a b k : ℤ}

/-- C85: a sum, difference or product of floating point numbers `m · 2 ^ a` and `n · 2 ^ b` is not rounded, if the format can hold
it. -/
theorem C85_numbers {x y : Ieee F} {m n : ℤ} (hx : x.IsFixed a m) (hy : y.IsFixed b n) :
    (F.Fixed (a + b) (m * n).natAbs → ∃ z, mulRefs x y = .ok z ∧ z.IsFixed (a + b) (m * n)) ∧
    (a = b → F.Fixed a (m + n).natAbs → ∃ z, ringAdd x y = .ok z ∧ z.IsFixed a (m + n)) ∧
    (a = b → F.Fixed a (m - n).natAbs → ∃ z, ringSub x y = .ok z ∧ z.IsFixed a (m - n)) := by
  refine ⟨fun h => ⟨_, rfl, hx.mul hy h (by simp)⟩, fun e h => ?_, fun e h => ?_⟩
  · subst e
    exact ⟨_, rfl, hx.add hy h (by simp)⟩
  · subst e
    have hy' : y.neg.IsFixed a (-n) := ⟨IntFloat.neg_finite.2 hy.1, by rw [Ieee.neg_value, hy.2]; push_cast; ring⟩
    rw [sub_eq_add_neg] at h ⊢
    exact ⟨_, rfl, hx.add hy' h (by simp)⟩

/-- C85: `u * v` on `SVector`s of numbers `m i · 2 ^ a` and `n i · 2 ^ b` is exact, if the format can hold
`(Σ |m i| |n i|) · 2 ^ (a + b)`: for `f64`, if that sum is at most `2 ^ 53` and the exponents are not extreme. -/
theorem C85_dot {N : ℕ} (u v : SVector (Ieee F) N) (m n : Fin N → ℤ) (hu : ∀ i, (u.val i).IsFixed a (m i))
    (hv : ∀ i, (v.val i).IsFixed b (n i)) (h : F.Fixed (a + b) (∑ i, (m i).natAbs * (n i).natAbs)) :
    ∃ x, u.dot v = .ok x ∧ x.IsFixed (a + b) (∑ i, m i * n i) := by
  obtain ⟨x, hx, h1⟩ := fixed_dotLoop hu hv h (List.finRange N) zero 0 Ieee.IsFixed.zero (by
    rw [abs_zero, zero_add, ← Fin.sum_univ_def]
    push_cast
    exact le_rfl)
  rw [zero_add, ← Fin.sum_univ_def] at h1
  exact ⟨x, hx, h1⟩

/-- C85: so is a product of `SMatrix`es. -/
theorem C85_smatrix_mul {L M N : ℕ} (x : SMatrix (Ieee F) L M) (y : SMatrix (Ieee F) M N) (m : Fin L → Fin M → ℤ)
    (n : Fin M → Fin N → ℤ) (hx : ∀ i j, (x.val i j).IsFixed a (m i j)) (hy : ∀ i j, (y.val i j).IsFixed b (n i j))
    (h : ∀ i j, F.Fixed (a + b) (∑ l, (m i l).natAbs * (n l j).natAbs)) :
    ∃ c, x.mul y = .ok c ∧ ∀ i j, (c.val i j).IsFixed (a + b) (∑ l, m i l * n l j) := by
  choose z hz he using fun i j => C85_dot (SVector.mk (x.val i)) (SVector.mk fun l => y.val l j) (m i) (fun l => n l j) (hx i)
    (fun l => hy l j) (h i j)
  exact ⟨⟨z⟩, (smatrix_mul_entries x y ⟨z⟩).2 hz, he⟩

/-- C85: and a product of an `SMatrix` and an `SVector`. -/
theorem C85_mul_vec {M N : ℕ} (x : SMatrix (Ieee F) M N) (v : SVector (Ieee F) N) (m : Fin M → Fin N → ℤ) (n : Fin N → ℤ)
    (hx : ∀ i j, (x.val i j).IsFixed a (m i j)) (hv : ∀ i, (v.val i).IsFixed b (n i))
    (h : ∀ i, F.Fixed (a + b) (∑ l, (m i l).natAbs * (n l).natAbs)) :
    ∃ c, x.mulVec v = .ok c ∧ ∀ i, (c.val i).IsFixed (a + b) (∑ l, m i l * n l) := by
  choose z hz he using fun i => C85_dot (SVector.mk (x.val i)) v (m i) n (hx i) hv (h i)
  refine ⟨⟨z⟩, ?_, he⟩
  rw [SMatrix.mulVec_eq]
  have e := fromFnM_ok_iff.2 hz
  unfold SVector.dot SVector.dotRef at e
  rw [e]
  rfl

/-- C85: and `u * v` on `DVector`s. -/
theorem C85_dvector_dot {N : ℕ} (u v : Fin N → Ieee F) (m n : Fin N → ℤ) (hu : ∀ i, (u i).IsFixed a (m i))
    (hv : ∀ i, (v i).IsFixed b (n i)) (h : F.Fixed (a + b) (∑ i, (m i).natAbs * (n i).natAbs)) :
    ∃ x, (DVector.ofFn u).dotRef (DVector.ofFn v) = .ok x ∧ x.IsFixed (a + b) (∑ i, m i * n i) := by
  have ez : List.zip (DVector.ofFn u).data (DVector.ofFn v).data = (List.finRange N).map fun i => (u i, v i) := by
    simp [DVector.ofFn, List.ofFn_eq_map, List.zip_map']
  obtain ⟨x, hx, h1⟩ := fixed_zipLoop hu hv h (List.finRange N) zero 0 Ieee.IsFixed.zero (by
    rw [abs_zero, zero_add, ← Fin.sum_univ_def]
    push_cast
    exact le_rfl)
  rw [zero_add, ← Fin.sum_univ_def] at h1
  rw [← ez] at hx
  exact ⟨x, hx, h1⟩

/-- C85: and a product of `DMatrix`es (inner dimension at least 1). -/
theorem C85_dmatrix_mul {p : Profile} {L M N : ℕ} (hf : p.Fits L (M + 1)) (hg : p.Fits (M + 1) N)
    (f : Fin L → Fin (M + 1) → Ieee F) (g : Fin (M + 1) → Fin N → Ieee F) (m : Fin L → Fin (M + 1) → ℤ)
    (n : Fin (M + 1) → Fin N → ℤ) (hx : ∀ i j, (f i j).IsFixed a (m i j)) (hy : ∀ i j, (g i j).IsFixed b (n i j))
    (h : ∀ i j, F.Fixed (a + b) (∑ l, (m i l).natAbs * (n l j).natAbs)) :
    ∃ c, (do (← (DMatrix.ofFn f).mul p (DMatrix.ofFn g)).eval) = .ok (DMatrix.ofFn c) ∧
      ∀ i j, (c i j).IsFixed (a + b) (∑ l, m i l * n l j) := by
  have key : ∀ i j, ∃ y : Ieee F, Tree.sumTerms (prodTerms f g i j) (M + 1) = .ok y ∧
      y.IsFixed (a + b) (∑ l, m i l * n l j) := by
    intro i j
    have e1 := Fin.sum_univ_eq_sum_range
      (fun l => if hl : l < M + 1 then (m i ⟨l, hl⟩).natAbs * (n ⟨l, hl⟩ j).natAbs else 0) (M + 1)
    have e2 := Fin.sum_univ_eq_sum_range
      (fun l => if hl : l < M + 1 then m i ⟨l, hl⟩ * n ⟨l, hl⟩ j else 0) (M + 1)
    simp only [Fin.is_lt, dif_pos, Fin.eta] at e1 e2
    rw [e2]
    refine fixed_sumTerms (h i j) (fun l hl => ?_) ?_
    · refine ⟨(f i ⟨l, hl⟩).mul (g ⟨l, hl⟩ j), by simp only [prodTerms, dif_pos hl]; rfl, ?_⟩
      rw [dif_pos hl]
      refine (hx i _).mul (hy _ j) (h i j) ?_
      have := Finset.single_le_sum (f := fun l => (m i l).natAbs * (n l j).natAbs) (fun _ _ => Nat.zero_le _)
        (Finset.mem_univ (⟨l, hl⟩ : Fin (M + 1)))
      rw [Int.abs_eq_natAbs, Int.natAbs_mul]
      exact_mod_cast this
    · rw [e1]
      push_cast
      refine le_of_eq (Finset.sum_congr rfl fun l _ => ?_)
      split <;> simp [abs_mul]
  choose y hy he using key
  exact ⟨y, (mul_eval_iff hf hg f g _).2 ⟨y, hy, rfl⟩, he⟩

/-- C85: `eval` at `x = n · 2 ^ b` of a polynomial with coefficients `m i · 2 ^ (k - i b)` is exact, if the format can hold, for every
`i`, the sum of the magnitudes of the terms of `a_i + a_(i+1) x + a_(i+2) x² + …`. -/
theorem C85_eval (p : List (Ieee F)) (x : Ieee F) (m : ℕ → ℤ) (n : ℤ) (hx : x.IsFixed b n)
    (hp : ∀ (i : ℕ) (y : Ieee F), p[i]? = some y → y.IsFixed (k - i * b) (m i))
    (h : ∀ i < p.length, F.Fixed (k - i * b) (∑ j ∈ Finset.range (p.length - i), (m (i + j)).natAbs * n.natAbs ^ j)) :
    ∃ y, (Poly.fromCoefficients p).eval x = .ok y ∧ y.IsFixed k (∑ j ∈ Finset.range p.length, m j * n ^ j) :=
  fixed_horner hx p k m hp h

/-- C85: `eval` at an integer `x` of a polynomial with coefficients `m i · 2 ^ k` is exact, if the format can hold
`(Σ |m i| |x| ^ i) · 2 ^ k`. -/
theorem C85_eval_integer (p : List (Ieee F)) (x : Ieee F) (m : ℕ → ℤ) (n : ℤ) (hx : x.IsFixed 0 n)
    (hp : ∀ (i : ℕ) (y : Ieee F), p[i]? = some y → y.IsFixed k (m i))
    (h : F.Fixed k (∑ j ∈ Finset.range p.length, (m j).natAbs * n.natAbs ^ j)) :
    ∃ y, (Poly.fromCoefficients p).eval x = .ok y ∧ y.IsFixed k (∑ j ∈ Finset.range p.length, m j * n ^ j) := by
  by_cases hn : n = 0
  · subst hn
    obtain ⟨y, e, h1, h2⟩ := fixed_horner_zero hx p fun y hy => by
      obtain ⟨i, hi⟩ := List.mem_iff_getElem?.1 hy
      exact (hp i y hi).1
    refine ⟨y, e, h1, ?_⟩
    rw [h2]
    cases p with
    | nil => simp
    | cons c l =>
      rw [List.length_cons, Finset.sum_range_succ']
      have := (hp 0 c rfl).2
      simp [this]
  · refine C85_eval p x m n hx (by simpa using hp) fun i hi => ?_
    rw [mul_zero, sub_zero]
    refine h.mono ?_
    have hn : 1 ≤ n.natAbs := by omega
    have e : p.length = i + (p.length - i) := by omega
    conv_rhs => rw [e, Finset.sum_range_add]
    refine le_trans (Finset.sum_le_sum fun j _ => ?_) (Nat.le_add_left _ _)
    exact Nat.mul_le_mul_left _ (Nat.pow_le_pow_right hn (by omega))

/-- C85: a product of polynomials with coefficients `m i · 2 ^ a` and `n i · 2 ^ b` is exact, if the format can hold for every
coefficient the sum of the magnitudes of its terms. -/
theorem C85_poly_mul (p q : Poly (Ieee F)) (m n : ℕ → ℤ) (hp : ∀ i (x : Ieee F), p.a[i]? = some x → x.IsFixed a (m i))
    (hq : ∀ i (x : Ieee F), q.a[i]? = some x → x.IsFixed b (n i)) (hm : ∀ i, p.a.length ≤ i → m i = 0)
    (hn : ∀ i, q.a.length ≤ i → n i = 0)
    (h : ∀ k, F.Fixed (a + b) (∑ ij ∈ Finset.antidiagonal k, (m ij.1).natAbs * (n ij.2).natAbs)) :
    ∃ r, p.mulRef q = .ok r ∧ (r.a.length = if p.a = [] ∨ q.a = [] then 0 else p.a.length + q.a.length - 1) ∧
      ∀ k (x : Ieee F), r.a[k]? = some x → x.IsFixed (a + b) (∑ ij ∈ Finset.antidiagonal k, m ij.1 * n ij.2) :=
  fixed_mulRef hp hq hm hn h

/-- C85: a complex product of numbers with parts `m · 2 ^ a` and `n · 2 ^ b` is exact, if the format can hold the sums of the
magnitudes of the terms. -/
theorem C85_complex_mul (y z : Complex (Ieee F)) (m n m' n' : ℤ) (h1 : y.re.IsFixed a m) (h2 : y.im.IsFixed a n)
    (h3 : z.re.IsFixed b m') (h4 : z.im.IsFixed b n') (hr : F.Fixed (a + b) (m.natAbs * m'.natAbs + n.natAbs * n'.natAbs))
    (hi : F.Fixed (a + b) (m.natAbs * n'.natAbs + n.natAbs * m'.natAbs)) :
    ∃ c, y.mul z = .ok c ∧ c.re.IsFixed (a + b) (m * m' - n * n') ∧ c.im.IsFixed (a + b) (m * n' + n * m') := by
  have e : ∀ s t : ℤ, |s * t| = ((s.natAbs * t.natAbs : ℕ) : ℤ) := fun s t => by push_cast; rw [abs_mul]
  have c : ∀ s t s' t' : ℤ, |s * t| ≤ ((s.natAbs * t.natAbs + s'.natAbs * t'.natAbs : ℕ) : ℤ) ∧
      |s' * t'| ≤ ((s.natAbs * t.natAbs + s'.natAbs * t'.natAbs : ℕ) : ℤ) ∧
      |s * t + s' * t'| ≤ ((s.natAbs * t.natAbs + s'.natAbs * t'.natAbs : ℕ) : ℤ) ∧
      |s * t + -(s' * t')| ≤ ((s.natAbs * t.natAbs + s'.natAbs * t'.natAbs : ℕ) : ℤ) := by
    intro s t s' t'
    have e1 := e s t
    have e2 := e s' t'
    have e3 := abs_add_le (s * t) (s' * t')
    have e4 := abs_add_le (s * t) (-(s' * t'))
    rw [abs_neg] at e4
    have e5 := abs_nonneg (s * t)
    have e6 := abs_nonneg (s' * t')
    push_cast at *
    refine ⟨?_, ?_, ?_, ?_⟩ <;> linarith
  have p1 := h1.mul h3 hr (c m m' n n').1
  have p2 := h1.mul h4 hi (c m n' n m').1
  have p3 := h2.mul h3 hi (c m n' n m').2.1
  have p4 := h2.mul h4 hr (c m m' n n').2.1
  have p4' : ((y.im.mul z.im).neg).IsFixed (a + b) (-(n * n')) :=
    ⟨IntFloat.neg_finite.2 p4.1, by rw [Ieee.neg_value, p4.2]; push_cast; ring⟩
  have q1 := p1.add p4' hr (c m m' n n').2.2.2
  rw [← sub_eq_add_neg] at q1
  exact ⟨⟨(y.re.mul z.re).sub (y.im.mul z.im), (y.re.mul z.im).add (y.im.mul z.re)⟩, rfl, q1, p2.add p3 hi (c m n' n m').2.2.1⟩

/-- C85: `f64` holds up to `2 ^ 53` units of any weight from `2 ^ -1074` to `2 ^ 970`, `f32` up to `2 ^ 24` units of any weight from
`2 ^ -149` to `2 ^ 103`; and every format holds its own numbers. -/
theorem C85_sizes : (∀ k m, -1074 ≤ k → k ≤ 970 → m ≤ 2 ^ 53 → Fmt.f64.Fixed k m) ∧
    (∀ k m, -149 ≤ k → k ≤ 103 → m ≤ 2 ^ 24 → Fmt.f32.Fixed k m) ∧
    ∀ (F : Fmt) (x : Ieee F), x.Finite → ∃ k z, x.IsFixed k z ∧ F.Fixed k z.natAbs := by
  have key : ∀ (F : Fmt) (k : ℤ) (m : ℕ), F.emin - (F.p - 1) ≤ k → k + F.p ≤ F.emax → m ≤ 2 ^ F.p → F.Fixed k m := by
    intro F k m h1 h2 h3
    refine .inr ⟨h1, h3, ?_⟩
    have h4 : (m : ℚ) ≤ 2 ^ (F.p : ℤ) := by rw [zpow_natCast]; exact_mod_cast h3
    calc (m : ℚ) * 2 ^ k ≤ 2 ^ (F.p : ℤ) * 2 ^ k := by gcongr
      _ = 2 ^ (F.p + k) := by rw [zpow_add₀ (by norm_num)]
      _ < 2 ^ (F.emax + 1) := zpow_lt_zpow_right₀ (by norm_num) (by omega)
  refine ⟨fun k m h1 h2 h3 => key _ k m ?_ ?_ h3, fun k m h1 h2 h3 => key _ k m ?_ ?_ h3, fun F x hx => ?_⟩
  any_goals (simp only [Fmt.f64, Fmt.f32, Fmt.emin]; push_cast; omega)
  obtain ⟨⟨m, e, h1, h2, h3⟩, h4⟩ := Ieee.value_representable x
  refine ⟨e, m, ⟨hx, h1⟩, .inr ⟨h3, ?_, ?_⟩⟩
  · have : ((m.natAbs : ℕ) : ℤ) ≤ 2 ^ F.p := by push_cast; exact h2.le
    exact_mod_cast this
  · rw [h1, abs_mul, abs_of_pos (by positivity : (0 : ℚ) < 2 ^ e)] at h4
    rw [Nat.cast_natAbs]
    push_cast
    exact h4

theorem roundQ_two_pow_succ (F : Fmt) : F.roundQ (2 ^ F.p + 1) = 2 ^ F.p := by
  have hp := F.two_le_p
  have he := F.p_le_emax
  obtain ⟨q, hq⟩ : ∃ q, F.p = q + 2 := ⟨F.p - 2, by omega⟩
  have hl : Int.log 2 |(2 ^ F.p + 1 : ℚ)| = F.p := by
    have h0 : (0 : ℚ) < 2 ^ F.p + 1 := by positivity
    have h1 : (1 : ℚ) < 2 ^ F.p := one_lt_pow₀ (by norm_num) (by omega)
    rw [abs_of_pos h0]
    apply le_antisymm
    · rw [← Int.lt_add_one_iff, ← Int.lt_zpow_iff_log_lt (b := 2) (by norm_num) h0, zpow_add₀ (by norm_num), zpow_natCast]
      push_cast
      linarith
    · rw [← Int.zpow_le_iff_le_log (b := 2) (by norm_num) h0, zpow_natCast]
      push_cast
      linarith
  have hu : F.ulpExp (2 ^ F.p + 1) = 1 := by
    unfold Fmt.ulpExp
    rw [hl, max_eq_left (by unfold Fmt.emin; omega)]
    omega
  have hd : ((2 : ℚ) ^ F.p + 1) / 2 = ((2 ^ (q + 1) : ℤ) : ℚ) + 1 / 2 := by
    rw [hq]; push_cast; ring
  have hf : ⌊((2 : ℚ) ^ F.p + 1) / 2⌋ = 2 ^ (q + 1) := by
    rw [hd, Int.floor_intCast_add]
    norm_num
  have hr : rne (((2 : ℚ) ^ F.p + 1) / 2) = 2 ^ (q + 1) := by
    unfold rne
    rw [hf, hd]
    have : ((2 ^ (q + 1) : ℤ) : ℚ) + 1 / 2 - ((2 ^ (q + 1) : ℤ) : ℚ) = 1 / 2 := by ring
    rw [this]
    simp [pow_succ]
  unfold Fmt.roundQ Fmt.ulp
  rw [hu, zpow_one, hr, hq]
  push_cast
  ring

/-- C85: the bound is sharp in every format: the integers `2 ^ p` and 1 are floating point numbers, their sum is `2 ^ p + 1`, and
`u * v` gives `2 ^ p`. -/
theorem C85_sharp (F : Fmt) : ∃ u v : SVector (Ieee F) 2, ∃ m n : Fin 2 → ℤ, (∀ i, (u.val i).IsFixed 0 (m i)) ∧
    (∀ i, (v.val i).IsFixed 0 (n i)) ∧ ∑ i, (m i).natAbs * (n i).natAbs = 2 ^ F.p + 1 ∧ ∑ i, m i * n i = 2 ^ F.p + 1 ∧
    ∃ x, u.dot v = .ok x ∧ x.IsFixed 0 (2 ^ F.p) := by
  have hp := F.two_le_p
  have he := F.p_le_emax
  have hlt : (2 : ℚ) ^ F.p < 2 ^ (F.emax + 1) := by
    rw [← zpow_natCast]
    exact zpow_lt_zpow_right₀ (by norm_num) (by omega)
  have hF : F.Fixed 0 (2 ^ F.p) := .inr ⟨by unfold Fmt.emin; omega, le_rfl, by push_cast; simpa using hlt⟩
  have hr : F.Representable (2 ^ F.p) := by
    simpa using hF.representable (z := 2 ^ F.p) (by rw [abs_of_pos (by positivity)]; push_cast; exact le_rfl)
  let P : Ieee F := .fin (2 ^ F.p) (by positivity) hr
  have h1 : (one : Ieee F).IsFixed 0 1 := ⟨trivial, by simp [one, Ieee.value]⟩
  have hP : P.IsFixed 0 (2 ^ F.p) := ⟨trivial, by simp [P, Ieee.value]⟩
  have s1 : ((zero : Ieee F).add (P.mul one)).IsFixed 0 (2 ^ F.p) := by
    have := Ieee.IsFixed.add (k := 0) (Ieee.IsFixed.zero (F := F)) (hP.mul h1 hF (by simp)) hF (by simp)
    simpa using this
  have s2 : ((one : Ieee F).mul one).IsFixed 0 1 := by
    have := h1.mul h1 hF (by push_cast; simpa using (one_le_pow₀ (by norm_num) : (1 : ℤ) ≤ 2 ^ F.p))
    simpa using this
  have e : ((zero : Ieee F).add (P.mul one)).value + ((one : Ieee F).mul one).value = 2 ^ F.p + 1 := by
    rw [s1.2, s2.2]; push_cast; ring
  have hf := (Ieee.add_finite_iff s1.1 s2.1).2 (by
    rw [e, roundQ_two_pow_succ, abs_of_pos (by positivity)]; exact hlt)
  refine ⟨⟨![P, one]⟩, ⟨![one, one]⟩, ![2 ^ F.p, 1], ![1, 1], ?_, ?_, ?_, ?_, ((zero : Ieee F).add (P.mul one)).add ((one : Ieee F).mul one), rfl, hf, ?_⟩
  · intro i; fin_cases i; exacts [hP, h1]
  · intro i; fin_cases i; exacts [h1, h1]
  · simp [Int.natAbs_pow]
  · simp
  · rw [(Ieee.add_finite hf).2.2, e, roundQ_two_pow_succ]
    push_cast
    ring

end Magnesia
