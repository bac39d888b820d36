import Verif.Spec.DESpread
import Verif.Proof.DELaw
import Verif.Proof.DESym

/-!
# Expected values (helper lemmas)
-/

namespace Magnesia

open MeasureTheory ENNReal

variable {T P G S α β γ : Type} {N n : ℕ}

theorem pmf_summable (p : PMF α) : Summable fun x => (p x).toReal := ENNReal.summable_toReal p.tsum_coe_ne_top

theorem pmf_sum (p : PMF α) : ∑' x, (p x).toReal = 1 := by
  rw [← ENNReal.tsum_toReal_eq fun a => p.apply_ne_top a, p.tsum_coe, ENNReal.toReal_one]

theorem expected_summable {p : PMF α} {f : α → ℝ} {B : ℝ} (hB : ∀ x ∈ p.support, |f x| ≤ B) :
    Summable fun x => (p x).toReal * f x := by
  refine Summable.of_norm_bounded ((pmf_summable p).mul_right B) fun x => ?_
  rw [Real.norm_eq_abs, abs_mul, abs_of_nonneg ENNReal.toReal_nonneg]
  by_cases hx : x ∈ p.support
  · exact mul_le_mul_of_nonneg_left (hB x hx) ENNReal.toReal_nonneg
  · rw [PMF.mem_support_iff, not_not] at hx
    simp [hx]

theorem expected_congr {p : PMF α} {f g : α → ℝ} (h : ∀ x ∈ p.support, f x = g x) : expected p f = expected p g := by
  unfold expected
  refine tsum_congr fun x => ?_
  by_cases hx : x ∈ p.support
  · rw [h x hx]
  · rw [PMF.mem_support_iff, not_not] at hx
    simp [hx]

theorem expected_const (p : PMF α) (a : ℝ) : expected p (fun _ => a) = a := by
  unfold expected
  rw [tsum_mul_right, pmf_sum, one_mul]

theorem expected_pure (a : α) (f : α → ℝ) : expected (PMF.pure a) f = f a := by
  classical
  unfold expected
  rw [tsum_eq_single a]
  · simp
  · intro b hb
    simp [PMF.pure_apply, hb]

theorem expected_add {p : PMF α} {f g : α → ℝ} {B C : ℝ} (hf : ∀ x ∈ p.support, |f x| ≤ B) (hg : ∀ x ∈ p.support, |g x| ≤ C) :
    expected p (fun x => f x + g x) = expected p f + expected p g := by
  unfold expected
  rw [← (expected_summable hf).tsum_add (expected_summable hg)]
  simp only [mul_add]

theorem expected_mul (p : PMF α) (a : ℝ) (f : α → ℝ) : expected p (fun x => a * f x) = a * expected p f := by
  unfold expected
  rw [← tsum_mul_left]
  exact tsum_congr fun x => by ring

theorem expected_bind {p : PMF α} {k : α → PMF β} {f : β → ℝ} {B : ℝ} (hB : ∀ y ∈ (p.bind k).support, |f y| ≤ B) :
    expected (p.bind k) f = expected p fun x => expected (k x) f := by
  have hfin : ∑' z : α × β, p z.1 * k z.1 z.2 ≠ ⊤ := by
    rw [ENNReal.tsum_prod']
    simp only [ENNReal.tsum_mul_left, PMF.tsum_coe, mul_one]
    simp
  have hs : Summable fun z : α × β => (p z.1).toReal * (k z.1 z.2).toReal := by
    have := ENNReal.summable_toReal hfin
    simpa only [ENNReal.toReal_mul] using this
  have hs' : Summable fun z : α × β => (p z.1).toReal * (k z.1 z.2).toReal * f z.2 := by
    refine Summable.of_norm_bounded (hs.mul_right B) fun z => ?_
    rw [Real.norm_eq_abs, abs_mul, abs_of_nonneg (mul_nonneg ENNReal.toReal_nonneg ENNReal.toReal_nonneg)]
    by_cases hz : z.2 ∈ (p.bind k).support
    · exact mul_le_mul_of_nonneg_left (hB _ hz) (mul_nonneg ENNReal.toReal_nonneg ENNReal.toReal_nonneg)
    · have : (p z.1).toReal * (k z.1 z.2).toReal = 0 := by
        rw [PMF.mem_support_iff, not_not, PMF.bind_apply, ENNReal.tsum_eq_zero] at hz
        rw [← ENNReal.toReal_mul, hz z.1, ENNReal.toReal_zero]
      rw [this]; simp
  unfold expected
  have h1 : ∀ y, ((p.bind k) y).toReal * f y = ∑' x, (p x).toReal * (k x y).toReal * f y := by
    intro y
    rw [tsum_mul_right, PMF.bind_apply, ENNReal.tsum_toReal_eq fun x => ENNReal.mul_ne_top (p.apply_ne_top x) ((k x).apply_ne_top y)]
    simp only [ENNReal.toReal_mul]
  simp only [h1]
  rw [Summable.tsum_comm hs']
  refine tsum_congr fun x => ?_
  rw [← tsum_mul_left]
  exact tsum_congr fun y => by ring

theorem expected_map {p : PMF α} (g : α → β) {f : β → ℝ} {B : ℝ} (hB : ∀ x ∈ p.support, |f (g x)| ≤ B) :
    expected (p.map g) f = expected p fun x => f (g x) := by
  unfold PMF.map
  rw [expected_bind (B := B)]
  · simp only [Function.comp_apply, expected_pure]
  · intro y hy
    rw [PMF.mem_support_bind_iff] at hy
    obtain ⟨x, hx, h⟩ := hy
    simp only [Function.comp_apply, PMF.mem_support_pure_iff] at h
    rw [h]
    exact hB x hx

theorem expected_uniform {s : Finset α} (hs : s.Nonempty) (f : α → ℝ) :
    expected (PMF.uniformOfFinset s hs) f = (∑ x ∈ s, f x) / s.card := by
  classical
  unfold expected
  rw [tsum_eq_sum (s := s), Finset.sum_div]
  · refine Finset.sum_congr rfl fun x hx => ?_
    rw [PMF.uniformOfFinset_apply_of_mem hs hx, ENNReal.toReal_inv, ENNReal.toReal_natCast]
    ring
  · intro x hx
    rw [PMF.uniformOfFinset_apply_of_notMem hs hx]
    simp

/-- The distribution of one of several independent values. -/
theorem indep_marginal {k : ℕ} (p : Fin k → PMF α) (c : Fin k) : (indep p).map (fun f => f c) = p c := by
  classical
  ext a
  have h := indep_event p fun i => if i = c then {a} else Set.univ
  have e : {f : Fin k → α | ∀ i, f i ∈ if i = c then ({a} : Set α) else Set.univ} = {f | f c = a} := by
    ext f
    simp only [Set.mem_ofPred_eq]
    constructor
    · intro h; simpa using h c
    · intro h i
      by_cases hi : i = c
      · subst hi; simpa using h
      · simp [hi]
  rw [e, Finset.prod_eq_single c] at h
  · simp only [if_true] at h
    rw [← PMF.toOuterMeasure_apply_singleton, PMF.toOuterMeasure_map_apply]
    rw [PMF.toOuterMeasure_apply_singleton] at h
    rw [← h]
    rfl
  · intro b _ hb
    simp only [hb, if_false]
    rw [PMF.toOuterMeasure_apply]
    simp
  · simp

theorem indep_support {k : ℕ} {p : Fin k → PMF α} {f : Fin k → α} (h : f ∈ (indep p).support) (c : Fin k) :
    f c ∈ (p c).support := by
  rw [PMF.mem_support_iff, indep_apply, Finset.prod_ne_zero_iff] at h
  exact h c (Finset.mem_univ c)

end Magnesia
