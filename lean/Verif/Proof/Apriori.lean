import Verif.Spec.Apriori
import Verif.Proof.AprioriDiv
import Verif.Proof.AprioriSqrt
import Verif.Props.CForm

/-!
# One step of a formula: from errors of the operands to the error of the result
-/

namespace Magnesia

open RZero ROne

variable {F : Fmt}

theorem norm_le_near {p A : ℂ} {α : ℝ} (h : ‖p - A‖ ≤ α) : ‖p‖ ≤ ‖A‖ + α := by
  have := norm_sub_norm_le p A; linarith

theorem norm_ge_near {p A : ℂ} {α : ℝ} (h : ‖p - A‖ ≤ α) : ‖A‖ - α ≤ ‖p‖ := by
  have := norm_sub_norm_le A p
  rw [norm_sub_rev] at this
  linarith

theorem re_near {p A : ℂ} {α : ℝ} (h : ‖p - A‖ ≤ α) : |p.re - A.re| ≤ α := by
  rw [← _root_.Complex.sub_re]; exact (_root_.Complex.abs_re_le_norm _).trans h

theorem im_near {p A : ℂ} {α : ℝ} (h : ‖p - A‖ ≤ α) : |p.im - A.im| ≤ α := by
  rw [← _root_.Complex.sub_im]; exact (_root_.Complex.abs_im_le_norm _).trans h

theorem abs_near {p A α : ℝ} (h : |p - A| ≤ α) : |p| ≤ |A| + α := by
  have := abs_sub_abs_le_abs_sub p A; linarith

theorem rev_near {p A : ℂ} {α : ℝ} (h : ‖p - A‖ ≤ α) : ‖A - p‖ ≤ α := by rwa [norm_sub_rev]

section arithmetic

variable {p q : Complex (Ieee F)} {A B : ℂ} {α β : ℝ}

theorem add_step (fp : CFinite p) (fq : CFinite q) (hA : ‖cval p - A‖ ≤ α) (hB : ‖cval q - B‖ ≤ β)
    (h : ‖A + B‖ + (α + β) ≤ 2 ^ F.emax) :
    ∃ s, p.add q = .ok s ∧ CFinite s ∧ ‖cval s - (A + B)‖ ≤ F.u * (‖A + B‖ + (α + β)) + (α + β) := by
  have hs := sum_perturb hA hB
  have hn := norm_le_near hs
  have hu : (0 : ℝ) ≤ F.u := by exact_mod_cast F.u_pos.le
  obtain ⟨s, es, hs'⟩ := C57_add_error p q
  have f : CFinite s := by
    rw [show s = ⟨p.re.add q.re, p.im.add q.im⟩ from (Except.ok.inj es).symm]
    exact ⟨(Ieee.add_near fp.1 fq.1 ((_root_.Complex.abs_re_le_norm (cval p + cval q)).trans hn) h).1,
      (Ieee.add_near fp.2 fq.2 ((_root_.Complex.abs_im_le_norm (cval p + cval q)).trans hn) h).1⟩
  obtain ⟨-, -, l⟩ := hs' f
  exact ⟨s, es, f, step_err (l.trans (mul_le_mul_of_nonneg_left hn hu)) hs⟩

theorem sub_step (fp : CFinite p) (fq : CFinite q) (hA : ‖cval p - A‖ ≤ α) (hB : ‖cval q - B‖ ≤ β)
    (h : ‖A - B‖ + (α + β) ≤ 2 ^ F.emax) :
    ∃ s, p.sub q = .ok s ∧ CFinite s ∧ ‖cval s - (A - B)‖ ≤ F.u * (‖A - B‖ + (α + β)) + (α + β) := by
  have hs := diff_perturb hA hB
  have hn := norm_le_near hs
  have hu : (0 : ℝ) ≤ F.u := by exact_mod_cast F.u_pos.le
  obtain ⟨s, es, hs'⟩ := C57_sub_error p q
  have f : CFinite s := by
    rw [show s = ⟨p.re.sub q.re, p.im.sub q.im⟩ from (Except.ok.inj es).symm]
    exact ⟨(Ieee.sub_near fp.1 fq.1 ((_root_.Complex.abs_re_le_norm (cval p - cval q)).trans hn) h).1,
      (Ieee.sub_near fp.2 fq.2 ((_root_.Complex.abs_im_le_norm (cval p - cval q)).trans hn) h).1⟩
  obtain ⟨-, -, l⟩ := hs' f
  exact ⟨s, es, f, step_err (l.trans (mul_le_mul_of_nonneg_left hn hu)) hs⟩

theorem cu_nonneg : (0 : ℝ) ≤ F.cu := by
  have hu : (0 : ℝ) ≤ F.u := by exact_mod_cast F.u_pos.le
  unfold Fmt.cu
  have h2 : 0 ≤ Real.sqrt 2 * F.u := mul_nonneg (Real.sqrt_nonneg _) hu
  nlinarith

theorem mul_step (fp : CFinite p) (fq : CFinite q) (hA : ‖cval p - A‖ ≤ α) (hB : ‖cval q - B‖ ≤ β)
    (h : 4 * ((‖A‖ + α) * (‖B‖ + β)) + 4 ≤ 2 ^ F.emax) :
    ∃ s, p.mul q = .ok s ∧ CFinite s ∧
      ‖cval s - A * B‖ ≤ (F.cu * ((‖A‖ + α) * (‖B‖ + β)) + F.cη) + (α * ‖B‖ + ‖A‖ * β + α * β) := by
  have n1 := norm_le_near hA
  have n2 := norm_le_near hB
  have n3 : ‖cval p‖ * ‖cval q‖ ≤ (‖A‖ + α) * (‖B‖ + β) := mul_le_mul n1 n2 (norm_nonneg _) ((norm_nonneg _).trans n1)
  obtain ⟨s, es, f, l⟩ := cmul_near fp fq (by linarith)
  refine ⟨s, es, f, step_err (l.trans ?_) (rev_near (prod_perturb (rev_near hA) (rev_near hB)))⟩
  rw [norm_mul]
  have := mul_le_mul_of_nonneg_left n3 (cu_nonneg (F := F))
  linarith

theorem div_step (hp : 20 ≤ F.p) {k : ℕ} (hk : 4 * k + 10 ≤ F.emax) (fp : CFinite p) (fq : CFinite q) (hA : ‖cval p - A‖ ≤ α)
    (hB : ‖cval q - B‖ ≤ β) (h1 : ‖A‖ + α ≤ 2 ^ (k : ℤ)) (h2 : (2 : ℝ) ^ (-(k : ℤ)) ≤ ‖B‖ - β) (h3 : ‖B‖ + β ≤ 2 ^ (k : ℤ)) :
    ∃ s, p.div q = .ok s ∧ CFinite s ∧
      ‖cval s - A / B‖ ≤ (6.5 * F.u * ((‖A‖ + α) / (‖B‖ - β)) + 8 * F.η * 4 ^ k) + (α * ‖B‖ + ‖A‖ * β) / (‖B‖ * (‖B‖ - β)) := by
  have n1 := norm_le_near hA
  have n2 := norm_le_near hB
  have n3 := norm_ge_near hB
  have L0 : (0 : ℝ) < 2 ^ (-(k : ℤ)) := by positivity
  have hu : (0 : ℝ) ≤ F.u := by exact_mod_cast F.u_pos.le
  obtain ⟨s, es, f, l⟩ := cdiv_sized hp hk fp fq (h2.trans n3) (n2.trans h3) (n1.trans h1)
  refine ⟨s, es, f, step_err (l.trans ?_) (rev_near (quot_perturb (rev_near hA) (rev_near hB) (by linarith)))⟩
  rw [norm_div]
  have d : ‖cval p‖ / ‖cval q‖ ≤ (‖A‖ + α) / (‖B‖ - β) :=
    div_le_div₀ ((norm_nonneg _).trans n1) n1 (by linarith) n3
  have := mul_le_mul_of_nonneg_left d (show (0 : ℝ) ≤ 6.5 * F.u by positivity)
  linarith

theorem scale_step {c : Ieee F} {C γ : ℝ} (fp : CFinite p) (fc : c.Finite) (hA : ‖cval p - A‖ ≤ α) (hC : |(c.value : ℝ) - C| ≤ γ)
    (h : (‖A‖ + α) * (|C| + γ) ≤ 2 ^ F.emax) :
    ∃ s, p.mulScalar c = .ok s ∧ CFinite s ∧
      ‖cval s - A * (C : ℝ)‖ ≤ (F.u * ((‖A‖ + α) * (|C| + γ)) + Real.sqrt 2 * F.η) + (α * |C| + ‖A‖ * γ + α * γ) := by
  have n1 := norm_le_near hA
  have n2 := abs_near hC
  have hu : (0 : ℝ) ≤ F.u := by exact_mod_cast F.u_pos.le
  have n3 : ‖cval p‖ * |(c.value : ℝ)| ≤ (‖A‖ + α) * (|C| + γ) := mul_le_mul n1 n2 (abs_nonneg _) ((norm_nonneg _).trans n1)
  obtain ⟨s, es, hs⟩ := scale_error p c
  have f : CFinite s := by
    rw [show s = ⟨p.re.mul c, p.im.mul c⟩ from (Except.ok.inj es).symm]
    constructor
    · refine (Ieee.mul_near fp.1 fc (M := (‖A‖ + α) * (|C| + γ)) ?_ h).1
      rw [abs_mul]
      exact (mul_le_mul_of_nonneg_right (_root_.Complex.abs_re_le_norm (cval p)) (abs_nonneg _)).trans n3
    · refine (Ieee.mul_near fp.2 fc (M := (‖A‖ + α) * (|C| + γ)) ?_ h).1
      rw [abs_mul]
      exact (mul_le_mul_of_nonneg_right (_root_.Complex.abs_im_le_norm (cval p)) (abs_nonneg _)).trans n3
  have hC' : ‖((C : ℝ) : ℂ) - ((c.value : ℝ) : ℂ)‖ ≤ γ := by
    rw [← _root_.Complex.ofReal_sub, _root_.Complex.norm_real, Real.norm_eq_abs, abs_sub_comm]; exact hC
  have pp := prod_perturb (rev_near hA) hC'
  rw [_root_.Complex.norm_real, Real.norm_eq_abs] at pp
  refine ⟨s, es, f, step_err ((hs f).trans ?_) (rev_near pp)⟩
  rw [norm_mul, _root_.Complex.norm_real, Real.norm_eq_abs]
  have := mul_le_mul_of_nonneg_left n3 hu
  linarith

end arithmetic

section functions

variable {R ε θ : ℝ}

theorem fn_step {c w E : ℂ} {M M' P : ℝ} (hε : 0 ≤ ε) (hθ : 0 ≤ θ) (h1 : ‖c - w‖ ≤ fnErr F ε θ M' w) (h2 : ‖w - E‖ ≤ P)
    (hM : M' ≤ M) : ‖c - E‖ ≤ fnStep F ε θ M ‖E‖ P := by
  refine step_err (h1.trans ?_) h2
  have hu : (0 : ℝ) ≤ F.u := by exact_mod_cast F.u_pos.le
  have G : 1 ≤ (1 + ε) ^ 2 * (1 + F.u) := by
    have : 1 ≤ (1 + ε) ^ 2 := one_le_pow₀ (by linarith)
    nlinarith
  unfold fnErr
  refine add_le_add (mul_le_mul_of_nonneg_left (norm_le_near h2) (by linarith)) ?_
  refine mul_le_mul_of_nonneg_left (mul_le_mul_of_nonneg_left ?_ (by linarith)) (Real.sqrt_nonneg _)
  have := mul_le_mul_of_nonneg_right hM hθ
  linarith

variable [RExp (Ieee F)] [RSin (Ieee F)] [RCos (Ieee F)] [RSinh (Ieee F)] [RCosh (Ieee F)]
  {p : Complex (Ieee F)} {A : ℂ} {α : ℝ}

theorem exp_step (h : FnLib F R ε θ) (hε : ε ≤ 1 / 4) (hθ : θ ≤ 1 / 4) (hR : 8 * Real.exp R ≤ 2 ^ F.emax) (fp : CFinite p)
    (hA : ‖cval p - A‖ ≤ α) (h1 : |A.re| + α ≤ R) (h2 : |A.im| + α ≤ R) :
    ∃ s, p.exp = .ok s ∧ CFinite s ∧ ‖cval s - _root_.Complex.exp A‖ ≤ fnStep F ε θ (Real.exp (A.re + α) + 1)
      ‖_root_.Complex.exp A‖ (‖_root_.Complex.exp A‖ * (Real.exp α - 1)) := by
  have r1 := re_near hA
  obtain ⟨s, es, f, l⟩ := exp_near h hε hθ hR fp ((abs_near r1).trans h1) ((abs_near (im_near hA)).trans h2)
  refine ⟨s, es, f, fn_step h.ε_nonneg h.θ_nonneg l (rev_near (exp_perturb (rev_near hA))) ?_⟩
  have : (cval p).re ≤ A.re + α := by linarith [(abs_le.1 r1).2]
  have := Real.exp_le_exp.2 this
  show Real.exp (cval p).re + 1 ≤ _
  linarith

theorem cosh_mono_near {t C : ℝ} (h : |t - C| ≤ α) : 1 + Real.cosh t ≤ 1 + Real.cosh (|C| + α) := by
  have h1 := abs_near h
  have : Real.cosh t ≤ Real.cosh (|C| + α) := Real.cosh_le_cosh.2 (h1.trans (le_abs_self _))
  linarith

theorem sin_step (h : FnLib F R ε θ) (hε : ε ≤ 1 / 4) (hθ : θ ≤ 1 / 4) (hR : 8 * Real.exp R ≤ 2 ^ F.emax) (fp : CFinite p)
    (hA : ‖cval p - A‖ ≤ α) (h1 : |A.re| + α ≤ R) (h2 : |A.im| + α ≤ R) :
    ∃ s, p.sin = .ok s ∧ CFinite s ∧ ‖cval s - _root_.Complex.sin A‖ ≤ fnStep F ε θ (1 + Real.cosh (|A.im| + α))
      ‖_root_.Complex.sin A‖ (2 * Real.cosh (|A.im| + α / 2) * Real.sinh (α / 2)) := by
  obtain ⟨s, es, f, l⟩ := sin_near h hε hθ hR fp ((abs_near (re_near hA)).trans h1) ((abs_near (im_near hA)).trans h2)
  exact ⟨s, es, f, fn_step h.ε_nonneg h.θ_nonneg l (rev_near (sin_perturb (rev_near hA))) (cosh_mono_near (im_near hA))⟩

theorem cos_step (h : FnLib F R ε θ) (hε : ε ≤ 1 / 4) (hθ : θ ≤ 1 / 4) (hR : 8 * Real.exp R ≤ 2 ^ F.emax) (fp : CFinite p)
    (hA : ‖cval p - A‖ ≤ α) (h1 : |A.re| + α ≤ R) (h2 : |A.im| + α ≤ R) :
    ∃ s, p.cos = .ok s ∧ CFinite s ∧ ‖cval s - _root_.Complex.cos A‖ ≤ fnStep F ε θ (1 + Real.cosh (|A.im| + α))
      ‖_root_.Complex.cos A‖ (2 * Real.cosh (|A.im| + α / 2) * Real.sinh (α / 2)) := by
  obtain ⟨s, es, f, l⟩ := cos_near h hε hθ hR fp ((abs_near (re_near hA)).trans h1) ((abs_near (im_near hA)).trans h2)
  exact ⟨s, es, f, fn_step h.ε_nonneg h.θ_nonneg l (rev_near (cos_perturb (rev_near hA))) (cosh_mono_near (im_near hA))⟩

theorem sinh_step (h : FnLib F R ε θ) (hε : ε ≤ 1 / 4) (hθ : θ ≤ 1 / 4) (hR : 8 * Real.exp R ≤ 2 ^ F.emax) (fp : CFinite p)
    (hA : ‖cval p - A‖ ≤ α) (h1 : |A.re| + α ≤ R) (h2 : |A.im| + α ≤ R) :
    ∃ s, p.sinh = .ok s ∧ CFinite s ∧ ‖cval s - _root_.Complex.sinh A‖ ≤ fnStep F ε θ (1 + Real.cosh (|A.re| + α))
      ‖_root_.Complex.sinh A‖ (2 * Real.cosh (|A.re| + α / 2) * Real.sinh (α / 2)) := by
  obtain ⟨s, es, f, l⟩ := sinh_near h hε hθ hR fp ((abs_near (re_near hA)).trans h1) ((abs_near (im_near hA)).trans h2)
  exact ⟨s, es, f, fn_step h.ε_nonneg h.θ_nonneg l (rev_near (sinh_perturb (rev_near hA))) (cosh_mono_near (re_near hA))⟩

theorem cosh_step (h : FnLib F R ε θ) (hε : ε ≤ 1 / 4) (hθ : θ ≤ 1 / 4) (hR : 8 * Real.exp R ≤ 2 ^ F.emax) (fp : CFinite p)
    (hA : ‖cval p - A‖ ≤ α) (h1 : |A.re| + α ≤ R) (h2 : |A.im| + α ≤ R) :
    ∃ s, p.cosh = .ok s ∧ CFinite s ∧ ‖cval s - _root_.Complex.cosh A‖ ≤ fnStep F ε θ (1 + Real.cosh (|A.re| + α))
      ‖_root_.Complex.cosh A‖ (2 * Real.cosh (|A.re| + α / 2) * Real.sinh (α / 2)) := by
  obtain ⟨s, es, f, l⟩ := cosh_near h hε hθ hR fp ((abs_near (re_near hA)).trans h1) ((abs_near (im_near hA)).trans h2)
  exact ⟨s, es, f, fn_step h.ε_nonneg h.θ_nonneg l (rev_near (cosh_perturb (rev_near hA))) (cosh_mono_near (re_near hA))⟩

end functions

section roots

variable {p : Complex (Ieee F)} {A : ℂ} {α : ℝ}

theorem sqrt_step (hp : 20 ≤ F.p) {k : ℕ} (hk : 4 * k + 10 ≤ F.emax) (fp : CFinite p) (hA : ‖cval p - A‖ ≤ α)
    (h2 : (2 : ℝ) ^ (-(k : ℤ)) ≤ ‖A‖ - α) (h3 : ‖A‖ + α ≤ 2 ^ (k : ℤ)) (h4 : α < cutDist A) :
    ∃ s, p.sqrt = .ok s ∧ CFinite s ∧
      ‖cval s - A ^ (1 / 2 : ℂ)‖ ≤ (12.2 * F.u * Real.sqrt (‖A‖ + α) + 2 * F.η) + α / (2 * Real.sqrt (‖A‖ - α)) := by
  have n1 := norm_le_near hA
  have n3 := norm_ge_near hA
  have hu : (0 : ℝ) ≤ F.u := by exact_mod_cast F.u_pos.le
  obtain ⟨s, es, f, l⟩ := sqrt_sized hp hk fp (h2.trans n3) (n1.trans h3)
  refine ⟨s, es, f, step_err (l.trans ?_) (rev_near (sqrt_perturb (rev_near hA) (.inr h4)))⟩
  have := mul_le_mul_of_nonneg_left (Real.sqrt_le_sqrt n1) (show (0 : ℝ) ≤ 12.2 * F.u by positivity)
  linarith

/-- Off the branch cut there is one argument in `[-π, π]`. -/
theorem IsArg.eq_arg {t : ℝ} {z : ℂ} (h : IsArg t z) (hz : z ∈ _root_.Complex.slitPlane) : t = z.arg := by
  obtain ⟨h1, h2⟩ := h
  have hn : 0 < ‖z‖ := norm_pos_iff.2 (_root_.Complex.slitPlane_ne_zero hz)
  have hpi := Real.pi_pos
  have e : z = ‖z‖ * (_root_.Complex.cos t + _root_.Complex.sin t * _root_.Complex.I) := by
    rw [← _root_.Complex.exp_mul_I]; exact h2
  have h3 := abs_le.1 h1
  rcases h3.1.lt_or_eq with h4 | h4
  · rw [e, _root_.Complex.arg_mul_cos_add_sin_mul_I hn ⟨h4, h3.2⟩]
  · exfalso
    rw [← h4] at h2
    have : z = -(‖z‖ : ℝ) := by
      rw [h2]
      push_cast
      rw [neg_mul, _root_.Complex.exp_neg, _root_.Complex.exp_pi_mul_I]
      simp
    rw [this, _root_.Complex.mem_slitPlane_iff] at hz
    simp at hz
    linarith

theorem log_norm_near {p A : ℂ} {α : ℝ} (h : ‖p - A‖ ≤ α) (h4 : α < cutDist A) :
    |Real.log ‖p‖| ≤ |Real.log ‖A‖| + α / (‖A‖ - α) := by
  have := (_root_.Complex.abs_re_le_norm _).trans (log_perturb (rev_near h) h4)
  rw [_root_.Complex.sub_re, _root_.Complex.log_re, _root_.Complex.log_re, abs_sub_comm] at this
  exact abs_near this

theorem ln_step [RLn (Ieee F)] [RAtan2 (Ieee F)] {ε θ δ : ℝ} (hp : 20 ≤ F.p) {k : ℕ} (hk : 4 * k + 10 ≤ F.emax)
    (h : LogLib F ε θ δ) (fp : CFinite p) (hA : ‖cval p - A‖ ≤ α)
    (h2 : (2 : ℝ) ^ (-(k : ℤ)) ≤ ‖A‖ - α) (h3 : ‖A‖ + α ≤ 2 ^ (k : ℤ)) (h4 : α < cutDist A) :
    ∃ s, p.ln = .ok s ∧ CFinite s ∧ ‖cval s - _root_.Complex.log A‖ ≤
      (((1 + F.u) * (1 + ε) - 1) * (|Real.log ‖A‖| + α / (‖A‖ - α)) +
        (1 + F.u) * (1 + ε) * (1.01 * F.u) + (1 + F.u) * θ / 2 + F.η + δ) + α / (‖A‖ - α) := by
  obtain ⟨u0, u1⟩ := Fmt.u_small (F := F) hp
  have hε := h.ε_nonneg
  have n1 := (norm_le_near hA).trans h3
  have n3 := h2.trans (norm_ge_near hA)
  have L0 : (0 : ℝ) < 2 ^ (-(k : ℤ)) := by positivity
  have L1 : (2 : ℝ) ^ (-(k : ℤ)) ≤ 1 := zpow_le_one_of_nonpos₀ (by norm_num) (by omega)
  have hη := Fmt.η_small hk
  have hbig : 2 ^ 10 * ((2 : ℝ) ^ (k : ℤ)) ^ 2 ≤ 2 ^ F.emax := by
    rw [← zpow_natCast, ← zpow_natCast, ← zpow_mul, ← zpow_add₀ (by norm_num)]
    exact zpow_le_zpow_right₀ (by norm_num) (by push_cast; omega)
  have K1 : (1 : ℝ) ≤ (2 ^ (k : ℤ)) ^ 2 := one_le_pow₀ (one_le_zpow₀ (by norm_num) (by positivity))
  have P0 : 0 < ‖cval p‖ := L0.trans_le n3
  have P2 : ‖cval p‖ ^ 2 ≤ ((2 : ℝ) ^ (k : ℤ)) ^ 2 := pow_le_pow_left₀ P0.le n1 2
  have p0 : cval p ≠ 0 := norm_pos_iff.1 P0
  have LP : ((2 : ℝ) ^ (-(k : ℤ))) ^ 2 ≤ ‖cval p‖ ^ 2 := pow_le_pow_left₀ L0.le n3 2
  have L4 : ((2 : ℝ) ^ (-(k : ℤ))) ^ 4 ≤ ((2 : ℝ) ^ (-(k : ℤ))) ^ 2 := pow_le_pow_of_le_one L0.le L1 (by norm_num)
  have uL : F.u * ((2 : ℝ) ^ (-(k : ℤ))) ^ 4 ≤ F.u * ‖cval p‖ ^ 2 := mul_le_mul_of_nonneg_left (L4.trans LP) u0.le
  obtain ⟨n, en, fn⟩ := sqrNorm_finite fp (by linarith)
  obtain ⟨r1, r2, r3⟩ := sqrNormErr_small (F := F) hp P0 (by
    have : 0 ≤ F.u * ‖cval p‖ ^ 2 := by positivity
    linarith)
  obtain ⟨s, t, es, f, l1, ht, l2⟩ := ln_near h fp p0 en fn (by linarith)
  have hcut : cval p ∈ _root_.Complex.slitPlane := mem_slitPlane_of_cutDist (z := A) (hA.trans_lt h4)
  rw [ht.eq_arg hcut] at l2
  have lg := log_norm_near hA h4
  refine ⟨s, es, f, step_err ?_ (rev_near (log_perturb (rev_near hA) h4))⟩
  refine (_root_.Complex.norm_le_abs_re_add_abs_im _).trans ?_
  rw [_root_.Complex.sub_re, _root_.Complex.sub_im, _root_.Complex.log_re, _root_.Complex.log_im]
  refine add_le_add (le_trans l1 ?_) l2
  have g : 1 ≤ (1 + F.u) * (1 + ε) := by nlinarith
  have g1 := mul_le_mul_of_nonneg_left lg (show 0 ≤ (1 + F.u) * (1 + ε) - 1 by linarith)
  have g2 := mul_le_mul_of_nonneg_left r3 (show 0 ≤ (1 + F.u) * (1 + ε) / 2 by linarith)
  linarith only [g1, g2]

end roots

end Magnesia
