import Verif.Proof.Apriori

/-!
# Formulas in formats of growing precision
-/

namespace Magnesia

open RZero ROne Filter Topology

/-- A sequence (or net) of computed numbers, of different formats, that are eventually finite and converge to `A`. -/
def Approaches {ι : Type} (l : Filter ι) {F : ι → Fmt} (c : ∀ n, Res (Complex (Ieee (F n)))) (A : ℂ) : Prop :=
  ∃ α : ι → ℝ, Tendsto α l (𝓝 0) ∧ ∀ᶠ n in l, ∃ r, c n = .ok r ∧ CFinite r ∧ ‖cval r - A‖ ≤ α n

section limits

variable {ι : Type} {l : Filter ι} {F : ι → Fmt}

theorem tendsto_u (h : Tendsto (fun n => (F n).p) l atTop) : Tendsto (fun n => ((F n).u : ℝ)) l (𝓝 0) := by
  have e : (fun n => ((F n).u : ℝ)) = (fun p : ℕ => (1 / 2 : ℝ) ^ p) ∘ fun n => (F n).p := by
    funext n
    simp only [Fmt.u, Function.comp]
    push_cast
    rw [zpow_neg, zpow_natCast, one_div, inv_pow]
  rw [e]
  exact (tendsto_pow_atTop_nhds_zero_of_lt_one (by norm_num) (by norm_num)).comp h

theorem η_le_u (F : Fmt) : (F.η : ℝ) ≤ F.u := by
  have : F.η ≤ F.u := zpow_le_zpow_right₀ (by norm_num) (by
    have := F.p_le_emax; have := F.two_le_p; unfold Fmt.emin; omega)
  exact_mod_cast this

theorem tendsto_η (h : Tendsto (fun n => (F n).p) l atTop) : Tendsto (fun n => ((F n).η : ℝ)) l (𝓝 0) :=
  squeeze_zero (fun n => (η_le_one (F n)).1.le) (fun n => η_le_u (F n)) (tendsto_u h)

theorem tendsto_emax (h : Tendsto (fun n => (F n).p) l atTop) : Tendsto (fun n => (F n).emax) l atTop :=
  tendsto_atTop_mono (fun n => (F n).p_le_emax) (tendsto_natCast_atTop_atTop.comp h)

theorem tendsto_max (h : Tendsto (fun n => (F n).p) l atTop) : Tendsto (fun n => (2 : ℝ) ^ (F n).emax) l atTop := by
  refine tendsto_atTop_mono (f := fun n => (2 : ℝ) ^ (F n).p) (fun n => ?_) ((tendsto_pow_atTop_atTop_of_one_lt (by norm_num)).comp h)
  rw [← zpow_natCast]
  exact zpow_le_zpow_right₀ (by norm_num) (F n).p_le_emax

theorem tendsto_cu (h : Tendsto (fun n => (F n).p) l atTop) : Tendsto (fun n => (F n).cu) l (𝓝 0) := by
  have g : Continuous (fun u : ℝ => (1 + u) * (1 + Real.sqrt 2 * u) - 1) := by fun_prop
  have := (g.tendsto 0).comp (tendsto_u h)
  simpa [Function.comp_def, Fmt.cu] using this

theorem tendsto_cη (h : Tendsto (fun n => (F n).p) l atTop) : Tendsto (fun n => (F n).cη) l (𝓝 0) := by
  have := ((tendsto_const_nhds (x := 2 * Real.sqrt 2)).mul ((tendsto_const_nhds (x := (1 : ℝ))).add (tendsto_u h))).mul (tendsto_η h)
  simpa [Fmt.cη] using this

/-- What converges is eventually below what grows without bound. -/
theorem eventually_below {f g : ι → ℝ} {c : ℝ} (hf : Tendsto f l (𝓝 c)) (hg : Tendsto g l atTop) : ∀ᶠ n in l, f n ≤ g n := by
  filter_upwards [hf.eventually_lt_const (show c < c + 1 by linarith), hg.eventually_ge_atTop (c + 1)] with n h1 h2
  linarith

variable {c e : ∀ n, Res (Complex (Ieee (F n)))} {A B : ℂ}

/-- One operand: from a step lemma to convergence. -/
theorem Approaches.unary (hc : Approaches l c A) {f : ∀ n, Complex (Ieee (F n)) → Res (Complex (Ieee (F n)))} {W : ℂ}
    (bound : ι → ℝ → ℝ) (hb : ∀ α : ι → ℝ, Tendsto α l (𝓝 0) → Tendsto (fun n => bound n (α n)) l (𝓝 0))
    (step : ∀ α : ι → ℝ, Tendsto α l (𝓝 0) → ∀ᶠ n in l, ∀ p : Complex (Ieee (F n)), CFinite p → ‖cval p - A‖ ≤ α n →
      ∃ s, f n p = .ok s ∧ CFinite s ∧ ‖cval s - W‖ ≤ bound n (α n)) :
    Approaches l (fun n => do f n (← c n)) W := by
  obtain ⟨α, hα, h⟩ := hc
  refine ⟨_, hb α hα, ?_⟩
  filter_upwards [h, step α hα] with n ⟨p, ep, fp, bp⟩ hs
  obtain ⟨s, es, r⟩ := hs p fp bp
  exact ⟨s, by simp only [ep]; exact es, r⟩

/-- Two operands. -/
theorem Approaches.binary (hc : Approaches l c A) (he : Approaches l e B)
    {f : ∀ n, Complex (Ieee (F n)) → Complex (Ieee (F n)) → Res (Complex (Ieee (F n)))} {W : ℂ}
    (bound : ι → ℝ → ℝ → ℝ)
    (hb : ∀ α β : ι → ℝ, Tendsto α l (𝓝 0) → Tendsto β l (𝓝 0) → Tendsto (fun n => bound n (α n) (β n)) l (𝓝 0))
    (step : ∀ α β : ι → ℝ, Tendsto α l (𝓝 0) → Tendsto β l (𝓝 0) → ∀ᶠ n in l, ∀ p q : Complex (Ieee (F n)),
      CFinite p → CFinite q → ‖cval p - A‖ ≤ α n → ‖cval q - B‖ ≤ β n →
      ∃ s, f n p q = .ok s ∧ CFinite s ∧ ‖cval s - W‖ ≤ bound n (α n) (β n)) :
    Approaches l (fun n => do f n (← c n) (← e n)) W := by
  obtain ⟨α, hα, h⟩ := hc
  obtain ⟨β, hβ, h'⟩ := he
  refine ⟨_, hb α β hα hβ, ?_⟩
  filter_upwards [h, h', step α β hα hβ] with n ⟨p, ep, fp, bp⟩ ⟨q, eq, fq, bq⟩ hs
  obtain ⟨s, es, r⟩ := hs p q fp fq bp bq
  exact ⟨s, by simp only [ep, eq]; exact es, r⟩

/-- A bound `k` for sizes. -/
theorem exists_size (A B : ℝ) (hB : 0 < B) : ∃ k : ℕ, A < 2 ^ (k : ℤ) ∧ B < 2 ^ (k : ℤ) ∧ (2 : ℝ) ^ (-(k : ℤ)) < B := by
  obtain ⟨k, hk⟩ := pow_unbounded_of_one_lt (max A (max B (1 / B))) (show (1 : ℝ) < 2 by norm_num)
  refine ⟨k, ?_, ?_, ?_⟩
  · rw [zpow_natCast]; exact (le_max_left _ _).trans_lt hk
  · rw [zpow_natCast]; exact ((le_max_left _ _).trans (le_max_right _ _)).trans_lt hk
  · rw [zpow_neg, zpow_natCast]
    have := ((le_max_right B (1 / B)).trans (le_max_right A _)).trans_lt hk
    rw [div_lt_iff₀ hB] at this
    rw [inv_lt_iff_one_lt_mul₀ (by positivity)]
    rwa [mul_comm] at this

theorem cutDist_pos {A : ℂ} (hA : A ∈ _root_.Complex.slitPlane) : 0 < cutDist A := by
  unfold cutDist
  split_ifs with h
  · exact norm_pos_iff.2 (_root_.Complex.slitPlane_ne_zero hA)
  · rcases _root_.Complex.mem_slitPlane_iff.1 hA with h1 | h1
    · exact absurd h1.le h
    · exact abs_pos.2 h1

section ops

variable (hp : Tendsto (fun n => (F n).p) l atTop)

include hp

theorem eventually_p : ∀ᶠ n in l, 20 ≤ (F n).p := hp.eventually_ge_atTop 20

theorem eventually_k (k : ℕ) : ∀ᶠ n in l, 4 * (k : ℤ) + 10 ≤ (F n).emax := (tendsto_emax hp).eventually_ge_atTop _

theorem Approaches.add (hc : Approaches l c A) (he : Approaches l e B) : Approaches l (fun n => do (← c n).add (← e n)) (A + B) := by
  refine hc.binary he (f := fun n p q => p.add q) (fun n α β => (F n).u * (‖A + B‖ + (α + β)) + (α + β)) (fun α β hα hβ => ?_)
    fun α β hα hβ => ?_
  · have := ((tendsto_u hp).mul ((tendsto_const_nhds (x := ‖A + B‖)).add (hα.add hβ))).add (hα.add hβ)
    simpa using this
  · filter_upwards [eventually_below ((tendsto_const_nhds (x := ‖A + B‖)).add (hα.add hβ)) (tendsto_max hp)] with n h p q fp fq bp bq
    exact add_step fp fq bp bq h

theorem Approaches.sub (hc : Approaches l c A) (he : Approaches l e B) : Approaches l (fun n => do (← c n).sub (← e n)) (A - B) := by
  refine hc.binary he (f := fun n p q => p.sub q) (fun n α β => (F n).u * (‖A - B‖ + (α + β)) + (α + β)) (fun α β hα hβ => ?_)
    fun α β hα hβ => ?_
  · have := ((tendsto_u hp).mul ((tendsto_const_nhds (x := ‖A - B‖)).add (hα.add hβ))).add (hα.add hβ)
    simpa using this
  · filter_upwards [eventually_below ((tendsto_const_nhds (x := ‖A - B‖)).add (hα.add hβ)) (tendsto_max hp)] with n h p q fp fq bp bq
    exact sub_step fp fq bp bq h

theorem Approaches.mul (hc : Approaches l c A) (he : Approaches l e B) : Approaches l (fun n => do (← c n).mul (← e n)) (A * B) := by
  refine hc.binary he (f := fun n p q => p.mul q)
    (fun n α β => ((F n).cu * ((‖A‖ + α) * (‖B‖ + β)) + (F n).cη) + (α * ‖B‖ + ‖A‖ * β + α * β)) (fun α β hα hβ => ?_)
    fun α β hα hβ => ?_
  · have := (((tendsto_cu hp).mul (((tendsto_const_nhds (x := ‖A‖)).add hα).mul ((tendsto_const_nhds (x := ‖B‖)).add hβ))).add
      (tendsto_cη hp)).add (((hα.mul (tendsto_const_nhds (x := ‖B‖))).add ((tendsto_const_nhds (x := ‖A‖)).mul hβ)).add (hα.mul hβ))
    simpa using this
  · filter_upwards [eventually_below (((tendsto_const_nhds (x := (4 : ℝ))).mul (((tendsto_const_nhds (x := ‖A‖)).add hα).mul
      ((tendsto_const_nhds (x := ‖B‖)).add hβ))).add (tendsto_const_nhds (x := (4 : ℝ)))) (tendsto_max hp)] with n h p q fp fq bp bq
    exact mul_step fp fq bp bq h

theorem Approaches.div (hc : Approaches l c A) (he : Approaches l e B) (hB : B ≠ 0) :
    Approaches l (fun n => do (← c n).div (← e n)) (A / B) := by
  have B0 : 0 < ‖B‖ := norm_pos_iff.2 hB
  obtain ⟨k, k1, k2, k3⟩ := exists_size ‖A‖ ‖B‖ B0
  refine hc.binary he (f := fun n p q => p.div q)
    (fun n α β => (6.5 * (F n).u * ((‖A‖ + α) / (‖B‖ - β)) + 8 * (F n).η * 4 ^ k) + (α * ‖B‖ + ‖A‖ * β) / (‖B‖ * (‖B‖ - β)))
    (fun α β hα hβ => ?_) fun α β hα hβ => ?_
  · have d := (tendsto_const_nhds (x := ‖B‖)).sub hβ
    rw [sub_zero] at d
    have := ((((tendsto_const_nhds (x := (6.5 : ℝ))).mul (tendsto_u hp)).mul (((tendsto_const_nhds (x := ‖A‖)).add hα).div d B0.ne')).add
      (((tendsto_const_nhds (x := (8 : ℝ))).mul (tendsto_η hp)).mul (tendsto_const_nhds (x := (4 : ℝ) ^ k)))).add
      (((hα.mul (tendsto_const_nhds (x := ‖B‖))).add ((tendsto_const_nhds (x := ‖A‖)).mul hβ)).div
        ((tendsto_const_nhds (x := ‖B‖)).mul d) (mul_pos B0 B0).ne')
    simpa using this
  · have a1 := (tendsto_const_nhds (x := ‖A‖)).add hα
    have b1 := (tendsto_const_nhds (x := ‖B‖)).add hβ
    have b2 := (tendsto_const_nhds (x := ‖B‖)).sub hβ
    rw [add_zero] at a1 b1
    rw [sub_zero] at b2
    filter_upwards [a1.eventually_le_const k1, b1.eventually_le_const k2, b2.eventually_const_le k3, eventually_p hp, eventually_k hp k]
      with n h1 h2 h3 h4 h5 p q fp fq bp bq
    exact div_step h4 h5 fp fq bp bq h1 h3 h2

theorem Approaches.scale (hc : Approaches l c A) {b : ∀ n, Ieee (F n)} {C : ℝ} {γ : ι → ℝ} (hγ : Tendsto γ l (𝓝 0))
    (hb : ∀ᶠ n in l, (b n).Finite ∧ |((b n).value : ℝ) - C| ≤ γ n) :
    Approaches l (fun n => do (← c n).mulScalar (b n)) (A * (C : ℝ)) := by
  refine hc.unary (f := fun n p => p.mulScalar (b n))
    (fun n α => ((F n).u * ((‖A‖ + α) * (|C| + γ n)) + Real.sqrt 2 * (F n).η) + (α * |C| + ‖A‖ * γ n + α * γ n)) (fun α hα => ?_)
    fun α hα => ?_
  · have := (((tendsto_u hp).mul (((tendsto_const_nhds (x := ‖A‖)).add hα).mul ((tendsto_const_nhds (x := |C|)).add hγ))).add
      ((tendsto_const_nhds (x := Real.sqrt 2)).mul (tendsto_η hp))).add
      (((hα.mul (tendsto_const_nhds (x := |C|))).add ((tendsto_const_nhds (x := ‖A‖)).mul hγ)).add (hα.mul hγ))
    simpa using this
  · filter_upwards [hb, eventually_below (((tendsto_const_nhds (x := ‖A‖)).add hα).mul ((tendsto_const_nhds (x := |C|)).add hγ))
      (tendsto_max hp)] with n ⟨h1, h2⟩ h3 p fp bp
    exact scale_step fp h1 bp h2 h3

theorem Approaches.sqrt (hc : Approaches l c A) (hA : A ∈ _root_.Complex.slitPlane) :
    Approaches l (fun n => do (← c n).sqrt) (A ^ (1 / 2 : ℂ)) := by
  have A0 : 0 < ‖A‖ := norm_pos_iff.2 (_root_.Complex.slitPlane_ne_zero hA)
  obtain ⟨k, k1, k2, k3⟩ := exists_size ‖A‖ ‖A‖ A0
  refine hc.unary (f := fun n p => p.sqrt)
    (fun n α => (12.2 * (F n).u * Real.sqrt (‖A‖ + α) + 2 * (F n).η) + α / (2 * Real.sqrt (‖A‖ - α)))
    (fun α hα => ?_) fun α hα => ?_
  · have d := (tendsto_const_nhds (x := ‖A‖)).sub hα
    rw [sub_zero] at d
    have s := (tendsto_const_nhds (x := ‖A‖)).add hα
    have q0 := Real.sqrt_pos.2 A0
    have := ((((tendsto_const_nhds (x := (12.2 : ℝ))).mul (tendsto_u hp)).mul s.sqrt).add
      ((tendsto_const_nhds (x := (2 : ℝ))).mul (tendsto_η hp))).add (hα.div ((tendsto_const_nhds (x := (2 : ℝ))).mul d.sqrt)
        (by positivity))
    simpa using this
  · have a1 := (tendsto_const_nhds (x := ‖A‖)).add hα
    have a2 := (tendsto_const_nhds (x := ‖A‖)).sub hα
    rw [add_zero] at a1
    rw [sub_zero] at a2
    filter_upwards [a1.eventually_le_const k1, a2.eventually_const_le k3, eventually_p hp, eventually_k hp k,
      hα.eventually_lt_const (show 0 < cutDist A from cutDist_pos hA)]
      with n h1 h2 h4 h5 h6 p fp bp
    exact sqrt_step h4 h5 fp bp h2 h1 h6

end ops

section functions

variable [∀ n, RExp (Ieee (F n))] [∀ n, RSin (Ieee (F n))] [∀ n, RCos (Ieee (F n))] [∀ n, RSinh (Ieee (F n))]
  [∀ n, RCosh (Ieee (F n))] [∀ n, RLn (Ieee (F n))] [∀ n, RAtan2 (Ieee (F n))] {R : ℝ} {ε θ δ : ι → ℝ}
  (hp : Tendsto (fun n => (F n).p) l atTop) (hε : Tendsto ε l (𝓝 0)) (hθ : Tendsto θ l (𝓝 0))

include hp hε hθ

omit [∀ n, RExp (Ieee (F n))] [∀ n, RSin (Ieee (F n))] [∀ n, RCos (Ieee (F n))] [∀ n, RSinh (Ieee (F n))]
  [∀ n, RCosh (Ieee (F n))] [∀ n, RLn (Ieee (F n))] [∀ n, RAtan2 (Ieee (F n))] in
theorem tendsto_fnStep {M P : ι → ℝ} {M₀ W : ℝ} (hM : Tendsto M l (𝓝 M₀)) (hP : Tendsto P l (𝓝 0)) :
    Tendsto (fun n => fnStep (F n) (ε n) (θ n) (M n) W (P n)) l (𝓝 0) := by
  have g : Continuous (fun q : ℝ × ℝ × ℝ × ℝ × ℝ × ℝ => ((1 + q.1) ^ 2 * (1 + q.2.1) - 1) * (W + q.2.2.1) +
    Real.sqrt 2 * ((1 + q.1) ^ 2 * (1 + q.2.1) * (q.2.2.2.1 ^ 2 + q.2.2.2.2.1 * q.2.2.2.1 + q.2.2.2.2.2)) + q.2.2.1) := by fun_prop
  have := (g.tendsto (0, 0, 0, 0, M₀, 0)).comp
    (hε.prodMk_nhds ((tendsto_u hp).prodMk_nhds (hP.prodMk_nhds (hθ.prodMk_nhds (hM.prodMk_nhds (tendsto_η hp))))))
  simpa [Function.comp_def, fnStep] using this

omit hp hε hθ in
omit [∀ n, RExp (Ieee (F n))] [∀ n, RSin (Ieee (F n))] [∀ n, RCos (Ieee (F n))] [∀ n, RSinh (Ieee (F n))]
  [∀ n, RCosh (Ieee (F n))] [∀ n, RLn (Ieee (F n))] [∀ n, RAtan2 (Ieee (F n))] in
theorem tendsto_of_cont {g : ℝ → ℝ} (hg : Continuous g) {α : ι → ℝ} (hα : Tendsto α l (𝓝 0)) {y : ℝ} (hy : g 0 = y) :
    Tendsto (fun n => g (α n)) l (𝓝 y) := hy ▸ (hg.tendsto 0).comp hα

omit hp hε hθ in
omit [∀ n, RExp (Ieee (F n))] [∀ n, RSin (Ieee (F n))] [∀ n, RCos (Ieee (F n))] [∀ n, RSinh (Ieee (F n))]
  [∀ n, RCosh (Ieee (F n))] [∀ n, RLn (Ieee (F n))] [∀ n, RAtan2 (Ieee (F n))] in
theorem near_lt {α : ι → ℝ} (hα : Tendsto α l (𝓝 0)) {a : ℝ} (h : a < R) : ∀ᶠ n in l, a + α n ≤ R := by
  have := (tendsto_const_nhds (x := a)).add hα
  rw [add_zero] at this
  exact this.eventually_le_const h

variable (hlib : ∀ᶠ n in l, FnLib (F n) R (ε n) (θ n))

include hlib

omit [∀ n, RLn (Ieee (F n))] [∀ n, RAtan2 (Ieee (F n))] in
theorem tools : ∀ᶠ n in l, FnLib (F n) R (ε n) (θ n) ∧ ε n ≤ 1 / 4 ∧ θ n ≤ 1 / 4 ∧ 8 * Real.exp R ≤ 2 ^ (F n).emax := by
  filter_upwards [hlib, hε.eventually_le_const (show (0 : ℝ) < 1 / 4 by norm_num), hθ.eventually_le_const (show (0 : ℝ) < 1 / 4 by norm_num),
    (tendsto_max hp).eventually_ge_atTop _] with n h1 h2 h3 h4
  exact ⟨h1, h2, h3, h4⟩

omit [∀ n, RLn (Ieee (F n))] [∀ n, RAtan2 (Ieee (F n))]

theorem Approaches.exp (hc : Approaches l c A) (h1 : |A.re| < R) (h2 : |A.im| < R) :
    Approaches l (fun n => do (← c n).exp) (_root_.Complex.exp A) := by
  refine hc.unary (f := fun n p => p.exp) (fun n α => fnStep (F n) (ε n) (θ n) (Real.exp (A.re + α) + 1)
    ‖_root_.Complex.exp A‖ (‖_root_.Complex.exp A‖ * (Real.exp α - 1))) (fun α hα => ?_) fun α hα => ?_
  · exact tendsto_fnStep hp hε hθ (M₀ := Real.exp A.re + 1) (tendsto_of_cont (g := fun α => Real.exp (A.re + α) + 1) (by fun_prop) hα (by simp))
      (tendsto_of_cont (g := fun α => ‖_root_.Complex.exp A‖ * (Real.exp α - 1)) (by fun_prop) hα (by simp))
  · filter_upwards [tools hp hε hθ hlib, near_lt hα h1, near_lt hα h2] with n ⟨t1, t2, t3, t4⟩ g1 g2 p fp bp
    exact exp_step t1 t2 t3 t4 fp bp g1 g2

theorem Approaches.sin (hc : Approaches l c A) (h1 : |A.re| < R) (h2 : |A.im| < R) :
    Approaches l (fun n => do (← c n).sin) (_root_.Complex.sin A) := by
  refine hc.unary (f := fun n p => p.sin) (fun n α => fnStep (F n) (ε n) (θ n) (1 + Real.cosh (|A.im| + α))
    ‖_root_.Complex.sin A‖ (2 * Real.cosh (|A.im| + α / 2) * Real.sinh (α / 2))) (fun α hα => ?_) fun α hα => ?_
  · exact tendsto_fnStep hp hε hθ (M₀ := 1 + Real.cosh |A.im|) (tendsto_of_cont (g := fun α => 1 + Real.cosh (|A.im| + α))
      (by fun_prop) hα (by simp)) (tendsto_of_cont (g := fun α => 2 * Real.cosh (|A.im| + α / 2) * Real.sinh (α / 2))
      (by fun_prop) hα (by simp))
  · filter_upwards [tools hp hε hθ hlib, near_lt hα h1, near_lt hα h2] with n ⟨t1, t2, t3, t4⟩ g1 g2 p fp bp
    exact sin_step t1 t2 t3 t4 fp bp g1 g2

theorem Approaches.cos (hc : Approaches l c A) (h1 : |A.re| < R) (h2 : |A.im| < R) :
    Approaches l (fun n => do (← c n).cos) (_root_.Complex.cos A) := by
  refine hc.unary (f := fun n p => p.cos) (fun n α => fnStep (F n) (ε n) (θ n) (1 + Real.cosh (|A.im| + α))
    ‖_root_.Complex.cos A‖ (2 * Real.cosh (|A.im| + α / 2) * Real.sinh (α / 2))) (fun α hα => ?_) fun α hα => ?_
  · exact tendsto_fnStep hp hε hθ (M₀ := 1 + Real.cosh |A.im|) (tendsto_of_cont (g := fun α => 1 + Real.cosh (|A.im| + α))
      (by fun_prop) hα (by simp)) (tendsto_of_cont (g := fun α => 2 * Real.cosh (|A.im| + α / 2) * Real.sinh (α / 2))
      (by fun_prop) hα (by simp))
  · filter_upwards [tools hp hε hθ hlib, near_lt hα h1, near_lt hα h2] with n ⟨t1, t2, t3, t4⟩ g1 g2 p fp bp
    exact cos_step t1 t2 t3 t4 fp bp g1 g2

theorem Approaches.sinh (hc : Approaches l c A) (h1 : |A.re| < R) (h2 : |A.im| < R) :
    Approaches l (fun n => do (← c n).sinh) (_root_.Complex.sinh A) := by
  refine hc.unary (f := fun n p => p.sinh) (fun n α => fnStep (F n) (ε n) (θ n) (1 + Real.cosh (|A.re| + α))
    ‖_root_.Complex.sinh A‖ (2 * Real.cosh (|A.re| + α / 2) * Real.sinh (α / 2))) (fun α hα => ?_) fun α hα => ?_
  · exact tendsto_fnStep hp hε hθ (M₀ := 1 + Real.cosh |A.re|) (tendsto_of_cont (g := fun α => 1 + Real.cosh (|A.re| + α))
      (by fun_prop) hα (by simp)) (tendsto_of_cont (g := fun α => 2 * Real.cosh (|A.re| + α / 2) * Real.sinh (α / 2))
      (by fun_prop) hα (by simp))
  · filter_upwards [tools hp hε hθ hlib, near_lt hα h1, near_lt hα h2] with n ⟨t1, t2, t3, t4⟩ g1 g2 p fp bp
    exact sinh_step t1 t2 t3 t4 fp bp g1 g2

theorem Approaches.cosh (hc : Approaches l c A) (h1 : |A.re| < R) (h2 : |A.im| < R) :
    Approaches l (fun n => do (← c n).cosh) (_root_.Complex.cosh A) := by
  refine hc.unary (f := fun n p => p.cosh) (fun n α => fnStep (F n) (ε n) (θ n) (1 + Real.cosh (|A.re| + α))
    ‖_root_.Complex.cosh A‖ (2 * Real.cosh (|A.re| + α / 2) * Real.sinh (α / 2))) (fun α hα => ?_) fun α hα => ?_
  · exact tendsto_fnStep hp hε hθ (M₀ := 1 + Real.cosh |A.re|) (tendsto_of_cont (g := fun α => 1 + Real.cosh (|A.re| + α))
      (by fun_prop) hα (by simp)) (tendsto_of_cont (g := fun α => 2 * Real.cosh (|A.re| + α / 2) * Real.sinh (α / 2))
      (by fun_prop) hα (by simp))
  · filter_upwards [tools hp hε hθ hlib, near_lt hα h1, near_lt hα h2] with n ⟨t1, t2, t3, t4⟩ g1 g2 p fp bp
    exact cosh_step t1 t2 t3 t4 fp bp g1 g2

end functions

section log

variable [∀ n, RLn (Ieee (F n))] [∀ n, RAtan2 (Ieee (F n))] {ε θ δ : ι → ℝ}

theorem Approaches.ln (hp : Tendsto (fun n => (F n).p) l atTop) (hε : Tendsto ε l (𝓝 0)) (hθ : Tendsto θ l (𝓝 0))
    (hδ : Tendsto δ l (𝓝 0)) (hlib : ∀ᶠ n in l, LogLib (F n) (ε n) (θ n) (δ n)) (hc : Approaches l c A)
    (hA : A ∈ _root_.Complex.slitPlane) : Approaches l (fun n => do (← c n).ln) (_root_.Complex.log A) := by
  have A0 : 0 < ‖A‖ := norm_pos_iff.2 (_root_.Complex.slitPlane_ne_zero hA)
  obtain ⟨k, k1, k2, k3⟩ := exists_size ‖A‖ ‖A‖ A0
  refine hc.unary (f := fun n p => p.ln)
    (fun n α => (((1 + (F n).u) * (1 + ε n) - 1) * (|Real.log ‖A‖| + α / (‖A‖ - α)) +
        (1 + (F n).u) * (1 + ε n) * (1.01 * (F n).u) + (1 + (F n).u) * θ n / 2 + (F n).η + δ n) + α / (‖A‖ - α))
    (fun α hα => ?_) fun α hα => ?_
  · have d := (tendsto_const_nhds (x := ‖A‖)).sub hα
    rw [sub_zero] at d
    have q := hα.div d A0.ne'
    rw [zero_div] at q
    have u := tendsto_u hp
    have g : Continuous (fun q : ℝ × ℝ × ℝ × ℝ × ℝ × ℝ => (((1 + q.1) * (1 + q.2.1) - 1) * (|Real.log ‖A‖| + q.2.2.1) +
      (1 + q.1) * (1 + q.2.1) * (1.01 * q.1) + (1 + q.1) * q.2.2.2.1 / 2 + q.2.2.2.2.1 + q.2.2.2.2.2) + q.2.2.1) := by fun_prop
    have := (g.tendsto (0, 0, 0, 0, 0, 0)).comp
      (u.prodMk_nhds (hε.prodMk_nhds (q.prodMk_nhds (hθ.prodMk_nhds ((tendsto_η hp).prodMk_nhds hδ)))))
    simpa [Function.comp_def] using this
  · have a1 := (tendsto_const_nhds (x := ‖A‖)).add hα
    have a2 := (tendsto_const_nhds (x := ‖A‖)).sub hα
    rw [add_zero] at a1
    rw [sub_zero] at a2
    filter_upwards [a1.eventually_le_const k1, a2.eventually_const_le k3, eventually_p hp, eventually_k hp k,
      hα.eventually_lt_const (show 0 < cutDist A from cutDist_pos hA), hlib]
      with n h1 h2 h4 h5 h6 h7 p fp bp
    exact ln_step h4 h5 h7 fp bp h2 h1 h6

end log

end limits

end Magnesia
