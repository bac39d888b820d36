import Verif.Proof.Apriori
import Verif.Proof.AprioriLimit

/-!
# C87: accuracy of formulas of complex functions in terms of true values, with uncertain inputs
-/

namespace Magnesia

open RZero ROne

variable {F : Fmt} [RExp (Ieee F)] [RSin (Ieee F)] [RCos (Ieee F)] [RSinh (Ieee F)] [RCosh (Ieee F)] [RLn (Ieee F)]
  [RAtan2 (Ieee F)] {R ε θ δ : ℝ}

/-- C87: if the inputs are finite floating point numbers within `d i` of the true inputs `x i`, the scalar functions are
accurate, and the true values and uncertainties of the parts of the formula are within bounds, then the computed value of the
formula is finite, and within the a-priori bound of its true value at the true inputs. -/
theorem C87_apriori (hp : 20 ≤ F.p) {k : ℕ} (hk : 4 * k + 10 ≤ F.emax) (h : FnLib F R ε θ) (h' : LogLib F ε θ δ)
    (hε : ε ≤ 1 / 4) (hθ : θ ≤ 1 / 4) (hR : 8 * Real.exp R ≤ 2 ^ F.emax) (x' : ℕ → Complex (Ieee F)) (x : ℕ → ℂ) (d : ℕ → ℝ)
    (hf : ∀ i, CFinite (x' i)) (hd : ∀ i, ‖cval (x' i) - x i‖ ≤ d i) (f : CForm) (ht : f.Tame F k R ε θ δ x d) :
    ∃ r, f.run x' = .ok r ∧ CFinite r ∧ ‖cval r - f.exact x‖ ≤ f.apriori F k ε θ δ x d := by
  induction f with
  | var i => exact ⟨_, rfl, hf i, hd i⟩
  | zero =>
    exact ⟨_, rfl, ⟨trivial, trivial⟩, by
      simp [CForm.exact, CForm.apriori, cval, RZero.zero, Ieee.value, _root_.Complex.ext_iff]⟩
  | one =>
    refine ⟨_, rfl, ⟨trivial, trivial⟩, ?_⟩
    have : cval (one : Complex (Ieee F)) = 1 := by
      apply _root_.Complex.ext <;> simp [cval, ROne.one, RZero.zero, Ieee.value]
    simp [CForm.exact, CForm.apriori, this]
  | add a b iha ihb =>
    obtain ⟨h1, h2, h3⟩ := ht
    obtain ⟨p, ep, fp, bp⟩ := iha h1
    obtain ⟨q, eq, fq, bq⟩ := ihb h2
    obtain ⟨s, es, fs, bs⟩ := add_step fp fq bp bq h3
    exact ⟨s, by simp only [CForm.run, ep, eq]; exact es, fs, bs⟩
  | sub a b iha ihb =>
    obtain ⟨h1, h2, h3⟩ := ht
    obtain ⟨p, ep, fp, bp⟩ := iha h1
    obtain ⟨q, eq, fq, bq⟩ := ihb h2
    obtain ⟨s, es, fs, bs⟩ := sub_step fp fq bp bq h3
    exact ⟨s, by simp only [CForm.run, ep, eq]; exact es, fs, bs⟩
  | mul a b iha ihb =>
    obtain ⟨h1, h2, h3⟩ := ht
    obtain ⟨p, ep, fp, bp⟩ := iha h1
    obtain ⟨q, eq, fq, bq⟩ := ihb h2
    obtain ⟨s, es, fs, bs⟩ := mul_step fp fq bp bq h3
    exact ⟨s, by simp only [CForm.run, ep, eq]; exact es, fs, bs⟩
  | div a b iha ihb =>
    obtain ⟨h1, h2, h3, h4, h5⟩ := ht
    obtain ⟨p, ep, fp, bp⟩ := iha h1
    obtain ⟨q, eq, fq, bq⟩ := ihb h2
    obtain ⟨s, es, fs, bs⟩ := div_step hp hk fp fq bp bq h3 h4 h5
    exact ⟨s, by simp only [CForm.run, ep, eq]; exact es, fs, bs⟩
  | neg a iha =>
    obtain ⟨p, ep, fp, bp⟩ := iha ht
    refine ⟨⟨p.re.neg, p.im.neg⟩, by simp only [CForm.run, ep]; rfl, ⟨Ieee.neg_finite.2 fp.1, Ieee.neg_finite.2 fp.2⟩, ?_⟩
    have : cval (⟨p.re.neg, p.im.neg⟩ : Complex (Ieee F)) = -cval p := by
      apply _root_.Complex.ext <;> simp [cval, Ieee.neg_value]
    simp only [CForm.exact, CForm.apriori]
    rw [this, neg_sub_neg, norm_sub_rev]
    exact bp
  | conj a iha =>
    obtain ⟨p, ep, fp, bp⟩ := iha ht
    refine ⟨⟨p.re, p.im.neg⟩, by simp only [CForm.run, ep]; rfl, ⟨fp.1, Ieee.neg_finite.2 fp.2⟩, ?_⟩
    have : cval (⟨p.re, p.im.neg⟩ : Complex (Ieee F)) = (starRingEnd ℂ) (cval p) := by
      apply _root_.Complex.ext <;> simp [cval, Ieee.neg_value]
    simp only [CForm.exact, CForm.apriori]
    rw [this, ← map_sub, _root_.Complex.norm_conj]
    exact bp
  | scale a i iha =>
    obtain ⟨h1, h3⟩ := ht
    obtain ⟨p, ep, fp, bp⟩ := iha h1
    obtain ⟨s, es, fs, bs⟩ := scale_step fp (hf i).1 bp (re_near (hd i)) h3
    exact ⟨s, by simp only [CForm.run, ep]; exact es, fs, bs⟩
  | exp a iha =>
    obtain ⟨h1, h2, h3⟩ := ht
    obtain ⟨p, ep, fp, bp⟩ := iha h1
    obtain ⟨s, es, fs, bs⟩ := exp_step h hε hθ hR fp bp h2 h3
    exact ⟨s, by simp only [CForm.run, ep]; exact es, fs, bs⟩
  | sin a iha =>
    obtain ⟨h1, h2, h3⟩ := ht
    obtain ⟨p, ep, fp, bp⟩ := iha h1
    obtain ⟨s, es, fs, bs⟩ := sin_step h hε hθ hR fp bp h2 h3
    exact ⟨s, by simp only [CForm.run, ep]; exact es, fs, bs⟩
  | cos a iha =>
    obtain ⟨h1, h2, h3⟩ := ht
    obtain ⟨p, ep, fp, bp⟩ := iha h1
    obtain ⟨s, es, fs, bs⟩ := cos_step h hε hθ hR fp bp h2 h3
    exact ⟨s, by simp only [CForm.run, ep]; exact es, fs, bs⟩
  | sinh a iha =>
    obtain ⟨h1, h2, h3⟩ := ht
    obtain ⟨p, ep, fp, bp⟩ := iha h1
    obtain ⟨s, es, fs, bs⟩ := sinh_step h hε hθ hR fp bp h2 h3
    exact ⟨s, by simp only [CForm.run, ep]; exact es, fs, bs⟩
  | cosh a iha =>
    obtain ⟨h1, h2, h3⟩ := ht
    obtain ⟨p, ep, fp, bp⟩ := iha h1
    obtain ⟨s, es, fs, bs⟩ := cosh_step h hε hθ hR fp bp h2 h3
    exact ⟨s, by simp only [CForm.run, ep]; exact es, fs, bs⟩
  | ln a iha =>
    obtain ⟨h1, ⟨h2, h3⟩, h4⟩ := ht
    obtain ⟨p, ep, fp, bp⟩ := iha h1
    obtain ⟨s, es, fs, bs⟩ := ln_step hp hk h' fp bp h2 h3 h4
    exact ⟨s, by simp only [CForm.run, ep]; exact es, fs, bs⟩
  | sqrt a iha =>
    obtain ⟨h1, ⟨h2, h3⟩, h4⟩ := ht
    obtain ⟨p, ep, fp, bp⟩ := iha h1
    obtain ⟨s, es, fs, bs⟩ := sqrt_step hp hk fp bp h2 h3 h4
    exact ⟨s, by simp only [CForm.run, ep]; exact es, fs, bs⟩

/-- C87: two formulas with the same true value: the computed numbers differ at most by the sum of the bounds. -/
theorem C87_two_ways (hp : 20 ≤ F.p) {k : ℕ} (hk : 4 * k + 10 ≤ F.emax) (h : FnLib F R ε θ) (h' : LogLib F ε θ δ)
    (hε : ε ≤ 1 / 4) (hθ : θ ≤ 1 / 4) (hR : 8 * Real.exp R ≤ 2 ^ F.emax) (x' : ℕ → Complex (Ieee F)) (x : ℕ → ℂ) (d : ℕ → ℝ)
    (hf : ∀ i, CFinite (x' i)) (hd : ∀ i, ‖cval (x' i) - x i‖ ≤ d i) (f g : CForm) (h1 : f.Tame F k R ε θ δ x d)
    (h2 : g.Tame F k R ε θ δ x d) (he : f.exact x = g.exact x) :
    ∃ p q, f.run x' = .ok p ∧ g.run x' = .ok q ∧ ‖cval p - cval q‖ ≤ f.apriori F k ε θ δ x d + g.apriori F k ε θ δ x d := by
  obtain ⟨p, ep, -, bp⟩ := C87_apriori hp hk h h' hε hθ hR x' x d hf hd f h1
  obtain ⟨q, eq, -, bq⟩ := C87_apriori hp hk h h' hε hθ hR x' x d hf hd g h2
  rw [← he, norm_sub_rev] at bq
  exact ⟨p, q, ep, eq, step_err bp bq⟩

omit [RExp (Ieee F)] [RSin (Ieee F)] [RCos (Ieee F)] [RSinh (Ieee F)] [RCosh (Ieee F)] [RLn (Ieee F)] [RAtan2 (Ieee F)] in
/-- C87: the quotient of finite numbers, whose parts may be zero, subnormal, or of quite different magnitude, as long as the
absolute value of the numerator is at most `2 ^ k`, and that of the denominator between `2 ^ -k` and `2 ^ k`. -/
theorem C87_div (hp : 20 ≤ F.p) {k : ℕ} (hk : 4 * k + 10 ≤ F.emax) {z w : Complex (Ieee F)} (hz : CFinite z) (hw : CFinite w)
    (h1 : (2 : ℝ) ^ (-(k : ℤ)) ≤ ‖cval w‖) (h2 : ‖cval w‖ ≤ 2 ^ (k : ℤ)) (h3 : ‖cval z‖ ≤ 2 ^ (k : ℤ)) :
    ∃ q, z.div w = .ok q ∧ CFinite q ∧ ‖cval q - cval z / cval w‖ ≤ 6.5 * F.u * ‖cval z / cval w‖ + 8 * F.η * 4 ^ k :=
  cdiv_sized hp hk hz hw h1 h2 h3

omit [RExp (Ieee F)] [RSin (Ieee F)] [RCos (Ieee F)] [RSinh (Ieee F)] [RCosh (Ieee F)] [RLn (Ieee F)] [RAtan2 (Ieee F)] in
/-- C87: the square root of a finite number, whose parts may be zero, subnormal, or of quite different magnitude, as long as its
absolute value is between `2 ^ -k` and `2 ^ k`. -/
theorem C87_sqrt (hp : 20 ≤ F.p) {k : ℕ} (hk : 4 * k + 10 ≤ F.emax) {z : Complex (Ieee F)} (hz : CFinite z)
    (h1 : (2 : ℝ) ^ (-(k : ℤ)) ≤ ‖cval z‖) (h2 : ‖cval z‖ ≤ 2 ^ (k : ℤ)) :
    ∃ r, z.sqrt = .ok r ∧ CFinite r ∧ ‖cval r - cval z ^ (1 / 2 : ℂ)‖ ≤ 12.2 * F.u * Real.sqrt ‖cval z‖ + 2 * F.η :=
  sqrt_sized hp hk hz h1 h2

section converge

open Filter Topology

/-- All subformulas converge. -/
theorem CForm.approaches {ι : Type} {l : Filter ι} {F : ι → Fmt} [∀ n, RExp (Ieee (F n))] [∀ n, RSin (Ieee (F n))]
    [∀ n, RCos (Ieee (F n))] [∀ n, RSinh (Ieee (F n))] [∀ n, RCosh (Ieee (F n))] [∀ n, RLn (Ieee (F n))]
    [∀ n, RAtan2 (Ieee (F n))] {R : ℝ} {ε θ δ : ι → ℝ} (hp : Tendsto (fun n => (F n).p) l atTop) (hε : Tendsto ε l (𝓝 0))
    (hθ : Tendsto θ l (𝓝 0)) (hδ : Tendsto δ l (𝓝 0)) (hlib : ∀ᶠ n in l, FnLib (F n) R (ε n) (θ n))
    (hlog : ∀ᶠ n in l, LogLib (F n) (ε n) (θ n) (δ n)) (x : ℕ → ℂ) (x' : ∀ n, ℕ → Complex (Ieee (F n)))
    (hx : ∀ i, (∀ᶠ n in l, CFinite (x' n i)) ∧ Tendsto (fun n => cval (x' n i)) l (𝓝 (x i))) (f : CForm) (hf : f.Regular R x) :
    Approaches l (fun n => f.run (x' n)) (f.exact x) := by
  induction f with
  | var i =>
    refine ⟨fun n => ‖cval (x' n i) - x i‖, tendsto_iff_norm_sub_tendsto_zero.1 (hx i).2, ?_⟩
    filter_upwards [(hx i).1] with n h
    exact ⟨_, rfl, h, le_rfl⟩
  | zero =>
    refine ⟨fun _ => 0, tendsto_const_nhds, .of_forall fun n => ⟨_, rfl, ⟨trivial, trivial⟩, ?_⟩⟩
    simp [CForm.exact, cval, RZero.zero, Ieee.value, _root_.Complex.ext_iff]
  | one =>
    refine ⟨fun _ => 0, tendsto_const_nhds, .of_forall fun n => ⟨_, rfl, ⟨trivial, trivial⟩, ?_⟩⟩
    have : cval (ROne.one : Complex (Ieee (F n))) = 1 := by
      apply _root_.Complex.ext <;> simp [cval, ROne.one, RZero.zero, Ieee.value]
    simp [CForm.exact, this]
  | add a b iha ihb => exact (iha hf.1).add hp (ihb hf.2)
  | sub a b iha ihb => exact (iha hf.1).sub hp (ihb hf.2)
  | mul a b iha ihb => exact (iha hf.1).mul hp (ihb hf.2)
  | div a b iha ihb => exact (iha hf.1).div hp (ihb hf.2.1) hf.2.2
  | neg a iha =>
    obtain ⟨α, hα, h⟩ := iha hf
    refine ⟨α, hα, ?_⟩
    filter_upwards [h] with n ⟨p, ep, fp, bp⟩
    refine ⟨⟨p.re.neg, p.im.neg⟩, by simp only [CForm.run, ep]; rfl, ⟨Ieee.neg_finite.2 fp.1, Ieee.neg_finite.2 fp.2⟩, ?_⟩
    have : cval (⟨p.re.neg, p.im.neg⟩ : Complex (Ieee (F n))) = -cval p := by
      apply _root_.Complex.ext <;> simp [cval, Ieee.neg_value]
    simp only [CForm.exact]
    rw [this, neg_sub_neg, norm_sub_rev]
    exact bp
  | conj a iha =>
    obtain ⟨α, hα, h⟩ := iha hf
    refine ⟨α, hα, ?_⟩
    filter_upwards [h] with n ⟨p, ep, fp, bp⟩
    refine ⟨⟨p.re, p.im.neg⟩, by simp only [CForm.run, ep]; rfl, ⟨fp.1, Ieee.neg_finite.2 fp.2⟩, ?_⟩
    have : cval (⟨p.re, p.im.neg⟩ : Complex (Ieee (F n))) = (starRingEnd ℂ) (cval p) := by
      apply _root_.Complex.ext <;> simp [cval, Ieee.neg_value]
    simp only [CForm.exact]
    rw [this, ← map_sub, _root_.Complex.norm_conj]
    exact bp
  | scale a i iha =>
    refine (iha hf).scale hp (b := fun n => (x' n i).re) (tendsto_iff_norm_sub_tendsto_zero.1 (hx i).2) ?_
    filter_upwards [(hx i).1] with n h
    exact ⟨h.1, re_near (p := cval (x' n i)) le_rfl⟩
  | exp a iha => exact (iha hf.1).exp hp hε hθ hlib hf.2.1 hf.2.2
  | sin a iha => exact (iha hf.1).sin hp hε hθ hlib hf.2.1 hf.2.2
  | cos a iha => exact (iha hf.1).cos hp hε hθ hlib hf.2.1 hf.2.2
  | sinh a iha => exact (iha hf.1).sinh hp hε hθ hlib hf.2.1 hf.2.2
  | cosh a iha => exact (iha hf.1).cosh hp hε hθ hlib hf.2.1 hf.2.2
  | ln a iha => exact Approaches.ln hp hε hθ hδ hlog (iha hf.1) hf.2
  | sqrt a iha => exact (iha hf.1).sqrt hp hf.2

/-- C87: in formats of growing precision, with scalar functions of growing accuracy and inputs that converge to `x`, the
computed value of a formula is finite sooner or later, and converges to its true value at `x`, if the formula is regular there. -/
theorem C87_converges {ι : Type} {l : Filter ι} {F : ι → Fmt} [∀ n, RExp (Ieee (F n))] [∀ n, RSin (Ieee (F n))]
    [∀ n, RCos (Ieee (F n))] [∀ n, RSinh (Ieee (F n))] [∀ n, RCosh (Ieee (F n))] [∀ n, RLn (Ieee (F n))]
    [∀ n, RAtan2 (Ieee (F n))] {R : ℝ} {ε θ δ : ι → ℝ} (hp : Tendsto (fun n => (F n).p) l atTop) (hε : Tendsto ε l (𝓝 0))
    (hθ : Tendsto θ l (𝓝 0)) (hδ : Tendsto δ l (𝓝 0)) (hlib : ∀ᶠ n in l, FnLib (F n) R (ε n) (θ n))
    (hlog : ∀ᶠ n in l, LogLib (F n) (ε n) (θ n) (δ n)) (x : ℕ → ℂ) (x' : ∀ n, ℕ → Complex (Ieee (F n)))
    (hx : ∀ i, (∀ᶠ n in l, CFinite (x' n i)) ∧ Tendsto (fun n => cval (x' n i)) l (𝓝 (x i))) (f : CForm) (hf : f.Regular R x) :
    (∀ᶠ n in l, ∃ r, f.run (x' n) = .ok r ∧ CFinite r) ∧ Tendsto (fun n => f.got (x' n)) l (𝓝 (f.exact x)) := by
  obtain ⟨α, hα, h⟩ := f.approaches hp hε hθ hδ hlib hlog x x' hx hf
  refine ⟨h.mono fun n ⟨r, er, fr, _⟩ => ⟨r, er, fr⟩, ?_⟩
  rw [tendsto_iff_norm_sub_tendsto_zero]
  refine squeeze_zero' (.of_forall fun n => norm_nonneg _) ?_ hα
  filter_upwards [h] with n ⟨r, er, _, br⟩
  rw [CForm.got_ok er]
  exact br

/-- A floating point format with scalar functions and inputs of accuracy `κ`. -/
structure Setup (R : ℝ) (x : ℕ → ℂ) where
  F : Fmt
  iExp : RExp (Ieee F)
  iSin : RSin (Ieee F)
  iCos : RCos (Ieee F)
  iSinh : RSinh (Ieee F)
  iCosh : RCosh (Ieee F)
  iLn : RLn (Ieee F)
  iAtan2 : RAtan2 (Ieee F)
  κ : ℝ
  fn : FnLib F R κ κ
  log : LogLib F κ κ κ
  input : ℕ → Complex (Ieee F)
  finite : ∀ i, CFinite (input i)
  near : ∀ i, ‖cval (input i) - x i‖ ≤ κ

/-- C87: for every formula that is regular at `x`, and every tolerance `τ`, there are a precision `N` and an accuracy `κ` such
that, in every format of at least this precision, with scalar functions and inputs of this accuracy, the computed value is finite
and within `τ` of the true value at `x`. -/
theorem C87_precision {R : ℝ} {x : ℕ → ℂ} {f : CForm} (hf : f.Regular R x) {τ : ℝ} (hτ : 0 < τ) :
    ∃ (N : ℕ) (κ : ℝ), 0 < κ ∧ ∀ (F : Fmt) [RExp (Ieee F)] [RSin (Ieee F)] [RCos (Ieee F)] [RSinh (Ieee F)] [RCosh (Ieee F)]
      [RLn (Ieee F)] [RAtan2 (Ieee F)], N ≤ F.p → FnLib F R κ κ → LogLib F κ κ κ → ∀ x' : ℕ → Complex (Ieee F),
      (∀ i, CFinite (x' i) ∧ ‖cval (x' i) - x i‖ ≤ κ) → ∃ r, f.run x' = .ok r ∧ CFinite r ∧ ‖cval r - f.exact x‖ ≤ τ := by
  let l : Filter (Setup R x) := comap (fun s => (s.F.p, s.κ)) (atTop ×ˢ 𝓝 0)
  have t : Tendsto (fun s : Setup R x => (s.F.p, s.κ)) l (atTop ×ˢ 𝓝 0) := tendsto_comap
  have hp : Tendsto (fun s : Setup R x => s.F.p) l atTop := tendsto_fst.comp t
  have hκ : Tendsto (fun s : Setup R x => s.κ) l (𝓝 0) := tendsto_snd.comp t
  let _ := fun s : Setup R x => s.iExp
  let _ := fun s : Setup R x => s.iSin
  let _ := fun s : Setup R x => s.iCos
  let _ := fun s : Setup R x => s.iSinh
  let _ := fun s : Setup R x => s.iCosh
  let _ := fun s : Setup R x => s.iLn
  let _ := fun s : Setup R x => s.iAtan2
  obtain ⟨α, hα, h⟩ := f.approaches (F := fun s : Setup R x => s.F) hp hκ hκ hκ (.of_forall fun s => s.fn)
    (.of_forall fun s => s.log) x (fun s => s.input) (fun i => ⟨.of_forall fun s => s.finite i,
      tendsto_iff_norm_sub_tendsto_zero.2 (squeeze_zero (fun _ => norm_nonneg _) (fun s => s.near i) hκ)⟩) hf
  have e : ∀ᶠ s : Setup R x in l, ∃ r, f.run s.input = .ok r ∧ CFinite r ∧ ‖cval r - f.exact x‖ ≤ τ := by
    filter_upwards [h, hα.eventually_le_const hτ] with s ⟨r, h1, h2, h3⟩ h4
    exact ⟨r, h1, h2, h3.trans h4⟩
  obtain ⟨V, hV, hs⟩ := mem_comap.1 e
  obtain ⟨P, hP, Q, hQ, hPQ⟩ := mem_prod_iff.1 hV
  obtain ⟨N, hN⟩ := mem_atTop_sets.1 hP
  obtain ⟨κ, κ0, hκ'⟩ := Metric.mem_nhds_iff.1 hQ
  refine ⟨N, κ / 2, by positivity, ?_⟩
  intro F i1 i2 i3 i4 i5 i6 i7 hF h1 h2 x' hx'
  exact hs (a := ⟨F, i1, i2, i3, i4, i5, i6, i7, κ / 2, h1, h2, x', fun i => (hx' i).1, fun i => (hx' i).2⟩)
    (hPQ ⟨hN _ hF, hκ' (by
      rw [Metric.mem_ball, Real.dist_eq, sub_zero, abs_of_pos (by positivity)]
      linarith)⟩)

end converge

end Magnesia
