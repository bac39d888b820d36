import Verif.Props.DEProb
import Verif.Props.DERel
import Mathlib.Probability.ProductMeasure
import Mathlib.MeasureTheory.Measure.Lebesgue.Basic
import Mathlib.MeasureTheory.Measure.Prod
import Mathlib.MeasureTheory.Function.Floor

/-!
# An ideal generator

Concrete cases of the theorems of `Props/DEProb.lean`: the generator's state is an infinite sequence of independent real
numbers, uniformly distributed in `[0, 1)`; each draw uses the first of them up. So the hypothesis "ideal" can be met.
-/

namespace Magnesia.Witness

open MeasureTheory ENNReal

section stream

variable {Ω α : Type} [MeasurableSpace Ω] (ν : Measure Ω) [IsProbabilityMeasure ν]

/-- A sequence of independent values with distribution `ν`. -/
noncomputable def stream : Measure (ℕ → Ω) := Measure.infinitePi fun _ => ν

instance : IsProbabilityMeasure (stream ν) := by unfold stream; infer_instance

/-- Put a value in front. -/
def consS (x : Ω × (ℕ → Ω)) : ℕ → Ω := fun k => Nat.casesOn k x.1 x.2

theorem measurable_consS : Measurable (consS (Ω := Ω)) := by
  rw [measurable_pi_iff]
  intro k
  cases k with
  | zero => exact measurable_fst
  | succ k => exact (measurable_pi_apply k).comp measurable_snd

/-- A new value in front of the sequence is as good as a sequence. -/
theorem stream_cons : (ν.prod (stream ν)).map consS = stream ν := by
  classical
  unfold stream
  refine Measure.eq_infinitePi _ fun s t ht => ?_
  rw [Measure.map_apply measurable_consS (MeasurableSet.pi s.countable_toSet fun i _ => ht i)]
  let t0 : Set Ω := if 0 ∈ s then t 0 else Set.univ
  have hpre : consS ⁻¹' (Set.pi s t) = t0 ×ˢ (Set.pi (s.preimage Nat.succ Nat.succ_injective.injOn) fun i => t i.succ) := by
    ext ⟨x, g⟩
    simp only [Set.mem_preimage, Set.mem_pi, Set.mem_prod, Finset.coe_preimage, Set.mem_preimage]
    constructor
    · intro h
      refine ⟨?_, fun i hi => h i.succ hi⟩
      by_cases h0 : 0 ∈ s
      · simpa [t0, h0, consS] using h 0 h0
      · simp [t0, h0]
    · rintro ⟨h0, h⟩ i hi
      cases i with
      | zero => simpa [t0, show 0 ∈ s from hi, consS] using h0
      | succ i => exact h i hi
  rw [hpre, Measure.prod_prod, Measure.infinitePi_pi _ (fun i _ => ht _)]
  have hs : ∏ i ∈ s.preimage Nat.succ Nat.succ_injective.injOn, ν (t i.succ) = ∏ i ∈ s.erase 0, ν (t i) := by
    refine Finset.prod_nbij Nat.succ (fun i hi => by simpa using hi) Nat.succ_injective.injOn ?_ (fun _ _ => rfl)
    intro i hi
    obtain ⟨h0, h1⟩ := Finset.mem_erase.1 hi
    exact ⟨i - 1, by simpa [Nat.succ_pred_eq_of_ne_zero h0, Nat.sub_add_cancel (Nat.pos_of_ne_zero h0)] using h1,
      Nat.sub_add_cancel (Nat.pos_of_ne_zero h0)⟩
  rw [hs]
  by_cases h0 : 0 ∈ s
  · simp only [t0, h0, if_true]
    exact Finset.mul_prod_erase s (fun i => ν (t i)) h0
  · simp [t0, h0]

/-- Use up the first value. -/
theorem stream_isSample (f : Ω → α) (d : PMF α) (hf : ∀ x, MeasurableSet (f ⁻¹' {x})) (hd : ∀ x, ν (f ⁻¹' {x}) = d x) :
    IsSample (stream ν) (fun g => (.ok (f (g 0)), fun k => g (k + 1))) d := by
  have hset : ∀ x (A : Set (ℕ → Ω)), {g : ℕ → Ω | (Except.ok (f (g 0)) : Res α) = .ok x ∧ (fun k => g (k + 1)) ∈ A} =
      (fun g : ℕ → Ω => g 0) ⁻¹' (f ⁻¹' {x}) ∩ (fun g k => g (k + 1)) ⁻¹' A := by
    intro x A
    ext g
    simp
  have hsh : Measurable (fun (g : ℕ → Ω) k => g (k + 1)) :=
    measurable_pi_iff.2 fun k => measurable_pi_apply (k + 1)
  have hm : ∀ x (A : Set (ℕ → Ω)), MeasurableSet A →
      MeasurableSet {g : ℕ → Ω | (Except.ok (f (g 0)) : Res α) = .ok x ∧ (fun k => g (k + 1)) ∈ A} := by
    intro x A hA
    rw [hset]
    exact (measurable_pi_apply 0 (hf x)).inter (hsh hA)
  refine ⟨hm, fun x A hA => ?_⟩
  show stream ν {g : ℕ → Ω | (Except.ok (f (g 0)) : Res α) = .ok x ∧ (fun k => g (k + 1)) ∈ A} = _
  conv_lhs => rw [← stream_cons ν]
  rw [Measure.map_apply measurable_consS (hm x A hA)]
  have : consS ⁻¹' {g : ℕ → Ω | (Except.ok (f (g 0)) : Res α) = .ok x ∧ (fun k => g (k + 1)) ∈ A} = (f ⁻¹' {x}) ×ˢ A := by
    ext ⟨y, g⟩
    simp [consS]
  rw [this, Measure.prod_prod, hd]

end stream

/-! ## Real numbers in `[0, 1)` -/

/-- The unit interval, without one. -/
abbrev Unit01 := Set.Ico (0 : ℝ) 1

/-- The uniform distribution on it. -/
noncomputable def unif : Measure Unit01 := volume.comap Subtype.val

theorem unif_apply (s : Set Unit01) : unif s = volume (Subtype.val '' s) :=
  comap_subtype_coe_apply measurableSet_Ico volume s

instance : IsProbabilityMeasure unif := ⟨by
  rw [unif_apply, Set.image_univ, Subtype.range_coe, Real.volume_Ico]
  simp⟩

/-- `⌊m ω⌋`, a number below `m`. -/
noncomputable def scale (m : ℕ) (x : Unit01) : ℕ := ⌊(m : ℝ) * x.1⌋₊

theorem scale_lt {m : ℕ} (hm : 0 < m) (x : Unit01) : scale m x < m := by
  unfold scale
  rw [Nat.floor_lt (mul_nonneg (Nat.cast_nonneg m) x.2.1)]
  have : (0 : ℝ) < m := Nat.cast_pos.2 hm
  nlinarith [x.2.2]

theorem measurable_scale (m : ℕ) : Measurable (scale m) :=
  Nat.measurable_floor.comp (measurable_const.mul measurable_subtype_coe)

theorem unif_scale {m : ℕ} (hm : 0 < m) :
    unif.map (scale m) = (PMF.uniformOfFinset (.range m) ⟨0, Finset.mem_range.2 hm⟩).toMeasure := by
  refine Measure.ext_of_singleton fun k => ?_
  rw [Measure.map_apply (measurable_scale m) (measurableSet_singleton k), PMF.toMeasure_apply_singleton _ _ (measurableSet_singleton k),
    unif_apply]
  have hm' : (0 : ℝ) < m := Nat.cast_pos.2 hm
  by_cases hk : k < m
  · refine Eq.trans ?_ (PMF.uniformOfFinset_apply_of_mem _ (Finset.mem_range.2 hk)).symm
    rw [Finset.card_range]
    have : Subtype.val '' (scale m ⁻¹' {k}) = Set.Ico ((k : ℝ) / m) ((k + 1 : ℝ) / m) := by
      ext x
      simp only [Set.mem_image, Set.mem_preimage, Set.mem_singleton_iff, scale, Subtype.exists, Set.mem_Ico, exists_and_right,
        exists_eq_right, div_le_iff₀ hm', lt_div_iff₀ hm']
      constructor
      · rintro ⟨⟨h0, _⟩, h⟩
        rw [Nat.floor_eq_iff (by positivity)] at h
        constructor <;> linarith [h.1, h.2]
      · rintro ⟨h1, h2⟩
        have h0 : 0 ≤ x := by
          by_contra h
          have : x * m < 0 := mul_neg_of_neg_of_pos (not_le.1 h) hm'
          have : (0 : ℝ) ≤ k := Nat.cast_nonneg k
          linarith
        have h1' : x < 1 := by
          have : (k : ℝ) + 1 ≤ m := by exact_mod_cast hk
          by_contra h
          have : (m : ℝ) ≤ x * m := le_mul_of_one_le_left hm'.le (not_lt.1 h)
          linarith
        refine ⟨⟨h0, h1'⟩, ?_⟩
        rw [Nat.floor_eq_iff (by positivity)]
        constructor <;> linarith
    rw [this, Real.volume_Ico, ← sub_div, add_sub_cancel_left, ENNReal.ofReal_div_of_pos hm', ENNReal.ofReal_one,
      ENNReal.ofReal_natCast, one_div]
  · refine Eq.trans ?_ (PMF.uniformOfFinset_apply_of_notMem _ (by simpa using hk)).symm
    have : scale m ⁻¹' {k} = ∅ := by
      ext x
      have := scale_lt hm x
      simp
      omega
    rw [this]
    simp

theorem scale_isSample {α : Type} {m : ℕ} (hm : 0 < m) (f : ℕ → α) :
    IsSample (stream unif) (fun g => (.ok (f (scale m (g 0))), fun k => g (k + 1)))
      ((PMF.uniformOfFinset (.range m) ⟨0, Finset.mem_range.2 hm⟩).map f) := by
  refine stream_isSample unif (fun x => f (scale m x)) _ (fun x => measurable_scale m (t := f ⁻¹' {x}) (by trivial)) fun x => ?_
  have h1 : (fun x => f (scale m x)) ⁻¹' {x} = scale m ⁻¹' (f ⁻¹' {x}) := rfl
  rw [h1, ← Measure.map_apply (measurable_scale m) (by trivial), unif_scale hm, PMF.toMeasure_apply_eq_toOuterMeasure_apply _ (by trivial),
    ← PMF.toOuterMeasure_map_apply, PMF.toOuterMeasure_apply_singleton]

/-! ## The generator -/

/-- Indices `⌊n ω⌋`, integers `lo + ⌊(hi - lo) ω⌋`, and `⌊2^24 ω⌋ / 2^24` for `gen::<f32>()`. The comparator minimises
`x₀ + 2 x₁`. -/
noncomputable def dice : DEnv (Exact ℤ) (Exact ℚ) 2 (ℕ → Unit01) Unit where
  genIndex n g := (if 0 < n then .ok (scale n (g 0)) else .error .emptyRange, fun k => g (k + 1))
  genUniform lo hi g := (if lo.val < hi.val then .ok ⟨lo.val + scale (hi.val - lo.val).toNat (g 0)⟩ else .error .emptyRange,
    fun k => g (k + 1))
  genUnit g := (⟨(scale (2 ^ 24) (g 0) : ℚ) / 2 ^ 24⟩, fun k => g (k + 1))
  compare a b s := (.ok (decide ((a 0).val + 2 * (a 1).val < (b 0).val + 2 * (b 1).val)), s)

theorem dice_contract : dice.RandContract where
  index_empty g := rfl
  index_returns n g hn := ⟨_, if_pos hn⟩
  index_range n g k h := by
    unfold dice at h
    by_cases hn : 0 < n
    · simp only [hn, if_true] at h
      cases h
      exact scale_lt hn _
    · simp [hn] at h
  uniform_empty lo hi g h := if_neg (by simpa [RPartialOrd.lt] using h)
  uniform_range lo hi g x h := by
    unfold dice at h
    by_cases hl : lo.val < hi.val
    · simp only [if_pos hl] at h
      cases h
      have := scale_lt (m := (hi.val - lo.val).toNat) (by omega) (g 0)
      simp only [RPartialOrd.le, RPartialOrd.lt, decide_eq_true_eq]
      omega
    · simp only [if_neg hl] at h; cases h
  unit_range g := by
    have h := scale_lt (m := 2 ^ 24) (by norm_num) (g 0)
    have h' : (scale (2 ^ 24) (g 0) : ℚ) < 2 ^ 24 := by exact_mod_cast h
    have h0 : (0 : ℚ) ≤ scale (2 ^ 24) (g 0) := Nat.cast_nonneg _
    constructor
    · exact decide_eq_false (not_lt.2 (div_nonneg h0 (by norm_num)))
    · exact decide_eq_true ((div_lt_one (by norm_num)).2 h')

/-- The bounds `-3..5` and `0..4`. -/
def diceBounds : Fin 2 → Exact ℤ × Exact ℤ := fun c => if c = 0 then (⟨-3⟩, ⟨5⟩) else (⟨0⟩, ⟨4⟩)

/-- The textbook algorithm for it: crossover probability 9/10, weight 2. -/
noncomputable def diceBook : Textbook (Exact ℤ) (Exact ℚ) 2 where
  D c := (PMF.uniformOfFinset (.range (if c = 0 then 8 else 4)) ⟨0, by split <;> simp⟩).map fun k : ℕ =>
    if c = 0 then ⟨-3 + k⟩ else ⟨0 + k⟩
  U := (PMF.uniformOfFinset (.range (2 ^ 24)) ⟨0, by simp⟩).map fun k : ℕ => ⟨(k : ℚ) / 2 ^ 24⟩
  cp := ⟨9 / 10⟩
  mutation x y z := ⟨x.val + (y.val - z.val) * 2⟩
  better a b := decide ((a 0).val + 2 * (a 1).val < (b 0).val + 2 * (b 1).val)

theorem dice_ideal : dice.Ideal (stream unif) diceBounds diceBook.D diceBook.U where
  index n hn := by
    have := scale_isSample hn id
    rw [PMF.map_id] at this
    simpa [dice, hn] using this
  uniform c := by
    fin_cases c
    · simpa [dice, diceBounds, diceBook] using scale_isSample (m := 8) (by norm_num) (fun k : ℕ => (⟨-3 + k⟩ : Exact ℤ))
    · simpa [dice, diceBounds, diceBook] using scale_isSample (m := 4) (by norm_num) (fun k : ℕ => (⟨0 + k⟩ : Exact ℤ))
  unit := scale_isSample (m := 2 ^ 24) (by norm_num) fun k : ℕ => (⟨(k : ℚ) / 2 ^ 24⟩ : Exact ℚ)

theorem dice_compares : dice.Compares diceBook.better := fun _ _ _ => rfl
theorem dice_strict : StrictWeak diceBook.better := strictWeak_objective fun a : Pt (Exact ℤ) 2 => (a 0).val + 2 * (a 1).val
theorem dice_mutation (x y z : Exact ℤ) : (do RAdd.add x (← RMul.mul (← RSub.sub y z) (⟨2⟩ : Exact ℤ))) =
    Except.ok (diceBook.mutation x y z) := rfl
theorem dice_valid : ValidParams 7 diceBook.cp (⟨2⟩ : Exact ℤ) where
  size := by norm_num
  cp_nonneg := by simp only [diceBook]; decide +kernel
  cp_le_one := by simp only [diceBook]; decide +kernel
  weight_nonneg := by decide +kernel
  weight_le_two := by decide +kernel

/-- The points with `x₀ + 2 x₁ ≤ -1`. -/
def low : Set (Pt (Exact ℤ) 2) := {x | (x 0).val + 2 * (x 1).val ≤ -1}
theorem low_good : GoodSet diceBook.better low := by
  intro x y hx h
  simp only [low, diceBook, Set.mem_ofPred_eq, decide_eq_false_iff_not] at *
  omega

instance : Countable (Exact ℤ) := Function.Injective.countable (f := Exact.val) fun _ _ h => congrArg Exact.mk h
instance : Countable (Exact ℚ) := Function.Injective.countable (f := Exact.val) fun _ _ h => congrArg Exact.mk h

example := C64_champion dice_strict [fun _ => ⟨1⟩, fun _ => ⟨2⟩] (by simp)
example := C64_crossover_rate (E := diceBook) (fun _ => ⟨1⟩) (fun _ => ⟨2⟩) 1 (by decide)
example := C64_distribution dice_contract dice_ideal dice_compares dice_mutation dice_valid 100 5 () [] low
example := C64_fuel dice_contract dice_ideal dice_compares dice_mutation dice_valid 100 5 () []
example := C64_probability dice_contract dice_ideal dice_compares dice_mutation dice_valid 5 () [] low
example := C64_terminates dice_contract dice_ideal dice_compares dice_mutation dice_valid 5 () []
example := C64_monotone dice_contract dice_ideal dice_compares dice_strict dice_mutation dice_valid (show 5 ≤ 9 by norm_num) () []
  low low_good
example := C64_success dice_contract dice_ideal dice_compares dice_strict dice_mutation dice_valid 5 () [] low low_good

/-! ## Floating point numbers -/

/-- The same with `f64` coordinates, which are the lower bound or one, each with probability 1/2; `gen::<f32>()` gives 0, 1/4,
1/2 or 3/4. The comparator is that of `demoF`. -/
noncomputable def diceF : DEnv (Ieee .f64) (Ieee .f32) 2 (ℕ → Unit01) Unit where
  genIndex n g := (if 0 < n then .ok (scale n (g 0)) else .error .emptyRange, fun k => g (k + 1))
  genUniform lo hi g := (if lo.flt hi then .ok (if scale 2 (g 0) = 1 ∧ lo.fle ROne.one ∧ (ROne.one : Ieee .f64).flt hi then
    ROne.one else lo) else .error .emptyRange, fun k => g (k + 1))
  genUnit g := (f32 ((scale 4 (g 0) : ℚ) / 4), fun k => g (k + 1))
  compare := demoF.compare

theorem quarters : ∀ k : ℕ, k < 4 → (f32 ((k : ℚ) / 4)).flt (RZero.zero : Ieee .f32) = false ∧
    (f32 ((k : ℚ) / 4)).flt (ROne.one : Ieee .f32) = true := by decide +kernel

theorem diceF_contract : diceF.RandContract where
  index_empty g := rfl
  index_returns n g hn := ⟨_, if_pos hn⟩
  index_range n g k h := by
    unfold diceF at h
    by_cases hn : 0 < n
    · simp only [hn, if_true] at h
      cases h
      exact scale_lt hn _
    · simp [hn] at h
  uniform_empty lo hi g h := if_neg (by rw [show lo.flt hi = false from h]; simp)
  uniform_range lo hi g x h := by
    change (if lo.flt hi = true then Except.ok (if scale 2 (g 0) = 1 ∧ lo.fle ROne.one ∧ (ROne.one : Ieee .f64).flt hi then
      ROne.one else lo) else Except.error Panic.emptyRange) = .ok x at h
    show lo.fle x = true ∧ x.flt hi = true
    split_ifs at h with h1 h2
    · cases h; exact h2.2
    · cases h
      refine ⟨?_, h1⟩
      have hn : lo ≠ .nan := by rintro rfl; rw [Ieee.flt_nan_left] at h1; cases h1
      obtain ⟨k, hk⟩ := Ieee.key_some hn
      simp [Ieee.fle, hk]
  unit_range g := quarters _ (scale_lt (m := 4) (by norm_num) (g 0))

theorem diceF_ideal : diceF.Ideal (stream unif) boundsF
    (fun _ => (PMF.uniformOfFinset (.range 2) ⟨0, by simp⟩).map fun k : ℕ => if k = 1 then ROne.one else f64 (-2))
    ((PMF.uniformOfFinset (.range 4) ⟨0, by simp⟩).map fun k : ℕ => f32 ((k : ℚ) / 4)) where
  index n hn := by
    have := scale_isSample hn id
    rw [PMF.map_id] at this
    simpa [diceF, hn] using this
  uniform c := by
    have h := scale_isSample (m := 2) (by norm_num) (fun k : ℕ => if k = 1 then (ROne.one : Ieee .f64) else f64 (-2))
    have e : diceF.genUniform (boundsF c).1 (boundsF c).2 = fun g =>
        (.ok (if scale 2 (g 0) = 1 then (ROne.one : Ieee .f64) else f64 (-2)), fun k => g (k + 1)) := by
      funext g
      have h1 : (f64 (-2)).flt (f64 3) = true := by decide +kernel
      have h2 : (f64 (-2)).fle ROne.one = true := by decide +kernel
      have h3 : (ROne.one : Ieee .f64).flt (f64 3) = true := by decide +kernel
      simp only [diceF, boundsF, h1, h2, h3, if_true, and_true]
    rw [e]
    exact h
  unit := scale_isSample (m := 4) (by norm_num) fun k : ℕ => f32 ((k : ℚ) / 4)

/-- Points with a positive second coordinate. -/
example := C64_float (n := 4) (cp := f32 (1 / 2)) (w := f64 (3 / 4)) diceF_contract diceF_ideal (fun _ _ _ => rfl) (by norm_num)
  (by decide +kernel) (by decide +kernel) 9 () [] {x | 0 < (x 1).value}

end Magnesia.Witness
