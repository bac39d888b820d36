import Verif.Spec.DECost
import Verif.Proof.DELaw
import Mathlib.MeasureTheory.Constructions.Polish.Basic

/-!
# The number of random numbers a run needs (helper lemmas)
-/

namespace Magnesia

open MeasureTheory ENNReal Filter

variable {T P G S α β γ : Type} {N n : ℕ}

/-- `m'` does the same as `m` and adds `κ` to the counter. -/
def Tally (m' : Proc (DEWorld T N (G × ℕ) S) α) (m : Proc (DEWorld T N G S) α) (κ : G → S → List (Call T N) → ℕ) : Prop :=
  ∀ g k c l, m' ⟨(g, k), c, l⟩ = ((m ⟨g, c, l⟩).1,
    ⟨((m ⟨g, c, l⟩).2.rng, k + κ g c l), (m ⟨g, c, l⟩).2.cmp, (m ⟨g, c, l⟩).2.log⟩)

/-- What comes after `m`. -/
def laterCost (m : Proc (DEWorld T N G S) α) (κ : α → G → S → List (Call T N) → ℕ) (g : G) (c : S) (l : List (Call T N)) : ℕ :=
  match m ⟨g, c, l⟩ with
  | (.ok a, w) => κ a w.rng w.cmp w.log
  | (.error _, _) => 0

namespace Tally

theorem bind {m' : Proc (DEWorld T N (G × ℕ) S) α} {m : Proc (DEWorld T N G S) α} {κ : G → S → List (Call T N) → ℕ}
    {f' : α → Proc (DEWorld T N (G × ℕ) S) β} {f : α → Proc (DEWorld T N G S) β} {κf : α → G → S → List (Call T N) → ℕ}
    (hm : Tally m' m κ) (hf : ∀ a, CanReturn m a → Tally (f' a) (f a) (κf a)) :
    Tally (m' >>= f') (m >>= f) fun g c l => κ g c l + laterCost m κf g c l := by
  intro g k c l
  rw [Proc.bind_eq, Proc.bind_eq, hm g k c l]
  unfold laterCost
  rcases h : m ⟨g, c, l⟩ with ⟨_ | a, g1, c1, l1⟩
  · simp only [h, Nat.add_zero]
  · simp only [h, hf a ⟨_, _, h⟩ g1 (k + κ g c l) c1 l1, Nat.add_assoc]

theorem bind0 {m' : Proc (DEWorld T N (G × ℕ) S) α} {m : Proc (DEWorld T N G S) α}
    {f' : α → Proc (DEWorld T N (G × ℕ) S) β} {f : α → Proc (DEWorld T N G S) β}
    (hm : Tally m' m 0) (hf : ∀ a, Tally (f' a) (f a) 0) : Tally (m' >>= f') (m >>= f) 0 := by
  have h : (fun g c l => (0 : G → S → List (Call T N) → ℕ) g c l + laterCost m (fun _ => 0) g c l) = 0 := by
    funext g c l
    unfold laterCost
    split <;> rfl
  exact h ▸ hm.bind (κf := fun _ => 0) fun a _ => hf a

theorem pure (a : α) : Tally (Pure.pure a : Proc (DEWorld T N (G × ℕ) S) α) (Pure.pure a : Proc (DEWorld T N G S) α) 0 :=
  fun _ _ _ _ => rfl

theorem ofRes (x : Res α) : Tally (Proc.ofRes x : Proc (DEWorld T N (G × ℕ) S) α) (Proc.ofRes x : Proc (DEWorld T N G S) α) 0 :=
  fun _ _ _ _ => rfl

theorem foldlM0 {ι : Type} {f' : α → ι → Proc (DEWorld T N (G × ℕ) S) α} {f : α → ι → Proc (DEWorld T N G S) α}
    (h : ∀ a i, Tally (f' a i) (f a i) 0) : ∀ (l : List ι) (a : α), Tally (l.foldlM f' a) (l.foldlM f a) 0
  | [], a => pure a
  | i :: l, a => by
    rw [List.foldlM_cons, List.foldlM_cons]
    exact (h a i).bind0 fun b => foldlM0 h l b

variable (env : DEnv T P N G S)

theorem cmp (a b : Pt T N) : Tally (env.counted.cmp a b) (env.cmp a b) 0 := fun _ _ _ _ => rfl

theorem game (len half : ℕ) (pop : List (Pt T N)) (i : ℕ) :
    Tally (env.counted.knockoutGame len half pop i) (env.knockoutGame len half pop i) 0 := by
  unfold DEnv.knockoutGame
  refine (ofRes _).bind0 fun a => (ofRes _).bind0 fun b => (cmp env a b).bind0 fun ans => (ofRes _).bind0 fun pop => ?_
  split
  · exact ofRes _
  · exact pure _

theorem knockout : ∀ (k : ℕ) (pop : List (Pt T N)), pop.length = k → Tally (env.counted.knockout pop) (env.knockout pop) 0 := by
  intro k
  induction k using Nat.strongRecOn with
  | _ k ih =>
    intro pop hl
    rw [DEnv.knockout, DEnv.knockout]
    by_cases h1 : pop.length > 1
    · rw [if_pos h1, if_pos h1]
      refine (foldlM0 (fun q i => game env _ _ q i) _ pop).bind0 fun q => ih _ ?_ _ rfl
      have := List.length_take_le ((pop.length + 1) / 2) q
      omega
    · rw [if_neg h1, if_neg h1]
      exact ofRes _

end Tally

variable [MeasurableSpace G] {μ : Measure G}

/-- `m'` does the same as `m` and counts, at most `B` and on average `e` (at least `e - δ`). -/
def Costs (μ : Measure G) (m' : Proc (DEWorld T N (G × ℕ) S) α) (m : Proc (DEWorld T N G S) α) (e δ : ℝ≥0∞) (B : ℕ) : Prop :=
  ∃ κ : G → S → List (Call T N) → ℕ, Tally m' m κ ∧ ∀ c l, Measurable (fun g => κ g c l) ∧ (∀ g, κ g c l ≤ B) ∧
    ∫⁻ g, (κ g c l : ℝ≥0∞) ∂μ ≤ e ∧ e ≤ ∫⁻ g, (κ g c l : ℝ≥0∞) ∂μ + δ

namespace Costs

theorem mono {m' : Proc (DEWorld T N (G × ℕ) S) α} {m : Proc (DEWorld T N G S) α} {e e' δ δ' : ℝ≥0∞} {B B' : ℕ}
    (h : Costs μ m' m e δ B) (he : e = e') (hδ : δ ≤ δ') (hB : B ≤ B') : Costs μ m' m e' δ' B' := by
  subst he
  obtain ⟨κ, h1, h2⟩ := h
  refine ⟨κ, h1, fun c l => ?_⟩
  obtain ⟨h3, h4, h5, h6⟩ := h2 c l
  exact ⟨h3, fun g => (h4 g).trans hB, h5, h6.trans (by gcongr)⟩

theorem zero {m' : Proc (DEWorld T N (G × ℕ) S) α} {m : Proc (DEWorld T N G S) α} (h : Tally m' m 0) : Costs μ m' m 0 0 0 :=
  ⟨0, h, fun c l => ⟨measurable_const, fun _ => le_rfl, by simp, by simp⟩⟩

theorem one [IsProbabilityMeasure μ] {m' : Proc (DEWorld T N (G × ℕ) S) α} {m : Proc (DEWorld T N G S) α}
    (h : Tally m' m fun _ _ _ => 1) : Costs μ m' m 1 0 1 :=
  ⟨fun _ _ _ => 1, h, fun c l => ⟨measurable_const, fun _ => le_rfl, by simp, by simp⟩⟩

theorem bind [Countable α] [Countable S] [Countable T] [IsProbabilityMeasure μ] {m' : Proc (DEWorld T N (G × ℕ) S) α}
    {m : Proc (DEWorld T N G S) α} {f' : α → Proc (DEWorld T N (G × ℕ) S) β} {f : α → Proc (DEWorld T N G S) β} {d : PMF α}
    {ε e δ M : ℝ≥0∞} {e' δ' : α → ℝ≥0∞} {B B' : ℕ} (hs : Samples μ m d ε) (hm : Costs μ m' m e δ B)
    (hf : ∀ a, CanReturn m a → Costs μ (f' a) (f a) (e' a) (δ' a) B') (hM : ∀ a, e' a ≤ M) :
    Costs μ (m' >>= f') (m >>= f) (e + ∑' a, d a * e' a) (δ + (∑' a, d a * δ' a + ε * M)) (B + B') := by
  classical
  have hf' : ∀ a, ∃ κ : G → S → List (Call T N) → ℕ, (CanReturn m a → Tally (f' a) (f a) κ) ∧
      ∀ c l, Measurable (fun g => κ g c l) ∧ (∀ g, κ g c l ≤ B') ∧ (CanReturn m a → ∫⁻ g, (κ g c l : ℝ≥0∞) ∂μ ≤ e' a ∧
        e' a ≤ ∫⁻ g, (κ g c l : ℝ≥0∞) ∂μ + δ' a) := by
    intro a
    by_cases ha : CanReturn m a
    · obtain ⟨κ, h1, h2⟩ := hf a ha
      exact ⟨κ, fun _ => h1, fun c l => ⟨(h2 c l).1, (h2 c l).2.1, fun _ => (h2 c l).2.2⟩⟩
    · exact ⟨0, fun h => absurd h ha, fun c l => ⟨measurable_const, fun _ => Nat.zero_le _, fun h => absurd h ha⟩⟩
  choose κf hκf using hf'
  obtain ⟨κ, hκ, hκ2⟩ := hm
  refine ⟨_, hκ.bind fun a ha => (hκf a).1 ha, fun c l => ?_⟩
  obtain ⟨q, h1, h2, h3⟩ := hs c l
  obtain ⟨h4, h5, h6, h7⟩ := hκ2 c l
  let E : α × S × List (Call T N) → Set G := fun b => Ends m c l b Set.univ
  have hE : ∀ b, MeasurableSet (E b) := fun b => (h1 b _ MeasurableSet.univ).1
  let R : α × S × List (Call T N) → G → G := fun b g => if g ∈ E b then (m ⟨g, c, l⟩).2.rng else g
  have hEnds : ∀ b A g, g ∈ Ends m c l b A ↔ g ∈ E b ∧ (m ⟨g, c, l⟩).2.rng ∈ A := by
    intro b A g
    constructor
    · rintro ⟨g', hg, h⟩
      exact ⟨⟨g', trivial, h⟩, by rw [h]; exact hg⟩
    · rintro ⟨⟨g', _, h⟩, hA⟩
      refine ⟨g', ?_, h⟩
      rw [h] at hA
      exact hA
  have hR : ∀ b, Measurable (R b) := by
    intro b A hA
    have : R b ⁻¹' A = Ends m c l b A ∪ (A ∩ (E b)ᶜ) := by
      ext g
      simp only [R, Set.mem_preimage, Set.mem_union, Set.mem_inter_iff, Set.mem_compl_iff, hEnds]
      by_cases hg : g ∈ E b <;> simp [hg]
    rw [this]
    exact (h1 b A hA).1.union (hA.inter (hE b).compl)
  have hmap : ∀ b, (μ.restrict (E b)).map (R b) = q b • μ := by
    intro b
    ext A hA
    rw [Measure.map_apply (hR b) hA, Measure.restrict_apply (hR b hA), Measure.smul_apply, smul_eq_mul, ← (h1 b A hA).2]
    congr 1
    ext g
    simp only [R, Set.mem_inter_iff, Set.mem_preimage, hEnds]
    constructor
    · rintro ⟨hA', hg⟩
      rw [if_pos hg] at hA'
      exact ⟨hg, hA'⟩
    · rintro ⟨hg, hA'⟩
      rw [if_pos hg]
      exact ⟨hA', hg⟩
  let F : α × S × List (Call T N) → G → ℝ≥0∞ := fun b g => (κf b.1 g b.2.1 b.2.2 : ℝ≥0∞)
  have hF : ∀ b, Measurable (F b) := fun b => (measurable_from_nat (f := fun k : ℕ => (k : ℝ≥0∞))).comp ((hκf b.1).2 b.2.1 b.2.2).1
  have hFR : ∀ b, Measurable ((E b).indicator fun g => F b (R b g)) := fun b => ((hF b).comp (hR b)).indicator (hE b)
  have hlater : ∀ g, (laterCost m κf g c l : ℝ≥0∞) = ∑' b, (E b).indicator (fun g => F b (R b g)) g := by
    intro g
    unfold laterCost
    rcases hg : m ⟨g, c, l⟩ with ⟨_ | a, g1, c1, l1⟩
    · simp only [Nat.cast_zero]
      symm
      rw [ENNReal.tsum_eq_zero]
      intro b
      refine Set.indicator_of_notMem ?_ _
      rintro ⟨g', _, h⟩
      rw [hg] at h
      cases h
    · have hin : g ∈ E (a, c1, l1) := ⟨g1, trivial, hg⟩
      rw [tsum_eq_single (a, c1, l1)]
      · rw [Set.indicator_of_mem hin]
        simp only [F, R, if_pos hin, hg]
      · intro b hb
        refine Set.indicator_of_notMem (fun h => ?_) _
        exact Set.disjoint_left.1 (Samples.ends_disjoint m c l hb Set.univ Set.univ) h hin
  have hmeas' : Measurable fun g => (laterCost m κf g c l : ℝ≥0∞) := by
    simp only [hlater]
    exact Measurable.tsum hFR
  have hmeas : Measurable fun g => laterCost m κf g c l := by
    refine measurable_to_countable' fun j => ?_
    have : (fun g => laterCost m κf g c l) ⁻¹' {j} = (fun g => (laterCost m κf g c l : ℝ≥0∞)) ⁻¹' {(j : ℝ≥0∞)} := by
      ext g
      simp
    rw [this]
    exact hmeas' (measurableSet_singleton _)
  have hint : ∫⁻ g, (laterCost m κf g c l : ℝ≥0∞) ∂μ = ∑' b, q b * ∫⁻ g, F b g ∂μ := by
    simp only [hlater]
    rw [lintegral_tsum fun b => (hFR b).aemeasurable]
    congr 1
    funext b
    rw [lintegral_indicator (hE b), ← lintegral_map (hF b) (hR b), hmap, lintegral_smul_measure, smul_eq_mul]
  have hq0 : ∀ a s, ¬ CanReturn m a → q (a, s) = 0 := by
    intro a s ha
    have h := (h1 (a, s) Set.univ MeasurableSet.univ).2
    have he : Ends m c l (a, s) Set.univ = ∅ := by
      ext g
      simp only [Ends, Set.mem_ofPred_eq, Set.mem_empty_iff_false, iff_false]
      rintro ⟨g', _, h⟩
      exact ha ⟨_, _, h⟩
    rw [he, measure_empty, measure_univ, mul_one] at h
    exact h.symm
  have hsum : ∫⁻ g, ((κ g c l + laterCost m κf g c l : ℕ) : ℝ≥0∞) ∂μ =
      ∫⁻ g, (κ g c l : ℝ≥0∞) ∂μ + ∑' b, q b * ∫⁻ g, F b g ∂μ := by
    simp only [Nat.cast_add]
    rw [lintegral_add_right _ hmeas', hint]
  refine ⟨h4.add hmeas, fun g => ?_, ?_, ?_⟩
  · refine Nat.add_le_add (h5 g) ?_
    unfold laterCost
    rcases m ⟨g, c, l⟩ with ⟨_ | a, w⟩
    · exact Nat.zero_le _
    · exact ((hκf a).2 _ _).2.1 _
  · rw [hsum]
    refine add_le_add h6 ?_
    calc ∑' b, q b * ∫⁻ g, F b g ∂μ ≤ ∑' b : α × S × List (Call T N), q b * e' b.1 := by
          refine ENNReal.tsum_le_tsum fun b => ?_
          by_cases hb : CanReturn m b.1
          · gcongr
            exact (((hκf b.1).2 b.2.1 b.2.2).2.2 hb).1
          · rw [hq0 b.1 b.2 hb]; simp
      _ = ∑' a, (∑' s, q (a, s)) * e' a := by
          rw [ENNReal.tsum_prod']
          simp only [ENNReal.tsum_mul_right]
      _ ≤ ∑' a, d a * e' a := ENNReal.tsum_le_tsum fun a => by gcongr; exact h2 a
  · rw [hsum]
    have hQ : ∑' b, q b = ∑' a, ∑' s, q (a, s) := ENNReal.tsum_prod'
    have hfin : ∑' a, ∑' s, q (a, s) ≠ ⊤ := by
      refine ne_top_of_le_ne_top one_ne_top ?_
      rw [← d.tsum_coe]
      exact ENNReal.tsum_le_tsum h2
    have hloss : ∑' a, (d a - ∑' s, q (a, s)) ≤ ε := by
      have h8 : ∑' a, ∑' s, q (a, s) + ∑' a, (d a - ∑' s, q (a, s)) = 1 := by
        rw [← ENNReal.tsum_add, ← d.tsum_coe]
        exact tsum_congr fun a => add_tsub_cancel_of_le (h2 a)
      rw [hQ, ← h8] at h3
      exact (ENNReal.add_le_add_iff_left hfin).1 h3
    have h9 : ∑' a, d a * e' a ≤ ∑' b, q b * ∫⁻ g, F b g ∂μ + (∑' a, d a * δ' a + ε * M) := by
      calc ∑' a, d a * e' a = ∑' a, ((∑' s, q (a, s)) * e' a + (d a - ∑' s, q (a, s)) * e' a) :=
            tsum_congr fun a => by rw [← add_mul, add_tsub_cancel_of_le (h2 a)]
        _ = ∑' a, (∑' s, q (a, s)) * e' a + ∑' a, (d a - ∑' s, q (a, s)) * e' a := ENNReal.tsum_add
        _ ≤ (∑' b, q b * ∫⁻ g, F b g ∂μ + ∑' a, d a * δ' a) + ε * M := by
            refine add_le_add ?_ ?_
            · calc ∑' a, (∑' s, q (a, s)) * e' a = ∑' b : α × S × List (Call T N), q b * e' b.1 := by
                    rw [ENNReal.tsum_prod']
                    simp only [ENNReal.tsum_mul_right]
                _ ≤ ∑' b : α × S × List (Call T N), (q b * ∫⁻ g, F b g ∂μ + q b * δ' b.1) := by
                    refine ENNReal.tsum_le_tsum fun b => ?_
                    by_cases hb : CanReturn m b.1
                    · rw [← mul_add]
                      gcongr
                      exact (((hκf b.1).2 b.2.1 b.2.2).2.2 hb).2
                    · rw [hq0 b.1 b.2 hb]; simp
                _ = ∑' b, q b * ∫⁻ g, F b g ∂μ + ∑' b : α × S × List (Call T N), q b * δ' b.1 := ENNReal.tsum_add
                _ ≤ _ := by
                    gcongr
                    rw [ENNReal.tsum_prod']
                    refine ENNReal.tsum_le_tsum fun a => ?_
                    simp only [ENNReal.tsum_mul_right]
                    gcongr
                    exact h2 a
            · calc ∑' a, (d a - ∑' s, q (a, s)) * e' a ≤ ∑' a, (d a - ∑' s, q (a, s)) * M :=
                    ENNReal.tsum_le_tsum fun a => by gcongr; exact hM a
                _ = (∑' a, (d a - ∑' s, q (a, s))) * M := ENNReal.tsum_mul_right
                _ ≤ ε * M := by gcongr
        _ = _ := by rw [add_assoc]
    calc e + ∑' a, d a * e' a ≤ (∫⁻ g, (κ g c l : ℝ≥0∞) ∂μ + δ) + (∑' b, q b * ∫⁻ g, F b g ∂μ + (∑' a, d a * δ' a + ε * M)) :=
          add_le_add h7 h9
      _ = _ := by ring

/-- The same with constants. -/
theorem bind' [Countable α] [Countable S] [Countable T] [IsProbabilityMeasure μ] {m' : Proc (DEWorld T N (G × ℕ) S) α}
    {m : Proc (DEWorld T N G S) α} {f' : α → Proc (DEWorld T N (G × ℕ) S) β} {f : α → Proc (DEWorld T N G S) β} {d : PMF α}
    {ε e δ e' δ' : ℝ≥0∞} {B B' : ℕ} (hs : Samples μ m d ε) (hm : Costs μ m' m e δ B)
    (hf : ∀ a, CanReturn m a → Costs μ (f' a) (f a) e' δ' B') :
    Costs μ (m' >>= f') (m >>= f) (e + e') (δ + (δ' + ε * e')) (B + B') :=
  (bind (M := e') hs hm hf fun _ => le_rfl).mono (by rw [ENNReal.tsum_mul_right, d.tsum_coe, one_mul])
    (by rw [ENNReal.tsum_mul_right, d.tsum_coe, one_mul]) le_rfl

theorem fromFn [Countable α] [Countable S] [Countable T] [IsProbabilityMeasure μ] : ∀ {k : ℕ}
    {f' : Fin k → Proc (DEWorld T N (G × ℕ) S) α} {f : Fin k → Proc (DEWorld T N G S) α} {p : Fin k → PMF α} {B : Fin k → ℕ},
    (∀ i, Samples μ (f i) (p i) 0) → (∀ i, Costs μ (f' i) (f i) (B i) 0 (B i)) →
    Costs μ (fromFnM k f') (fromFnM k f) ((∑ i, B i : ℕ) : ℝ≥0∞) 0 (∑ i, B i)
  | 0, _, _, _, _, _, _ => (zero (Tally.pure _)).mono (by simp) le_rfl (by simp)
  | k + 1, f', f, p, B, h, hc => by
    have h2 := bind' (h 0) (hc 0) fun x _ => bind' (Samples.fromFn fun i => h i.succ) (fromFn (fun i => h i.succ) fun i => hc i.succ)
      fun xs _ => (zero (Tally.pure (Fin.cons x xs : Fin (k + 1) → α)) : Costs (T := T) (N := N) (S := S) μ _ _ _ _ _)
    refine h2.mono ?_ (by simp) ?_ <;> rw [Fin.sum_univ_succ] <;> simp

theorem mapM [Countable α] [Countable S] [Countable T] [IsProbabilityMeasure μ] {ι : Type}
    {f' : ι → Proc (DEWorld T N (G × ℕ) S) α} {f : ι → Proc (DEWorld T N G S) α} {p : PMF α} {B : ℕ}
    (h : ∀ i, Samples μ (f i) p 0) (hc : ∀ i, Costs μ (f' i) (f i) B 0 B) : ∀ l : List ι,
    Costs μ (l.mapM f') (l.mapM f) ((l.length * B : ℕ) : ℝ≥0∞) 0 (l.length * B)
  | [] => by
    rw [List.mapM_nil, List.mapM_nil]
    exact (zero (Tally.pure _)).mono (by simp) le_rfl (by simp)
  | i :: l => by
    rw [List.mapM_cons, List.mapM_cons]
    have h2 := bind' (h i) (hc i) fun x _ => bind' (Samples.mapM h _ l rfl) (mapM h hc l) fun xs _ =>
      (zero (Tally.pure (x :: xs)) : Costs (T := T) (N := N) (S := S) μ _ _ _ _ _)
    refine h2.mono (by rw [List.length_cons]; push_cast; ring) (by simp) (by rw [List.length_cons]; ring_nf; simp)

end Costs

namespace Costs

variable [IsProbabilityMeasure μ] [Countable S] [Countable T]

theorem draw {env : DEnv T P N G S} (hn : 0 < n)
    (hi : IsSample μ (env.genIndex n) (PMF.uniformOfFinset (.range n) ⟨0, Finset.mem_range.2 hn⟩)) {L : List (Fin n)}
    (hL : L.Nodup) (hlt : L.length < n) : ∀ fuel : ℕ,
    Costs μ (env.counted.draw n (L.map Fin.val) fuel) (env.draw n (L.map Fin.val) fuel) (n / (n - L.length : ℕ))
      ((L.length / n : ℝ≥0∞) ^ fuel * (n / (n - L.length : ℕ))) fuel := by
  have : Nonempty (Fin n) := ⟨⟨0, hn⟩⟩
  have hn0 : (n : ℝ≥0∞) ≠ 0 := by exact_mod_cast hn.ne'
  have hcL' : (Finset.univ.filter (· ∈ L)).card = L.length := by
    classical
    have : Finset.univ.filter (· ∈ L) = L.toFinset := by ext a; simp
    rw [this, List.toFinset_card_of_nodup hL]
  have hd0 : ((n - L.length : ℕ) : ℝ≥0∞) ≠ 0 := by exact_mod_cast (by omega : n - L.length ≠ 0)
  obtain ⟨x, hx⟩ : ∃ x : ℝ≥0∞, x = n / (n - L.length : ℕ) := ⟨_, rfl⟩
  have hxe : 1 + (L.length / n : ℝ≥0∞) * x = x := by
    have h1 : (1 : ℝ≥0∞) = (n - L.length : ℕ) / n * x := by
      rw [hx, ← mul_div_assoc, ENNReal.div_mul_cancel hn0 (natCast_ne_top _), ENNReal.div_self hd0 (natCast_ne_top _)]
    calc 1 + (L.length / n : ℝ≥0∞) * x = ((n - L.length : ℕ) + L.length) / n * x := by rw [ENNReal.add_div, add_mul, ← h1]
      _ = x := by rw [← Nat.cast_add, Nat.sub_add_cancel hlt.le, ENNReal.div_self hn0 (natCast_ne_top _), one_mul]
  rw [← hx]
  intro fuel
  induction fuel with
  | zero =>
    refine ⟨0, fun g k c l => rfl, fun c l => ⟨measurable_const, fun _ => le_rfl, by simp, by simp⟩⟩
  | succ fuel ih =>
    have hidx : Samples μ (env.index n) ((PMF.uniformOfFintype (Fin n)).map Fin.val) 0 :=
      (Samples.sample hi (fun w => rfl)).congr (uniform_range hn _) le_rfl
    have hb := bind (f := fun j => if (L.map Fin.val).contains j then env.draw n (L.map Fin.val) fuel else pure j)
      (f' := fun j => if (L.map Fin.val).contains j then env.counted.draw n (L.map Fin.val) fuel else pure j)
      (e' := fun j => if (L.map Fin.val).contains j then x else 0)
      (δ' := fun j => if (L.map Fin.val).contains j then (L.length / n : ℝ≥0∞) ^ fuel * x else 0) (M := x) hidx
      (one (m' := env.counted.index n) fun _ _ _ _ => rfl) (B' := fuel) (fun j _ => by
        cases h : (L.map Fin.val).contains j with
        | true => simpa using ih
        | false => simpa using (zero (Tally.pure j)).mono rfl le_rfl (Nat.zero_le _))
      (fun j => by split <;> simp)
    have hmem : ∀ j : Fin n, (L.map Fin.val).contains (j : ℕ) = decide (j ∈ L) := by
      intro j
      rw [Bool.eq_iff_iff]
      simp [Fin.val_inj]
    have hsum : ∀ y : ℝ≥0∞, ∑' j, ((PMF.uniformOfFintype (Fin n)).map Fin.val) j *
        (if (L.map Fin.val).contains j then y else 0) = L.length / n * y := by
      intro y
      have h2 : ∀ g : ℕ → ℝ≥0∞, ∑' j, ((PMF.uniformOfFintype (Fin n)).bind (PMF.pure ∘ Fin.val)) j * g j =
          ∑ j : Fin n, (n : ℝ≥0∞)⁻¹ * g j := by
        intro g
        simp only [PMF.bind_apply, ← ENNReal.tsum_mul_right]
        rw [ENNReal.tsum_comm, tsum_fintype]
        refine Finset.sum_congr rfl fun j _ => ?_
        rw [tsum_eq_single (j : ℕ)]
        · simp
        · intro k hk
          simp [PMF.pure_apply, hk]
      rw [PMF.map, h2, ← Finset.mul_sum]
      simp only [hmem, decide_eq_true_eq]
      rw [← Finset.sum_filter, Finset.sum_const, hcL', nsmul_eq_mul, div_eq_mul_inv]
      ring
    refine hb.mono ?_ (le_of_eq ?_) (by omega)
    · rw [hsum, hxe]
    · rw [hsum, pow_succ]
      ring

variable [Countable P] [RPartialOrd P] [RAdd T T T] [RSub T T T] [RMul T T T] {env : DEnv T P N G S} {E : Textbook T P N} {w : T}

theorem trial (hU : IsSample μ (fun g => (.ok (env.genUnit g).1, (env.genUnit g).2)) E.U)
    (hm : ∀ x y z : T, (do RAdd.add x (← RMul.mul (← RSub.sub y z) w)) = Except.ok (E.mutation x y z))
    (pop : Fin n → Pt T N) (i j k l : Fin n) (r : Fin N) :
    Costs μ (env.counted.trial (List.ofFn pop) E.cp w i j k l r) (env.trial (List.ofFn pop) E.cp w i j k l r)
      ((N - 1 : ℕ) : ℝ≥0∞) 0 (N - 1) := by
  have hB : ∑ c : Fin N, (if c = r then 0 else 1) = N - 1 := by
    rw [Finset.sum_ite]
    simp [Finset.filter_ne']
  rw [← hB]
  refine Costs.fromFn (fun c => samples_coordinate hU hm pop i j k l r c) fun c => ?_
  by_cases hc : c = r
  · subst hc
    refine (bind' (e' := 0) (δ' := 0) (B' := 0) (m := env.mutates E.cp c c) (m' := env.counted.mutates E.cp c c) (e := 0) (δ := 0)
      (B := 0) (d := PMF.pure true) (ε := 0) ?_ ?_ fun b _ => ?_).mono (by simp) (by simp) (by simp)
    · unfold DEnv.mutates
      rw [if_pos rfl]
      exact Samples.pure _
    · unfold DEnv.mutates
      rw [if_pos rfl, if_pos rfl]
      exact zero (Tally.pure _)
    · cases b <;> exact zero (Tally.ofRes _)
  · have hc' : ¬ (c : ℕ) = r := fun h => hc (Fin.ext h)
    refine (bind' (e' := 0) (δ' := 0) (B' := 0) (m := env.mutates E.cp c r) (m' := env.counted.mutates E.cp c r) (e := 1) (δ := 0)
      (B := 1) (d := E.U.map fun u => RPartialOrd.lt u E.cp) (ε := 0) ?_ ?_ fun b _ => ?_).mono (by simp [hc]) (by simp) (by simp [hc])
    · unfold DEnv.mutates
      rw [if_neg hc']
      refine (Samples.bind' (Samples.sample hU fun _ => rfl) fun u _ => Samples.pure _).congr ?_ (by simp)
      rfl
    · unfold DEnv.mutates
      rw [if_neg hc', if_neg hc']
      refine (bind' (e' := 0) (δ' := 0) (B' := 0) (Samples.sample hU fun _ => rfl) (one (m' := env.counted.unit) fun _ _ _ _ => rfl)
        fun u _ => zero (Tally.pure _)).mono (by simp) (by simp) (by simp)
    · cases b <;> exact zero (Tally.ofRes _)

/-- The average number of random numbers of one iteration. -/
noncomputable def perIter (n N : ℕ) : ℝ≥0∞ := n / (n - 1 : ℕ) + (n / (n - 2 : ℕ) + (n / (n - 3 : ℕ) + N))

variable [RZero P] [ROne P] [RPartialOrd T] {bounds : Fin N → T × T}

theorem iteration [NeZero N] (hc : env.RandContract) (hid : env.Ideal μ bounds E.D E.U) (hb : env.Compares E.better)
    (hm : ∀ x y z : T, (do RAdd.add x (← RMul.mul (← RSub.sub y z) w)) = Except.ok (E.mutation x y z)) (hn : 4 ≤ n)
    (fuel : ℕ) (pop : Fin n → Pt T N) (i : Fin n) :
    Costs μ (env.counted.iteration fuel E.cp w n (List.ofFn pop) i) (env.iteration fuel E.cp w n (List.ofFn pop) i) (perIter n N)
      (((1 / n) ^ fuel + ((2 / n) ^ fuel + (3 / n) ^ fuel)) * perIter n N) (3 * fuel + N) := by
  have hn0 : 0 < n := by omega
  have hN : ((N - 1 : ℕ) : ℝ≥0∞) + 1 = N := by exact_mod_cast Nat.sub_add_cancel (NeZero.pos N)
  have hsd : ∀ (L : List (Fin n)), L.Nodup → ∀ hlt : L.length < n, Samples μ (env.draw n (L.map Fin.val) fuel)
      ((PMF.uniformOfFinset (others L) (others_nonempty hlt)).map Fin.val) ((L.length / n : ℝ≥0∞) ^ fuel) :=
    fun L h1 h2 => samples_draw hn0 (hid.index n hn0) h1 h2 fuel
  have hcd : ∀ (L : List (Fin n)), L.Nodup → ∀ hlt : L.length < n,
      Costs μ (env.counted.draw n (L.map Fin.val) fuel) (env.draw n (L.map Fin.val) fuel) (n / (n - L.length : ℕ))
      ((L.length / n : ℝ≥0∞) ^ fuel * (n / (n - L.length : ℕ))) fuel :=
    fun L h1 h2 => Costs.draw hn0 (hid.index n hn0) h1 h2 fuel
  have hcan : ∀ (L : List ℕ) a, CanReturn (env.draw n L fuel) a → a < n ∧ a ∉ L := by
    rintro L a ⟨w, w', h⟩
    exact ⟨(DEnv.draw_ok hc h).1, (DEnv.draw_ok hc h).2.1⟩
  have hr : Samples μ (env.index N) ((PMF.uniformOfFintype (Fin N)).map Fin.val) 0 :=
    (Samples.sample (hid.index N (NeZero.pos N)) (fun w => rfl)).congr (uniform_range (NeZero.pos N) _) le_rfl
  have hget : getIdx (List.ofFn pop) i = .ok (pop i) := getIdx_ofFn pop i
  unfold DEnv.iteration
  refine (bind' (B' := fuel + (fuel + N)) (e' := n / (n - 2 : ℕ) + (n / (n - 3 : ℕ) + N))
    (δ' := (2 / n) ^ fuel * (n / (n - 2 : ℕ)) + ((3 / n) ^ fuel * (n / (n - 3 : ℕ)) + (3 / n) ^ fuel * N + (2 / n) ^ fuel * (n / (n - 3 : ℕ) + N)))
    (hsd [i] (by simp) (by simp; omega)) (hcd [i] (by simp) (by simp; omega)) ?_).mono ?_ ?_ ?_
  · intro j hj
    obtain ⟨hj1, hj2⟩ := hcan _ _ hj
    lift j to Fin n using hj1
    have hnd : [i, j].Nodup := by
      simp [Fin.val_inj] at hj2
      simp
      exact fun h => hj2 h.symm
    refine (bind' (B' := fuel + N) (e' := n / (n - 3 : ℕ) + N)
      (δ' := (3 / n) ^ fuel * (n / (n - 3 : ℕ)) + (3 / n) ^ fuel * N)
      (hsd [i, j] hnd (by simp; omega)) (hcd [i, j] hnd (by simp; omega)) ?_).mono ?_ ?_ ?_
    · intro k hk
      obtain ⟨hk1, hk2⟩ := hcan _ _ hk
      lift k to Fin n using hk1
      have hnd : [i, j, k].Nodup := by
        simp [Fin.val_inj] at hj2 hk2
        simp
        exact ⟨⟨fun h => hj2 h.symm, fun h => hk2.1 h.symm⟩, fun h => hk2.2 h.symm⟩
      refine (bind' (B' := N) (e' := N) (δ' := 0)
        (hsd [i, j, k] hnd (by simp; omega)) (hcd [i, j, k] hnd (by simp; omega)) ?_).mono ?_ ?_ ?_
      · intro l hl
        obtain ⟨hl1, -⟩ := hcan _ _ hl
        lift l to Fin n using hl1
        refine (bind' (e' := (N - 1 : ℕ)) (δ' := 0) (B' := N - 1) hr (one (m' := env.counted.index N) fun _ _ _ _ => rfl) ?_).mono
          (by rw [add_comm, hN]) (by simp) (by have := NeZero.pos N; omega)
        rintro r ⟨w1, w2, h⟩
        have hr1 := (DEnv.index_ok hc h).1
        lift r to Fin N using hr1
        refine (bind' (e' := 0) (δ' := 0) (B' := 0) (samples_trial hid.unit hm pop i j k l r) (Costs.trial hid.unit hm pop i j k l r) ?_).mono
          (by simp) (by simp) (by simp)
        intro x _
        refine (bind' (e' := 0) (δ' := 0) (B' := 0) (Samples.ofRes hget) (zero (Tally.ofRes _)) ?_).mono (by simp) (by simp) (by simp)
        intro xi _
        refine (bind' (e' := 0) (δ' := 0) (B' := 0) (Det.cmp hb x xi).samples (zero (Tally.cmp env x xi)) ?_).mono (by simp) (by simp) (by simp)
        intro b _
        cases b
        · exact zero (Tally.pure _)
        · exact zero (Tally.ofRes _)
      · simp
      · simp
      · omega
    · simp
    · simp
    · omega
  · simp [perIter]
  · have key : ∀ r1 r2 r3 a1 a2 a3 y : ℝ≥0∞, r1 * a1 + (r2 * a2 + (r3 * a3 + r3 * y + r2 * (a3 + y)) + r1 * (a2 + (a3 + y))) ≤
        (r1 + (r2 + r3)) * (a1 + (a2 + (a3 + y))) := by
      intro r1 r2 r3 a1 a2 a3 y
      have : (r1 + (r2 + r3)) * (a1 + (a2 + (a3 + y))) =
        r1 * a1 + (r2 * a2 + (r3 * a3 + r3 * y + r2 * (a3 + y)) + r1 * (a2 + (a3 + y))) + (r2 * a1 + r3 * a1 + r3 * a2) := by ring
      rw [this]
      exact le_self_add
    unfold perIter
    simpa using key ((1 / n) ^ fuel) ((2 / n) ^ fuel) ((3 / n) ^ fuel) (n / (n - 1 : ℕ)) (n / (n - 2 : ℕ)) (n / (n - 3 : ℕ)) N
  · omega

/-- The population after `t` iterations. -/
theorem population [NeZero N] (hc : env.RandContract) (hid : env.Ideal μ bounds E.D E.U) (hb : env.Compares E.better)
    (hm : ∀ x y z : T, (do RAdd.add x (← RMul.mul (← RSub.sub y z) w)) = Except.ok (E.mutation x y z)) (hn : 4 ≤ n)
    (fuel : ℕ) : ∀ t : ℕ,
    Costs μ (do
      let population ← (List.range n).mapM (fun _ => fromFnM N (fun i => env.counted.uniform (bounds i).1 (bounds i).2))
      (List.range t).foldlM (fun pop t => env.counted.iteration fuel E.cp w n pop (t % n)) population)
      (do
      let population ← (List.range n).mapM (fun _ => fromFnM N (fun i => env.uniform (bounds i).1 (bounds i).2))
      (List.range t).foldlM (fun pop t => env.iteration fuel E.cp w n pop (t % n)) population)
      ((n * N : ℕ) + t * perIter n N) (t * t * (((1 / n) ^ fuel + ((2 / n) ^ fuel + (3 / n) ^ fuel)) * perIter n N))
      (n * N + t * (3 * fuel + N))
  | 0 => by
    have hs : ∀ i : ℕ, Samples μ (fromFnM N (fun i => env.uniform (bounds i).1 (bounds i).2)) (indep E.D) 0 :=
      fun _ => Samples.fromFn fun c => Samples.sample (hid.uniform c) fun _ => rfl
    have h0 := mapM (f' := fun _ => fromFnM N (fun i => env.counted.uniform (bounds i).1 (bounds i).2)) hs (B := N)
      (fun _ => (Costs.fromFn (B := fun _ => 1) (fun c => Samples.sample (hid.uniform c) fun _ => rfl)
        fun c => (one (m' := env.counted.uniform (bounds c).1 (bounds c).2) fun _ _ _ _ => rfl).mono (by simp) le_rfl le_rfl).mono
          (by simp) le_rfl (by simp)) (List.range n)
    refine (bind' (e' := 0) (δ' := 0) (B' := 0) (Samples.mapM hs n (List.range n) (by simp)) h0 fun l _ => ?_).mono (by simp) (by simp)
      (by simp)
    exact zero (Tally.pure l)
  | t + 1 => by
    obtain ⟨h1, h2⟩ := samples_population (w := w) hc hid hb hm hn fuel t
    have hn0 : 0 < n := by omega
    have he : ∀ {G' : Type} (env : DEnv T P N G' S), (do
        let population ← (List.range n).mapM (fun _ => fromFnM N (fun i => env.uniform (bounds i).1 (bounds i).2))
        (List.range (t + 1)).foldlM (fun pop t => env.iteration fuel E.cp w n pop (t % n)) population :
          Proc (DEWorld T N G' S) (List (Pt T N))) =
        (do
          let population ← (List.range n).mapM (fun _ => fromFnM N (fun i => env.uniform (bounds i).1 (bounds i).2))
          (List.range t).foldlM (fun pop t => env.iteration fuel E.cp w n pop (t % n)) population) >>= fun pop =>
            env.iteration fuel E.cp w n pop (t % n) := by
      intro G' env
      rw [bind_assoc]
      congr 1
      funext p0
      rw [List.range_succ, List.foldlM_append]
      congr 1
      funext p
      simp [List.foldlM]
    rw [he, he]
    refine (bind' (e' := perIter n N) (δ' := (((1 / n) ^ fuel + ((2 / n) ^ fuel + (3 / n) ^ fuel)) * perIter n N))
      (B' := 3 * fuel + N) h1 (population hc hid hb hm hn fuel t) fun l hl => ?_).mono ?_ ?_ ?_
    · have hlen := h2 l hl
      have : l = List.ofFn fun s : Fin n => l[s] := by
        apply List.ext_getElem
        · simp [hlen]
        · intro k _ _; simp
      have h3 := Costs.iteration (w := w) hc hid hb hm hn fuel (fun s : Fin n => l[s]) (slot hn0 t)
      rw [← this] at h3
      exact h3
    · push_cast
      ring
    · generalize ((1 / n : ℝ≥0∞) ^ fuel + ((2 / n) ^ fuel + (3 / n) ^ fuel)) = ρ
      have : ((t + 1 : ℕ) : ℝ≥0∞) * (t + 1 : ℕ) * (ρ * perIter n N) =
          t * t * (ρ * perIter n N) + (ρ * perIter n N + t * ρ * perIter n N) + t * (ρ * perIter n N) := by
        push_cast
        ring
      rw [this]
      exact le_self_add
    · ring_nf
      rfl

theorem optimize [NeZero N] [FromI8 T] (hc : env.RandContract) (hid : env.Ideal μ bounds E.D E.U)
    (hb : env.Compares E.better)
    (hm : ∀ x y z : T, (do RAdd.add x (← RMul.mul (← RSub.sub y z) w)) = Except.ok (E.mutation x y z))
    (hv : ValidParams n E.cp w) (fuel iters : ℕ) :
    Costs μ (env.counted.optimize fuel bounds n E.cp w iters) (env.optimize fuel bounds n E.cp w iters)
      ((n * N : ℕ) + iters * perIter n N)
      (iters * iters * (((1 / n) ^ fuel + ((2 / n) ^ fuel + (3 / n) ^ fuel)) * perIter n N))
      (n * N + iters * (3 * fuel + N)) := by
  rw [optimize_eq hv, optimize_eq hv]
  refine (bind' (e' := 0) (δ' := 0) (B' := 0) (samples_population (w := w) hc hid hb hm hv.size fuel iters).1
    (population hc hid hb hm hv.size fuel iters) fun l _ => zero (Tally.knockout env _ l rfl)).mono (by simp) (by simp) (by simp)

end Costs

end Magnesia
