import Verif.Proof.DERandom

/-!
# Probabilities of events (helper lemmas)
-/

namespace Magnesia

open MeasureTheory ENNReal

variable {T P G S α β γ : Type} {N n : ℕ} [MeasurableSpace G] {μ : Measure G}

/-- The generator states from which `m` ends normally with a value in `X`. -/
def EndsIn (m : Proc (DEWorld T N G S) α) (c : S) (l : List (Call T N)) (X : Set α) : Set G :=
  {g | ∃ a ∈ X, (m ⟨g, c, l⟩).1 = .ok a}

theorem Samples.event [IsProbabilityMeasure μ] [Countable S] [Countable T] [Countable α] {m : Proc (DEWorld T N G S) α} {d : PMF α} {ε : ℝ≥0∞}
    (h : Samples μ m d ε) (c : S) (l : List (Call T N)) (X : Set α) :
    MeasurableSet (EndsIn m c l X) ∧ μ (EndsIn m c l X) ≤ d.toOuterMeasure X ∧
      d.toOuterMeasure X ≤ μ (EndsIn m c l X) + ε := by
  classical
  obtain ⟨q, h1, h2, h3⟩ := h c l
  have key : ∀ Y : Set α, MeasurableSet (EndsIn m c l Y) ∧
      μ (EndsIn m c l Y) = ∑' a, if a ∈ Y then ∑' s, q (a, s) else 0 := by
    intro Y
    have he : EndsIn m c l Y = ⋃ b : {b : α × S × List (Call T N) // b.1 ∈ Y}, Ends m c l b.1 Set.univ := by
      ext g
      simp only [EndsIn, Ends, Set.mem_ofPred_eq, Set.mem_iUnion, Set.mem_univ, true_and]
      constructor
      · rintro ⟨a, ha, h⟩
        refine ⟨⟨(a, (m ⟨g, c, l⟩).2.cmp, (m ⟨g, c, l⟩).2.log), ha⟩, (m ⟨g, c, l⟩).2.rng, ?_⟩
        rw [← h]
      · rintro ⟨⟨b, hb⟩, g', h⟩
        exact ⟨b.1, hb, by rw [h]⟩
    rw [he]
    refine ⟨MeasurableSet.iUnion fun b => (h1 b _ MeasurableSet.univ).1, ?_⟩
    rw [measure_iUnion]
    · have hq : ∀ b, μ (Ends m c l b Set.univ) = q b := fun b => by
        rw [(h1 b _ MeasurableSet.univ).2, measure_univ, mul_one]
      simp only [hq]
      refine (tsum_subtype {b : α × S × List (Call T N) | b.1 ∈ Y} q).trans ?_
      rw [ENNReal.tsum_prod']
      congr 1
      funext a
      by_cases ha : a ∈ Y
      · simp [Set.indicator, ha]
      · simp [Set.indicator, ha]
    · intro b b' hbb
      rw [Function.onFun, Set.disjoint_left]
      rintro g ⟨g1, _, e1⟩ ⟨g2, _, e2⟩
      rw [e1] at e2
      simp only [Prod.mk.injEq, Except.ok.injEq, DEWorld.mk.injEq] at e2
      exact hbb (Subtype.ext (Prod.ext e2.1 (Prod.ext e2.2.2.1 e2.2.2.2)))
    · exact fun b => (h1 b _ MeasurableSet.univ).1
  have hx := key X
  have hle : ∀ Y : Set α, μ (EndsIn m c l Y) ≤ d.toOuterMeasure Y := by
    intro Y
    rw [(key Y).2, PMF.toOuterMeasure_apply]
    refine ENNReal.tsum_le_tsum fun a => ?_
    by_cases ha : a ∈ Y
    · simpa [Set.indicator, ha] using h2 a
    · simp [ha]
  have hsplit : ∑' b, q b = μ (EndsIn m c l X) + μ (EndsIn m c l Xᶜ) := by
    rw [(key X).2, (key Xᶜ).2, ← ENNReal.tsum_add, ENNReal.tsum_prod']
    congr 1
    funext a
    by_cases ha : a ∈ X <;> simp [ha]
  have hd : d.toOuterMeasure X + d.toOuterMeasure Xᶜ = 1 := by
    rw [PMF.toOuterMeasure_apply, PMF.toOuterMeasure_apply, ← ENNReal.tsum_add, ← d.tsum_coe]
    congr 1
    funext a
    by_cases ha : a ∈ X <;> simp [Set.indicator, ha]
  refine ⟨hx.1, hle X, ?_⟩
  have h4 : d.toOuterMeasure X + d.toOuterMeasure Xᶜ ≤ (μ (EndsIn m c l X) + ε) + d.toOuterMeasure Xᶜ := by
    rw [hd]
    calc 1 ≤ _ := h3
      _ = μ (EndsIn m c l X) + ε + μ (EndsIn m c l Xᶜ) := by rw [hsplit]; ring
      _ ≤ _ := by gcongr; exact hle _
  refine (ENNReal.add_le_add_iff_right ?_).1 h4
  intro ht
  rw [ht, add_top] at hd
  exact absurd hd (by simp)

/-! ## Independent values -/

theorem toOuterMeasure_union_compl (d : PMF α) (X : Set α) : d.toOuterMeasure X + d.toOuterMeasure Xᶜ = 1 := by
  classical
  rw [PMF.toOuterMeasure_apply, PMF.toOuterMeasure_apply, ← ENNReal.tsum_add, ← d.tsum_coe]
  congr 1
  funext a
  by_cases ha : a ∈ X <;> simp [Set.indicator, ha]

theorem indep_event : ∀ {k : ℕ} (p : Fin k → PMF α) (B : Fin k → Set α),
    (indep p).toOuterMeasure {f | ∀ i, f i ∈ B i} = ∏ i, (p i).toOuterMeasure (B i)
  | 0, p, B => by
    simp [indep]
    exact Subsingleton.elim _ _
  | k + 1, p, B => by
    classical
    rw [Fin.prod_univ_succ, indep, PMF.toOuterMeasure_bind_apply, PMF.toOuterMeasure_apply, ← ENNReal.tsum_mul_right]
    congr 1
    funext x
    rw [PMF.toOuterMeasure_map_apply]
    by_cases hx : x ∈ B 0
    · rw [Set.indicator_of_mem hx]
      congr 1
      rw [← indep_event (fun i => p i.succ) fun i => B i.succ]
      congr 1
      ext f
      simp [Fin.forall_fin_succ, hx]
    · rw [Set.indicator_of_notMem hx, zero_mul]
      have : (fun f : Fin k → α => (Fin.cons x f : Fin (k + 1) → α)) ⁻¹' {f | ∀ i, f i ∈ B i} = ∅ := by
        ext f
        simp [Fin.forall_fin_succ, hx]
      rw [this]
      simp

theorem indep_apply {k : ℕ} (p : Fin k → PMF α) (f : Fin k → α) : indep p f = ∏ i, p i (f i) := by
  have := indep_event p fun i => {f i}
  simp only [PMF.toOuterMeasure_apply_singleton, Set.mem_singleton_iff] at this
  rw [← this, ← PMF.toOuterMeasure_apply_singleton]
  congr 1
  ext g
  simp [funext_iff]

/-! ## The tournament -/

theorem playRound_sub (better : α → α → Bool) (l : List α) : ∀ x ∈ playRound better l, x ∈ l := by
  intro x hx
  unfold playRound at hx
  rw [List.mem_append] at hx
  rcases hx with hx | hx
  · rw [List.mem_iff_getElem] at hx
    obtain ⟨k, hk, rfl⟩ := hx
    rw [List.getElem_zipWith]
    split
    · exact List.mem_of_mem_drop (List.getElem_mem _)
    · exact List.mem_of_mem_take (List.getElem_mem _)
  · exact List.mem_of_mem_drop hx

theorem champion_isSome (better : α → α → Bool) : ∀ l : List α, l ≠ [] → ∃ x ∈ l, champion better l = some x
  | [], h => absurd rfl h
  | [x], _ => ⟨x, by simp, by rw [champion]⟩
  | x :: y :: l, _ => by
    have hl : playRound better (x :: y :: l) ≠ [] := by
      intro h
      have := congrArg List.length h
      simp [playRound] at this
      omega
    obtain ⟨z, h1, h2⟩ := champion_isSome better _ hl
    exact ⟨z, playRound_sub _ _ _ h1, by rw [champion]; exact h2⟩
termination_by l => l.length
decreasing_by simp [playRound]; omega

/-- Somebody at least as good as any player survives a round. -/
theorem playRound_good {better : α → α → Bool} (hs : StrictWeak better) (l : List α) (x : α) (hx : x ∈ l) :
    ∃ y ∈ playRound better l, better x y = false := by
  have hirr : ∀ a, better a a = false := fun a => by
    by_contra h
    have h' : better a a = true := by simpa using h
    have := hs.asymm a a h'
    rw [this] at h'
    exact absurd h' (by simp)
  obtain ⟨k, hk, rfl⟩ := List.mem_iff_getElem.1 hx
  unfold playRound
  by_cases h1 : k < l.length / 2
  · have hlen : k < (List.zipWith (fun b a => if better a b then a else b) (l.take (l.length / 2)) (l.drop (l.length / 2))).length := by
      simp; omega
    refine ⟨_, List.mem_append_left _ (List.getElem_mem hlen), ?_⟩
    rw [List.getElem_zipWith]
    simp only [List.getElem_take, List.getElem_drop]
    split
    · exact hs.asymm _ _ (by assumption)
    · exact hirr _
  · by_cases h2 : k < 2 * (l.length / 2)
    · have hlen : k - l.length / 2 < (List.zipWith (fun b a => if better a b then a else b) (l.take (l.length / 2))
          (l.drop (l.length / 2))).length := by
        simp; omega
      refine ⟨_, List.mem_append_left _ (List.getElem_mem hlen), ?_⟩
      rw [List.getElem_zipWith]
      simp only [List.getElem_take, List.getElem_drop, show l.length / 2 + (k - l.length / 2) = k by omega]
      split
      · exact hirr _
      · simpa using (by assumption : ¬ better _ _ = true)
    · refine ⟨l[k], List.mem_append_right _ ?_, hirr _⟩
      rw [List.mem_iff_getElem]
      refine ⟨k - 2 * (l.length / 2), by simp; omega, ?_⟩
      simp only [List.getElem_drop]
      congr 1
      omega

theorem champion_best {better : α → α → Bool} (hs : StrictWeak better) : ∀ (l : List α) (x : α), champion better l = some x →
    ∀ y ∈ l, better y x = false
  | [], x, h => by rw [champion] at h; cases h
  | [z], x, h => by
    rw [champion] at h
    cases h
    intro y hy
    rw [List.mem_singleton.1 hy]
    by_contra h
    have h' : better z z = true := by simpa using h
    have := hs.asymm z z h'
    rw [this] at h'
    exact absurd h' (by simp)
  | a :: b :: l, x, h => by
    intro y hy
    rw [champion] at h
    obtain ⟨z, h1, h2⟩ := playRound_good hs _ y hy
    exact hs.negTrans _ _ _ h2 (champion_best hs _ x h z h1)
termination_by l => l.length
decreasing_by simp [playRound]; omega

/-! ## The textbook algorithm -/

variable [RPartialOrd P] [NeZero N] {E : Textbook T P N}

theorem result_some (hn : 4 ≤ n) (iters : ℕ) : (E.result hn iters).toOuterMeasure (some '' Set.univ) = 1 := by
  rw [Textbook.result, PMF.toOuterMeasure_map_apply, PMF.toOuterMeasure_apply_eq_one_iff]
  intro pop _
  obtain ⟨x, _, h⟩ := champion_isSome E.better (List.ofFn pop) (by
    intro h
    have := congrArg List.length h
    simp at this
    omega)
  exact ⟨x, trivial, h.symm⟩

theorem result_good (hs : StrictWeak E.better) {A : Set (Pt T N)} (hA : GoodSet E.better A) (hn : 4 ≤ n) (t : ℕ) :
    (E.result hn t).toOuterMeasure (some '' A) = (E.population hn t).toOuterMeasure {pop | ∃ s, pop s ∈ A} := by
  rw [Textbook.result, PMF.toOuterMeasure_map_apply]
  congr 1
  ext pop
  obtain ⟨x, h1, h2⟩ := champion_isSome E.better (List.ofFn pop) (by
    intro h
    have := congrArg List.length h
    simp at this
    omega)
  simp only [Set.mem_preimage, h2, Set.mem_image, Option.some.injEq, exists_eq_right, Set.mem_ofPred_eq]
  constructor
  · intro hx
    obtain ⟨s, rfl⟩ := (List.mem_ofFn' _ _).1 h1
    exact ⟨s, hx⟩
  · rintro ⟨s, hx⟩
    exact hA _ _ hx (champion_best hs _ _ h2 _ ((List.mem_ofFn' _ _).2 ⟨s, rfl⟩))

theorem population_good_succ (hs : StrictWeak E.better) {A : Set (Pt T N)} (hA : GoodSet E.better A) (hn : 4 ≤ n) (t : ℕ) :
    (E.population hn t).toOuterMeasure {pop | ∃ s, pop s ∈ A} ≤
      (E.population hn (t + 1)).toOuterMeasure {pop | ∃ s, pop s ∈ A} := by
  rw [Textbook.population, PMF.toOuterMeasure_bind_apply, PMF.toOuterMeasure_apply]
  refine ENNReal.tsum_le_tsum fun pop => ?_
  by_cases hp : pop ∈ {pop : Fin n → Pt T N | ∃ s, pop s ∈ A}
  · rw [Set.indicator_of_mem hp]
    have : (E.step pop hn (slot (by omega) t)).toOuterMeasure {pop | ∃ s, pop s ∈ A} = 1 := by
      rw [Textbook.step, PMF.toOuterMeasure_map_apply, PMF.toOuterMeasure_apply_eq_one_iff]
      intro x _
      obtain ⟨s, h⟩ := hp
      simp only [Set.mem_preimage, Set.mem_ofPred_eq]
      split
      case isTrue hb =>
        by_cases hsl : s = slot (by omega) t
        · refine ⟨s, ?_⟩
          subst hsl
          rw [Function.update_self]
          exact hA _ _ h (hs.asymm _ _ hb)
        · exact ⟨s, by rwa [Function.update_of_ne hsl]⟩
      case isFalse => exact ⟨s, h⟩
    rw [this, mul_one]
  · rw [Set.indicator_of_notMem hp]
    exact zero_le

theorem population_good_zero (A : Set (Pt T N)) (hn : 4 ≤ n) :
    (E.population hn 0).toOuterMeasure {pop | ∃ s, pop s ∈ A} = 1 - (1 - (indep E.D).toOuterMeasure A) ^ n := by
  have h1 := toOuterMeasure_union_compl (E.population hn 0) {pop | ∃ s, pop s ∈ A}
  have h2 : {pop : Fin n → Pt T N | ∃ s, pop s ∈ A}ᶜ = {pop | ∀ s, pop s ∈ Aᶜ} := by
    ext pop
    simp
  have h3 : (E.population hn 0).toOuterMeasure {pop : Fin n → Pt T N | ∃ s, pop s ∈ A}ᶜ =
      (1 - (indep E.D).toOuterMeasure A) ^ n := by
    rw [h2, Textbook.population, indep_event]
    have h4 := toOuterMeasure_union_compl (indep E.D) A
    have h5 : (indep E.D).toOuterMeasure Aᶜ = 1 - (indep E.D).toOuterMeasure A := by
      rw [← h4, ENNReal.add_sub_cancel_left]
      intro h
      rw [h, top_add] at h4
      exact absurd h4 (by simp)
    simp [h5]
  rw [← h3, ← h1, ENNReal.add_sub_cancel_right]
  intro h
  rw [h, add_top] at h1
  exact absurd h1 (by simp)

end Magnesia
