import Verif.Spec.DEProb
import Verif.Proof.DESafe

/-!
# The distribution of the results of a run (helper lemmas)
-/

namespace Magnesia

open MeasureTheory ENNReal

variable {T P G S α β γ : Type} {N n : ℕ} [MeasurableSpace G] {μ : Measure G}

instance [Countable T] : Countable (Call T N) :=
  Function.Injective.countable (f := fun c : Call T N => (c.a, c.b, c.answer)) (by
    rintro ⟨a, b, x⟩ ⟨a', b', x'⟩ h
    simp only [Prod.mk.injEq] at h
    obtain ⟨rfl, rfl, rfl⟩ := h
    rfl)

/-- The generator states from which `m` ends normally with `b` and leaves a generator state in `A`. -/
def Ends (m : Proc (DEWorld T N G S) α) (c : S) (l : List (Call T N)) (b : α × S × List (Call T N)) (A : Set G) : Set G :=
  {g | ∃ g' ∈ A, m ⟨g, c, l⟩ = (.ok b.1, ⟨g', b.2.1, b.2.2⟩)}

/-- `m` returns each value `a` with probability at most `d a`, fails with probability at most `ε`, and leaves an independent
generator state. -/
def Samples (μ : Measure G) (m : Proc (DEWorld T N G S) α) (d : PMF α) (ε : ℝ≥0∞) : Prop :=
  ∀ c l, ∃ q : α × S × List (Call T N) → ℝ≥0∞,
    (∀ b A, MeasurableSet A → MeasurableSet (Ends m c l b A) ∧ μ (Ends m c l b A) = q b * μ A) ∧
    (∀ a, ∑' s, q (a, s) ≤ d a) ∧ 1 ≤ ∑' b, q b + ε

/-- `m` can return `a`. -/
def CanReturn (m : Proc (DEWorld T N G S) α) (a : α) : Prop := ∃ w w', m w = (.ok a, w')

namespace Samples

theorem congr {m : Proc (DEWorld T N G S) α} {d d' : PMF α} {ε ε' : ℝ≥0∞} (h : Samples μ m d ε) (hd : d = d') (he : ε ≤ ε') :
    Samples μ m d' ε' := by
  subst hd
  intro c l
  obtain ⟨q, h1, h2, h3⟩ := h c l
  exact ⟨q, h1, h2, h3.trans (by gcongr)⟩

/-- A computation that does not use the generator. -/
theorem det {m : Proc (DEWorld T N G S) α} {a : α}
    (h : ∀ c l, ∃ c' l', ∀ g, m ⟨g, c, l⟩ = (.ok a, ⟨g, c', l'⟩)) : Samples μ m (.pure a) 0 := by
  classical
  intro c l
  obtain ⟨c', l', h⟩ := h c l
  refine ⟨fun b => if b = (a, c', l') then 1 else 0, ?_, ?_, ?_⟩
  · rintro ⟨b, c2, l2⟩ A hA
    have : Ends m c l (b, c2, l2) A = if (b, c2, l2) = (a, c', l') then A else ∅ := by
      ext g
      simp only [Ends, h, Set.mem_ofPred_eq, Prod.mk.injEq, Except.ok.injEq, DEWorld.mk.injEq]
      by_cases hb : b = a ∧ c2 = c' ∧ l2 = l'
      · obtain ⟨rfl, rfl, rfl⟩ := hb
        simp
      · simp only [hb, if_false, Set.mem_empty_iff_false, iff_false]
        rintro ⟨g', _, rfl, rfl, rfl, rfl⟩
        simp at hb
    rw [this]
    by_cases hb : (b, c2, l2) = (a, c', l')
    · simp only [hb, if_true, one_mul]
      exact ⟨hA, trivial⟩
    · simp only [hb, if_false, zero_mul, measure_empty]
      exact ⟨MeasurableSet.empty, trivial⟩
  · intro x
    by_cases hx : x = a
    · subst hx
      rw [tsum_eq_single (c', l')]
      · simp
      · intro s hs
        simp [hs]
    · simp [hx]
  · rw [tsum_eq_single (a, c', l')]
    · simp
    · intro s hs
      simp [hs]

theorem pure (a : α) : Samples μ (Pure.pure a : Proc (DEWorld T N G S) α) (.pure a) 0 :=
  det fun c l => ⟨c, l, fun _ => rfl⟩

theorem ofRes {x : Res α} {a : α} (h : x = .ok a) : Samples μ (Proc.ofRes x : Proc (DEWorld T N G S) α) (.pure a) 0 :=
  det fun c l => ⟨c, l, fun _ => by rw [h]; rfl⟩

/-- A single random number. -/
theorem sample {m : Proc (DEWorld T N G S) α} {draw : G → Res α × G} {d : PMF α} (h : IsSample μ draw d)
    (hm : ∀ w, m w = ((draw w.rng).1, { w with rng := (draw w.rng).2 })) : Samples μ m d 0 := by
  classical
  intro c l
  have hs : ∀ a, (∑' s : S × List (Call T N), if s = (c, l) then d a else 0) = d a := fun a => by
    rw [tsum_eq_single (c, l)]
    · simp
    · intro s hs
      simp [hs]
  refine ⟨fun b => if b.2 = (c, l) then d b.1 else 0, ?_, ?_, ?_⟩
  · rintro ⟨b, c2, l2⟩ A hA
    have : Ends m c l (b, c2, l2) A = if (c2, l2) = (c, l) then {g | (draw g).1 = .ok b ∧ (draw g).2 ∈ A} else ∅ := by
      ext g
      simp only [Ends, hm, Set.mem_ofPred_eq, Prod.mk.injEq, DEWorld.mk.injEq]
      by_cases hb : c2 = c ∧ l2 = l
      · obtain ⟨rfl, rfl⟩ := hb
        simp only [and_self, and_true, if_true, Set.mem_ofPred_eq]
        constructor
        · rintro ⟨g', hg, h1, rfl⟩; exact ⟨h1, hg⟩
        · rintro ⟨h1, hg⟩; exact ⟨_, hg, h1, rfl⟩
      · simp only [hb, if_false, Set.mem_empty_iff_false, iff_false]
        rintro ⟨g', _, _, _, rfl, rfl⟩
        simp at hb
    rw [this]
    simp only
    split
    · exact ⟨h.measurable b A hA, h.law b A hA⟩
    · exact ⟨MeasurableSet.empty, by simp⟩
  · intro a
    exact (hs a).le
  · rw [ENNReal.tsum_prod', add_zero]
    simp only [hs]
    exact d.tsum_coe.ge

omit [MeasurableSpace G] in
theorem ends_bind (m : Proc (DEWorld T N G S) α) (f : α → Proc (DEWorld T N G S) β) (c : S) (l : List (Call T N))
    (b : β × S × List (Call T N)) (A : Set G) :
    Ends (m >>= f) c l b A = ⋃ a : α × S × List (Call T N), Ends m c l a (Ends (f a.1) a.2.1 a.2.2 b A) := by
  ext g
  simp only [Ends, Set.mem_ofPred_eq, Set.mem_iUnion]
  constructor
  · rintro ⟨g', hg, h⟩
    obtain ⟨a, w, h1, h2⟩ := Proc.bind_ok h
    exact ⟨(a, w.cmp, w.log), w.rng, ⟨g', hg, h2⟩, h1⟩
  · rintro ⟨a, g1, ⟨g', hg, h2⟩, h1⟩
    refine ⟨g', hg, ?_⟩
    rw [Proc.bind_eq, h1]
    exact h2

omit [MeasurableSpace G] in
theorem ends_disjoint (m : Proc (DEWorld T N G S) α) (c : S) (l : List (Call T N)) {a a' : α × S × List (Call T N)} (h : a ≠ a')
    (A A' : Set G) : Disjoint (Ends m c l a A) (Ends m c l a' A') := by
  rw [Set.disjoint_left]
  rintro g ⟨g1, _, h1⟩ ⟨g2, _, h2⟩
  rw [h1] at h2
  simp only [Prod.mk.injEq, Except.ok.injEq, DEWorld.mk.injEq] at h2
  exact h (Prod.ext h2.1 (Prod.ext h2.2.2.1 h2.2.2.2))

theorem bind [Countable α] [Countable S] [Countable T] [IsProbabilityMeasure μ] {m : Proc (DEWorld T N G S) α}
    {f : α → Proc (DEWorld T N G S) β} {d : PMF α} {df : α → PMF β} {ε : ℝ≥0∞} {εf : α → ℝ≥0∞} (hm : Samples μ m d ε)
    (hf : ∀ a, CanReturn m a → Samples μ (f a) (df a) (εf a)) :
    Samples μ (m >>= f) (d.bind df) (ε + ∑' a, d a * εf a) := by
  classical
  intro c l
  obtain ⟨q, h1, h2, h3⟩ := hm c l
  have hq0 : ∀ a s, ¬ CanReturn m a → q (a, s) = 0 := by
    intro a s ha
    have h := (h1 (a, s) Set.univ MeasurableSet.univ).2
    have he : Ends m c l (a, s) Set.univ = ∅ := by
      ext g
      simp only [Ends, Set.mem_ofPred_eq, Set.mem_empty_iff_false, iff_false]
      rintro ⟨g', _, h⟩
      exact ha ⟨_, _, h⟩
    rw [he, measure_empty, measure_univ, mul_one] at h
    exact h.symm
  have hf' : ∀ a : α × S × List (Call T N), ∃ qf : β × S × List (Call T N) → ℝ≥0∞, CanReturn m a.1 →
    (∀ b A, MeasurableSet A → MeasurableSet (Ends (f a.1) a.2.1 a.2.2 b A) ∧ μ (Ends (f a.1) a.2.1 a.2.2 b A) = qf b * μ A) ∧
    (∀ b, ∑' s, qf (b, s) ≤ df a.1 b) ∧ 1 ≤ ∑' b, qf b + εf a.1 := by
    intro a
    by_cases ha : CanReturn m a.1
    · obtain ⟨qf, h⟩ := hf a.1 ha a.2.1 a.2.2
      exact ⟨qf, fun _ => h⟩
    · exact ⟨0, fun h => absurd h ha⟩
  choose qf hqf using hf'
  refine ⟨fun b => ∑' a, q a * qf a b, ?_, ?_, ?_⟩
  · intro b A hA
    have hme : ∀ a : α × S × List (Call T N), MeasurableSet (Ends m c l a (Ends (f a.1) a.2.1 a.2.2 b A)) ∧
        μ (Ends m c l a (Ends (f a.1) a.2.1 a.2.2 b A)) = q a * qf a b * μ A := by
      intro a
      by_cases ha : CanReturn m a.1
      · have h4 := (hqf a ha).1 b A hA
        have h5 := h1 a _ h4.1
        exact ⟨h5.1, by rw [h5.2, h4.2, mul_assoc]⟩
      · have he : Ends m c l a (Ends (f a.1) a.2.1 a.2.2 b A) = ∅ := by
          ext g
          simp only [Ends, Set.mem_ofPred_eq, Set.mem_empty_iff_false, iff_false]
          rintro ⟨g', _, h⟩
          exact ha ⟨_, _, h⟩
        rw [he]
        exact ⟨MeasurableSet.empty, by rw [hq0 a.1 a.2 ha]; simp⟩
    rw [ends_bind]
    refine ⟨MeasurableSet.iUnion fun a => (hme a).1, ?_⟩
    rw [measure_iUnion (fun a a' h => ends_disjoint m c l h _ _) fun a => (hme a).1, ← ENNReal.tsum_mul_right]
    exact tsum_congr fun a => (hme a).2
  · intro b
    rw [ENNReal.tsum_comm, PMF.bind_apply, ENNReal.tsum_prod']
    refine ENNReal.tsum_le_tsum fun a => ?_
    by_cases ha : CanReturn m a
    · calc ∑' s, ∑' s', q (a, s) * qf (a, s) (b, s') = ∑' s, q (a, s) * ∑' s', qf (a, s) (b, s') := by
            simp only [ENNReal.tsum_mul_left]
        _ ≤ ∑' s, q (a, s) * df a b := ENNReal.tsum_le_tsum fun s => by gcongr; exact (hqf (a, s) ha).2.1 b
        _ = (∑' s, q (a, s)) * df a b := ENNReal.tsum_mul_right
        _ ≤ d a * df a b := by gcongr; exact h2 a
    · simp [hq0 a _ ha]
  · have key : ∑' a, q a ≤ ∑' b, ∑' a, q a * qf a b + ∑' a, d a * εf a := by
      rw [ENNReal.tsum_comm]
      have h6 : ∑' a : α × S × List (Call T N), q a * εf a.1 ≤ ∑' a, d a * εf a := by
        rw [ENNReal.tsum_prod']
        refine ENNReal.tsum_le_tsum fun a => ?_
        simp only [ENNReal.tsum_mul_right]
        gcongr
        exact h2 a
      refine le_trans ?_ (add_le_add_right h6 _)
      rw [← ENNReal.tsum_add]
      refine ENNReal.tsum_le_tsum fun a => ?_
      by_cases ha : CanReturn m a.1
      · rw [ENNReal.tsum_mul_left, ← mul_add]
        exact le_mul_of_one_le_right' (hqf a ha).2.2
      · rw [hq0 a.1 a.2 ha]
        exact zero_le
    calc 1 ≤ ∑' a, q a + ε := h3
      _ ≤ ∑' b, ∑' a, q a * qf a b + ∑' a, d a * εf a + ε := by gcongr
      _ = _ := by rw [add_assoc, add_comm ε]

/-- With a constant probability of failure. -/
theorem bind' [Countable α] [Countable S] [Countable T] [IsProbabilityMeasure μ] {m : Proc (DEWorld T N G S) α}
    {f : α → Proc (DEWorld T N G S) β} {d : PMF α} {df : α → PMF β} {ε ε' : ℝ≥0∞} (hm : Samples μ m d ε)
    (hf : ∀ a, CanReturn m a → Samples μ (f a) (df a) ε') : Samples μ (m >>= f) (d.bind df) (ε + ε') :=
  (bind hm hf).congr rfl (by rw [ENNReal.tsum_mul_right, d.tsum_coe, one_mul])

/-- `[(); n]` of independent values. -/
theorem fromFn [Countable α] [Countable S] [Countable T] [IsProbabilityMeasure μ] : ∀ {k : ℕ}
    {f : Fin k → Proc (DEWorld T N G S) α} {p : Fin k → PMF α}, (∀ i, Samples μ (f i) (p i) 0) →
    Samples μ (fromFnM k f) (indep p) 0
  | 0, _, _, _ => pure _
  | k + 1, f, p, h => by
    have h2 := bind' (h 0) fun x _ => bind' (fromFn (fun i => h i.succ)) fun xs _ =>
      (pure (Fin.cons x xs : Fin (k + 1) → α) : Samples (T := T) (N := N) (S := S) μ _ _ _)
    exact h2.congr rfl (by simp)

/-- Independent values with the same distribution, in a list. -/
theorem mapM [Countable α] [Countable S] [Countable T] [IsProbabilityMeasure μ] {ι : Type}
    {f : ι → Proc (DEWorld T N G S) α} {p : PMF α} (h : ∀ i, Samples μ (f i) p 0) : ∀ (k : ℕ) (l : List ι), l.length = k →
    Samples μ (l.mapM f) ((indep fun _ : Fin k => p).map List.ofFn) 0
  | 0, [], _ => by
    rw [List.mapM_nil]
    exact (pure _).congr (by simp [indep, PMF.pure_map]) le_rfl
  | k + 1, i :: l, hl => by
    rw [List.mapM_cons]
    have h2 := bind' (h i) fun x _ => bind' (mapM h k l (by simpa using hl)) fun xs _ =>
      (pure (x :: xs) : Samples (T := T) (N := N) (S := S) μ _ _ _)
    refine h2.congr ?_ (by simp)
    simp only [indep, PMF.map_bind, PMF.map_comp]
    congr 1
    funext x
    rw [PMF.bind_map]
    simp only [PMF.map, Function.comp_def, List.ofFn_succ, Fin.cons_zero, Fin.cons_succ]

end Samples

end Magnesia
