import Verif.Proof.DESpread
import Mathlib.Tactic.FieldSimp

/-!
# Mean and spread of the trial points (helper lemmas)
-/

namespace Magnesia

open MeasureTheory ENNReal

variable {T P G S α β γ : Type} {N n : ℕ} [RPartialOrd P] {E : Textbook T P N}

/-- The donor of three partners. -/
def Textbook.donor (E : Textbook T P N) (pop : Fin n → Pt T N) (t : Fin n × Fin n × Fin n) : Pt T N :=
  fun c => E.mutation (pop t.1 c) (pop t.2.1 c) (pop t.2.2 c)

theorem crossover_support {current donor : Pt T N} {r : Fin N} {x : Pt T N} (h : x ∈ (E.crossover current donor r).support)
    (c : Fin N) : x c = current c ∨ x c = donor c := by
  have h := indep_support h c
  by_cases hc : c = r
  · rw [if_pos hc, PMF.mem_support_pure_iff] at h
    exact .inr h
  · rw [if_neg hc, PMF.mem_support_map_iff] at h
    obtain ⟨u, _, h⟩ := h
    split at h
    · exact .inr h.symm
    · exact .inl h.symm

theorem trial_support [NeZero N] {pop : Fin n → Pt T N} {hn : 4 ≤ n} {i : Fin n} {x : Pt T N} (h : x ∈ (E.trial pop hn i).support) :
    ∃ t, ∀ c, x c = pop i c ∨ x c = E.donor pop t c := by
  unfold Textbook.trial at h
  rw [PMF.mem_support_bind_iff] at h
  obtain ⟨t, _, h⟩ := h
  rw [PMF.mem_support_bind_iff] at h
  obtain ⟨r, _, h⟩ := h
  exact ⟨t, crossover_support h⟩

theorem trial_bounded [NeZero N] {pop : Fin n → Pt T N} {hn : 4 ≤ n} {i : Fin n} {x : Pt T N} (h : x ∈ (E.trial pop hn i).support)
    (f : T → ℝ) (c : Fin N) : |f (x c)| ≤ |f (pop i c)| + ∑ t, |f (E.donor pop t c)| := by
  obtain ⟨t, h⟩ := trial_support h
  have h1 : |f (E.donor pop t c)| ≤ ∑ t, |f (E.donor pop t c)| :=
    Finset.single_le_sum (f := fun t => |f (E.donor pop t c)|) (fun _ _ => abs_nonneg _) (Finset.mem_univ t)
  have h0 := abs_nonneg (f (pop i c))
  have h2 := abs_nonneg (f (E.donor pop t c))
  rcases h c with h | h <;> rw [h] <;> linarith

theorem expected_crossover (current donor : Pt T N) (r : Fin N) (f : T → ℝ) (c : Fin N) :
    expected (E.crossover current donor r) (fun x => f (x c)) = if c = r then f (donor c) else
      (1 - (E.U.toOuterMeasure {u | RPartialOrd.lt u E.cp = true}).toReal) * f (current c) +
        (E.U.toOuterMeasure {u | RPartialOrd.lt u E.cp = true}).toReal * f (donor c) := by
  classical
  have hb : ∀ x ∈ (E.crossover current donor r).support, |f (x c)| ≤ |f (current c)| + |f (donor c)| := by
    intro x hx
    have h0 := abs_nonneg (f (current c))
    have h1 := abs_nonneg (f (donor c))
    rcases crossover_support hx c with h | h <;> rw [h] <;> linarith
  rw [← expected_map (fun x : Pt T N => x c) hb, Textbook.crossover, indep_marginal]
  split
  · rw [expected_pure]
  · rw [expected_map (B := |f (current c)| + |f (donor c)|)]
    · have e : ∀ u, f (if RPartialOrd.lt u E.cp = true then donor c else current c) =
          f (current c) + (f (donor c) - f (current c)) * ({u | RPartialOrd.lt u E.cp = true}.indicator 1 u) := by
        intro u
        by_cases h : RPartialOrd.lt u E.cp = true <;> simp [Set.indicator, h]
      have hi : expected E.U ({u | RPartialOrd.lt u E.cp = true}.indicator 1) =
          (E.U.toOuterMeasure {u | RPartialOrd.lt u E.cp = true}).toReal := by
        rw [PMF.toOuterMeasure_apply, ENNReal.tsum_toReal_eq]
        · unfold expected
          refine tsum_congr fun u => ?_
          by_cases h : RPartialOrd.lt u E.cp = true <;> simp [Set.indicator, h]
        · intro u
          by_cases h : RPartialOrd.lt u E.cp = true <;> simp [Set.indicator, h, E.U.apply_ne_top]
      simp only [e]
      rw [expected_add (B := |f (current c)|) (C := |f (donor c) - f (current c)|) (fun _ _ => le_rfl), expected_const,
        expected_mul, hi]
      · ring
      · intro u _
        rw [abs_mul]
        refine mul_le_of_le_one_right (abs_nonneg _) ?_
        by_cases h : RPartialOrd.lt u E.cp = true <;> simp [Set.indicator, h]
    · intro u _
      have h0 := abs_nonneg (f (current c))
      have h1 := abs_nonneg (f (donor c))
      split <;> linarith

theorem expected_trial [NeZero N] (pop : Fin n → Pt T N) (hn : 4 ≤ n) (i : Fin n) (f : T → ℝ) (c : Fin N) :
    expected (E.trial pop hn i) (fun x => f (x c)) = (1 - mutationRate N E.U E.cp) * f (pop i c) +
      mutationRate N E.U E.cp * expected (PMF.uniformOfFinset (triples i) (triples_nonempty hn i))
        (fun t => f (E.donor pop t c)) := by
  have hN : (N : ℝ) ≠ 0 := by exact_mod_cast NeZero.ne N
  rw [Textbook.trial, expected_bind (B := |f (pop i c)| + ∑ t, |f (E.donor pop t c)|)]
  · have e : ∀ t, expected ((PMF.uniformOfFintype (Fin N)).bind fun r => E.crossover (pop i) (E.donor pop t) r)
        (fun x => f (x c)) = (1 - mutationRate N E.U E.cp) * f (pop i c) + mutationRate N E.U E.cp * f (E.donor pop t c) := by
      intro t
      rw [expected_bind (B := |f (pop i c)| + |f (E.donor pop t c)|)]
      · simp only [expected_crossover]
        rw [PMF.uniformOfFintype, expected_uniform]
        rw [← Finset.add_sum_erase _ _ (Finset.mem_univ c), if_pos rfl, Finset.sum_congr rfl
          (fun r hr => if_neg (Ne.symm (Finset.ne_of_mem_erase hr))), Finset.sum_const, Finset.card_erase_of_mem (Finset.mem_univ c),
          Finset.card_univ, Fintype.card_fin, nsmul_eq_mul, Nat.cast_sub (NeZero.pos N), Nat.cast_one, mutationRate]
        field_simp
        ring
      · intro x hx
        rw [PMF.mem_support_bind_iff] at hx
        obtain ⟨r, _, hx⟩ := hx
        have h0 := abs_nonneg (f (pop i c))
        have h1 := abs_nonneg (f (E.donor pop t c))
        rcases crossover_support hx c with h | h <;> rw [h] <;> linarith
    refine (expected_congr fun t _ => e t).trans ?_
    rw [expected_add (B := |(1 - mutationRate N E.U E.cp) * f (pop i c)|)
      (C := ∑ t, |mutationRate N E.U E.cp * f (E.donor pop t c)|) (fun _ _ => le_rfl), expected_const, expected_mul]
    intro t _
    exact Finset.single_le_sum (f := fun t => |mutationRate N E.U E.cp * f (E.donor pop t c)|) (fun _ _ => abs_nonneg _) (Finset.mem_univ t)
  · intro x hx
    exact trial_bounded (hn := hn) hx f c

/-! ## Three different partners -/

theorem sum_others {L : List (Fin n)} (hL : L.Nodup) (g : Fin n → ℝ) :
    ∑ l ∈ others L, g l = ∑ l, g l - (L.map g).sum := by
  classical
  have h1 : others L = Finset.univ \ L.toFinset := by
    ext a; simp [others]
  have h2 := Finset.sum_sdiff (f := g) (Finset.subset_univ L.toFinset)
  rw [h1, ← h2, List.sum_toFinset g hL]
  ring

theorem expected_partners (hn : 4 ≤ n) (i : Fin n) (f : Fin n × Fin n × Fin n → ℝ) :
    expected (PMF.uniformOfFinset (triples i) (triples_nonempty hn i)) f =
      (∑ j ∈ others [i], (∑ k ∈ others [i, j], (∑ l ∈ others [i, j, k], f (j, k, l)) / (n - 3)) / (n - 2)) / (n - 1) := by
  have hf : ∀ t, |f t| ≤ ∑ t, |f t| := fun t => Finset.single_le_sum (f := fun t => |f t|) (fun _ _ => abs_nonneg _) (Finset.mem_univ t)
  rw [← partners_eq hn i, expected_bind fun t _ => hf t, expected_uniform, others_card (by simp)]
  have c1 : ((n - [i].length : ℕ) : ℝ) = n - 1 := by
    rw [Nat.cast_sub (by simp; omega)]; simp
  rw [c1]
  congr 1
  refine Finset.sum_congr rfl fun j hj => ?_
  have hj' : j ≠ i := by simpa [others] using hj
  rw [expected_bind fun t _ => hf t, expected_uniform, others_card (by simp [hj'.symm])]
  have c2 : ((n - [i, j].length : ℕ) : ℝ) = n - 2 := by
    rw [Nat.cast_sub (by simp; omega)]; simp
  rw [c2]
  congr 1
  refine Finset.sum_congr rfl fun k hk => ?_
  have hk' : k ≠ i ∧ k ≠ j := by simpa [others] using hk
  rw [expected_map _ fun l _ => hf _, expected_uniform, others_card (by simp [hj'.symm, hk'.1.symm, hk'.2.symm])]
  have c3 : ((n - [i, j, k].length : ℕ) : ℝ) = n - 3 := by
    rw [Nat.cast_sub (by simp; omega)]; simp
  rw [c3]

theorem sum_quad {L : List (Fin n)} (hL : L.Nodup) (hl : L.length ≤ n) (y : Fin n → ℝ) (a b c : ℝ) :
    ∑ l ∈ others L, (a + b * y l + c * y l ^ 2) =
      (n - L.length) * a + b * (∑ l, y l - (L.map y).sum) + c * (∑ l, y l ^ 2 - (L.map fun l => y l ^ 2).sum) := by
  rw [Finset.sum_add_distrib, Finset.sum_add_distrib, ← Finset.mul_sum, ← Finset.mul_sum, Finset.sum_const,
    others_card hL, nsmul_eq_mul, Nat.cast_sub hl, sum_others hL, sum_others hL]

/-- Mean of the donors. -/
theorem partners_mean (hn : 4 ≤ n) (i : Fin n) (y : Fin n → ℝ) (w : ℝ) :
    expected (PMF.uniformOfFinset (triples i) (triples_nonempty hn i)) (fun t => y t.1 + (y t.2.1 - y t.2.2) * w) =
      (∑ j, y j - y i) / (n - 1) := by
  have n4 : (4 : ℝ) ≤ n := by exact_mod_cast hn
  have d1 : (n : ℝ) - 1 ≠ 0 := by linarith
  have d2 : (n : ℝ) - 2 ≠ 0 := by linarith
  have d3 : (n : ℝ) - 3 ≠ 0 := by linarith
  rw [expected_partners hn]
  congr 1
  have hj : ∀ j ∈ others [i], (∑ k ∈ others [i, j], (∑ l ∈ others [i, j, k], (y j + (y k - y l) * w)) / ((n : ℝ) - 3)) / ((n : ℝ) - 2) =
      0 + 1 * y j + 0 * y j ^ 2 := by
    intro j hj
    have hj' : j ≠ i := by simpa [others] using hj
    have hk : ∀ k ∈ others [i, j], (∑ l ∈ others [i, j, k], (y j + (y k - y l) * w)) / ((n : ℝ) - 3) =
        (y j - w * (∑ l, y l - y i - y j) / (n - 3)) + (w + w / (n - 3)) * y k + 0 * y k ^ 2 := by
      intro k hk
      have hk' : k ≠ i ∧ k ≠ j := by simpa [others] using hk
      rw [Finset.sum_congr rfl fun l _ => show y j + (y k - y l) * w = (y j + y k * w) + (-w) * y l + 0 * y l ^ 2 by ring,
        sum_quad (by simp [hj'.symm, hk'.1.symm, hk'.2.symm]) (by simp; omega)]
      simp only [List.map_cons, List.map_nil, List.sum_cons, List.sum_nil, List.length_cons, List.length_nil]
      push_cast
      field_simp
      ring
    rw [Finset.sum_congr rfl hk, sum_quad (by simp [hj'.symm]) (by simp; omega)]
    simp only [List.map_cons, List.map_nil, List.sum_cons, List.sum_nil, List.length_cons, List.length_nil]
    push_cast
    field_simp
    ring
  rw [Finset.sum_congr rfl hj, sum_quad (by simp) (by simp; omega)]
  simp

/-- Mean square of the donors. -/
theorem partners_square (hn : 4 ≤ n) (i : Fin n) (y : Fin n → ℝ) (w : ℝ) :
    expected (PMF.uniformOfFinset (triples i) (triples_nonempty hn i)) (fun t => (y t.1 + (y t.2.1 - y t.2.2) * w) ^ 2) =
      (1 + 2 * w ^ 2) * ((∑ j, y j ^ 2 - y i ^ 2) / (n - 1)) -
        2 * w ^ 2 * (((∑ j, y j - y i) ^ 2 - (∑ j, y j ^ 2 - y i ^ 2)) / ((n - 1) * (n - 2))) := by
  have n4 : (4 : ℝ) ≤ n := by exact_mod_cast hn
  have d1 : (n : ℝ) - 1 ≠ 0 := by linarith
  have d2 : (n : ℝ) - 2 ≠ 0 := by linarith
  have d3 : (n : ℝ) - 3 ≠ 0 := by linarith
  rw [expected_partners hn]
  have hj : ∀ j ∈ others [i], (∑ k ∈ others [i, j], (∑ l ∈ others [i, j, k], (y j + (y k - y l) * w) ^ 2) / ((n : ℝ) - 3)) / ((n : ℝ) - 2) =
      (2 * w ^ 2 * (∑ l, y l ^ 2 - y i ^ 2) / (n - 2) - 2 * w ^ 2 * ((∑ l, y l - y i) ^ 2 - (∑ l, y l ^ 2 - y i ^ 2)) / ((n - 2) * (n - 3))) +
        (4 * w ^ 2 * (∑ l, y l - y i) / ((n - 2) * (n - 3))) * y j +
        (1 - 2 * w ^ 2 / (n - 2) - 4 * w ^ 2 / ((n - 2) * (n - 3))) * y j ^ 2 := by
    intro j hj
    have hj' : j ≠ i := by simpa [others] using hj
    have hk : ∀ k ∈ others [i, j], (∑ l ∈ others [i, j, k], (y j + (y k - y l) * w) ^ 2) / ((n : ℝ) - 3) =
        (y j ^ 2 - 2 * w * y j * (∑ l, y l - y i - y j) / (n - 3) + w ^ 2 * (∑ l, y l ^ 2 - y i ^ 2 - y j ^ 2) / (n - 3)) +
        (2 * w * y j - 2 * w ^ 2 * (∑ l, y l - y i - y j) / (n - 3) + 2 * w * y j / (n - 3)) * y k +
        (w ^ 2 + 2 * w ^ 2 / (n - 3) - w ^ 2 / (n - 3)) * y k ^ 2 := by
      intro k hk
      have hk' : k ≠ i ∧ k ≠ j := by simpa [others] using hk
      rw [Finset.sum_congr rfl fun l _ => show (y j + (y k - y l) * w) ^ 2 =
          (y j + y k * w) ^ 2 + (-2 * w * (y j + y k * w)) * y l + w ^ 2 * y l ^ 2 by ring,
        sum_quad (by simp [hj'.symm, hk'.1.symm, hk'.2.symm]) (by simp; omega)]
      simp only [List.map_cons, List.map_nil, List.sum_cons, List.sum_nil, List.length_cons, List.length_nil]
      generalize ∑ l, y l = A
      generalize ∑ l, y l ^ 2 = B
      push_cast
      field_simp
      ring
    rw [Finset.sum_congr rfl hk, sum_quad (by simp [hj'.symm]) (by simp; omega)]
    simp only [List.map_cons, List.map_nil, List.sum_cons, List.sum_nil, List.length_cons, List.length_nil]
    generalize ∑ l, y l = A
    generalize ∑ l, y l ^ 2 = B
    push_cast
    field_simp
    ring
  rw [Finset.sum_congr rfl hj, sum_quad (by simp) (by simp; omega)]
  simp only [List.map_cons, List.map_nil, List.sum_cons, List.sum_nil, List.length_cons, List.length_nil]
  generalize ∑ l, y l = A
  generalize ∑ l, y l ^ 2 = B
  push_cast
  field_simp
  ring

end Magnesia
