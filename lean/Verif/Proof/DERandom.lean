import Verif.Proof.DEProb
import Verif.Proof.DEChampion

/-!
# The optimizer with an ideal generator is the textbook algorithm (helper lemmas)
-/

namespace Magnesia

open MeasureTheory ENNReal RZero ROne

variable {T P G S α β γ : Type} {N n : ℕ} [MeasurableSpace G] {μ : Measure G} [IsProbabilityMeasure μ]

omit [IsProbabilityMeasure μ] in
theorem Det.samples {m : Proc (DEWorld T N G S) α} {a : α} (h : Det m a) : Samples μ m (.pure a) 0 := Samples.det h

/-! ## Uniform distributions -/

/-- A distribution that is constant on a finite set and zero elsewhere is uniform. -/
theorem eq_uniform {p : PMF α} {s : Finset α} (hs : s.Nonempty) {κ : ℝ≥0∞} (h1 : ∀ a ∈ s, p a = κ) (h0 : ∀ a ∉ s, p a = 0) :
    p = PMF.uniformOfFinset s hs := by
  classical
  have hsum : (s.card : ℝ≥0∞) * κ = 1 := by
    rw [← p.tsum_coe, tsum_eq_sum (s := s) (fun a ha => h0 a ha), Finset.sum_congr rfl h1, Finset.sum_const, nsmul_eq_mul]
  have hκ : κ = (s.card : ℝ≥0∞)⁻¹ := ENNReal.eq_inv_of_mul_eq_one_left (by rw [mul_comm]; exact hsum)
  ext a
  by_cases ha : a ∈ s
  · rw [PMF.uniformOfFinset_apply_of_mem hs ha, h1 a ha, hκ]
  · rw [PMF.uniformOfFinset_apply_of_notMem hs ha, h0 a ha]

/-- The elements of `Fin n` not in the list. -/
def others (L : List (Fin n)) : Finset (Fin n) := Finset.univ.filter (· ∉ L)

theorem others_card {L : List (Fin n)} (h : L.Nodup) : (others L).card = n - L.length := by
  classical
  have : others L = Finset.univ \ L.toFinset := by
    ext a; simp [others]
  rw [this, Finset.card_sdiff_of_subset (Finset.subset_univ _), List.toFinset_card_of_nodup h]
  simp

theorem others_nonempty {L : List (Fin n)} (h : L.length < n) : (others L).Nonempty := by
  classical
  have h1 : others L = Finset.univ \ L.toFinset := by
    ext a; simp [others]
  rw [← Finset.card_pos, h1, Finset.card_sdiff_of_subset (Finset.subset_univ _)]
  have := List.toFinset_card_le L
  simp
  omega

theorem uniform_range (hn : 0 < n) (hne : (Finset.range n).Nonempty) :
    PMF.uniformOfFinset (Finset.range n) hne =
      (@PMF.uniformOfFintype (Fin n) _ ⟨⟨0, hn⟩⟩).map Fin.val := by
  symm
  refine eq_uniform hne (κ := (n : ℝ≥0∞)⁻¹) ?_ ?_
  · intro a ha
    rw [PMF.map_apply, tsum_eq_single (⟨a, Finset.mem_range.1 ha⟩ : Fin n)]
    · simp
    · intro b hb
      rw [if_neg]
      intro h
      exact hb (Fin.ext h.symm)
  · intro a ha
    rw [PMF.map_apply]
    simp only [ENNReal.tsum_eq_zero, ite_eq_right_iff]
    intro b hb
    exact absurd (Finset.mem_range.2 (hb ▸ b.isLt)) ha

/-- The partners, drawn one after the other. -/
theorem partners_eq (hn : 4 ≤ n) (i : Fin n) :
    ((PMF.uniformOfFinset (others [i]) (others_nonempty (by simp; omega))).bind fun j =>
      (PMF.uniformOfFinset (others [i, j]) (others_nonempty (by simp; omega))).bind fun k =>
        (PMF.uniformOfFinset (others [i, j, k]) (others_nonempty (by simp; omega))).map fun l => (j, k, l)) =
    PMF.uniformOfFinset (triples i) (triples_nonempty hn i) := by
  have hval : ∀ j k l, ((PMF.uniformOfFinset (others [i]) (others_nonempty (by simp; omega))).bind fun j =>
      (PMF.uniformOfFinset (others [i, j]) (others_nonempty (by simp; omega))).bind fun k =>
        (PMF.uniformOfFinset (others [i, j, k]) (others_nonempty (by simp; omega))).map fun l => (j, k, l)) (j, k, l) =
      PMF.uniformOfFinset (others [i]) (others_nonempty (by simp; omega)) j *
      (PMF.uniformOfFinset (others [i, j]) (others_nonempty (by simp; omega)) k *
        PMF.uniformOfFinset (others [i, j, k]) (others_nonempty (by simp; omega)) l) := by
    intro j k l
    rw [PMF.bind_apply, tsum_eq_single j]
    · rw [PMF.bind_apply, tsum_eq_single k]
      · rw [PMF.map_apply, tsum_eq_single l]
        · simp
        · intro l' hl; simp [Ne.symm hl]
      · intro k' hk
        rw [PMF.map_apply]
        simp [Ne.symm hk]
    · intro j' hj
      rw [PMF.bind_apply]
      simp [PMF.map_apply, Ne.symm hj]
  refine eq_uniform (triples_nonempty hn i) (κ := ((n - 1 : ℕ) : ℝ≥0∞)⁻¹ * (((n - 2 : ℕ) : ℝ≥0∞)⁻¹ * ((n - 3 : ℕ) : ℝ≥0∞)⁻¹)) ?_ ?_
  · rintro ⟨j, k, l⟩ h
    rw [hval]
    simp only [triples, Finset.mem_filter, Finset.mem_univ, true_and, List.nodup_cons, List.mem_cons, List.not_mem_nil,
      or_false, not_or, List.nodup_nil, and_true, not_false_eq_true] at h
    obtain ⟨⟨h1, h2, h3⟩, ⟨h4, h5⟩, h6⟩ := h
    rw [PMF.uniformOfFinset_apply_of_mem _ (by simp [others]; exact Ne.symm h1),
      PMF.uniformOfFinset_apply_of_mem _ (by simp [others]; exact ⟨Ne.symm h2, Ne.symm h4⟩),
      PMF.uniformOfFinset_apply_of_mem _ (by simp [others]; exact ⟨Ne.symm h3, Ne.symm h5, Ne.symm h6⟩),
      others_card (by simp), others_card (by simp [h1]), others_card (by simp [h1, h2, h4])]
    rfl
  · rintro ⟨j, k, l⟩ h
    rw [hval]
    by_contra h0
    simp only [mul_eq_zero, not_or, PMF.uniformOfFinset_apply, others, Finset.mem_filter, Finset.mem_univ, true_and,
      List.mem_cons, List.not_mem_nil, or_false, not_or, ite_eq_right_iff, Classical.not_imp] at h0
    obtain ⟨⟨h1, _⟩, ⟨⟨h2, h3⟩, _⟩, ⟨h4, h5, h6⟩, _⟩ := h0
    apply h
    simp only [triples, Finset.mem_filter, Finset.mem_univ, true_and, List.nodup_cons, List.mem_cons, List.not_mem_nil,
      or_false, not_or, List.nodup_nil, and_true, not_false_eq_true]
    exact ⟨⟨Ne.symm h1, Ne.symm h2, Ne.symm h4⟩, ⟨Ne.symm h3, Ne.symm h5⟩, Ne.symm h6⟩

/-! ## One iteration -/

/-- The next computation depends on a random element of `Fin n`. -/
theorem Samples.bindFin [Countable S] [Countable T] (hn : 0 < n) {m : Proc (DEWorld T N G S) ℕ}
    {f : ℕ → Proc (DEWorld T N G S) β} {p : PMF (Fin n)} {df : Fin n → PMF β} {ε ε' : ℝ≥0∞}
    (hm : Samples μ m (p.map Fin.val) ε) (hr : ∀ a, CanReturn m a → a < n)
    (hf : ∀ j : Fin n, CanReturn m j → Samples μ (f j) (df j) ε') : Samples μ (m >>= f) (p.bind df) (ε + ε') := by
  refine (Samples.bind' (df := fun a => if h : a < n then df ⟨a, h⟩ else df ⟨0, hn⟩) hm fun a ha => ?_).congr ?_ le_rfl
  · have := hr a ha
    simp only [this, dif_pos]
    exact hf ⟨a, this⟩ ha
  · rw [PMF.bind_map]
    congr 1
    funext j
    simp

theorem samples_draw [Countable S] [Countable T] {env : DEnv T P N G S} (hn : 0 < n)
    (hi : IsSample μ (env.genIndex n) (PMF.uniformOfFinset (.range n) ⟨0, Finset.mem_range.2 hn⟩)) {L : List (Fin n)}
    (hL : L.Nodup) (hlt : L.length < n) : ∀ fuel : ℕ, Samples μ (env.draw n (L.map Fin.val) fuel)
      ((PMF.uniformOfFinset (others L) (others_nonempty hlt)).map Fin.val) ((L.length / n : ℝ≥0∞) ^ fuel) := by
  have : Nonempty (Fin n) := ⟨⟨0, hn⟩⟩
  have hn0 : (n : ℝ≥0∞) ≠ 0 := by exact_mod_cast hn.ne'
  have hcL : (others L).card = n - L.length := others_card hL
  have hcL' : (Finset.univ.filter (· ∈ L)).card = L.length := by
    classical
    have : Finset.univ.filter (· ∈ L) = L.toFinset := by ext a; simp
    rw [this, List.toFinset_card_of_nodup hL]
  intro fuel
  induction fuel with
  | zero =>
    intro c l
    refine ⟨fun _ => 0, fun b A hA => ?_, fun a => by simp, by simp⟩
    have : Ends (env.draw n (L.map Fin.val) 0) c l b A = ∅ := by
      ext g
      simp only [Ends, Set.mem_ofPred_eq, Set.mem_empty_iff_false, iff_false]
      rintro ⟨g', _, h⟩
      cases h
    rw [this]
    exact ⟨MeasurableSet.empty, by simp⟩
  | succ fuel ih =>
    have hidx : Samples μ (env.index n) ((PMF.uniformOfFintype (Fin n)).map Fin.val) 0 :=
      (Samples.sample hi (fun w => rfl)).congr (uniform_range hn _) le_rfl
    have hb := Samples.bind (f := fun j => if (L.map Fin.val).contains j then env.draw n (L.map Fin.val) fuel else pure j)
      (df := fun j => if (L.map Fin.val).contains j then
        (PMF.uniformOfFinset (others L) (others_nonempty hlt)).map Fin.val else PMF.pure j)
      (εf := fun j => if (L.map Fin.val).contains j then (L.length / n : ℝ≥0∞) ^ fuel else 0) hidx fun j _ => by
        cases h : (L.map Fin.val).contains j with
        | true => simpa using ih
        | false => simpa using Samples.pure j
    have hmem : ∀ j : Fin n, (L.map Fin.val).contains (j : ℕ) = decide (j ∈ L) := by
      intro j
      rw [Bool.eq_iff_iff]
      simp [Fin.val_inj]
    refine hb.congr ?_ (le_of_eq ?_)
    · rw [PMF.bind_map]
      ext a
      rw [PMF.bind_apply, tsum_fintype]
      obtain ⟨X, hX⟩ : ∃ X, X = ((PMF.uniformOfFinset (others L) (others_nonempty hlt)).map Fin.val) a := ⟨_, rfl⟩
      have h1 : ∀ j : Fin n, (PMF.uniformOfFintype (Fin n)) j * ((fun j => if (L.map Fin.val).contains j then
          (PMF.uniformOfFinset (others L) (others_nonempty hlt)).map Fin.val else PMF.pure j) ∘ Fin.val) j a =
          (n : ℝ≥0∞)⁻¹ * ((if j ∈ L then X else 0) + if j ∉ L then (if a = j then 1 else 0) else 0) := by
        intro j
        simp only [Function.comp_apply, hmem, PMF.uniformOfFintype_apply, Fintype.card_fin]
        by_cases hj : j ∈ L
        · simp [hj, hX]
        · simp [hj, PMF.pure_apply]
      rw [Finset.sum_congr rfl fun j _ => h1 j, ← Finset.mul_sum, Finset.sum_add_distrib, ← Finset.sum_filter,
        ← Finset.sum_filter, Finset.sum_const, hcL', nsmul_eq_mul]
      have hX2 : ((n - L.length : ℕ) : ℝ≥0∞) * X = ∑ j ∈ Finset.univ.filter (· ∉ L), if a = (j : ℕ) then (1 : ℝ≥0∞) else 0 := by
        rw [hX, PMF.map_apply, tsum_fintype, Finset.mul_sum]
        rw [Finset.sum_filter]
        refine Finset.sum_congr rfl fun j _ => ?_
        rw [PMF.uniformOfFinset_apply, hcL]
        by_cases hj : j ∉ L
        · have : j ∈ others L := by simp [others, hj]
          simp only [this, if_true, hj, not_false_eq_true]
          split
          · exact ENNReal.mul_inv_cancel (by exact_mod_cast (by omega : n - L.length ≠ 0)) (natCast_ne_top _)
          · simp
        · have : j ∉ others L := by simpa [others] using hj
          simp [this, hj]
      rw [← hX2, ← add_mul, ← Nat.cast_add, Nat.add_sub_cancel' hlt.le, ← mul_assoc, ENNReal.inv_mul_cancel hn0 (natCast_ne_top _),
        one_mul, hX]
    · rw [zero_add, PMF.map]
      have h2 : ∀ g : ℕ → ℝ≥0∞, ∑' j, ((PMF.uniformOfFintype (Fin n)).bind (PMF.pure ∘ Fin.val)) j * g j =
          ∑ j : Fin n, (n : ℝ≥0∞)⁻¹ * g j := by
        intro g
        simp only [PMF.bind_apply, ← ENNReal.tsum_mul_right]
        rw [ENNReal.tsum_comm, tsum_fintype]
        refine Finset.sum_congr rfl fun j _ => ?_
        rw [tsum_eq_single (j : ℕ)]
        · simp
        · intro k hk
          simp [PMF.pure_apply, hk]
      rw [h2, ← Finset.mul_sum]
      simp only [hmem, decide_eq_true_eq]
      rw [← Finset.sum_filter, Finset.sum_const, hcL', nsmul_eq_mul, pow_succ, div_eq_mul_inv]
      ring

section Iteration

variable [Countable S] [Countable T] [Countable P] [RPartialOrd P] [RAdd T T T] [RSub T T T] [RMul T T T]
  {env : DEnv T P N G S} {E : Textbook T P N} {w : T}

/-- One coordinate of the trial point. -/
theorem samples_coordinate (hU : IsSample μ (fun g => (.ok (env.genUnit g).1, (env.genUnit g).2)) E.U)
    (hm : ∀ x y z : T, (do RAdd.add x (← RMul.mul (← RSub.sub y z) w)) = Except.ok (E.mutation x y z))
    (pop : Fin n → Pt T N) (i j k l : Fin n) (r c : Fin N) :
    Samples μ (do
      let mutate ← env.mutates E.cp c r
      if mutate then
        Proc.ofRes (do
          let xj ← getIdx (List.ofFn pop) j
          let xk ← getIdx (List.ofFn pop) k
          let xl ← getIdx (List.ofFn pop) l
          RAdd.add (xj c) (← RMul.mul (← RSub.sub (xk c) (xl c)) w))
      else
        Proc.ofRes (do
          let xi ← getIdx (List.ofFn pop) i
          pure (xi c)) : Proc (DEWorld T N G S) T)
      (if c = r then .pure (E.mutation (pop j c) (pop k c) (pop l c)) else
        E.U.map fun u => if RPartialOrd.lt u E.cp then E.mutation (pop j c) (pop k c) (pop l c) else pop i c) 0 := by
  have hget : ∀ s : Fin n, getIdx (List.ofFn pop) s = .ok (pop s) := fun s => getIdx_ofFn pop s
  have hdonor : Samples μ (Proc.ofRes (do
        let xj ← getIdx (List.ofFn pop) j
        let xk ← getIdx (List.ofFn pop) k
        let xl ← getIdx (List.ofFn pop) l
        RAdd.add (xj c) (← RMul.mul (← RSub.sub (xk c) (xl c)) w)) : Proc (DEWorld T N G S) T)
      (.pure (E.mutation (pop j c) (pop k c) (pop l c))) 0 := by
    refine Samples.ofRes ?_
    rw [hget j, hget k, hget l]
    exact hm _ _ _
  have hcur : Samples μ (Proc.ofRes (do
        let xi ← getIdx (List.ofFn pop) i
        pure (xi c)) : Proc (DEWorld T N G S) T) (.pure (pop i c)) 0 := by
    refine Samples.ofRes ?_
    rw [hget i]
    rfl
  by_cases hc : c = r
  · subst hc
    simp only [if_true]
    have h1 : Samples μ (env.mutates E.cp c c : Proc (DEWorld T N G S) Bool) (.pure true) 0 := by
      unfold DEnv.mutates
      rw [if_pos rfl]
      exact Samples.pure _
    refine Samples.congr (Samples.bind' (ε' := 0) (df := fun b => if b then
      PMF.pure (E.mutation (pop j c) (pop k c) (pop l c)) else PMF.pure (pop i c)) h1 fun b _ => ?_) (by simp) (by simp)
    cases b
    · exact hcur
    · exact hdonor
  · simp only [hc, if_false]
    have hc' : (c : ℕ) ≠ r := fun h => hc (Fin.ext h)
    have h1 : Samples μ (env.mutates E.cp c r : Proc (DEWorld T N G S) Bool) (E.U.map fun u => RPartialOrd.lt u E.cp) 0 := by
      unfold DEnv.mutates
      rw [if_neg hc']
      refine (Samples.bind' (Samples.sample hU fun _ => rfl) fun u _ => Samples.pure _).congr ?_ (by simp)
      rfl
    refine Samples.congr (Samples.bind' (ε' := 0) (df := fun b => if b then
      PMF.pure (E.mutation (pop j c) (pop k c) (pop l c)) else PMF.pure (pop i c)) h1 fun b _ => ?_) ?_ (by simp)
    · cases b
      · exact hcur
      · exact hdonor
    rw [PMF.bind_map]
    unfold PMF.map
    congr 1
    funext u
    simp only [Function.comp_apply]
    split <;> rfl

theorem samples_trial (hU : IsSample μ (fun g => (.ok (env.genUnit g).1, (env.genUnit g).2)) E.U)
    (hm : ∀ x y z : T, (do RAdd.add x (← RMul.mul (← RSub.sub y z) w)) = Except.ok (E.mutation x y z))
    (pop : Fin n → Pt T N) (i j k l : Fin n) (r : Fin N) :
    Samples μ (env.trial (List.ofFn pop) E.cp w i j k l r)
      (E.crossover (pop i) (fun c => E.mutation (pop j c) (pop k c) (pop l c)) r) 0 := by
  exact Samples.fromFn fun c => samples_coordinate hU hm pop i j k l r c

variable [RZero P] [ROne P] [RPartialOrd T] {bounds : Fin N → T × T}

theorem samples_iteration [NeZero N] (hc : env.RandContract) (hid : env.Ideal μ bounds E.D E.U) (hb : env.Compares E.better)
    (hm : ∀ x y z : T, (do RAdd.add x (← RMul.mul (← RSub.sub y z) w)) = Except.ok (E.mutation x y z)) (hn : 4 ≤ n)
    (fuel : ℕ) (pop : Fin n → Pt T N) (i : Fin n) :
    Samples μ (env.iteration fuel E.cp w n (List.ofFn pop) i) ((E.step pop hn i).map List.ofFn)
      ((1 / n) ^ fuel + ((2 / n) ^ fuel + (3 / n) ^ fuel)) := by
  have hn0 : 0 < n := by omega
  have hdraw : ∀ (L : List (Fin n)), L.Nodup → ∀ hlt : L.length < n, Samples μ (env.draw n (L.map Fin.val) fuel)
      ((PMF.uniformOfFinset (others L) (others_nonempty hlt)).map Fin.val) ((L.length / n : ℝ≥0∞) ^ fuel) :=
    fun L h1 h2 => samples_draw hn0 (hid.index n hn0) h1 h2 fuel
  have hcan : ∀ (L : List ℕ) a, CanReturn (env.draw n L fuel) a → a < n := by
    rintro L a ⟨w, w', h⟩
    exact (DEnv.draw_ok hc h).1
  have hcan2 : ∀ (L : List ℕ) a, CanReturn (env.draw n L fuel) a → a ∉ L := by
    rintro L a ⟨w, w', h⟩
    exact (DEnv.draw_ok hc h).2.1
  have hr : Samples μ (env.index N) ((PMF.uniformOfFintype (Fin N)).map Fin.val) 0 :=
    (Samples.sample (hid.index N (NeZero.pos N)) (fun w => rfl)).congr (uniform_range (NeZero.pos N) _) le_rfl
  have hget : getIdx (List.ofFn pop) i = .ok (pop i) := getIdx_ofFn pop i
  have hdraw1 := hdraw [i] (by simp) (by simp; omega)
  have hdraw2 := fun j (h : [i, j].Nodup) => (hdraw [i, j] h (by simp; omega)).congr (ε' := (2 / n) ^ fuel) rfl (by simp)
  have hdraw3 := fun j k (h : [i, j, k].Nodup) =>
    (hdraw [i, j, k] h (by simp; omega)).congr (ε' := (3 / n) ^ fuel) rfl (by simp)
  unfold DEnv.iteration
  refine Samples.congr (Samples.bindFin hn0 hdraw1 (hcan _) fun j hj =>
    Samples.bindFin hn0 (hdraw2 j ?_) (hcan _) fun k hk =>
    Samples.bindFin hn0 (hdraw3 j k ?_) (hcan _) fun l hl =>
    Samples.bindFin (NeZero.pos N) hr ?_ fun r _ =>
    Samples.bind' (samples_trial hid.unit hm pop i j k l r) fun x _ =>
    Samples.bind' (Samples.ofRes hget) fun xi _ =>
    Samples.bind' (Det.cmp hb x xi).samples (ε' := 0)
      (df := fun b => PMF.pure (if b then List.ofFn (Function.update pop i x) else List.ofFn pop)) fun b _ => ?_) ?_ ?_
  · have := hcan2 _ _ hj
    simp [Fin.val_inj] at this
    simp
    exact fun h => this h.symm
  · have h1 := hcan2 _ _ hj
    have h2 := hcan2 _ _ hk
    simp [Fin.val_inj] at h1 h2
    simp
    exact ⟨⟨fun h => h1 h.symm, fun h => h2.1 h.symm⟩, fun h => h2.2 h.symm⟩
  · rintro a ⟨w, w', h⟩
    exact (DEnv.index_ok hc h).1
  · cases b with
    | true =>
      refine Samples.ofRes ?_
      rw [setRes_some (by simp), if_pos rfl]
      congr 1
      apply List.ext_getElem
      · simp
      intro k h1 h2
      rw [List.getElem_set]
      simp only [List.getElem_ofFn, Function.update_apply]
      by_cases hk : (i : ℕ) = k
      · rw [if_pos hk, if_pos (Fin.ext hk.symm)]
      · rw [if_neg hk, if_neg (fun h => hk (by rw [← h]))]
    | false => exact Samples.pure _
  · unfold Textbook.step Textbook.trial
    rw [PMF.map_comp, PMF.map_bind, ← partners_eq hn i]
    simp only [PMF.bind_bind, PMF.bind_map, PMF.map_bind, PMF.pure_bind]
    congr 1
    funext j
    congr 1
    funext k
    congr 1
    funext l
    simp only [Function.comp_apply]
    congr 1
    funext r
    unfold PMF.map
    congr 1
    funext x
    simp only [Function.comp_apply]
    split <;> rfl
  · simp

/-- The population after `t` iterations. -/
theorem samples_population [NeZero N] (hc : env.RandContract) (hid : env.Ideal μ bounds E.D E.U) (hb : env.Compares E.better)
    (hm : ∀ x y z : T, (do RAdd.add x (← RMul.mul (← RSub.sub y z) w)) = Except.ok (E.mutation x y z)) (hn : 4 ≤ n)
    (fuel : ℕ) : ∀ t : ℕ,
    Samples μ (do
      let population ← (List.range n).mapM (fun _ => fromFnM N (fun i => env.uniform (bounds i).1 (bounds i).2))
      (List.range t).foldlM (fun pop t => env.iteration fuel E.cp w n pop (t % n)) population)
      ((E.population hn t).map List.ofFn) (t * ((1 / n) ^ fuel + ((2 / n) ^ fuel + (3 / n) ^ fuel))) ∧
    ∀ l, CanReturn (do
      let population ← (List.range n).mapM (fun _ => fromFnM N (fun i => env.uniform (bounds i).1 (bounds i).2))
      (List.range t).foldlM (fun pop t => env.iteration fuel E.cp w n pop (t % n)) population) l → l.length = n
  | 0 => by
    have h0 : Samples μ ((List.range n).mapM (fun _ => fromFnM N (fun i => env.uniform (bounds i).1 (bounds i).2)))
        ((E.population hn 0).map List.ofFn) 0 :=
      Samples.mapM (fun _ => Samples.fromFn fun c => Samples.sample (hid.uniform c) fun _ => rfl) n _ (by simp)
    refine ⟨(Samples.bind' h0 fun l _ => Samples.pure l).congr (by simp) (by simp), ?_⟩
    rintro l ⟨s, s', h⟩
    obtain ⟨p0, s1, h1, h⟩ := Proc.bind_ok h
    obtain ⟨rfl, rfl⟩ := Proc.pure_ok h
    have := (Proc.mapM_inv (f := fun _ : ℕ => fromFnM N (fun i => env.uniform (bounds i).1 (bounds i).2)) (L := fun _ => ())
      (Q := fun _ => True) (fun _ _ _ _ _ => ⟨trivial, rfl⟩) h1).1
    simpa using this
  | t + 1 => by
    obtain ⟨h1, h2⟩ := samples_population hc hid hb hm hn fuel t
    have hn0 : 0 < n := by omega
    have he : (do
        let population ← (List.range n).mapM (fun _ => fromFnM N (fun i => env.uniform (bounds i).1 (bounds i).2))
        (List.range (t + 1)).foldlM (fun pop t => env.iteration fuel E.cp w n pop (t % n)) population :
          Proc (DEWorld T N G S) (List (Pt T N))) =
        (do
          let population ← (List.range n).mapM (fun _ => fromFnM N (fun i => env.uniform (bounds i).1 (bounds i).2))
          (List.range t).foldlM (fun pop t => env.iteration fuel E.cp w n pop (t % n)) population) >>= fun pop =>
            env.iteration fuel E.cp w n pop (t % n) := by
      rw [bind_assoc]
      congr 1
      funext p0
      rw [List.range_succ, List.foldlM_append]
      congr 1
      funext p
      simp [List.foldlM]
    rw [he]
    constructor
    · refine Samples.congr (Samples.bind' (ε' := (1 / n) ^ fuel + ((2 / n) ^ fuel + (3 / n) ^ fuel)) (df := fun l => if h : l.length = n then
        (E.step (fun s => l[s]) hn (slot hn0 t)).map List.ofFn else PMF.pure l) h1 fun l hl => ?_) ?_ ?_
      · have hlen := h2 l hl
        simp only [hlen, dif_pos]
        have : l = List.ofFn fun s : Fin n => l[s] := by
          apply List.ext_getElem
          · simp [hlen]
          · intro k _ _; simp
        have h3 := samples_iteration (w := w) hc hid hb hm hn fuel (fun s : Fin n => l[s]) (slot hn0 t)
        rw [← this] at h3
        exact h3
      · rw [PMF.bind_map]
        simp only [Textbook.population, PMF.map_bind]
        congr 1
        funext pop
        simp
      · rw [Nat.cast_succ, add_mul, one_mul]
    · rintro l ⟨s, s', h⟩
      obtain ⟨p0, s1, h3, h⟩ := Proc.bind_ok h
      have hl := h2 p0 ⟨_, _, h3⟩
      unfold DEnv.iteration at h
      obtain ⟨_, _, _, h⟩ := Proc.bind_ok h
      obtain ⟨_, _, _, h⟩ := Proc.bind_ok h
      obtain ⟨_, _, _, h⟩ := Proc.bind_ok h
      obtain ⟨_, _, _, h⟩ := Proc.bind_ok h
      obtain ⟨_, _, _, h⟩ := Proc.bind_ok h
      obtain ⟨_, _, _, h⟩ := Proc.bind_ok h
      obtain ⟨b, _, _, h⟩ := Proc.bind_ok h
      cases b with
      | true =>
        obtain ⟨h, _⟩ := Proc.ofRes_ok h
        rw [(DEnv.setRes_ok h).1]
        simp [hl]
      | false =>
        obtain ⟨rfl, rfl⟩ := Proc.pure_ok h
        exact hl

omit [MeasurableSpace G] [Countable S] [Countable T] [Countable P] in
/-- With valid parameters: initial points, iterations, tournament. -/
theorem optimize_eq [FromI8 T] {cp : P} (hv : ValidParams n cp w) {fuel iters : ℕ} :
    env.optimize fuel bounds n cp w iters = (do
      let population ← (List.range n).mapM (fun _ => fromFnM N (fun i => env.uniform (bounds i).1 (bounds i).2))
      (List.range iters).foldlM (fun pop t => env.iteration fuel cp w n pop (t % n)) population) >>= env.knockout := by
  funext s
  have h : env.optimize fuel bounds n cp w iters = (do
      let population ← (List.range n).mapM (fun _ => fromFnM N (fun i => env.uniform (bounds i).1 (bounds i).2))
      let population ← (List.range iters).foldlM (fun pop t => env.iteration fuel cp w population.length pop
        (t % population.length)) population
      env.knockout population) := by
    unfold DEnv.optimize
    simp only [hv.size, hv.cp_nonneg, hv.cp_le_one, hv.weight_nonneg, hv.weight_le_two, decide_true,
      Bool.and_self, Proc.assert, if_true, pure_bind]
  rw [h, bind_assoc]
  simp only [Proc.bind_eq]
  rcases hp : (List.range n).mapM (fun _ => fromFnM N (fun i => env.uniform (bounds i).1 (bounds i).2)) s with ⟨_ | p0, s1⟩
  · rfl
  · have hl : p0.length = n := by
      have := (Proc.mapM_inv (f := fun _ : ℕ => fromFnM N (fun i => env.uniform (bounds i).1 (bounds i).2)) (L := fun _ => ())
        (Q := fun _ => True) (fun _ _ _ _ _ => ⟨trivial, rfl⟩) hp).1
      simpa using this
    simp only [hl]

/-- The whole run. -/
theorem samples_optimize [NeZero N] [FromI8 T] (hc : env.RandContract) (hid : env.Ideal μ bounds E.D E.U)
    (hb : env.Compares E.better)
    (hm : ∀ x y z : T, (do RAdd.add x (← RMul.mul (← RSub.sub y z) w)) = Except.ok (E.mutation x y z))
    (hv : ValidParams n E.cp w) (fuel iters : ℕ) :
    Samples μ (some <$> env.optimize fuel bounds n E.cp w iters) (E.result hv.size iters)
      (iters * ((1 / n) ^ fuel + ((2 / n) ^ fuel + (3 / n) ^ fuel))) := by
  obtain ⟨h1, h2⟩ := samples_population (w := w) hc hid hb hm hv.size fuel iters
  rw [optimize_eq hv, map_eq_pure_bind, bind_assoc]
  refine Samples.congr (Samples.bind' (ε' := 0) (df := fun l => PMF.pure (champion E.better l)) h1 fun l hl => ?_) ?_ ?_
  · obtain ⟨x, h3, h4⟩ := det_knockout hb l.length l rfl (by
      rintro rfl; have := h2 _ hl; have := hv.size; simp at *; omega)
    rw [h3]
    exact (h4.bind (Det.pure (some x))).samples
  · rw [PMF.bind_map]
    rfl
  · simp

end Iteration

end Magnesia
