import Verif.Proof.DEMoments
import Verif.Proof.DESafe

/-!
# The distribution of the proposed points (helper lemmas)
-/

namespace Magnesia

open MeasureTheory ENNReal Filter

variable {T P G S α β γ : Type} {N n : ℕ} [MeasurableSpace G] {μ : Measure G} [IsProbabilityMeasure μ]
  [Countable S] [Countable T] [Countable P] [RPartialOrd P] [RAdd T T T] [RSub T T T] [RMul T T T]
  {env : DEnv T P N G S} {E : Textbook T P N} {w : T} [RZero P] [ROne P] [RPartialOrd T] {bounds : Fin N → T × T}

/-- The first argument of the last comparator call. -/
def lastArg : Proc (DEWorld T N G S) (Option (Pt T N)) := fun w => (.ok (w.log.getLast?.map Call.a), w)

theorem samples_proposal [NeZero N] (hc : env.RandContract) (hid : env.Ideal μ bounds E.D E.U) (hb : env.Compares E.better)
    (hm : ∀ x y z : T, (do RAdd.add x (← RMul.mul (← RSub.sub y z) w)) = Except.ok (E.mutation x y z)) (hn : 4 ≤ n)
    (fuel : ℕ) (pop : Fin n → Pt T N) (i : Fin n) :
    Samples μ (env.iteration fuel E.cp w n (List.ofFn pop) i >>= fun _ => lastArg) ((E.trial pop hn i).map some)
      ((1 / n) ^ fuel + ((2 / n) ^ fuel + (3 / n) ^ fuel)) := by
  have hn0 : 0 < n := by omega
  have hdraw : ∀ (L : List (Fin n)), L.Nodup → ∀ hlt : L.length < n, Samples μ (env.draw n (L.map Fin.val) fuel)
      ((PMF.uniformOfFinset (others L) (others_nonempty hlt)).map Fin.val) ((L.length / n : ℝ≥0∞) ^ fuel) :=
    fun L h1 h2 => samples_draw hn0 (hid.index n hn0) h1 h2 fuel
  have hcan : ∀ (L : List ℕ) a, CanReturn (env.draw n L fuel) a → a < n := by
    rintro L a ⟨w, w', h⟩
    exact (DEnv.draw_ok hc h).1
  have hcan2 : ∀ (L : List ℕ) a, CanReturn (env.draw n L fuel) a → a ∉ L := by
    rintro L a ⟨w, w', h⟩
    exact (DEnv.draw_ok hc h).2.1
  have hr : Samples μ (env.index N) ((PMF.uniformOfFintype (Fin N)).map Fin.val) 0 :=
    (Samples.sample (hid.index N (NeZero.pos N)) (fun w => rfl)).congr (uniform_range (NeZero.pos N) _) le_rfl
  have hget : getIdx (List.ofFn pop) i = .ok (pop i) := getIdx_ofFn pop i
  have hdraw1 := hdraw [i] (by simp) (by simp; omega)
  have hdraw2 := fun j (h : [i, j].Nodup) => (hdraw [i, j] h (by simp; omega)).congr (ε' := (2 / n) ^ fuel) rfl (by simp)
  have hdraw3 := fun j k (h : [i, j, k].Nodup) =>
    (hdraw [i, j, k] h (by simp; omega)).congr (ε' := (3 / n) ^ fuel) rfl (by simp)
  unfold DEnv.iteration
  simp only [bind_assoc]
  refine Samples.congr (Samples.bindFin hn0 hdraw1 (hcan _) fun j hj =>
    Samples.bindFin hn0 (hdraw2 j ?_) (hcan _) fun k hk =>
    Samples.bindFin hn0 (hdraw3 j k ?_) (hcan _) fun l hl =>
    Samples.bindFin (NeZero.pos N) hr ?_ fun r _ =>
    Samples.bind' (ε' := 0) (samples_trial hid.unit hm pop i j k l r) fun x _ =>
    Det.samples (a := some x) ?_) ?_ ?_
  · have := hcan2 _ _ hj
    simp [Fin.val_inj] at this
    simp
    exact fun h => this h.symm
  · have h1 := hcan2 _ _ hj
    have h2 := hcan2 _ _ hk
    simp [Fin.val_inj] at h1 h2
    simp
    exact ⟨⟨fun h => h1 h.symm, fun h => h2.1 h.symm⟩, fun h => h2.2 h.symm⟩
  · rintro a ⟨w, w', h⟩
    exact (DEnv.index_ok hc h).1
  · intro c l
    refine ⟨(env.compare x (pop i) c).2, l ++ [⟨x, pop i, E.better x (pop i)⟩], fun g => ?_⟩
    rw [hget]
    simp only [Proc.bind_eq, Proc.ofRes, DEnv.cmp, hb x (pop i) c]
    cases E.better x (pop i) with
    | true =>
      rw [setRes_some (by simp)]
      simp [lastArg, Proc.ofRes]
    | false => simp [lastArg, pure]
  · unfold Textbook.trial
    rw [PMF.map_bind, ← partners_eq hn i]
    simp only [PMF.bind_bind, PMF.bind_map, PMF.map_bind]
    congr 1
  · simp

omit [MeasurableSpace G] [Countable S] [Countable T] [Countable P] in
theorem mono_iteration [FromI8 T] (env : DEnv T P N G S) (cp : P) (w : T) (n : ℕ) (pop : List (Pt T N)) (i : ℕ) :
    Proc.Mono fun fuel => env.iteration fuel cp w n pop i :=
  DEnv.mono_bind (DEnv.mono_draw env _ _) fun _ => DEnv.mono_bind (DEnv.mono_draw env _ _) fun _ =>
    DEnv.mono_bind (DEnv.mono_draw env _ _) fun _ => DEnv.mono_const _

omit [IsProbabilityMeasure μ] in
theorem fuel_limit {A : ℕ → Set G} (hA : Monotone A) {d κ : ℝ≥0∞} (hκ : κ ≠ ⊤) (hn : 4 ≤ n)
    (h : ∀ fuel, μ (A fuel) ≤ d ∧ d ≤ μ (A fuel) + κ * ((1 / n) ^ fuel + ((2 / n) ^ fuel + (3 / n) ^ fuel))) :
    μ (⋃ fuel, A fuel) = d := by
  refine le_antisymm ?_ ?_
  · rw [hA.measure_iUnion]
    exact iSup_le fun fuel => (h fuel).1
  · have hlim : Tendsto (fun fuel : ℕ => κ * ((1 / n) ^ fuel + ((2 / n) ^ fuel + (3 / n) ^ fuel))) atTop (nhds 0) := by
      have h1 : ∀ k : ℕ, k ≤ 3 → Tendsto (fun fuel : ℕ => ((k : ℝ≥0∞) / n) ^ fuel) atTop (nhds 0) := by
        intro k hk
        refine ENNReal.tendsto_pow_atTop_nhds_zero_of_lt_one ?_
        rw [ENNReal.div_lt_iff (by left; simp; omega) (by left; simp), one_mul]
        exact_mod_cast (by omega : k < n)
      have h2 := ((h1 1 (by omega)).add ((h1 2 (by omega)).add (h1 3 (by omega))))
      have h3 := ENNReal.Tendsto.const_mul h2 (a := κ) (.inr hκ)
      simpa using h3
    have h4 : Tendsto (fun fuel : ℕ => μ (⋃ fuel, A fuel) +
        κ * ((1 / n) ^ fuel + ((2 / n) ^ fuel + (3 / n) ^ fuel))) atTop (nhds (μ (⋃ fuel, A fuel))) := by
      simpa using tendsto_const_nhds.add hlim
    refine ge_of_tendsto' h4 fun fuel => (h fuel).2.trans ?_
    gcongr
    exact Set.subset_iUnion A fuel

theorem proposes_law [NeZero N] [FromI8 T] (hc : env.RandContract) (hid : env.Ideal μ bounds E.D E.U) (hb : env.Compares E.better)
    (hm : ∀ x y z : T, (do RAdd.add x (← RMul.mul (← RSub.sub y z) w)) = Except.ok (E.mutation x y z)) (hn : 4 ≤ n)
    (pop : Fin n → Pt T N) (i : Fin n) (c : S) (l : List (Call T N)) (x : Pt T N) :
    μ (env.proposes E.cp w pop i c l x) = E.trial pop hn i x := by
  classical
  set A : ℕ → Set G := fun fuel => EndsIn (env.iteration fuel E.cp w n (List.ofFn pop) i >>= fun _ => lastArg) c l {some x}
  have hU : env.proposes E.cp w pop i c l x = ⋃ fuel, A fuel := by
    ext g
    simp only [A, DEnv.proposes, EndsIn, Set.mem_ofPred_eq, Set.mem_iUnion, Set.mem_singleton_iff, exists_eq_left, Proc.bind_eq]
    refine exists_congr fun fuel => ?_
    rcases hw : env.iteration fuel E.cp w n (List.ofFn pop) i ⟨g, c, l⟩ with ⟨_ | pop', s'⟩
    · simp
    · obtain ⟨y, ans, _, _, h3, _⟩ := DEnv.iteration_ok hc hw
      have h3 : s'.log = l ++ [⟨y, pop i, ans⟩] := h3
      simp only [Prod.mk.injEq, Except.ok.injEq, lastArg, h3, List.getLast?_append_cons]
      constructor
      · rintro ⟨_, _, ans', ⟨rfl, rfl⟩, h⟩
        rw [h3] at h
        have := List.append_cancel_left h
        simp only [List.cons.injEq, Call.mk.injEq] at this
        simp [this.1.1]
      · intro h
        simp only [List.getLast?_singleton, Option.map_some, Option.some.injEq] at h
        exact ⟨pop', s', ans, ⟨rfl, rfl⟩, by rw [h3, h]⟩
  rw [hU]
  refine fuel_limit (κ := 1) (n := n) ?_ (by simp) hn fun fuel => ?_
  · rintro f f' hf g ⟨a, ha, h⟩
    refine ⟨a, ha, ?_⟩
    have hmono : Proc.Mono fun fuel => env.iteration fuel E.cp w n (List.ofFn pop) i >>= fun _ => (lastArg : Proc (DEWorld T N G S) _) :=
      DEnv.mono_bind (mono_iteration env _ _ _ _ _) fun _ => DEnv.mono_const _
    exact congrArg Prod.fst (hmono f f' _ (.ok a) _ hf (by simp) (Prod.ext h rfl))
  · have := (samples_proposal hc hid hb hm hn fuel pop i).event c l {some x}
    rw [PMF.toOuterMeasure_apply_singleton, PMF.map_apply] at this
    rw [tsum_eq_single x (fun b hb => by simp [Ne.symm hb])] at this
    simp only [if_true] at this
    rw [one_mul]
    exact this.2

end Magnesia
