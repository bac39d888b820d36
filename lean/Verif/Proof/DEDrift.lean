import Verif.Proof.DEMoments

/-!
# Coordinates the objective ignores (helper lemmas)
-/

namespace Magnesia

open MeasureTheory ENNReal

variable {T P G S α β γ : Type} {N n : ℕ}

/-- Drawing one of several independent values again changes nothing. -/
theorem indep_resample : ∀ {k : ℕ} (p : Fin k → PMF α) (i : Fin k),
    indep p = (p i).bind fun v => (indep p).map fun f => Function.update f i v
  | 0, _, i => i.elim0
  | k + 1, p, i => by
    refine Fin.cases ?_ (fun j => ?_) i
    · simp only [indep, PMF.map_bind, PMF.map_comp]
      congr 1
      funext v
      have : ∀ x, ((fun f : Fin (k + 1) → α => Function.update f 0 v) ∘ fun f : Fin k → α => (Fin.cons x f : Fin (k + 1) → α)) =
          fun f : Fin k → α => (Fin.cons v f : Fin (k + 1) → α) := by
        intro x
        funext f
        simp
      simp only [this, PMF.bind_const]
    · conv_lhs => rw [indep, indep_resample (fun i => p i.succ) j]
      simp only [indep, PMF.map_bind, PMF.map_comp]
      rw [PMF.bind_comm]
      congr 1
      funext v
      congr 1
      funext x
      congr 1
      funext f
      simp [Fin.cons_update]

theorem indep_resample₂ (D : Fin N → PMF T) (s : Fin n) (c : Fin N) :
    (indep fun _ : Fin n => indep D) = (D c).bind fun v => (indep fun _ : Fin n => indep D).map fun pop =>
      Function.update pop s (Function.update (pop s) c v) := by
  have h : ∀ v, ((indep fun _ : Fin n => indep D).map fun pop => Function.update pop s (Function.update (pop s) c v)) =
      (indep D).bind fun y => (indep fun _ : Fin n => indep D).map fun pop => Function.update pop s (Function.update y c v) := by
    intro v
    conv_lhs => rw [indep_resample (fun _ : Fin n => indep D) s]
    rw [PMF.map_bind]
    congr 1
    funext y
    rw [PMF.map_comp]
    congr 1
    funext pop
    simp
  simp only [h]
  conv_lhs => rw [indep_resample (fun _ : Fin n => indep D) s]
  conv_lhs => enter [1]; rw [indep_resample D c]
  rw [PMF.bind_bind]
  congr 1
  funext v
  rw [PMF.bind_map]
  rfl

/-- Agreement in all coordinates but `c`. -/
def AlikeBut (c : Fin N) (pop pop' : Fin n → Pt T N) : Prop := ∀ s d, d ≠ c → pop s d = pop' s d

/-- Whatever is known about the other coordinates, coordinate `c` of every point has the expected value `m`; and it is
bounded by `B`. -/
structure Steady (val : T → ℝ) (c : Fin N) (m B : ℝ) (p : PMF (Fin n → Pt T N)) : Prop where
  bounded : ∀ pop ∈ p.support, ∀ s, |val (pop s c)| ≤ B
  steady : ∀ (h : (Fin n → Pt T N) → ℝ) (C : ℝ), (∀ pop, |h pop| ≤ C) → (∀ pop pop', AlikeBut c pop pop' → h pop = h pop') →
    ∀ s, expected p (fun pop => h pop * val (pop s c)) = m * expected p h

variable {val : T → ℝ} {c : Fin N} {m B w : ℝ}

theorem prod_bound {p : PMF (Fin n → Pt T N)} (hp : Steady val c m B p) {h : (Fin n → Pt T N) → ℝ} {C : ℝ}
    (hC : ∀ pop, |h pop| ≤ C) (s : Fin n) : ∀ pop ∈ p.support, |h pop * val (pop s c)| ≤ C * B := by
  intro pop hpop
  rw [abs_mul]
  exact mul_le_mul (hC pop) (hp.bounded pop hpop s) (abs_nonneg _) ((abs_nonneg _).trans (hC pop))

theorem Steady.bind {q : PMF α} {k : α → PMF (Fin n → Pt T N)} (h : ∀ x, Steady val c m B (k x)) :
    Steady val c m B (q.bind k) where
  bounded pop hpop s := by
    rw [PMF.mem_support_bind_iff] at hpop
    obtain ⟨x, _, hx⟩ := hpop
    exact (h x).bounded pop hx s
  steady g C hC hg s := by
    rw [expected_bind (B := C * B), expected_bind (B := C), ← expected_mul]
    · exact expected_congr fun x _ => (h x).steady g C hC hg s
    · exact fun pop _ => hC pop
    · intro pop hpop
      rw [PMF.mem_support_bind_iff] at hpop
      obtain ⟨x, _, hx⟩ := hpop
      exact prod_bound (h x) hC s pop hx

theorem steady_start {D : Fin N → PMF T} (hB : ∀ v ∈ (D c).support, |val v| ≤ B) :
    Steady (n := n) val c (expected (D c) val) B (indep fun _ => indep D) where
  bounded pop hpop s := hB _ (indep_support (indep_support hpop s) c)
  steady h C hC hh s := by
    have hb : ∀ pop ∈ (indep fun _ : Fin n => indep D).support, |h pop * val (pop s c)| ≤ C * B := by
      intro pop hpop
      rw [abs_mul]
      exact mul_le_mul (hC pop) (hB _ (indep_support (indep_support hpop s) c)) (abs_nonneg _) ((abs_nonneg _).trans (hC pop))
    conv_lhs => rw [indep_resample₂ D s c]
    rw [expected_bind (B := C * B)]
    · have e : ∀ v ∈ (D c).support, expected ((indep fun _ : Fin n => indep D).map fun pop =>
          Function.update pop s (Function.update (pop s) c v)) (fun pop => h pop * val (pop s c)) =
          expected (indep fun _ : Fin n => indep D) h * val v := by
        intro v hv
        rw [expected_map (B := C * B)]
        · rw [mul_comm, ← expected_mul]
          refine expected_congr fun pop _ => ?_
          rw [hh (Function.update pop s (Function.update (pop s) c v)) pop]
          · simp [mul_comm]
          · intro s' d hd
            by_cases hs : s' = s
            · subst hs; simp [hd]
            · simp [hs]
        · intro pop hpop
          simp only [Function.update_self, abs_mul]
          exact mul_le_mul (hC _) (hB v hv) (abs_nonneg _) ((abs_nonneg _).trans (hC pop))
      rw [expected_congr e, expected_mul, mul_comm]
    · rw [← indep_resample₂ D s c]
      exact hb

variable [RPartialOrd P] {E : Textbook T P N}

/-- The random numbers of one step, drawn in advance: partners, forced coordinate, and one number for every coordinate. -/
def Textbook.move (E : Textbook T P N) (i : Fin n) (t : Fin n × Fin n × Fin n) (r : Fin N) (u : Fin N → P)
    (pop : Fin n → Pt T N) : Fin n → Pt T N :=
  let x : Pt T N := fun c => if c = r ∨ RPartialOrd.lt (u c) E.cp = true then E.donor pop t c else pop i c
  if E.better x (pop i) then Function.update pop i x else pop

theorem crossover_eq (current donor : Pt T N) (r : Fin N) :
    E.crossover current donor r = (indep fun _ : Fin N => E.U).map fun u c =>
      if c = r ∨ RPartialOrd.lt (u c) E.cp = true then donor c else current c := by
  rw [← indep_map (fun _ : Fin N => E.U) fun c v => if c = r ∨ RPartialOrd.lt v E.cp = true then donor c else current c,
    Textbook.crossover]
  congr 1
  funext c
  by_cases hc : c = r
  · simp only [hc, if_true, true_or]
    exact (PMF.map_const _ _).symm
  · simp [hc]

theorem step_eq [NeZero N] (pop : Fin n → Pt T N) (hn : 4 ≤ n) (i : Fin n) :
    E.step pop hn i = (PMF.uniformOfFinset (triples i) (triples_nonempty hn i)).bind fun t =>
      (PMF.uniformOfFintype (Fin N)).bind fun r => (indep fun _ : Fin N => E.U).map fun u => E.move i t r u pop := by
  unfold Textbook.step Textbook.trial
  simp only [PMF.map_bind, crossover_eq, PMF.map_comp]
  rfl

/-! ## One step -/

theorem move_alike (hig : IgnoresCoord E.better c) (i : Fin n) (t : Fin n × Fin n × Fin n) (r : Fin N) (u : Fin N → P)
    {pop pop' : Fin n → Pt T N} (h : AlikeBut c pop pop') : AlikeBut c (E.move i t r u pop) (E.move i t r u pop') := by
  have hx : ∀ d, d ≠ c → (if d = r ∨ RPartialOrd.lt (u d) E.cp = true then E.donor pop t d else pop i d) =
      (if d = r ∨ RPartialOrd.lt (u d) E.cp = true then E.donor pop' t d else pop' i d) := by
    intro d hd
    simp only [Textbook.donor, h _ _ hd]
  unfold Textbook.move
  simp only
  rw [hig _ (pop i) _ (pop' i) hx fun d hd => h i d hd]
  split
  · intro s d hd
    by_cases hs : s = i
    · subst hs
      simpa using hx d hd
    · simp [hs, h s d hd]
  · exact h

theorem Steady.move {p : PMF (Fin n → Pt T N)} (hp : Steady val c m B p) (hig : IgnoresCoord E.better c)
    (hval : ∀ x y z, val (E.mutation x y z) = val x + (val y - val z) * w) (i : Fin n) (t : Fin n × Fin n × Fin n)
    (r : Fin N) (u : Fin N → P) : Steady val c m (B * (1 + 2 * |w|)) (p.map (E.move i t r u)) := by
  classical
  have hbd : ∀ pop ∈ p.support, ∀ s, |val (E.move i t r u pop s c)| ≤ B * (1 + 2 * |w|) := by
    intro pop hpop s
    have hB : ∀ s, |val (pop s c)| ≤ B := fun s => hp.bounded pop hpop s
    have B0 : 0 ≤ B := (abs_nonneg _).trans (hB i)
    have hs : ∀ s, |val (pop s c)| ≤ B * (1 + 2 * |w|) := fun s => (hB s).trans (by nlinarith [abs_nonneg w])
    unfold Textbook.move
    split
    · by_cases he : s = i
      · subst he
        rw [Function.update_self]
        split
        · rw [Textbook.donor, hval]
          refine (abs_add_le _ _).trans ?_
          rw [abs_mul]
          have h1 := hB t.1
          have h2 : |val (pop t.2.1 c) - val (pop t.2.2 c)| ≤ 2 * B :=
            (abs_sub _ _).trans (by linarith [hB t.2.1, hB t.2.2])
          nlinarith [mul_le_mul_of_nonneg_right h2 (abs_nonneg w)]
        · exact hs _
      · rw [Function.update_of_ne he]
        exact hs s
    · exact hs s
  refine ⟨?_, ?_⟩
  · intro pop hpop s
    rw [PMF.mem_support_map_iff] at hpop
    obtain ⟨pop, hpop, rfl⟩ := hpop
    exact hbd pop hpop s
  · intro h C hC hh s
    have hC0 : ∀ pop : Fin n → Pt T N, 0 ≤ C := fun pop => (abs_nonneg _).trans (hC pop)
    rw [expected_map (B := C * (B * (1 + 2 * |w|))), expected_map (B := C) _ fun pop _ => hC _]
    swap
    · intro pop hpop
      rw [abs_mul]
      exact mul_le_mul (hC _) (hbd pop hpop s) (abs_nonneg _) (hC0 pop)
    set h' : (Fin n → Pt T N) → ℝ := fun pop => h (E.move i t r u pop) with hdef
    have hC' : ∀ pop, |h' pop| ≤ C := fun pop => hC _
    have hh' : ∀ pop pop', AlikeBut c pop pop' → h' pop = h' pop' := fun pop pop' ha => hh _ _ (move_alike hig i t r u ha)
    show expected p (fun pop => h' pop * val (E.move i t r u pop s c)) = m * expected p h'
    by_cases hs : s = i
    swap
    · rw [← hp.steady h' C hC' hh' s]
      refine expected_congr fun pop _ => ?_
      unfold Textbook.move
      split <;> simp [hs]
    subst hs
    by_cases hmut : c = r ∨ RPartialOrd.lt (u c) E.cp = true
    swap
    · rw [← hp.steady h' C hC' hh' s]
      refine expected_congr fun pop _ => ?_
      unfold Textbook.move
      split <;> simp [hmut]
    set acc : (Fin n → Pt T N) → ℝ := fun pop =>
      if E.better (fun c => if c = r ∨ RPartialOrd.lt (u c) E.cp = true then E.donor pop t c else pop s c) (pop s) then 1 else 0
      with hacc
    have hacc01 : ∀ pop, |acc pop| ≤ 1 := by intro pop; simp only [hacc]; split <;> simp
    have haccA : ∀ pop pop', AlikeBut c pop pop' → acc pop = acc pop' := by
      intro pop pop' ha
      simp only [hacc]
      rw [hig _ (pop s) _ (pop' s) (fun d hd => ?_) fun d hd => ha s d hd]
      simp only [Textbook.donor, ha _ _ hd]
    have hg : ∀ pop, |h' pop * acc pop| ≤ C := fun pop => by
      rw [abs_mul]
      exact (mul_le_mul (hC' pop) (hacc01 pop) (abs_nonneg _) (hC0 pop)).trans (by rw [mul_one])
    have hgA : ∀ pop pop', AlikeBut c pop pop' → h' pop * acc pop = h' pop' * acc pop' := fun pop pop' ha => by
      rw [hh' pop pop' ha, haccA pop pop' ha]
    have hk : ∀ pop, |h' pop * (1 - acc pop)| ≤ C := fun pop => by
      rw [abs_mul]
      refine (mul_le_mul (hC' pop) (?_ : |1 - acc pop| ≤ 1) (abs_nonneg _) (hC0 pop)).trans (by rw [mul_one])
      simp only [hacc]
      split <;> simp
    have hkA : ∀ pop pop', AlikeBut c pop pop' → h' pop * (1 - acc pop) = h' pop' * (1 - acc pop') := fun pop pop' ha => by
      rw [hh' pop pop' ha, haccA pop pop' ha]
    have e : ∀ pop, h' pop * val (E.move s t r u pop s c) =
        ((h' pop * acc pop) * val (pop t.1 c) + w * ((h' pop * acc pop) * val (pop t.2.1 c))) +
        ((-w) * ((h' pop * acc pop) * val (pop t.2.2 c)) + (h' pop * (1 - acc pop)) * val (pop s c)) := by
      intro pop
      have : val (E.move s t r u pop s c) = acc pop * (val (pop t.1 c) + (val (pop t.2.1 c) - val (pop t.2.2 c)) * w) +
          (1 - acc pop) * val (pop s c) := by
        unfold Textbook.move
        simp only [hacc]
        split
        · rw [Function.update_self]
          simp only [hmut, if_true, Textbook.donor, hval]
          ring
        · ring
      rw [this]
      ring
    have b1 := prod_bound hp hg t.1
    have b2 := prod_bound hp hg t.2.1
    have b3 := prod_bound hp hg t.2.2
    have b4 := prod_bound hp hk s
    have b2' : ∀ pop ∈ p.support, |w * ((h' pop * acc pop) * val (pop t.2.1 c))| ≤ |w| * (C * B) := fun pop hpop => by
      rw [abs_mul]; exact mul_le_mul_of_nonneg_left (b2 pop hpop) (abs_nonneg w)
    have b3' : ∀ pop ∈ p.support, |(-w) * ((h' pop * acc pop) * val (pop t.2.2 c))| ≤ |w| * (C * B) := fun pop hpop => by
      rw [abs_mul, abs_neg]; exact mul_le_mul_of_nonneg_left (b3 pop hpop) (abs_nonneg w)
    have b12 : ∀ pop ∈ p.support, |(h' pop * acc pop) * val (pop t.1 c) + w * ((h' pop * acc pop) * val (pop t.2.1 c))| ≤
        C * B + |w| * (C * B) := fun pop hpop => (abs_add_le _ _).trans (add_le_add (b1 pop hpop) (b2' pop hpop))
    have b34 : ∀ pop ∈ p.support, |(-w) * ((h' pop * acc pop) * val (pop t.2.2 c)) + (h' pop * (1 - acc pop)) * val (pop s c)| ≤
        |w| * (C * B) + C * B := fun pop hpop => (abs_add_le _ _).trans (add_le_add (b3' pop hpop) (b4 pop hpop))
    rw [expected_congr fun pop _ => e pop, expected_add b12 b34, expected_add b1 b2', expected_add b3' b4, expected_mul,
      expected_mul, hp.steady _ C hg hgA, hp.steady _ C hg hgA, hp.steady _ C hg hgA, hp.steady _ C hk hkA]
    have hsum : expected p h' = expected p (fun pop => h' pop * acc pop) + expected p (fun pop => h' pop * (1 - acc pop)) := by
      rw [← expected_add (fun pop _ => hg pop) (fun pop _ => hk pop)]
      exact expected_congr fun pop _ => by ring
    rw [hsum]
    ring

theorem Steady.step [NeZero N] {p : PMF (Fin n → Pt T N)} (hp : Steady val c m B p) (hig : IgnoresCoord E.better c)
    (hval : ∀ x y z, val (E.mutation x y z) = val x + (val y - val z) * w) (hn : 4 ≤ n) (i : Fin n) :
    Steady val c m (B * (1 + 2 * |w|)) (p.bind fun pop => E.step pop hn i) := by
  simp only [step_eq]
  rw [PMF.bind_comm]
  refine Steady.bind fun t => ?_
  rw [PMF.bind_comm]
  refine Steady.bind fun r => ?_
  have : (p.bind fun pop => (indep fun _ : Fin N => E.U).map fun u => E.move i t r u pop) =
      (indep fun _ : Fin N => E.U).bind fun u => p.map (E.move i t r u) := by
    unfold PMF.map
    rw [PMF.bind_comm]
    rfl
  rw [this]
  exact Steady.bind fun u => hp.move hig hval i t r u

theorem steady_population [NeZero N] (hig : IgnoresCoord E.better c)
    (hval : ∀ x y z, val (E.mutation x y z) = val x + (val y - val z) * w) (hn : 4 ≤ n)
    (hB : ∀ v ∈ (E.D c).support, |val v| ≤ B) : ∀ t,
    Steady val c (expected (E.D c) val) (B * (1 + 2 * |w|) ^ t) (E.population hn t)
  | 0 => by
    rw [pow_zero, mul_one]
    exact steady_start hB
  | t + 1 => by
    rw [pow_succ, ← mul_assoc]
    exact (steady_population hig hval hn hB t).step hig hval hn _

/-- The slot of the winner. -/
theorem champion_slot {better : Pt T N → Pt T N → Bool} (hn : 0 < n) (pop : Fin n → Pt T N) :
    ∃ s, champion (fun i j => better (pop i) (pop j)) (List.finRange n) = some s ∧
      champion better (List.ofFn pop) = some (pop s) := by
  have h0 : List.finRange n ≠ [] := by
    intro h
    have := congrArg List.length h
    simp at this
    omega
  obtain ⟨s, _, hs⟩ := champion_isSome (fun i j => better (pop i) (pop j)) (List.finRange n) h0
  refine ⟨s, hs, ?_⟩
  rw [List.ofFn_eq_map, champion_map pop (better := fun i j => better (pop i) (pop j)) (fun _ _ => rfl), hs]
  rfl

theorem expected_result [NeZero N] (hig : IgnoresCoord E.better c)
    (hval : ∀ x y z, val (E.mutation x y z) = val x + (val y - val z) * w) (hn : 4 ≤ n)
    (hB : ∀ v ∈ (E.D c).support, |val v| ≤ B) (iters : ℕ) :
    expected (E.result hn iters) (fun x => x.elim 0 fun x => val (x c)) = expected (E.D c) val := by
  classical
  have hS := steady_population (n := n) hig hval hn hB iters
  have hn0 : 0 < n := by omega
  rw [Textbook.result, expected_map (B := B * (1 + 2 * |w|) ^ iters)]
  swap
  · intro pop hpop
    obtain ⟨s, _, hs⟩ := champion_slot (better := E.better) hn0 pop
    rw [hs]
    exact hS.bounded pop hpop s
  set win : Fin n → (Fin n → Pt T N) → ℝ := fun s pop =>
    if champion (fun i j => E.better (pop i) (pop j)) (List.finRange n) = some s then 1 else 0 with hwin
  have h1 : ∀ s pop, |win s pop| ≤ 1 := by intro s pop; simp only [hwin]; split <;> simp
  have hA : ∀ s pop pop', AlikeBut c pop pop' → win s pop = win s pop' := by
    intro s pop pop' ha
    have : (fun i j => E.better (pop i) (pop j)) = fun i j => E.better (pop' i) (pop' j) := by
      funext i j
      exact hig _ _ _ _ (fun d hd => ha i d hd) fun d hd => ha j d hd
    simp only [hwin, this]
  have e : ∀ pop : Fin n → Pt T N, ((champion E.better (List.ofFn pop)).elim 0 fun x => val (x c)) =
      ∑ s, win s pop * val (pop s c) := by
    intro pop
    obtain ⟨s, h2, h3⟩ := champion_slot (better := E.better) hn0 pop
    rw [h3, Finset.sum_eq_single s]
    · simp [hwin, h2]
    · intro s' _ hs'
      simp [hwin, h2, Ne.symm hs']
    · simp
  have hsum : ∀ (f : Fin n → (Fin n → Pt T N) → ℝ) (C : ℝ), (∀ s, ∀ pop ∈ (E.population hn iters).support, |f s pop| ≤ C) →
      expected (E.population hn iters) (fun pop => ∑ s, f s pop) = ∑ s, expected (E.population hn iters) (f s) := by
    intro f C hf
    unfold expected
    simp only [Finset.mul_sum]
    exact Summable.tsum_finsetSum fun s _ => expected_summable (hf s)
  rw [expected_congr fun pop _ => e pop, hsum _ _ fun s => prod_bound hS (h1 s) s]
  rw [Finset.sum_congr rfl fun s _ => hS.steady (win s) 1 (h1 s) (hA s) s, ← Finset.mul_sum,
    ← hsum _ 1 fun s pop _ => h1 s pop]
  have one : ∀ pop : Fin n → Pt T N, ∑ s, win s pop = 1 := by
    intro pop
    obtain ⟨s, h2, h3⟩ := champion_slot (better := E.better) hn0 pop
    rw [Finset.sum_eq_single s]
    · simp [hwin, h2]
    · intro s' _ hs'
      simp [hwin, h2, Ne.symm hs']
    · simp
  rw [expected_congr fun pop _ => one pop, expected_const, mul_one]

end Magnesia
