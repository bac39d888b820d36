import Verif.Spec.DECost
import Verif.Proof.DELaw

/-!
# The least and the largest number of random numbers (helper lemmas)
-/

namespace Magnesia

variable {T P G S α β : Type} {N n : ℕ}

/-- If `m` returns, it has counted between `lo` and `hi` random numbers. -/
def Uses (m : Proc (DEWorld T N (G × ℕ) S) α) (lo hi : ℕ) : Prop :=
  ∀ s a s', m s = (.ok a, s') → s.rng.2 + lo ≤ s'.rng.2 ∧ s'.rng.2 ≤ s.rng.2 + hi

namespace Uses

theorem mono {m : Proc (DEWorld T N (G × ℕ) S) α} {lo hi lo' hi' : ℕ} (h : Uses m lo hi) (h1 : lo' ≤ lo) (h2 : hi ≤ hi') :
    Uses m lo' hi' := by
  intro s a s' hs
  have := h s a s' hs
  omega

theorem bind {m : Proc (DEWorld T N (G × ℕ) S) α} {f : α → Proc (DEWorld T N (G × ℕ) S) β} {lo hi lo' hi' : ℕ}
    (hm : Uses m lo hi) (hf : ∀ s a s', m s = (.ok a, s') → Uses (f a) lo' hi') : Uses (m >>= f) (lo + lo') (hi + hi') := by
  intro s b s' hs
  rw [Proc.bind_eq] at hs
  rcases h : m s with ⟨_ | a, s1⟩
  · rw [h] at hs; cases hs
  · rw [h] at hs
    have h1 := hm s a s1 h
    have h2 := hf s a s1 h s1 b s' hs
    omega

theorem pure (a : α) : Uses (Pure.pure a : Proc (DEWorld T N (G × ℕ) S) α) 0 0 := by
  intro s b s' hs
  cases hs
  exact ⟨le_rfl, le_rfl⟩

theorem ofRes (x : Res α) : Uses (Proc.ofRes x : Proc (DEWorld T N (G × ℕ) S) α) 0 0 := by
  intro s b s' hs
  cases hs
  exact ⟨le_rfl, le_rfl⟩

theorem assert (b : Bool) : Uses (Proc.assert b : Proc (DEWorld T N (G × ℕ) S) Unit) 0 0 := by
  intro s a s' hs
  cases b <;> cases hs
  exact ⟨le_rfl, le_rfl⟩

theorem fromFn : ∀ {k : ℕ} {f : Fin k → Proc (DEWorld T N (G × ℕ) S) α} {c : Fin k → ℕ},
    (∀ i, Uses (f i) (c i) (c i)) → Uses (fromFnM k f) (∑ i, c i) (∑ i, c i)
  | 0, _, _, _ => pure _
  | k + 1, f, c, h => by
    rw [Fin.sum_univ_succ]
    exact ((h 0).bind fun _ x _ _ => (fromFn fun i => h i.succ).bind fun _ xs _ _ => pure (Fin.cons x xs : Fin (k + 1) → α)).mono
      (by omega) (by omega)

theorem mapM {ι : Type} {f : ι → Proc (DEWorld T N (G × ℕ) S) α} {c : ℕ} (h : ∀ i, Uses (f i) c c) : ∀ l : List ι,
    Uses (l.mapM f) (l.length * c) (l.length * c)
  | [] => by
    rw [List.mapM_nil]
    exact (pure _).mono (by simp) (by simp)
  | i :: l => by
    rw [List.mapM_cons, List.length_cons, Nat.add_mul, one_mul]
    exact ((h i).bind fun _ x _ _ => (mapM h l).bind fun _ xs _ _ => pure (x :: xs)).mono (by omega) (by omega)

theorem foldlM {ι : Type} {f : α → ι → Proc (DEWorld T N (G × ℕ) S) α} {lo hi : ℕ} (h : ∀ a i, Uses (f a i) lo hi) :
    ∀ (l : List ι) (a : α), Uses (l.foldlM f a) (l.length * lo) (l.length * hi)
  | [], a => by
    rw [List.foldlM_nil]
    exact (pure _).mono (by simp) (by simp)
  | i :: l, a => by
    rw [List.foldlM_cons, List.length_cons, Nat.add_mul, Nat.add_mul, one_mul, one_mul]
    exact ((h a i).bind fun _ b _ _ => foldlM h l b).mono (by omega) (by omega)

variable {env : DEnv T P N G S}

theorem index (n : ℕ) : Uses (env.counted.index n) 1 1 := by
  intro s a s' hs
  rw [show s' = (env.counted.index n s).2 by rw [hs]]
  exact ⟨le_rfl, le_rfl⟩

theorem uniform (lo hi : T) : Uses (env.counted.uniform lo hi) 1 1 := by
  intro s a s' hs
  rw [show s' = (env.counted.uniform lo hi s).2 by rw [hs]]
  exact ⟨le_rfl, le_rfl⟩

theorem unit : Uses env.counted.unit 1 1 := by
  intro s a s' hs
  cases hs
  exact ⟨le_rfl, le_rfl⟩

theorem cmp (a b : Pt T N) : Uses (env.counted.cmp a b) 0 0 := by
  intro s x s' hs
  rw [show s' = (env.counted.cmp a b s).2 by rw [hs]]
  exact ⟨le_rfl, le_rfl⟩

theorem knockout : ∀ (k : ℕ) (pop : List (Pt T N)), pop.length = k → Uses (env.counted.knockout pop) 0 0 := by
  intro k
  induction k using Nat.strong_induction_on with
  | _ k ih =>
    intro pop hk
    rw [DEnv.knockout]
    split
    · have hg : ∀ (a : List (Pt T N)) (i : ℕ), Uses (env.counted.knockoutGame pop.length (pop.length / 2) a i) 0 0 := fun a i => by
        unfold DEnv.knockoutGame
        exact (ofRes _).bind (lo' := 0) (hi' := 0) fun _ _ _ _ => (ofRes _).bind (lo' := 0) (hi' := 0) fun _ _ _ _ =>
          (cmp _ _).bind (lo' := 0) (hi' := 0) fun _ _ _ _ => (ofRes _).bind (lo' := 0) (hi' := 0) fun _ _ _ _ => by
            split
            · exact ofRes _
            · exact pure _
      refine ((foldlM hg (List.range (pop.length / 2)) pop).bind (lo' := 0) (hi' := 0) fun s a s' _ => ?_).mono
        (by simp) (by simp)
      have := List.length_take_le ((pop.length + 1) / 2) a
      exact ih _ (by omega) _ rfl
    · exact ofRes _

theorem draw (n : ℕ) (avoid : List ℕ) : ∀ fuel, Uses (env.counted.draw n avoid fuel) 1 fuel
  | 0 => by
    intro s a s' hs
    cases hs
  | fuel + 1 => by
    intro s a s' hs
    have hb : Uses (env.counted.draw n avoid (fuel + 1)) (1 + 0) (1 + fuel) := (index n).bind fun s j s1 _ => by
      split
      · exact (draw n avoid fuel).mono (Nat.zero_le _) le_rfl
      · exact (pure j).mono le_rfl (Nat.zero_le _)
    have := hb s a s' hs
    omega

variable [RPartialOrd P] [RAdd T T T] [RSub T T T] [RMul T T T]

omit [RAdd T T T] [RSub T T T] [RMul T T T] in
theorem mutates (cp : P) (c r : ℕ) : Uses (env.counted.mutates cp c r) (if c = r then 0 else 1) (if c = r then 0 else 1) := by
  unfold DEnv.mutates
  split
  · exact pure _
  · exact unit.bind fun _ _ _ _ => pure _

theorem trial (pop : List (Pt T N)) (cp : P) (w : T) (i j k l r : ℕ) (hr : r < N) :
    Uses (env.counted.trial pop cp w i j k l r) (N - 1) (N - 1) := by
  have hB : ∑ c : Fin N, (if (c : ℕ) = r then 0 else 1) = N - 1 := by
    have : ∀ c : Fin N, ((c : ℕ) = r) = (c = ⟨r, hr⟩) := fun c => by rw [Fin.ext_iff]
    simp only [this]
    rw [Finset.sum_ite]
    simp [Finset.filter_ne']
  have h : Uses (env.counted.trial pop cp w i j k l r) (∑ c : Fin N, (if (c : ℕ) = r then 0 else 1))
      (∑ c : Fin N, (if (c : ℕ) = r then 0 else 1)) :=
    fromFn fun c => (mutates cp c r).bind (lo' := 0) (hi' := 0) fun _ b _ _ => by
      split <;> exact ofRes _
  rwa [hB] at h

variable [RZero P] [ROne P] [RPartialOrd T]

theorem iteration (hc : env.RandContract) (hN : 0 < N) (fuel : ℕ) (cp : P) (w : T) (n : ℕ) (pop : List (Pt T N)) (i : ℕ) :
    Uses (env.counted.iteration fuel cp w n pop i) (3 + N) (3 * fuel + N) := by
  have h : Uses (env.counted.iteration fuel cp w n pop i) (1 + (1 + (1 + (1 + ((N - 1) + (0 + (0 + 0)))))))
      (fuel + (fuel + (fuel + (1 + ((N - 1) + (0 + (0 + 0))))))) :=
    (draw n _ fuel).bind fun _ j _ _ => (draw n _ fuel).bind fun _ k _ _ => (draw n _ fuel).bind fun _ l _ _ =>
      (index N).bind fun s r s' hr => (trial pop cp w i j k l r (by
        refine hc.index_range N s.rng.1 r ?_
        exact congrArg Prod.fst hr)).bind fun _ x _ _ =>
      (ofRes _).bind fun _ xi _ _ => (cmp _ _).bind (lo' := 0) (hi' := 0) fun _ b _ _ => by
        split
        · exact ofRes _
        · exact pure _
  exact h.mono (by omega) (by omega)

theorem optimize [FromI8 T] (hc : env.RandContract) (hN : 0 < N) (fuel : ℕ) (bounds : Fin N → T × T) (n : ℕ) (cp : P) (w : T)
    (iters : ℕ) :
    Uses (env.counted.optimize fuel bounds n cp w iters) (n * N + iters * (3 + N)) (n * N + iters * (3 * fuel + N)) := by
  have hp : Uses ((List.range n).mapM fun _ => fromFnM N fun i => env.counted.uniform (bounds i).1 (bounds i).2) (n * N) (n * N) := by
    have := mapM (fun _ : ℕ => fromFn fun i : Fin N => uniform (env := env) (bounds i).1 (bounds i).2) (List.range n)
    simpa using this
  have h : Uses (env.counted.optimize fuel bounds n cp w iters) (0 + (0 + (0 + (n * N + (iters * (3 + N) + 0)))))
      (0 + (0 + (0 + (n * N + (iters * (3 * fuel + N) + 0))))) :=
    (assert _).bind fun _ _ _ _ => (assert _).bind fun _ _ _ _ => (assert _).bind fun _ _ _ _ => hp.bind fun _ pop _ _ => by
      refine Uses.bind ?_ (lo' := 0) (hi' := 0) fun _ pop' _ _ => knockout _ pop' rfl
      have := foldlM (fun p t => iteration (env := env) hc hN fuel cp w pop.length p (t % pop.length)) (List.range iters) pop
      simpa using this
  exact h.mono (by omega) (by omega)

end Uses

end Magnesia
