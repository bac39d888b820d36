import Verif.Spec.Dyn
import Verif.Proof.SLin

/-!
# Dynamic vectors and matrices (helper lemmas)
-/

namespace Magnesia

open RZero ROne

variable {T U V : Type}

theorem getIdx_eq {l : List T} {i : ℕ} {x : T} : getIdx l i = .ok x ↔ l[i]? = some x := by
  unfold getIdx
  cases l[i]? <;> simp

theorem getIdx_ofFn {n : ℕ} (f : Fin n → T) (i : Fin n) : getIdx (List.ofFn f) i = .ok (f i) := by
  rw [getIdx_eq]
  simp

theorem getIdx_oob {l : List T} {i : ℕ} (h : l.length ≤ i) : getIdx l i = .error .indexOutOfBounds := by
  unfold getIdx
  rw [List.getElem?_eq_none h]

/-! ### Row-major storage -/

theorem length_rows {r c : ℕ} (f : Fin r → Fin c → T) : (List.ofFn fun i => List.ofFn (f i)).flatten.length = r * c := by
  simp [List.length_flatten, List.map_ofFn, Function.comp_def]

theorem getElem?_flatten_uniform {c : ℕ} : ∀ (L : List (List T)), (∀ l ∈ L, l.length = c) → ∀ (i j : ℕ), j < c →
    L.flatten[i * c + j]? = (L[i]?).bind (fun l => l[j]?) := by
  intro L
  induction L with
  | nil => intro _ i j _; simp
  | cons l L ih =>
    intro hL i j hj
    have hl : l.length = c := hL l (by simp)
    have ih' := ih (fun l h => hL l (by simp [h]))
    cases i with
    | zero =>
      simp only [Nat.zero_mul, Nat.zero_add, List.flatten_cons, List.getElem?_cons_zero, Option.bind_some]
      rw [List.getElem?_append_left (by omega)]
    | succ i =>
      have h1 : (i + 1) * c + j = l.length + (i * c + j) := by rw [hl]; ring
      rw [h1, List.flatten_cons, List.getElem?_append_right (by omega), Nat.add_sub_cancel_left, ih' i j hj]
      simp

theorem getElem?_rows {r c : ℕ} (f : Fin r → Fin c → T) (i : Fin r) (j : Fin c) :
    (List.ofFn fun i => List.ofFn (f i)).flatten[(i : ℕ) * c + j]? = some (f i j) := by
  rw [getElem?_flatten_uniform _ (by simp [List.mem_ofFn]) i j j.2]
  simp

/-- Two lists of length `r * c` agreeing at all positions `i * c + j` are equal. -/
theorem rows_ext {r c : ℕ} {l l' : List T} (h : l.length = r * c) (h' : l'.length = r * c)
    (he : ∀ i < r, ∀ j < c, l[i * c + j]? = l'[i * c + j]?) : l = l' := by
  apply List.ext_getElem?
  intro k
  by_cases hk : k < r * c
  · have hc : 0 < c := by
      rcases Nat.eq_zero_or_pos c with rfl | h
      · simp at hk
      · exact h
    have := he (k / c) ((Nat.div_lt_iff_lt_mul hc).2 hk) (k % c) (Nat.mod_lt _ hc)
    rwa [Nat.div_add_mod' k c] at this
  · rw [List.getElem?_eq_none (by omega), List.getElem?_eq_none (by omega)]

/-- Every list of length `r * c` is the row-major storage of some matrix. -/
theorem exists_ofFn {r c : ℕ} {m : DMatrix T} (hr : m.numRows = r) (hc : m.numCols = c)
    (hl : m.data.length = r * c) : ∃ f : Fin r → Fin c → T, m = DMatrix.ofFn f := by
  have hlt : ∀ (i : Fin r) (j : Fin c), (i : ℕ) * c + j < m.data.length := fun i j => by
    rw [hl]
    calc (i : ℕ) * c + j < i * c + c := by omega
      _ = (i + 1) * c := by ring
      _ ≤ r * c := Nat.mul_le_mul_right _ i.2
  refine ⟨fun i j => m.data[(i : ℕ) * c + j]'(hlt i j), ?_⟩
  obtain ⟨d, r', c'⟩ := m
  simp only at hr hc hl hlt ⊢
  subst hr hc
  unfold DMatrix.ofFn
  congr 1
  refine rows_ext hl (length_rows _) fun i hi j hj => ?_
  have := getElem?_rows (fun (i : Fin r') (j : Fin c') => d[(i : ℕ) * c' + j]'(hlt i j)) ⟨i, hi⟩ ⟨j, hj⟩
  simp only at this
  rw [this, List.getElem?_eq_getElem]

theorem ofFn_injective {r c : ℕ} {f g : Fin r → Fin c → T} (h : DMatrix.ofFn f = DMatrix.ofFn g) : f = g := by
  funext i j
  have h1 := getElem?_rows f i j
  have h2 := getElem?_rows g i j
  have h3 := congrArg DMatrix.data h
  simp only [DMatrix.ofFn] at h3
  rw [h3, h2] at h1
  exact (Option.some.inj h1).symm

theorem vofFn_injective {n : ℕ} {f g : Fin n → T} (h : DVector.ofFn f = DVector.ofFn g) : f = g := by
  have := congrArg DVector.data h
  exact List.ofFn_injective this

theorem exists_vofFn (v : DVector T) : ∃ f : Fin v.data.length → T, v = DVector.ofFn f :=
  ⟨fun i => v.data[i], by cases v; simp [DVector.ofFn]⟩

theorem flat_lt {r c i j : ℕ} (hi : i < r) (hj : j < c) : i * c + j < r * c :=
  calc i * c + j < i * c + c := by omega
    _ = (i + 1) * c := by ring
    _ ≤ r * c := Nat.mul_le_mul_right _ hi

theorem flatIndex_eq {p : Profile} {c i j : ℕ} (h : i * c + j < 2 ^ p.bits) :
    DMatrix.flatIndex p c i j = .ok (i * c + j) := by
  have h1 : i * c < 2 ^ p.bits := by omega
  simp [DMatrix.flatIndex, Profile.usize, h1, h, bind, Except.bind]

theorem entry_ofFn {p : Profile} {r c : ℕ} (hp : p.Fits r c) (f : Fin r → Fin c → T) (i : Fin r) (j : Fin c) :
    (DMatrix.ofFn f).entry p i j = .ok (f i j) := by
  have h := flat_lt i.2 j.2
  unfold DMatrix.entry
  show (DMatrix.flatIndex p c i j >>= fun k => _) = _
  rw [flatIndex_eq (lt_of_lt_of_le h hp)]
  exact getIdx_eq.2 (getElem?_rows f i j)

theorem entry_ofFn' {p : Profile} {r c : ℕ} (hp : p.Fits r c) (f : Fin r → Fin c → T) {i j : ℕ} (hi : i < r)
    (hj : j < c) : (DMatrix.ofFn f).entry p i j = .ok (f ⟨i, hi⟩ ⟨j, hj⟩) := entry_ofFn hp f ⟨i, hi⟩ ⟨j, hj⟩

/-! ### `eval` -/

theorem exists_mapM {α β : Type} {f : α → Res β} : ∀ (l : List α), (∀ a ∈ l, Returns (f a)) → Returns (l.mapM f) := by
  intro l
  induction l with
  | nil => intro _; exact ⟨[], rfl⟩
  | cons a l ih =>
    intro h
    rw [List.mapM_cons]
    exact (h a (by simp)).bind fun _ _ => (ih fun b hb => h b (by simp [hb])).bind fun _ _ => ⟨_, rfl⟩

/-- The default `eval` returns the vector of the entries, if all of them return. -/
theorem vdefaultEval_iff {n : ℕ} {g : ℕ → Res T} {v : DVector T} :
    VExpr.defaultEval n g = .ok v ↔ ∃ f : Fin n → T, (∀ i : Fin n, g i = .ok (f i)) ∧ v = DVector.ofFn f := by
  unfold VExpr.defaultEval
  constructor
  · intro h
    obtain ⟨d, h1, h2⟩ := bind_ok h
    cases pure_ok h2
    obtain ⟨hl, hi⟩ := mapM_ok_iff.1 h1
    rw [List.length_range] at hl
    subst hl
    refine ⟨fun i => d[i], fun i => ?_, ?_⟩
    · obtain ⟨b, hb, hg⟩ := hi i i (by simp)
      rw [hg]
      congr 1
      simpa using hb.symm
    · simp [DVector.ofFn]
  · rintro ⟨f, hf, rfl⟩
    have : (List.range n).mapM g = .ok (List.ofFn f) := by
      rw [mapM_ok_iff]
      refine ⟨by simp, fun i a ha => ?_⟩
      obtain ⟨h1, h2⟩ := List.getElem?_eq_some_iff.1 ha
      simp only [List.length_range] at h1
      simp only [List.getElem_range] at h2
      subst h2
      exact ⟨f ⟨i, h1⟩, by simp [h1], hf ⟨i, h1⟩⟩
    rw [this]
    rfl

theorem pairs_eq (r c : ℕ) : (List.range r).flatMap (fun r => (List.range c).map (fun c => (r, c))) =
    (List.ofFn fun i : Fin r => List.ofFn fun j : Fin c => ((i : ℕ), (j : ℕ))).flatten := by
  rw [List.flatMap_def]
  congr 1
  apply List.ext_getElem
  · simp
  · intro i h1 h2
    simp only [List.getElem_map, List.getElem_range, List.getElem_ofFn]
    apply List.ext_getElem
    · simp
    · intro j h3 h4
      simp

/-- The default `eval` returns the matrix of the entries, if all of them return. -/
theorem mdefaultEval_iff {r c : ℕ} {g : ℕ → ℕ → Res T} {m : DMatrix T} :
    MExpr.defaultEval r c g = .ok m ↔
      ∃ f : Fin r → Fin c → T, (∀ (i : Fin r) (j : Fin c), g i j = .ok (f i j)) ∧ m = DMatrix.ofFn f := by
  unfold MExpr.defaultEval
  rw [pairs_eq]
  constructor
  · intro h
    obtain ⟨d, h1, h2⟩ := bind_ok h
    cases pure_ok h2
    obtain ⟨hl, hi⟩ := mapM_ok_iff.1 h1
    rw [length_rows] at hl
    obtain ⟨f, hf⟩ := exists_ofFn (m := ⟨d, r, c⟩) rfl rfl hl
    refine ⟨f, fun i j => ?_, hf⟩
    obtain ⟨b, hb, hg⟩ := hi (i * c + j) ((i : ℕ), (j : ℕ))
      (getElem?_rows (fun (i : Fin r) (j : Fin c) => ((i : ℕ), (j : ℕ))) i j)
    have hd : d = (List.ofFn fun i => List.ofFn (f i)).flatten := congrArg DMatrix.data hf
    rw [hd, getElem?_rows] at hb
    cases hb
    exact hg
  · rintro ⟨f, hf, rfl⟩
    obtain ⟨d, hd⟩ := exists_mapM (f := fun rc : ℕ × ℕ => g rc.1 rc.2)
      (List.ofFn fun i : Fin r => List.ofFn fun j : Fin c => ((i : ℕ), (j : ℕ))).flatten (by
        intro a ha
        simp only [List.mem_flatten, List.mem_ofFn] at ha
        obtain ⟨l, ⟨i, rfl⟩, ha⟩ := ha
        obtain ⟨j, rfl⟩ := List.mem_ofFn.1 ha
        exact ⟨_, hf i j⟩)
    rw [hd]
    show (.ok ⟨d, r, c⟩ : Res (DMatrix T)) = .ok (DMatrix.ofFn f)
    congr 1
    obtain ⟨hl, hi⟩ := mapM_ok_iff.1 hd
    rw [length_rows] at hl
    unfold DMatrix.ofFn
    congr 1
    refine rows_ext hl (length_rows _) fun i hi' j hj => ?_
    obtain ⟨b, hb, hg⟩ := hi (i * c + j) (i, j)
      (getElem?_rows (fun (i : Fin r) (j : Fin c) => ((i : ℕ), (j : ℕ))) ⟨i, hi'⟩ ⟨j, hj⟩)
    have h2 := getElem?_rows f ⟨i, hi'⟩ ⟨j, hj⟩
    simp only at h2
    rw [hb, h2]
    have h3 := hf ⟨i, hi'⟩ ⟨j, hj⟩
    simp only at h3 hg
    rw [hg] at h3
    cases h3
    rfl

end Magnesia
