import Verif.Spec.FormErr
import Verif.Proof.Form
import Verif.Proof.CxRound

/-!
# Error bounds for formulas of linear algebra (helper lemmas)
-/

namespace Magnesia

open RZero ROne

variable {K : Type} [NormedField K] {u : ℝ}

namespace NApprox

variable {F G D E Y Z η : ℝ} {y z r s t : K}

theorem sub (h : NApprox F D Y y r) (g : NApprox F E Z z s) (hu : 0 ≤ u) (ht : ‖t - (r - s)‖ ≤ u * ‖r - s‖) :
    NApprox (F * (1 + u)) (D + E) (Y + Z) (y - z) t := by
  have g' : NApprox F E Z (-z) (-s) := ⟨g.one_le, g.D_nonneg, by rw [norm_neg]; exact g.norm_le, by
    rw [show -s - -z = -(s - z) by ring, norm_neg]; exact g.err⟩
  have := h.add g' hu (t := t) (by rwa [← sub_eq_add_neg])
  rwa [← sub_eq_add_neg] at this

theorem mulApprox (h : NApprox F D Y y r) (g : NApprox G E Z z s) :
    NApprox (F * G) (D * E + Y * E + D * Z) (Y * Z) (y * z) (r * s) := by
  have hD := h.D_nonneg; have hE := g.D_nonneg; have hY := h.nonneg; have hZ := g.nonneg
  have hF := h.F_nonneg
  refine ⟨one_le_mul_of_one_le_of_one_le h.one_le g.one_le, by positivity, ?_, ?_⟩
  · rw [norm_mul]; exact mul_le_mul h.norm_le g.norm_le (norm_nonneg _) h.nonneg
  · have h1 : ‖r * s - y * z‖ ≤ ‖r‖ * ‖s - z‖ + ‖r - y‖ * ‖z‖ := by
      rw [show r * s - y * z = r * (s - z) + (r - y) * z by ring, ← norm_mul, ← norm_mul]; exact norm_add_le _ _
    have h2 : ‖r‖ * ‖s - z‖ ≤ (F * D + F * Y) * (G * E + (G - 1) * Z) :=
      mul_le_mul h.norm_val g.err (norm_nonneg _) (by positivity)
    have h3 : ‖r - y‖ * ‖z‖ ≤ (F * D + (F - 1) * Y) * Z :=
      mul_le_mul h.err g.norm_le (norm_nonneg _) ((norm_nonneg _).trans h.err)
    calc _ ≤ (F * D + F * Y) * (G * E + (G - 1) * Z) + (F * D + (F - 1) * Y) * Z := by linarith
      _ = _ := by ring

theorem mulRound (h : NApprox F D Y y r) (g : NApprox G E Z z s) (hu : 0 ≤ u) (hη : 0 ≤ η)
    (ht : ‖t - r * s‖ ≤ u * ‖r * s‖ + η) :
    NApprox (F * G * (1 + u)) (D * E + Y * E + D * Z + η) (Y * Z) (y * z) t := (h.mulApprox g).round hu hη ht

/-- The value is bounded. -/
theorem norm_val' (h : NApprox F D Y y r) : ‖r‖ ≤ F * (Y + D) := by
  have := h.norm_val; linarith

end NApprox

/-- Floating point operations: exact up to rounding if the result is finite, and finite if the exact result is at most
`B` in norm. -/
structure FloatOps {T : Type} [RZero T] [ROne T] [RAdd T T T] [RSub T T T] [RMul T T T] [RAddAssign T T] [RConj T]
    (fin : T → Prop) (φ : T → K) (σ : K → K) (B u v η : ℝ) : Prop where
  u_nonneg : 0 ≤ u
  v_nonneg : 0 ≤ v
  η_nonneg : 0 ≤ η
  zero : φ zero = 0 ∧ fin zero
  one : φ one = 1 ∧ fin one
  add : ∀ a b c : T, RAdd.add a b = .ok c → fin c → fin a ∧ fin b ∧ ‖φ c - (φ a + φ b)‖ ≤ u * ‖φ a + φ b‖
  sub : ∀ a b c : T, RSub.sub a b = .ok c → fin c → fin a ∧ fin b ∧ ‖φ c - (φ a - φ b)‖ ≤ u * ‖φ a - φ b‖
  mul : ∀ a b c : T, RMul.mul a b = .ok c → fin c → fin a ∧ fin b ∧ ‖φ c - φ a * φ b‖ ≤ v * ‖φ a * φ b‖ + η
  addAssign : ∀ a b c : T, (RAddAssign.addAssign a b).toRes = .ok c → fin c →
    fin a ∧ fin b ∧ ‖φ c - (φ a + φ b)‖ ≤ u * ‖φ a + φ b‖
  conj : ∀ a c : T, RConj.conj a = .ok c → φ c = σ (φ a) ∧ (fin c ↔ fin a)
  σ_dist : ∀ x y : K, ‖σ x - σ y‖ = ‖x - y‖
  σ_zero : σ 0 = 0
  add_fin : ∀ a b : T, fin a → fin b → ‖φ a + φ b‖ ≤ B → ∃ c, RAdd.add a b = .ok c ∧ fin c
  sub_fin : ∀ a b : T, fin a → fin b → ‖φ a - φ b‖ ≤ B → ∃ c, RSub.sub a b = .ok c ∧ fin c
  mul_fin : ∀ a b : T, fin a → fin b → ‖φ a * φ b‖ ≤ B → ∃ c, RMul.mul a b = .ok c ∧ fin c
  addAssign_fin : ∀ a b : T, fin a → fin b → ‖φ a + φ b‖ ≤ B → ∃ c, (RAddAssign.addAssign a b).toRes = .ok c ∧ fin c
  conj_ret : ∀ a : T, Returns (RConj.conj a)

variable {T : Type} [RZero T] [ROne T] [RAdd T T T] [RSub T T T] [RMul T T T] [RAddAssign T T] [RConj T]
  {fin : T → Prop} {φ : T → K} {σ : K → K} {B v η : ℝ} {k : Kind} {r c : ℕ}

namespace FloatOps

theorem conj_approx (hA : FloatOps fin φ σ B u v η) {F D Y : ℝ} {y r : K} (h : NApprox F D Y y r) :
    NApprox F D Y (σ y) (σ r) :=
  ⟨h.one_le, h.D_nonneg, by
    have := hA.σ_dist y 0
    rw [hA.σ_zero, sub_zero, sub_zero] at this
    rw [this]; exact h.norm_le, by rw [hA.σ_dist]; exact h.err⟩

/-- Sums from left to right of terms that are themselves approximations. -/
theorem sumTerms_approx (hA : FloatOps fin φ σ B u v η) {G : ℝ} {D Y : ℕ → ℝ} {y : ℕ → K} {t : ℕ → Res T} :
    ∀ {n : ℕ} {x : T}, (∀ k < n + 1, ∀ z, t k = .ok z → fin z → NApprox G (D k) (Y k) (y k) (φ z)) →
    Tree.sumTerms t (n + 1) = .ok x → fin x → (∀ k < n + 1, ∃ z, t k = .ok z ∧ fin z) ∧
      NApprox (G * (1 + u) ^ n) (∑ k ∈ Finset.range (n + 1), D k) (∑ k ∈ Finset.range (n + 1), Y k)
        (∑ k ∈ Finset.range (n + 1), y k) (φ x) := by
  intro n
  induction n with
  | zero =>
    intro x h hx hf
    refine ⟨fun k hk => ?_, ?_⟩
    · obtain rfl : k = 0 := by omega
      exact ⟨x, hx, hf⟩
    · simpa using h 0 (by omega) x hx hf
  | succ n ih =>
    intro x h hx hf
    obtain ⟨s, h1, hx⟩ := bind_ok hx
    obtain ⟨z, h2, hx⟩ := bind_ok hx
    obtain ⟨hs, hz, he⟩ := hA.addAssign _ _ _ hx hf
    obtain ⟨h3, h4⟩ := ih (fun k hk => h k (by omega)) h1 hs
    have h5 := h (n + 1) (by omega) z h2 hz
    refine ⟨fun k hk => ?_, ?_⟩
    · rcases Nat.lt_succ_iff_lt_or_eq.1 hk with hk | rfl
      · exact h3 k hk
      · exact ⟨z, h2, hz⟩
    · rw [Finset.sum_range_succ, Finset.sum_range_succ _ (n + 1), Finset.sum_range_succ y (n + 1), pow_succ, ← mul_assoc]
      exact h4.add (h5.mono (le_mul_of_one_le_right h5.F_nonneg (one_le_pow₀ (by linarith [hA.u_nonneg]))) le_rfl le_rfl)
        hA.u_nonneg he

/-- The same, forwards: no overflow. -/
theorem sumTerms_fin (hA : FloatOps fin φ σ B u v η) {G : ℝ} {D Y : ℕ → ℝ} {y : ℕ → K} {t : ℕ → Res T} :
    ∀ {n : ℕ}, (∀ k < n + 1, ∃ z, t k = .ok z ∧ fin z ∧ NApprox G (D k) (Y k) (y k) (φ z)) →
    G * (1 + u) ^ n * (∑ k ∈ Finset.range (n + 1), Y k + ∑ k ∈ Finset.range (n + 1), D k) ≤ B →
    ∃ x, Tree.sumTerms t (n + 1) = .ok x ∧ fin x := by
  intro n
  induction n with
  | zero =>
    intro h _
    obtain ⟨z, h1, h2, _⟩ := h 0 (by omega)
    exact ⟨z, h1, h2⟩
  | succ n ih =>
    intro h hB
    have hG : 1 ≤ G := (h 0 (by omega)).choose_spec.2.2.one_le
    have hY : ∀ k < n + 2, 0 ≤ Y k := fun k hk => (h k hk).choose_spec.2.2.nonneg
    have hD : ∀ k < n + 2, 0 ≤ D k := fun k hk => (h k hk).choose_spec.2.2.D_nonneg
    have hu := hA.u_nonneg
    have hp : (1 + u) ^ n ≤ (1 + u) ^ (n + 1) := pow_le_pow_right₀ (by linarith) (by omega)
    have hs0 : 0 ≤ ∑ k ∈ Finset.range (n + 1), Y k + ∑ k ∈ Finset.range (n + 1), D k :=
      add_nonneg (Finset.sum_nonneg fun k hk => hY k (by simp at hk; omega))
        (Finset.sum_nonneg fun k hk => hD k (by simp at hk; omega))
    have hl : ∑ k ∈ Finset.range (n + 1), Y k + ∑ k ∈ Finset.range (n + 1), D k ≤
        ∑ k ∈ Finset.range (n + 2), Y k + ∑ k ∈ Finset.range (n + 2), D k := by
      rw [Finset.sum_range_succ Y (n + 1), Finset.sum_range_succ D (n + 1)]
      linarith [hY (n + 1) (by omega), hD (n + 1) (by omega)]
    have hB' : G * (1 + u) ^ n * (∑ k ∈ Finset.range (n + 2), Y k + ∑ k ∈ Finset.range (n + 2), D k) ≤ B :=
      le_trans (mul_le_mul_of_nonneg_right (mul_le_mul_of_nonneg_left hp (by linarith)) (hs0.trans hl)) hB
    obtain ⟨s, h1, hs⟩ := ih (fun k hk => h k (by omega))
      (le_trans (mul_le_mul_of_nonneg_left hl (by positivity)) hB')
    obtain ⟨z, h2, hz, h5⟩ := h (n + 1) (by omega)
    have h4 := (hA.sumTerms_approx (fun k hk z' e _ => by
      obtain ⟨z, h2, _, h5⟩ := h k (by omega)
      cases e.symm.trans h2
      exact h5) h1 hs).2
    have h6 : ‖φ s + φ z‖ ≤ B := by
      have a1 := h4.norm_val'
      have a2 := (h5.mono (G := G * (1 + u) ^ n)
        (le_mul_of_one_le_right h5.F_nonneg (one_le_pow₀ (by linarith))) le_rfl le_rfl).norm_val'
      rw [Finset.sum_range_succ Y (n + 1), Finset.sum_range_succ D (n + 1)] at hB'
      refine (norm_add_le _ _).trans (le_trans (add_le_add a1 a2) (le_trans (le_of_eq ?_) hB'))
      ring
    obtain ⟨x, e, hx⟩ := hA.addAssign_fin s z hs hz h6
    refine ⟨x, ?_, hx⟩
    show (do
      let s ← Tree.sumTerms t (n + 1)
      let x ← t (n + 1)
      (RAddAssign.addAssign s x).toRes) = _
    rw [h1, h2]
    exact e

end FloatOps

namespace Form

omit [RZero T] [ROne T] [RAdd T T T] [RSub T T T] [RMul T T T] [RAddAssign T T] [RConj T] in
theorem one_le_factor (hu : 0 ≤ u) (hv : 0 ≤ v) (e : Form T k r c) : 1 ≤ e.factor u v := by
  have h1 : 1 ≤ 1 + u := by linarith
  have h2 : 1 ≤ 1 + v := by linarith
  induction e with
  | add a b iha ihb => exact one_le_mul_of_one_le_of_one_le (iha.trans (le_max_left _ _)) h1
  | sub a b iha ihb => exact one_le_mul_of_one_le_of_one_le (iha.trans (le_max_left _ _)) h1
  | elem a b iha ihb => exact one_le_mul_of_one_le_of_one_le (one_le_mul_of_one_le_of_one_le iha ihb) h2
  | prod a b iha ihb => exact one_le_mul_of_one_le_of_one_le (one_le_mul_of_one_le_of_one_le
      (one_le_mul_of_one_le_of_one_le iha ihb) h2) (one_le_pow₀ h1)
  | eval a ih => exact ih
  | conj a ih => exact ih
  | diagOf a ih => exact ih
  | diag a ih => exact ih
  | t a ih => exact ih
  | h a ih => exact ih
  | _ => exact le_refl _

theorem sum_range_fin {M : Type} [AddCommMonoid M] {m : ℕ} (f : Fin (m + 1) → M) :
    ∑ k ∈ Finset.range (m + 1), f (Fin.ofNat (m + 1) k) = ∑ k, f k := by
  rw [← Fin.sum_univ_eq_sum_range (fun k => f (Fin.ofNat (m + 1) k))]
  simp

theorem ofNat_eq {m k : ℕ} (hk : k < m + 1) : Fin.ofNat (m + 1) k = ⟨k, hk⟩ := by
  ext; simp [Fin.ofNat, Nat.mod_eq_of_lt hk]

theorem entry_approx (hA : FloatOps fin φ σ B u v η) (e : Form T k r c) :
    ∀ (i : Fin r) (j : Fin c) (z : T), e.tree.entry i j = .ok z → fin z → e.Uses fin i j ∧
      NApprox (e.factor u v) (e.under η φ i j) (e.mag φ i j) (e.den φ σ i j) (φ z) := by
  have ex : ∀ (y : K), NApprox 1 0 ‖y‖ y y := NApprox.exact
  have ex0 : NApprox 1 0 0 (0 : K) 0 := by simpa using ex 0
  have ex1 : NApprox 1 0 1 (1 : K) 1 := by simpa using ex 1
  induction e with
  | vec f =>
    intro i j z h hf
    have : getIdx (List.ofFn f) i = .ok z := h
    rw [getIdx_ofFn] at this
    cases this; exact ⟨hf, ex _⟩
  | mat f =>
    intro i j z h hf
    simp only [tree, Tree.entry, Tree.entry.SMatrixEntry] at h
    rw [dif_pos ⟨i.2, j.2⟩] at h
    cases h; exact ⟨hf, ex _⟩
  | zerosV n => intro i j z h hf; cases h; refine ⟨trivial, ?_⟩; rw [hA.zero.1]; exact ex0
  | onesV n => intro i j z h hf; cases h; refine ⟨trivial, ?_⟩; rw [hA.one.1]; exact ex1
  | zerosM r c => intro i j z h hf; cases h; refine ⟨trivial, ?_⟩; rw [hA.zero.1]; exact ex0
  | onesM r c => intro i j z h hf; cases h; refine ⟨trivial, ?_⟩; rw [hA.one.1]; exact ex1
  | eye n =>
    intro i j z h hf
    cases h
    refine ⟨trivial, ?_⟩
    simp only [den, mag, Matrix.one_apply]
    by_cases e : i = j
    · rw [if_pos (congrArg Fin.val e), if_pos e, if_pos e, hA.one.1]; exact ex1
    · rw [if_neg (fun h => e (Fin.ext h)), if_neg e, if_neg e, hA.zero.1]; exact ex0
  | @add k r c a b iha ihb =>
    intro i j z h hf
    have h : (do RAdd.add (← a.tree.entry i j) (← b.tree.entry i j)) = (.ok z : Res T) := by cases k <;> exact h
    obtain ⟨x, hx, h⟩ := bind_ok h
    obtain ⟨y, hy, h⟩ := bind_ok h
    obtain ⟨fx, fy, he⟩ := hA.add _ _ _ h hf
    obtain ⟨ua, ha⟩ := iha i j x hx fx
    obtain ⟨ub, hb⟩ := ihb i j y hy fy
    exact ⟨⟨ua, ub⟩, (ha.mono (le_max_left _ _) le_rfl le_rfl).add (hb.mono (le_max_right _ _) le_rfl le_rfl)
      hA.u_nonneg he⟩
  | @sub k r c a b iha ihb =>
    intro i j z h hf
    have h : (do RSub.sub (← a.tree.entry i j) (← b.tree.entry i j)) = (.ok z : Res T) := by cases k <;> exact h
    obtain ⟨x, hx, h⟩ := bind_ok h
    obtain ⟨y, hy, h⟩ := bind_ok h
    obtain ⟨fx, fy, he⟩ := hA.sub _ _ _ h hf
    obtain ⟨ua, ha⟩ := iha i j x hx fx
    obtain ⟨ub, hb⟩ := ihb i j y hy fy
    exact ⟨⟨ua, ub⟩, (ha.mono (le_max_left _ _) le_rfl le_rfl).sub (hb.mono (le_max_right _ _) le_rfl le_rfl)
      hA.u_nonneg he⟩
  | @elem k r c a b iha ihb =>
    intro i j z h hf
    have h : (do RMul.mul (← a.tree.entry i j) (← b.tree.entry i j)) = (.ok z : Res T) := by cases k <;> exact h
    obtain ⟨x, hx, h⟩ := bind_ok h
    obtain ⟨y, hy, h⟩ := bind_ok h
    obtain ⟨fx, fy, he⟩ := hA.mul _ _ _ h hf
    obtain ⟨ua, ha⟩ := iha i j x hx fx
    obtain ⟨ub, hb⟩ := ihb i j y hy fy
    exact ⟨⟨ua, ub⟩, ha.mulRound hb hA.v_nonneg hA.η_nonneg he⟩
  | @eval k r c a iha =>
    intro i j z h hf
    exact iha i j z (by cases k <;> exact h) hf
  | conj v ih =>
    intro i j z h hf
    obtain ⟨x, hx, h⟩ := bind_ok h
    obtain ⟨h1, h2⟩ := hA.conj _ _ h
    obtain ⟨ua, ha⟩ := ih i j x hx (h2.1 hf)
    exact ⟨ua, h1 ▸ hA.conj_approx ha⟩
  | @diagOf r c m ih =>
    intro i j z h hf
    exact ih (i.castLE (min_le_left _ _)) (i.castLE (min_le_right _ _)) z h hf
  | @diag n v ih =>
    intro i j z h hf
    simp only [tree, Tree.entry] at h
    simp only [den, mag, under, Uses, factor, Matrix.diagonal_apply]
    by_cases e : i = j
    · rw [if_pos (congrArg Fin.val e)] at h
      rw [if_pos e, if_pos e, if_pos e]
      obtain ⟨h1, h2⟩ := ih i 0 z h hf
      exact ⟨fun _ => h1, h2⟩
    · rw [if_neg (fun h => e (Fin.ext h))] at h
      rw [if_neg e, if_neg e, if_neg e]
      cases h
      refine ⟨fun h => absurd h e, ?_⟩
      rw [hA.zero.1]
      refine ⟨?_, le_rfl, by simp, by simp⟩
      exact one_le_factor hA.u_nonneg hA.v_nonneg v
  | t m ih =>
    intro i j z h hf
    exact ih j i z h hf
  | h m ih =>
    intro i j z h hf
    obtain ⟨x, hx, h⟩ := bind_ok h
    obtain ⟨h1, h2⟩ := hA.conj _ _ h
    obtain ⟨ua, ha⟩ := ih j i x hx (h2.1 hf)
    exact ⟨ua, h1 ▸ hA.conj_approx ha⟩
  | @prod l m n a b iha ihb =>
    intro i j z h hf
    have h : Tree.sumTerms (fun k => do RMul.mul (← a.tree.entry i k) (← b.tree.entry k j)) m = .ok z := by
      have e : a.tree.cols = m := by simp [Tree.cols, tree_shape]
      have h' : Tree.sumTerms _ a.tree.cols = .ok z := h
      rwa [e] at h'
    obtain ⟨m, rfl⟩ : ∃ m', m = m' + 1 := by
      cases m with
      | zero => cases h
      | succ m => exact ⟨m, rfl⟩
    have key : ∀ k < m + 1, ∀ w, (do RMul.mul (← a.tree.entry i k) (← b.tree.entry k j)) = (.ok w : Res T) → fin w →
        (a.Uses fin i (Fin.ofNat _ k) ∧ b.Uses fin (Fin.ofNat _ k) j) ∧
        NApprox (a.factor u v * b.factor u v * (1 + v))
          (a.under η φ i (Fin.ofNat _ k) * b.under η φ (Fin.ofNat _ k) j +
            a.mag φ i (Fin.ofNat _ k) * b.under η φ (Fin.ofNat _ k) j +
            a.under η φ i (Fin.ofNat _ k) * b.mag φ (Fin.ofNat _ k) j + η)
          (a.mag φ i (Fin.ofNat _ k) * b.mag φ (Fin.ofNat _ k) j)
          (a.den φ σ i (Fin.ofNat _ k) * b.den φ σ (Fin.ofNat _ k) j) (φ w) := by
      intro k hk w hw fw
      rw [ofNat_eq hk]
      obtain ⟨x, hx, hw⟩ := bind_ok hw
      obtain ⟨y, hy, hw⟩ := bind_ok hw
      obtain ⟨fx, fy, he⟩ := hA.mul _ _ _ hw fw
      obtain ⟨ua, ha⟩ := iha i ⟨k, hk⟩ x hx fx
      obtain ⟨ub, hb⟩ := ihb ⟨k, hk⟩ j y hy fy
      exact ⟨⟨ua, ub⟩, ha.mulRound hb hA.v_nonneg hA.η_nonneg he⟩
    obtain ⟨h1, h2⟩ := hA.sumTerms_approx (fun k hk w hw fw => (key k hk w hw fw).2) h hf
    refine ⟨fun k => ?_, ?_⟩
    · obtain ⟨w, hw, fw⟩ := h1 k k.2
      have := (key k k.2 w hw fw).1
      rwa [ofNat_eq k.2] at this
    · rw [sum_range_fin (fun k => a.den φ σ i k * b.den φ σ k j), sum_range_fin (fun k => a.mag φ i k * b.mag φ k j),
        sum_range_fin (fun k => a.under η φ i k * b.under η φ k j + a.mag φ i k * b.under η φ k j +
          a.under η φ i k * b.mag φ k j + η)] at h2
      simp only [den, mag, under, factor, Matrix.add_apply, Matrix.mul_apply, Matrix.of_apply]
      rw [Finset.sum_add_distrib, Finset.sum_add_distrib, Finset.sum_add_distrib] at h2
      simpa using h2

/-- If no estimate exceeds the overflow threshold, every entry returns a finite number. -/
theorem entry_fin (hA : FloatOps fin φ σ B u v η) (e : Form T k r c) (hi : e.Inner) (hw : e.Within fin B u v η φ) :
    ∀ (i : Fin r) (j : Fin c), ∃ z, e.tree.entry i j = .ok z ∧ fin z := by
  have bnd : ∀ {F G Y D : ℝ} {y x : K}, NApprox F D Y y x → F ≤ G → G * (Y + D) ≤ B → ‖x‖ ≤ B := by
    intro F G Y D y x h h1 h2
    exact h.norm_val'.trans ((mul_le_mul_of_nonneg_right h1 (add_nonneg h.nonneg h.D_nonneg)).trans h2)
  have hu := hA.u_nonneg
  have hv := hA.v_nonneg
  have hη := hA.η_nonneg
  induction e with
  | vec f => intro i j; exact ⟨_, getIdx_ofFn f i, hw i⟩
  | mat f =>
    intro i j
    exact ⟨f i j, by simp only [tree, Tree.entry, Tree.entry.SMatrixEntry]; rw [dif_pos ⟨i.2, j.2⟩], hw i j⟩
  | zerosV n => intro i j; exact ⟨_, rfl, hA.zero.2⟩
  | onesV n => intro i j; exact ⟨_, rfl, hA.one.2⟩
  | zerosM r c => intro i j; exact ⟨_, rfl, hA.zero.2⟩
  | onesM r c => intro i j; exact ⟨_, rfl, hA.one.2⟩
  | eye n =>
    intro i j
    refine ⟨_, rfl, ?_⟩
    split
    exacts [hA.one.2, hA.zero.2]
  | @add k r c a b iha ihb =>
    intro i j
    obtain ⟨x, hx, fx⟩ := iha hi.1 hw.1 i j
    obtain ⟨y, hy, fy⟩ := ihb hi.2 hw.2.1 i j
    have ha := (a.entry_approx hA i j x hx fx).2
    have hb := (b.entry_approx hA i j y hy fy).2
    have hab := (ha.mono (le_max_left _ (b.factor u v)) le_rfl le_rfl).add
      (hb.mono (le_max_right (a.factor u v) _) le_rfl le_rfl) (u := 0) (t := φ x + φ y) le_rfl (by simp)
    obtain ⟨z, e, fz⟩ := hA.add_fin x y fx fy (bnd hab (mul_le_mul_of_nonneg_left (by linarith)
      (le_trans zero_le_one ((one_le_factor hu hv a).trans (le_max_left _ _)))) (hw.2.2 i j))
    refine ⟨z, ?_, fz⟩
    have : (do RAdd.add (← a.tree.entry i j) (← b.tree.entry i j)) = (.ok z : Res T) := by rw [hx, hy]; exact e
    cases k <;> exact this
  | @sub k r c a b iha ihb =>
    intro i j
    obtain ⟨x, hx, fx⟩ := iha hi.1 hw.1 i j
    obtain ⟨y, hy, fy⟩ := ihb hi.2 hw.2.1 i j
    have ha := (a.entry_approx hA i j x hx fx).2
    have hb := (b.entry_approx hA i j y hy fy).2
    have hab := (ha.mono (le_max_left _ (b.factor u v)) le_rfl le_rfl).sub
      (hb.mono (le_max_right (a.factor u v) _) le_rfl le_rfl) (u := 0) (t := φ x - φ y) le_rfl (by simp)
    obtain ⟨z, e, fz⟩ := hA.sub_fin x y fx fy (bnd hab (mul_le_mul_of_nonneg_left (by linarith)
      (le_trans zero_le_one ((one_le_factor hu hv a).trans (le_max_left _ _)))) (hw.2.2 i j))
    refine ⟨z, ?_, fz⟩
    have : (do RSub.sub (← a.tree.entry i j) (← b.tree.entry i j)) = (.ok z : Res T) := by rw [hx, hy]; exact e
    cases k <;> exact this
  | @elem k r c a b iha ihb =>
    intro i j
    obtain ⟨x, hx, fx⟩ := iha hi.1 hw.1 i j
    obtain ⟨y, hy, fy⟩ := ihb hi.2 hw.2.1 i j
    have ha := (a.entry_approx hA i j x hx fx).2
    have hb := (b.entry_approx hA i j y hy fy).2
    have hab := (ha.mulApprox hb).mono (le_mul_of_one_le_right (ha.mulApprox hb).F_nonneg
      (by linarith : 1 ≤ 1 + v)) (le_add_of_nonneg_right hη) le_rfl
    obtain ⟨z, e, fz⟩ := hA.mul_fin x y fx fy (bnd hab le_rfl (hw.2.2 i j))
    refine ⟨z, ?_, fz⟩
    have : (do RMul.mul (← a.tree.entry i j) (← b.tree.entry i j)) = (.ok z : Res T) := by rw [hx, hy]; exact e
    cases k <;> exact this
  | @eval k r c a iha => intro i j; cases k <;> exact iha hi hw i j
  | conj v' ih =>
    intro i j
    obtain ⟨x, hx, fx⟩ := ih hi hw i j
    obtain ⟨z, hz⟩ := hA.conj_ret x
    refine ⟨z, ?_, (hA.conj _ _ hz).2.2 fx⟩
    show (do RConj.conj (← v'.tree.entry i j)) = _
    rw [hx]; exact hz
  | diagOf m ih =>
    intro i j
    exact ih hi hw (i.castLE (min_le_left _ _)) (i.castLE (min_le_right _ _))
  | diag v' ih =>
    intro i j
    simp only [tree, Tree.entry]
    split
    · exact ih hi hw i 0
    · exact ⟨_, rfl, hA.zero.2⟩
  | t m ih => intro i j; exact ih hi hw j i
  | h m ih =>
    intro i j
    obtain ⟨x, hx, fx⟩ := ih hi hw j i
    obtain ⟨z, hz⟩ := hA.conj_ret x
    refine ⟨z, ?_, (hA.conj _ _ hz).2.2 fx⟩
    show (do RConj.conj (← m.tree.entry j i)) = _
    rw [hx]; exact hz
  | @prod l m n a b iha ihb =>
    intro i j
    obtain ⟨m, rfl⟩ : ∃ m', m = m' + 1 := by
      rcases hi.2.2 with h | h | h
      · exact ⟨m - 1, by omega⟩
      · subst h; exact i.elim0
      · subst h; exact j.elim0
    have hB := hw.2.2 i j
    choose x hx fx using fun k => iha hi.1 hw.1 i k
    choose y hy fy using fun k => ihb hi.2.1 hw.2.1 k j
    have hab : ∀ k, NApprox (a.factor u v * b.factor u v * (1 + v))
        (a.under η φ i k * b.under η φ k j + a.mag φ i k * b.under η φ k j + a.under η φ i k * b.mag φ k j + η)
        (a.mag φ i k * b.mag φ k j) (a.den φ σ i k * b.den φ σ k j) (φ (x k) * φ (y k)) := by
      intro k
      have h := (a.entry_approx hA i k _ (hx k) (fx k)).2.mulApprox (b.entry_approx hA k j _ (hy k) (fy k)).2
      exact h.mono (le_mul_of_one_le_right h.F_nonneg (by linarith : 1 ≤ 1 + v)) (le_add_of_nonneg_right hη) le_rfl
    have hB : a.factor u v * b.factor u v * (1 + v) * (1 + u) ^ m * (∑ k, a.mag φ i k * b.mag φ k j +
        ∑ k, (a.under η φ i k * b.under η φ k j + a.mag φ i k * b.under η φ k j + a.under η φ i k * b.mag φ k j + η))
          ≤ B := by
      simp only [mag, under, factor, Matrix.add_apply, Matrix.mul_apply, Matrix.of_apply, Nat.add_sub_cancel] at hB
      rw [Finset.sum_add_distrib, Finset.sum_add_distrib, Finset.sum_add_distrib]
      simpa using hB
    have hG : 0 ≤ a.factor u v * b.factor u v * (1 + v) := (hab 0).F_nonneg
    have term : ∀ k, ∃ z, RMul.mul (x k) (y k) = .ok z ∧ fin z := by
      intro k
      refine hA.mul_fin _ _ (fx k) (fy k) (bnd (hab k) le_rfl (le_trans ?_ hB))
      refine mul_le_mul (le_mul_of_one_le_right hG (one_le_pow₀ (by linarith))) (add_le_add ?_ ?_)
        (add_nonneg (hab k).nonneg (hab k).D_nonneg) (mul_nonneg hG (by positivity))
      · exact Finset.single_le_sum (f := fun k => a.mag φ i k * b.mag φ k j) (fun k _ => (hab k).nonneg)
          (Finset.mem_univ k)
      · exact Finset.single_le_sum (f := fun k => a.under η φ i k * b.under η φ k j + a.mag φ i k * b.under η φ k j +
          a.under η φ i k * b.mag φ k j + η) (fun k _ => (hab k).D_nonneg) (Finset.mem_univ k)
    choose z hz fz using term
    have e : a.tree.cols = m + 1 := by simp [Tree.cols, tree_shape]
    show ∃ w, Tree.sumTerms _ a.tree.cols = .ok w ∧ fin w
    rw [e]
    rw [← sum_range_fin (fun k => a.mag φ i k * b.mag φ k j), ← sum_range_fin (fun k => a.under η φ i k * b.under η φ k j +
      a.mag φ i k * b.under η φ k j + a.under η φ i k * b.mag φ k j + η)] at hB
    refine hA.sumTerms_fin (G := a.factor u v * b.factor u v * (1 + v))
      (D := fun k => a.under η φ i (Fin.ofNat _ k) * b.under η φ (Fin.ofNat _ k) j +
        a.mag φ i (Fin.ofNat _ k) * b.under η φ (Fin.ofNat _ k) j +
        a.under η φ i (Fin.ofNat _ k) * b.mag φ (Fin.ofNat _ k) j + η)
      (Y := fun k => a.mag φ i (Fin.ofNat _ k) * b.mag φ (Fin.ofNat _ k) j)
      (y := fun k => a.den φ σ i (Fin.ofNat _ k) * b.den φ σ (Fin.ofNat _ k) j) (fun k hk => ?_) hB
    refine ⟨z ⟨k, hk⟩, ?_, fz _, ?_⟩
    · show (do RMul.mul (← a.tree.entry i (⟨k, hk⟩ : Fin (m + 1))) (← b.tree.entry (⟨k, hk⟩ : Fin (m + 1)) j)) = _
      rw [hx, hy]
      exact hz _
    · rw [ofNat_eq hk]
      exact (a.entry_approx hA i ⟨k, hk⟩ _ (hx _) (fx _)).2.mulRound (b.entry_approx hA ⟨k, hk⟩ j _ (hy _) (fy _)).2 hv hη
        (hA.mul _ _ _ (hz _) (fz _)).2.2

end Form

end Magnesia
