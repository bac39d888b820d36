import Verif.Props.CxRound
import Verif.Proof.FormFloat
import Mathlib.Analysis.RCLike.Basic

/-!
# Backward errors of the loops (helper lemmas)
-/

namespace Magnesia

open RZero ROne MulRefs

variable {K : Type} [RCLike K]

/-- A bound on the error is a bound on a relative and an absolute perturbation. -/
theorem perturb {r s : K} {v η : ℝ} (hv : 0 ≤ v) (hη : 0 ≤ η) (h : ‖r - s‖ ≤ v * ‖s‖ + η) :
    ∃ δ e : K, ‖δ‖ ≤ v ∧ ‖e‖ ≤ η ∧ r = s * (1 + δ) + e := by
  by_cases hs : s = 0
  · subst hs
    exact ⟨0, r, by simpa using hv, by simpa using h, by simp⟩
  have hs' : 0 < ‖s‖ := norm_pos_iff.2 hs
  by_cases ht : ‖r - s‖ ≤ v * ‖s‖
  · refine ⟨(r - s) / s, 0, ?_, by simpa using hη, ?_⟩
    · rw [norm_div]; exact (div_le_iff₀ hs').2 ht
    · field_simp; ring
  · have ht0 : 0 < ‖r - s‖ := lt_of_le_of_lt (by positivity) (not_le.1 ht)
    set c : ℝ := v * ‖s‖ / ‖r - s‖ with hc
    have hc0 : 0 ≤ c := by positivity
    have hc1 : c ≤ 1 := (div_le_one ht0).2 (not_le.1 ht).le
    have hcm : c * ‖r - s‖ = v * ‖s‖ := div_mul_cancel₀ _ ht0.ne'
    refine ⟨(c : K) * (r - s) / s, (1 - (c : K)) * (r - s), ?_, ?_, ?_⟩
    · rw [norm_div, norm_mul, RCLike.norm_ofReal, abs_of_nonneg hc0, hcm, mul_div_assoc, div_self hs'.ne', mul_one]
    · have : (1 - (c : K)) = ((1 - c : ℝ) : K) := by push_cast; rfl
      rw [norm_mul, this, RCLike.norm_ofReal, abs_of_nonneg (by linarith)]
      linarith
    · field_simp; ring

theorem norm_one_add_mul {a b : K} {x y : ℝ} (ha : ‖a‖ ≤ x - 1) (hb : ‖b‖ ≤ y - 1) :
    ‖(1 + a) * (1 + b) - 1‖ ≤ x * y - 1 := by
  have h1 : ‖a * b‖ ≤ (x - 1) * (y - 1) := by
    rw [norm_mul]; exact mul_le_mul ha hb (norm_nonneg _) ((norm_nonneg _).trans ha)
  have h2 : (1 + a) * (1 + b) - 1 = a + b + a * b := by ring
  rw [h2]
  have := norm_add_le (a + b) (a * b)
  have := norm_add_le a b
  linarith

theorem norm_one_add_le {a : K} {x : ℝ} (ha : ‖a‖ ≤ x - 1) : ‖1 + a‖ ≤ x := by
  have := norm_add_le (1 : K) a
  rw [norm_one] at this
  linarith

section loops
variable {T : Type} {add mul : T → T → Res T} {z0 : T} {fin : T → Prop} {φ : T → K} {u v η : ℝ}
  (hA : RoundsN add mul z0 fin φ u v η)
include hA

theorem RoundsN.add_perturb {a b c : T} (h : add a b = .ok c) (hc : fin c) :
    fin a ∧ fin b ∧ ∃ δ : K, ‖δ‖ ≤ u ∧ φ c = (φ a + φ b) * (1 + δ) := by
  obtain ⟨h1, h2, h3⟩ := hA.add _ _ _ h hc
  obtain ⟨δ, e, h4, h5, h6⟩ := perturb (η := 0) hA.u_nonneg le_rfl (by simpa using h3)
  obtain rfl : e = 0 := norm_le_zero_iff.1 h5
  exact ⟨h1, h2, δ, h4, by simpa using h6⟩

theorem RoundsN.mul_perturb {a b c : T} (h : mul a b = .ok c) (hc : fin c) :
    fin a ∧ fin b ∧ ∃ δ e : K, ‖δ‖ ≤ v ∧ ‖e‖ ≤ η ∧ φ c = φ a * φ b * (1 + δ) + e := by
  obtain ⟨h1, h2, h3⟩ := hA.mul _ _ _ h hc
  exact ⟨h1, h2, perturb hA.v_nonneg hA.η_nonneg h3⟩

/-- Horner's scheme. -/
theorem backward_horner (x : T) : ∀ (l : List T) (r : T),
    l.foldrM (fun a y => do
      let y ← mul y x
      add y a) z0 = .ok r → fin r →
    (∀ a ∈ l, fin a) ∧ (l ≠ [] → fin x) ∧ ∃ (δ : ℕ → K) (e : K),
      (∀ i, ‖δ i‖ ≤ (1 + u) * ((1 + u) * (1 + v)) ^ i - 1) ∧
      ‖e‖ ≤ (1 + u) * η * ∑ i ∈ Finset.range l.length, ((1 + u) * (1 + v) * ‖φ x‖) ^ i ∧
      φ r = (∑ i : Fin l.length, φ l[i] * (1 + δ i) * φ x ^ (i : ℕ)) + e := by
  have hu := hA.u_nonneg; have hv := hA.v_nonneg; have hη := hA.η_nonneg
  intro l
  induction l with
  | nil =>
    intro r e hr
    obtain rfl : z0 = r := Except.ok.inj e
    refine ⟨by simp, by simp, 0, 0, fun i => ?_, by simp, by simp [hA.zero]⟩
    have := one_le_mul_of_one_le_of_one_le (show 1 ≤ 1 + u by linarith) (hA.one_le_step i)
    simp only [Pi.zero_apply, norm_zero]; linarith
  | cons a l ih =>
    intro r e hr
    rw [List.foldrM_cons] at e
    obtain ⟨y, e1, e⟩ := bind_ok e
    obtain ⟨m, e2, e3⟩ := bind_ok e
    obtain ⟨hm, ha, ε, h1, h2⟩ := hA.add_perturb e3 hr
    obtain ⟨hy, hx, d, f, h3, h4, h5⟩ := hA.mul_perturb e2 hm
    obtain ⟨hl, _, δ, g, h6, h7, h8⟩ := ih y e1 hy
    refine ⟨by simpa using ⟨ha, hl⟩, fun _ => hx,
      fun i => if i = 0 then ε else (1 + δ (i - 1)) * ((1 + d) * (1 + ε)) - 1,
      (g * φ x * (1 + d) + f) * (1 + ε), fun i => ?_, ?_, ?_⟩
    · cases i with
      | zero => simpa using h1
      | succ i =>
        simp only [Nat.add_one_ne_zero, if_false, Nat.add_sub_cancel]
        have k1 := norm_one_add_mul (x := 1 + v) (y := 1 + u) (show ‖d‖ ≤ 1 + v - 1 by linarith) (show ‖ε‖ ≤ 1 + u - 1 by linarith)
        have k2 := norm_one_add_mul (h6 i) k1
        rw [show 1 + ((1 + d) * (1 + ε) - 1) = (1 + d) * (1 + ε) by ring] at k2
        refine k2.trans (le_of_eq ?_)
        rw [pow_succ]; ring
    · rw [norm_mul, List.length_cons, Finset.sum_range_succ', pow_zero]
      have k1 := norm_one_add_le (x := 1 + u) (show ‖ε‖ ≤ 1 + u - 1 by linarith)
      have k2 := norm_one_add_le (x := 1 + v) (show ‖d‖ ≤ 1 + v - 1 by linarith)
      have k3 : ‖g * φ x * (1 + d) + f‖ ≤ (1 + u) * η * (∑ i ∈ Finset.range l.length, ((1 + u) * (1 + v) * ‖φ x‖) ^ i) *
          ‖φ x‖ * (1 + v) + η := by
        refine (norm_add_le _ _).trans (add_le_add ?_ h4)
        rw [norm_mul, norm_mul]
        have : 0 ≤ (1 + u) * η * (∑ i ∈ Finset.range l.length, ((1 + u) * (1 + v) * ‖φ x‖) ^ i) := (norm_nonneg _).trans h7
        exact mul_le_mul (mul_le_mul_of_nonneg_right h7 (norm_nonneg _)) k2 (norm_nonneg _) (by positivity)
      refine (mul_le_mul k3 k1 (norm_nonneg _) ((norm_nonneg _).trans k3)).trans (le_of_eq ?_)
      have : ∑ i ∈ Finset.range l.length, ((1 + u) * (1 + v) * ‖φ x‖) ^ (i + 1) =
          (∑ i ∈ Finset.range l.length, ((1 + u) * (1 + v) * ‖φ x‖) ^ i) * ((1 + u) * (1 + v) * ‖φ x‖) := by
        rw [Finset.sum_mul]; exact Finset.sum_congr rfl fun i _ => pow_succ _ _
      rw [this]; ring
    · rw [h2, h5, h8]
      refine Eq.trans ?_ (congrArg (· + _) (Fin.sum_univ_succ (n := l.length) _).symm)
      simp only [Fin.val_zero, if_true, pow_zero, mul_one, Fin.val_succ, Nat.add_one_ne_zero, if_false, Nat.add_sub_cancel]
      have : (∑ i : Fin l.length, φ (a :: l)[i.succ] * (1 + ((1 + δ i) * ((1 + d) * (1 + ε)) - 1)) * φ x ^ ((i : ℕ) + 1)) =
          (∑ i : Fin l.length, φ l[i] * (1 + δ i) * φ x ^ (i : ℕ)) * (φ x * ((1 + d) * (1 + ε))) := by
        rw [Finset.sum_mul]
        refine Finset.sum_congr rfl fun i _ => ?_
        have : (a :: l)[i.succ] = l[i] := rfl
        rw [this, pow_succ]; ring
      rw [this]
      have : (a :: l)[(0 : Fin (l.length + 1))] = a := rfl
      rw [this]
      ring

/-- A sum of products, added up from left to right. -/
theorem backward_dot : ∀ (n : ℕ) (f g : Fin n → T) (s r : T),
    (List.finRange n).foldlM (fun sum i => do
      let prod ← mul (f i) (g i)
      add sum prod) s = .ok r → fin r →
    fin s ∧ (∀ i, fin (f i) ∧ fin (g i)) ∧ ∃ (σ : K) (δ : Fin n → K) (e : K),
      ‖σ‖ ≤ (1 + u) ^ n - 1 ∧ (∀ i, ‖δ i‖ ≤ (1 + v) * (1 + u) ^ (n - i) - 1) ∧ ‖e‖ ≤ n * (1 + u) ^ n * η ∧
      φ r = φ s * (1 + σ) + (∑ i, φ (f i) * (1 + δ i) * φ (g i)) + e := by
  have hu := hA.u_nonneg; have hv := hA.v_nonneg; have hη := hA.η_nonneg
  intro n
  induction n with
  | zero =>
    intro f g s r e hr
    obtain rfl : s = r := Except.ok.inj e
    exact ⟨hr, fun i => i.elim0, 0, fun i => i.elim0, 0, by simp, fun i => i.elim0, by simp, by simp⟩
  | succ n ih =>
    intro f g s r e hr
    rw [List.finRange_succ, List.foldlM_cons] at e
    obtain ⟨t, e1, e⟩ := bind_ok e
    obtain ⟨m, e2, e1⟩ := bind_ok e1
    rw [List.foldlM_map] at e
    obtain ⟨ht, hl, σ, δ, w, k1, k2, k3, k4⟩ := ih (fun i => f i.succ) (fun i => g i.succ) t r e hr
    obtain ⟨hs, hm, ε, h1, h2⟩ := hA.add_perturb e1 ht
    obtain ⟨hf, hg, d, q, h3, h4, h5⟩ := hA.mul_perturb e2 hm
    have j1 : ‖(1 + ε) * (1 + σ) - 1‖ ≤ (1 + u) ^ (n + 1) - 1 := by
      refine (norm_one_add_mul (x := 1 + u) (by linarith) k1).trans (le_of_eq ?_)
      rw [pow_succ]; ring
    refine ⟨hs, fun i => Fin.cases ⟨hf, hg⟩ hl i, (1 + ε) * (1 + σ) - 1,
      Fin.cons ((1 + d) * ((1 + ε) * (1 + σ)) - 1) δ, q * ((1 + ε) * (1 + σ)) + w, j1, fun i => ?_, ?_, ?_⟩
    · refine Fin.cases ?_ (fun i => ?_) i
      · have := norm_one_add_mul (x := 1 + v) (show ‖d‖ ≤ 1 + v - 1 by linarith) j1
        rw [show 1 + ((1 + ε) * (1 + σ) - 1) = (1 + ε) * (1 + σ) by ring] at this
        simpa using this
      · have := k2 i
        simpa using this
    · have j2 := norm_one_add_le j1
      rw [show 1 + ((1 + ε) * (1 + σ) - 1) = (1 + ε) * (1 + σ) by ring] at j2
      refine (norm_add_le _ _).trans ?_
      rw [norm_mul]
      have j3 := mul_le_mul h4 j2 (norm_nonneg _) hη
      have j4 : n * (1 + u) ^ n * η ≤ n * (1 + u) ^ (n + 1) * η := by
        have : (1 + u) ^ n ≤ (1 + u) ^ (n + 1) := pow_le_pow_right₀ (by linarith) (Nat.le_succ n)
        gcongr
      push_cast
      linarith
    · rw [k4, h2, h5, Fin.sum_univ_succ]
      simp only [Fin.cons_zero, Fin.cons_succ]
      ring

/-- The same, starting from the first product. -/
theorem backward_sumTerms [RAddAssign T T] (hadd : ∀ a b : T, (RAddAssign.addAssign a b).toRes = add a b) {t : ℕ → Res T}
    {a b : ℕ → T} : ∀ {n : ℕ} {x : T},
    (∀ k < n + 1, t k = mul (a k) (b k)) → Tree.sumTerms t (n + 1) = .ok x → fin x →
    (∀ k < n + 1, fin (a k) ∧ fin (b k)) ∧ ∃ (δ : ℕ → K) (e : K),
      (∀ k, ‖δ k‖ ≤ (1 + v) * (1 + u) ^ n - 1) ∧ ‖e‖ ≤ (n + 1) * (1 + u) ^ n * η ∧
      φ x = (∑ k ∈ Finset.range (n + 1), φ (a k) * (1 + δ k) * φ (b k)) + e := by
  have hu := hA.u_nonneg; have hv := hA.v_nonneg; have hη := hA.η_nonneg
  intro n
  induction n with
  | zero =>
    intro x h hx hf
    have hx' : t 0 = .ok x := hx
    rw [h 0 (by omega)] at hx'
    obtain ⟨h1, h2, d, q, h3, h4, h5⟩ := hA.mul_perturb hx' hf
    refine ⟨fun k hk => by obtain rfl : k = 0 := by omega
                           exact ⟨h1, h2⟩, fun _ => d, q, fun _ => by simpa using h3, by simpa using h4, ?_⟩
    rw [Finset.sum_range_one, h5]; ring
  | succ n ih =>
    intro x h hx hf
    obtain ⟨s, e1, hx'⟩ := bind_ok (show (do
      let s ← Tree.sumTerms t (n + 1)
      let y ← t (n + 1)
      (RAddAssign.addAssign s y).toRes) = .ok x from hx)
    obtain ⟨y, e2, e3⟩ := bind_ok hx'
    rw [hadd] at e3
    rw [h _ (by omega)] at e2
    obtain ⟨hs, hy, ε, h1, h2⟩ := hA.add_perturb e3 hf
    obtain ⟨h3, h4, d, q, h5, h6, h7⟩ := hA.mul_perturb e2 hy
    obtain ⟨h8, δ, w, k1, k2, k3⟩ := ih (fun k hk => h k (by omega)) e1 hs
    have hε : ‖ε‖ ≤ 1 + u - 1 := by linarith
    refine ⟨fun k hk => ?_, fun k => if k < n + 1 then (1 + δ k) * (1 + ε) - 1 else (1 + d) * (1 + ε) - 1,
      w * (1 + ε) + q * (1 + ε), fun k => ?_, ?_, ?_⟩
    · rcases Nat.lt_succ_iff_lt_or_eq.1 hk with hk | rfl
      · exact h8 k hk
      · exact ⟨h3, h4⟩
    · have j : (1 + v) * (1 + u) ≤ (1 + v) * (1 + u) ^ (n + 1) :=
        mul_le_mul_of_nonneg_left (le_self_pow₀ (by linarith) (by omega)) (by linarith)
      dsimp only
      split
      · refine (norm_one_add_mul (k1 k) hε).trans (le_of_eq ?_)
        rw [pow_succ]; ring
      · refine (norm_one_add_mul (x := 1 + v) (by linarith) hε).trans ?_
        linarith
    · have j1 := norm_one_add_le hε
      refine (norm_add_le _ _).trans ?_
      rw [norm_mul, norm_mul]
      have j2 := mul_le_mul k2 j1 (norm_nonneg _) ((norm_nonneg _).trans k2)
      have j3 := mul_le_mul h6 j1 (norm_nonneg _) hη
      have j4 : η * (1 + u) ≤ η * (1 + u) ^ (n + 1) :=
        mul_le_mul_of_nonneg_left (le_self_pow₀ (by linarith) (by omega)) hη
      rw [pow_succ (1 + u) n] at j4 ⊢
      push_cast
      linarith
    · rw [h2, h7, k3, Finset.sum_range_succ _ (n + 1)]
      simp only [lt_irrefl, if_false]
      have : ∑ k ∈ Finset.range (n + 1), φ (a k) * (1 + (if k < n + 1 then (1 + δ k) * (1 + ε) - 1 else (1 + d) * (1 + ε) - 1)) *
          φ (b k) = (∑ k ∈ Finset.range (n + 1), φ (a k) * (1 + δ k) * φ (b k)) * (1 + ε) := by
        rw [Finset.sum_mul]
        refine Finset.sum_congr rfl fun k hk => ?_
        rw [if_pos (Finset.mem_range.1 hk)]; ring
      rw [this]
      ring

end loops

/-- The operators of `f32` and `f64`. -/
theorem ieee_rounds {F : Fmt} : RoundsN (fun a b : Ieee F => Except.ok (a.add b)) (fun a b => Except.ok (a.mul b)) (zero : Ieee F)
    Ieee.Finite Ieee.real F.u F.u F.η where
  u_nonneg := ieee_floatOps.u_nonneg
  v_nonneg := ieee_floatOps.v_nonneg
  η_nonneg := ieee_floatOps.η_nonneg
  zero := ieee_floatOps.zero.1
  add a b c h hc := ieee_floatOps.add a b c h hc
  mul a b c h hc := ieee_floatOps.mul a b c h hc

end Magnesia
