import Verif.Spec.CxRound
import Verif.Props.Ieee
import Mathlib.Analysis.Normed.Field.Basic

/-!
# Error propagation in the complex plane (helper lemmas)
-/

namespace Magnesia

open RZero ROne MulRefs

variable {K : Type} [NormedField K] {u : ℝ}

/-- `r` approximates `y`, a sum of terms of norm at most `Y` in total, with a factor of at most `F` per term,
and absolute errors of at most `D` in total. -/
structure NApprox (F D Y : ℝ) (y r : K) : Prop where
  one_le : 1 ≤ F
  D_nonneg : 0 ≤ D
  norm_le : ‖y‖ ≤ Y
  err : ‖r - y‖ ≤ F * D + (F - 1) * Y

namespace NApprox

variable {F G D E Y Z η : ℝ} {y z r s t : K}

theorem exact (y : K) : NApprox 1 0 ‖y‖ y y := ⟨le_refl _, le_refl _, le_refl _, by simp⟩

theorem nonneg (h : NApprox F D Y y r) : 0 ≤ Y := (norm_nonneg y).trans h.norm_le

theorem F_nonneg (h : NApprox F D Y y r) : 0 ≤ F := by linarith [h.one_le]

theorem mono (h : NApprox F D Y y r) (hF : F ≤ G) (hD : D ≤ E) (hY : Y ≤ Z) : NApprox G E Z y r :=
  ⟨h.one_le.trans hF, h.D_nonneg.trans hD, h.norm_le.trans hY, h.err.trans (add_le_add
    (mul_le_mul hF hD h.D_nonneg (h.F_nonneg.trans hF))
    (mul_le_mul (by linarith) hY h.nonneg (by linarith [h.one_le])))⟩

theorem norm_val (h : NApprox F D Y y r) : ‖r‖ ≤ F * D + F * Y := by
  have : ‖r‖ ≤ ‖r - y‖ + ‖y‖ := by simpa using norm_add_le (r - y) y
  have := h.err; have := h.norm_le
  linarith

/-- Rounding an approximation. -/
theorem round (h : NApprox F D Y y r) (hu : 0 ≤ u) (hη : 0 ≤ η) (ht : ‖t - r‖ ≤ u * ‖r‖ + η) :
    NApprox (F * (1 + u)) (D + η) Y y t := by
  have h0 : 1 ≤ F * (1 + u) := one_le_mul_of_one_le_of_one_le h.one_le (by linarith)
  refine ⟨h0, add_nonneg h.D_nonneg hη, h.norm_le, ?_⟩
  have h1 : ‖t - y‖ ≤ ‖t - r‖ + ‖r - y‖ := by simpa using norm_add_le (t - r) (r - y)
  have h2 := mul_le_mul_of_nonneg_left h.norm_val hu
  have h3 := h.err
  have h4 : η ≤ F * (1 + u) * η := le_mul_of_one_le_left hη h0
  linarith

theorem add (h : NApprox F D Y y r) (g : NApprox F E Z z s) (hu : 0 ≤ u) (ht : ‖t - (r + s)‖ ≤ u * ‖r + s‖) :
    NApprox (F * (1 + u)) (D + E) (Y + Z) (y + z) t := by
  have := round (η := 0) (r := r + s) (t := t) (u := u) ⟨h.one_le, add_nonneg h.D_nonneg g.D_nonneg,
    (norm_add_le _ _).trans (add_le_add h.norm_le g.norm_le), ?_⟩ hu le_rfl (by simpa using ht)
  · rwa [add_zero] at this
  have h1 : ‖r + s - (y + z)‖ ≤ ‖r - y‖ + ‖s - z‖ := by
    rw [show r + s - (y + z) = (r - y) + (s - z) by ring]; exact norm_add_le _ _
  linarith [h.err, g.err]

/-- The product with an exact number. -/
theorem mulExact (h : NApprox F D Y y r) (x : K) : NApprox F (D * ‖x‖) (Y * ‖x‖) (y * x) (r * x) := by
  refine ⟨h.one_le, mul_nonneg h.D_nonneg (norm_nonneg _), ?_, ?_⟩
  · rw [norm_mul]; exact mul_le_mul_of_nonneg_right h.norm_le (norm_nonneg _)
  · rw [← sub_mul, norm_mul]
    have := mul_le_mul_of_nonneg_right h.err (norm_nonneg x)
    linarith

theorem mul (h : NApprox F D Y y r) (x : K) (hu : 0 ≤ u) (hη : 0 ≤ η) (ht : ‖t - r * x‖ ≤ u * ‖r * x‖ + η) :
    NApprox (F * (1 + u)) (D * ‖x‖ + η) (Y * ‖x‖) (y * x) t := (h.mulExact x).round hu hη ht

end NApprox

/-- Operations which are exact up to rounding if the result is finite; a finite result needs finite operands. -/
structure RoundsN {T : Type} (add mul : T → T → Res T) (zero : T) (fin : T → Prop) (φ : T → K) (u v η : ℝ) : Prop where
  u_nonneg : 0 ≤ u
  v_nonneg : 0 ≤ v
  η_nonneg : 0 ≤ η
  zero : φ zero = 0
  add : ∀ a b c : T, add a b = .ok c → fin c → fin a ∧ fin b ∧ ‖φ c - (φ a + φ b)‖ ≤ u * ‖φ a + φ b‖
  mul : ∀ a b c : T, mul a b = .ok c → fin c → fin a ∧ fin b ∧ ‖φ c - φ a * φ b‖ ≤ v * ‖φ a * φ b‖ + η

section loops
variable {T : Type} {add mul : T → T → Res T} {z0 : T} {fin : T → Prop} {φ : T → K} {v η : ℝ}
  (hA : RoundsN add mul z0 fin φ u v η)
include hA

theorem RoundsN.one_le (k : ℕ) : 1 ≤ (1 + u) ^ k := one_le_pow₀ (by linarith [hA.u_nonneg])

/-- Factor of one step of Horner's scheme. -/
theorem RoundsN.one_le_step (k : ℕ) : 1 ≤ ((1 + u) * (1 + v)) ^ k :=
  one_le_pow₀ (one_le_mul_of_one_le_of_one_le (by linarith [hA.u_nonneg]) (by linarith [hA.v_nonneg]))

/-- Horner's scheme. -/
theorem napprox_horner (x : T) : ∀ (l : List T) (s r : T),
    l.foldlM (fun y a => do
      let y ← mul y x
      add y a) s = .ok r → fin r →
    fin s ∧ (∀ a ∈ l, fin a) ∧ (l ≠ [] → fin x) ∧ ∀ (k : ℕ) (D Y : ℝ) (y : K),
    NApprox (((1 + u) * (1 + v)) ^ k) D Y y (φ s) →
    NApprox (((1 + u) * (1 + v)) ^ (k + l.length)) (l.foldl (fun D _ => D * ‖φ x‖ + η) D)
      (l.foldl (fun Y a => Y * ‖φ x‖ + ‖φ a‖) Y)
      (l.foldl (fun y a => y * φ x + φ a) y) (φ r) := by
  intro l
  induction l with
  | nil => intro s r e hr; cases pure_ok e; exact ⟨hr, by simp, by simp, fun k D Y y h => h⟩
  | cons a l ih =>
    intro s r e hr
    rw [List.foldlM_cons] at e
    obtain ⟨t, e1, e⟩ := bind_ok e
    obtain ⟨m, e2, e1⟩ := bind_ok e1
    obtain ⟨ht, hl, _, hk⟩ := ih t r e hr
    obtain ⟨hm, ha, h3⟩ := hA.add _ _ _ e1 ht
    obtain ⟨hs, hx, h4⟩ := hA.mul _ _ _ e2 hm
    refine ⟨hs, by simpa using ⟨ha, hl⟩, fun _ => hx, fun k D Y y h => ?_⟩
    have h1 := h.mul (φ x) hA.v_nonneg hA.η_nonneg h4
    have h2 := h1.add (((NApprox.exact (φ a)).mono h1.one_le le_rfl le_rfl)) hA.u_nonneg h3
    have e : ((1 + u) * (1 + v)) ^ k * (1 + v) * (1 + u) = ((1 + u) * (1 + v)) ^ (k + 1) := by ring
    rw [e, add_zero] at h2
    have := hk (k + 1) _ _ _ h2
    rw [List.length_cons, show k + (l.length + 1) = k + 1 + l.length by ring]
    exact this

/-- A sum of products, added up from left to right. -/
theorem napprox_dot {ι : Type} (f g : ι → T) : ∀ (l : List ι) (s r : T),
    l.foldlM (fun sum i => do
      let prod ← mul (f i) (g i)
      add sum prod) s = .ok r → fin r →
    fin s ∧ (∀ i ∈ l, fin (f i) ∧ fin (g i)) ∧ ∀ (k : ℕ) (D Y : ℝ) (y : K),
    NApprox ((1 + u) ^ k * (1 + v)) D Y y (φ s) →
    NApprox ((1 + u) ^ (k + l.length) * (1 + v)) (D + l.length * η) (Y + (l.map fun i => ‖φ (f i)‖ * ‖φ (g i)‖).sum)
      (y + (l.map fun i => φ (f i) * φ (g i)).sum) (φ r) := by
  intro l
  induction l with
  | nil => intro s r e hr; cases pure_ok e; exact ⟨hr, by simp, fun k D Y y h => by simpa using h⟩
  | cons a l ih =>
    intro s r e hr
    rw [List.foldlM_cons] at e
    obtain ⟨t, e1, e⟩ := bind_ok e
    obtain ⟨m, e2, e1⟩ := bind_ok e1
    obtain ⟨ht, hl, hk⟩ := ih t r e hr
    obtain ⟨hs, hm, h3⟩ := hA.add _ _ _ e1 ht
    obtain ⟨hf, hg, h4⟩ := hA.mul _ _ _ e2 hm
    refine ⟨hs, by simpa using ⟨⟨hf, hg⟩, hl⟩, fun k D Y y h => ?_⟩
    have h1 := ((NApprox.exact (φ (f a))).mul (φ (g a)) hA.v_nonneg hA.η_nonneg h4).mono (G := (1 + u) ^ k * (1 + v))
      (mul_le_mul_of_nonneg_right (hA.one_le k) (by linarith [hA.v_nonneg])) le_rfl le_rfl
    have h2 := h.add h1 hA.u_nonneg h3
    rw [zero_mul, zero_add, mul_right_comm, ← pow_succ] at h2
    have := hk (k + 1) _ _ _ h2
    rw [List.map_cons, List.map_cons, List.sum_cons, List.sum_cons, ← add_assoc, ← add_assoc, List.length_cons,
      show k + (l.length + 1) = k + 1 + l.length by ring,
      show D + ((l.length + 1 : ℕ) : ℝ) * η = D + η + l.length * η by push_cast; ring]
    exact this

/-- The same, starting from the first product. -/
theorem napprox_sumTerms [RAddAssign T T] (hadd : ∀ a b : T, (RAddAssign.addAssign a b).toRes = add a b) {t : ℕ → Res T}
    {a b : ℕ → T} : ∀ {n : ℕ} {x : T},
    (∀ k < n + 1, t k = mul (a k) (b k)) → Tree.sumTerms t (n + 1) = .ok x → fin x →
    (∀ k < n + 1, fin (a k) ∧ fin (b k)) ∧
    NApprox ((1 + u) ^ n * (1 + v)) ((n + 1) * η) (∑ k ∈ Finset.range (n + 1), ‖φ (a k)‖ * ‖φ (b k)‖)
      (∑ k ∈ Finset.range (n + 1), φ (a k) * φ (b k)) (φ x) := by
  have hp : ∀ {c d y : T}, mul c d = .ok y → fin y → fin c ∧ fin d ∧
      NApprox (1 + v) η (‖φ c‖ * ‖φ d‖) (φ c * φ d) (φ y) := by
    intro c d y h hy
    obtain ⟨h1, h2, h3⟩ := hA.mul _ _ _ h hy
    have := (NApprox.exact (φ c)).mul (φ d) hA.v_nonneg hA.η_nonneg h3
    rw [one_mul, zero_mul, zero_add] at this
    exact ⟨h1, h2, this⟩
  intro n
  induction n with
  | zero =>
    intro x h hx hf
    have hx' : t 0 = .ok x := hx
    rw [h 0 (by omega)] at hx'
    obtain ⟨h1, h2, h3⟩ := hp hx' hf
    refine ⟨fun k hk => ?_, by simpa using h3⟩
    obtain rfl : k = 0 := by omega
    exact ⟨h1, h2⟩
  | succ n ih =>
    intro x h hx hf
    obtain ⟨s, h1, hx⟩ := bind_ok hx
    obtain ⟨y, h2, hx⟩ := bind_ok hx
    rw [hadd] at hx
    obtain ⟨hs, hy, h6⟩ := hA.add _ _ _ hx hf
    obtain ⟨h7, h3⟩ := ih (fun k hk => h k (by omega)) h1 hs
    rw [h (n + 1) (by omega)] at h2
    obtain ⟨h8, h9, h4⟩ := hp h2 hy
    refine ⟨fun k hk => ?_, ?_⟩
    · rcases Nat.lt_or_ge k (n + 1) with h0 | h0
      · exact h7 k h0
      · obtain rfl : k = n + 1 := by omega
        exact ⟨h8, h9⟩
    have h4 := h4.mono (G := (1 + u) ^ n * (1 + v))
      (le_mul_of_one_le_left (by linarith [hA.v_nonneg]) (hA.one_le n)) le_rfl le_rfl
    have h5 := h3.add h4 hA.u_nonneg h6
    rw [mul_right_comm, ← pow_succ, ← Finset.sum_range_succ (fun k => ‖φ (a k)‖ * ‖φ (b k)‖) (n + 1),
      ← Finset.sum_range_succ (fun k => φ (a k) * φ (b k)) (n + 1),
      show ((n : ℝ) + 1) * η + η = (((n + 1 : ℕ) : ℝ) + 1) * η by push_cast; ring] at h5
    exact h5

end loops

end Magnesia
