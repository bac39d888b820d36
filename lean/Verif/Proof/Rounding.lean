import Verif.Spec.Rounding
import Verif.Proof.DynProd
import Mathlib.Algebra.Order.BigOperators.Group.Finset
import Mathlib.Tactic.Linarith
import Mathlib.Tactic.Positivity
import Mathlib.Tactic.FieldSimp

/-!
# Error propagation (helper lemmas)
-/

namespace Magnesia

open RZero ROne MulRefs

variable {K : Type} [Field K] [LinearOrder K] [IsStrictOrderedRing K] {u : K}

/-- `r` approximates `y`, a sum of terms of absolute value at most `Y` in total, with a factor of at most `F` per term,
and absolute errors of at most `D` in total. -/
structure Approx (F D Y y r : K) : Prop where
  one_le : 1 ≤ F
  D_nonneg : 0 ≤ D
  abs_le : |y| ≤ Y
  err : |r - y| ≤ F * D + (F - 1) * Y

namespace Approx

variable {F G D E Y Z y z r s t η : K}

theorem exact (y : K) : Approx 1 0 |y| y y := ⟨le_refl _, le_refl _, le_refl _, by simp⟩

theorem nonneg (h : Approx F D Y y r) : 0 ≤ Y := (abs_nonneg y).trans h.abs_le

theorem F_nonneg (h : Approx F D Y y r) : 0 ≤ F := by linarith [h.one_le]

theorem mono (h : Approx F D Y y r) (hF : F ≤ G) (hD : D ≤ E) (hY : Y ≤ Z) : Approx G E Z y r :=
  ⟨h.one_le.trans hF, h.D_nonneg.trans hD, h.abs_le.trans hY, h.err.trans (add_le_add
    (mul_le_mul hF hD h.D_nonneg (h.F_nonneg.trans hF))
    (mul_le_mul (by linarith) hY h.nonneg (by linarith [h.one_le])))⟩

theorem abs_val (h : Approx F D Y y r) : |r| ≤ F * D + F * Y := by
  have : |r| ≤ |r - y| + |y| := by simpa using abs_add_le (r - y) y
  have := h.err; have := h.abs_le
  linarith

/-- Rounding an approximation. -/
theorem round (h : Approx F D Y y r) (hu : 0 ≤ u) (hη : 0 ≤ η) (ht : |t - r| ≤ u * |r| + η) :
    Approx (F * (1 + u)) (D + η) Y y t := by
  refine ⟨?_, add_nonneg h.D_nonneg hη, h.abs_le, ?_⟩
  · nlinarith [h.one_le]
  · have h1 : |t - y| ≤ |t - r| + |r - y| := abs_sub_le _ _ _
    have h2 := mul_le_mul_of_nonneg_left h.abs_val hu
    have h3 := h.err
    have h4 : η ≤ F * (1 + u) * η := by
      have : 1 ≤ F * (1 + u) := by nlinarith [h.one_le]
      nlinarith
    linarith

theorem add (h : Approx F D Y y r) (g : Approx F E Z z s) (hu : 0 ≤ u) (ht : |t - (r + s)| ≤ u * |r + s|) :
    Approx (F * (1 + u)) (D + E) (Y + Z) (y + z) t := by
  have := round (η := 0) (r := r + s) (t := t) (u := u) ⟨h.one_le, add_nonneg h.D_nonneg g.D_nonneg,
    (abs_add_le _ _).trans (add_le_add h.abs_le g.abs_le), ?_⟩ hu le_rfl (by simpa using ht)
  · rwa [add_zero] at this
  have h1 : |r + s - (y + z)| ≤ |r - y| + |s - z| := by
    rw [show r + s - (y + z) = (r - y) + (s - z) by ring]; exact abs_add_le _ _
  linarith [h.err, g.err]

theorem sub (h : Approx F D Y y r) (g : Approx F E Z z s) (hu : 0 ≤ u) (ht : |t - (r - s)| ≤ u * |r - s|) :
    Approx (F * (1 + u)) (D + E) (Y + Z) (y - z) t := by
  have := round (η := 0) (r := r - s) (t := t) (y := y - z) (Y := Y + Z) (F := F) (u := u) ⟨h.one_le, add_nonneg h.D_nonneg g.D_nonneg,
    ?_, ?_⟩ hu le_rfl (by simpa using ht)
  · rwa [add_zero] at this
  · rw [sub_eq_add_neg]
    refine (abs_add_le _ _).trans (add_le_add h.abs_le ?_)
    rw [abs_neg]; exact g.abs_le
  have h1 : |r - s - (y - z)| ≤ |r - y| + |s - z| := by
    rw [show r - s - (y - z) = (r - y) - (s - z) by ring]; exact abs_sub _ _
  linarith [h.err, g.err]

theorem mulExact (h : Approx F D Y y r) (g : Approx G E Z z s) :
    Approx (F * G) (D * E + Y * E + D * Z) (Y * Z) (y * z) (r * s) := by
  have hD := h.D_nonneg; have hE := g.D_nonneg; have hY := h.nonneg; have hZ := g.nonneg
  have hF := h.F_nonneg
  refine ⟨one_le_mul_of_one_le_of_one_le h.one_le g.one_le, by positivity, ?_, ?_⟩
  · rw [abs_mul]; exact mul_le_mul h.abs_le g.abs_le (abs_nonneg _) h.nonneg
  · have h1 : |r * s - y * z| ≤ |r| * |s - z| + |r - y| * |z| := by
      rw [show r * s - y * z = r * (s - z) + (r - y) * z by ring, ← abs_mul, ← abs_mul]; exact abs_add_le _ _
    have h2 : |r| * |s - z| ≤ (F * D + F * Y) * (G * E + (G - 1) * Z) :=
      mul_le_mul h.abs_val g.err (abs_nonneg _) (by positivity)
    have h3 : |r - y| * |z| ≤ (F * D + (F - 1) * Y) * Z :=
      mul_le_mul h.err g.abs_le (abs_nonneg _) ((abs_nonneg _).trans h.err)
    calc _ ≤ (F * D + F * Y) * (G * E + (G - 1) * Z) + (F * D + (F - 1) * Y) * Z := by linarith
      _ = _ := by ring

theorem mul (h : Approx F D Y y r) (g : Approx G E Z z s) (hu : 0 ≤ u) (hη : 0 ≤ η) (ht : |t - r * s| ≤ u * |r * s| + η) :
    Approx (F * G * (1 + u)) (D * E + Y * E + D * Z + η) (Y * Z) (y * z) t := (h.mulExact g).round hu hη ht

end Approx

section loops
variable {T : Type} {φ : T → K} {η : K}

section ring
variable [RRing T] (hA : RoundsRing φ u η)
include hA

theorem one_le_pow_u (k : ℕ) : 1 ≤ (1 + u) ^ k := one_le_pow₀ (by linarith [hA.u_nonneg])

theorem Approx.ofExact (y : K) (k : ℕ) : Approx ((1 + u) ^ k) 0 |y| y y :=
  (Approx.exact y).mono (one_le_pow_u hA k) le_rfl le_rfl

/-- One product of two exact numbers. -/
theorem approx_prod {a b r : T} (h : mulRefs a b = .ok r) :
    Approx (1 + u) η (|φ a| * |φ b|) (φ a * φ b) (φ r) := by
  have := ((Approx.exact (φ a)).mul (Approx.exact (φ b)) hA.u_nonneg hA.η_nonneg (hA.mul _ _ _ h))
  simpa using this

/-- Horner's scheme. -/
theorem approx_horner (x : T) : ∀ (l : List (T)) (k : ℕ) (D Y y : K) (s r : T),
    Approx ((1 + u) ^ (2 * k)) D Y y (φ s) →
    l.foldlM (fun y a => do
      let y ← mulRefs y x
      (AddAssignRef.addAssign y a).toRes) s = .ok r →
    Approx ((1 + u) ^ (2 * (k + l.length))) (l.foldl (fun D _ => D * |φ x| + η) D)
      (l.foldl (fun Y a => Y * |φ x| + |φ a|) Y)
      (l.foldl (fun y a => y * φ x + φ a) y) (φ r) := by
  intro l
  induction l with
  | nil => intro k D Y y s r h e; cases pure_ok e; exact h
  | cons a l ih =>
    intro k D Y y s r h e
    rw [List.foldlM_cons] at e
    obtain ⟨t, e1, e⟩ := bind_ok e
    obtain ⟨m, e2, e1⟩ := bind_ok e1
    have h1 := h.mul (Approx.exact (φ x)) hA.u_nonneg hA.η_nonneg (hA.mul _ _ _ e2)
    rw [mul_one, ← pow_succ, mul_zero, mul_zero, zero_add, zero_add] at h1
    have h2 := h1.add (Approx.ofExact hA (φ a) _) hA.u_nonneg (hA.add _ _ _ e1)
    rw [← pow_succ, add_zero] at h2
    have := ih (k + 1) _ _ _ t r h2 e
    rw [List.length_cons, show k + (l.length + 1) = k + 1 + l.length by ring]
    exact this

/-- A sum of products, added up from left to right. -/
theorem approx_dot {ι : Type} (f g : ι → T) : ∀ (l : List ι) (k : ℕ) (D Y y : K) (s r : T),
    Approx ((1 + u) ^ (k + 1)) D Y y (φ s) →
    l.foldlM (fun sum i => do
      let prod ← mulRefs (f i) (g i)
      (AddAssignRef.addAssign sum prod).toRes) s = .ok r →
    Approx ((1 + u) ^ (k + l.length + 1)) (D + l.length * η) (Y + (l.map fun i => |φ (f i)| * |φ (g i)|).sum)
      (y + (l.map fun i => φ (f i) * φ (g i)).sum) (φ r) := by
  intro l
  induction l with
  | nil => intro k D Y y s r h e; cases pure_ok e; simpa using h
  | cons a l ih =>
    intro k D Y y s r h e
    rw [List.foldlM_cons] at e
    obtain ⟨t, e1, e⟩ := bind_ok e
    obtain ⟨m, e2, e1⟩ := bind_ok e1
    have h1 := (approx_prod hA e2).mono (G := (1 + u) ^ (k + 1)) (by
      rw [pow_succ]; nlinarith [one_le_pow_u hA k, hA.u_nonneg]) le_rfl le_rfl
    have h2 := h.add h1 hA.u_nonneg (hA.add _ _ _ e1)
    rw [← pow_succ] at h2
    have := ih (k + 1) _ _ _ t r h2 e
    rw [List.map_cons, List.map_cons, List.sum_cons, List.sum_cons, ← add_assoc, ← add_assoc, List.length_cons,
      show k + (l.length + 1) = k + 1 + l.length by ring,
      show D + ((l.length + 1 : ℕ) : K) * η = D + η + l.length * η by push_cast; ring]
    exact this

end ring

/-- The same, by-value operators, starting from the first product. -/
theorem approx_sumTerms [RZero T] [RAdd T T T] [RMul T T T] [RAddAssign T T] (hA : RoundsV φ u η)
    {t : ℕ → Res T} {a b : ℕ → K} : ∀ {n : ℕ} {x : T},
    (∀ k < n, ∀ y, t k = .ok y → |φ y - a k * b k| ≤ u * |a k * b k| + η) → Tree.sumTerms t n = .ok x →
    Approx ((1 + u) ^ n) (n * η) (∑ k ∈ Finset.range n, |a k| * |b k|) (∑ k ∈ Finset.range n, a k * b k) (φ x) := by
  intro n
  have hp : ∀ {c d : K} {y : T}, |φ y - c * d| ≤ u * |c * d| + η → Approx (1 + u) η (|c| * |d|) (c * d) (φ y) := by
    intro c d y h
    have := ((Approx.exact c).mul (Approx.exact d) hA.u_nonneg hA.η_nonneg h)
    simpa using this
  induction n using Nat.strongRecOn with
  | _ n ih =>
    match n with
    | 0 => intro x _ h; cases h
    | 1 => intro x h hx; simpa using hp (h 0 (by omega) x hx)
    | n + 2 =>
      intro x h hx
      obtain ⟨s, h1, hx⟩ := bind_ok hx
      obtain ⟨y, h2, hx⟩ := bind_ok hx
      have h3 := ih (n + 1) (by omega) (fun k hk => h k (by omega)) h1
      have h0 : (1 : K) ≤ (1 + u) ^ n := one_le_pow₀ (by linarith [hA.u_nonneg])
      have h4 := (hp (h (n + 1) (by omega) y h2)).mono (G := (1 + u) ^ (n + 1)) (by
        rw [pow_succ]; nlinarith [hA.u_nonneg]) le_rfl le_rfl
      have h5 := h3.add h4 hA.u_nonneg (hA.addAssign _ _ _ hx)
      rw [← pow_succ, ← Finset.sum_range_succ (fun k => |a k| * |b k|) (n + 1),
        ← Finset.sum_range_succ (fun k => a k * b k) (n + 1),
        show ((n + 1 : ℕ) : K) * η + η = ((n + 2 : ℕ) : K) * η by push_cast; ring] at h5
      exact h5

end loops

end Magnesia
