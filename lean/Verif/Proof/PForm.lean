import Verif.Spec.PForm
import Verif.Proof.PFormMul
import Verif.Proof.FormErr
import Verif.Props.Polynomial

/-!
# Error bounds for formulas of polynomials (helper lemmas)
-/

namespace Magnesia

open RZero ROne MulRefs Polynomial

variable {T K : Type} [NormedField K]

/-- Floating point operations: they return; they are exact up to rounding if the result is finite, and the result is finite
if the exact result is at most `B` in norm. -/
structure RingFloat [RRing T] [RAdd T T T] [RSub T T T] [RMul T T T]
    (fin : T → Prop) (φ : T → K) (B u v η : ℝ) : Prop where
  u_nonneg : 0 ≤ u
  v_nonneg : 0 ≤ v
  η_nonneg : 0 ≤ η
  zero : φ (zero : T) = 0 ∧ fin (RZero.zero : T)
  one : φ (one : T) = 1 ∧ fin (ROne.one : T)
  never : NeverPanics T
  add : ∀ a b c : T, AddAssignRef.addAssign a b = .done c →
    (fin c → fin a ∧ fin b ∧ ‖φ c - (φ a + φ b)‖ ≤ u * ‖φ a + φ b‖) ∧ (fin a → fin b → ‖φ a + φ b‖ ≤ B → fin c)
  sub : ∀ a b : T, ∃ c, RSub.sub a b = .ok c ∧
    (fin c → fin a ∧ fin b ∧ ‖φ c - (φ a - φ b)‖ ≤ u * ‖φ a - φ b‖) ∧ (fin a → fin b → ‖φ a - φ b‖ ≤ B → fin c)
  mul : ∀ a b c : T, mulRefs a b = .ok c →
    (fin c → fin a ∧ fin b ∧ ‖φ c - φ a * φ b‖ ≤ v * ‖φ a * φ b‖ + η) ∧ (fin a → fin b → ‖φ a * φ b‖ ≤ B → fin c)
  neg : ∀ a c : T, RNeg.neg a = .ok c → φ c = -φ a ∧ (fin c ↔ fin a)
  addV : ∀ a b : T, RAdd.add a b = (AddAssignRef.addAssign a b).toRes
  mulV : ∀ a b : T, RMul.mul a b = mulRefs a b

namespace NApprox

variable {F G D E Y Z u : ℝ} {y z r s t : K}

theorem neg (h : NApprox F D Y y r) : NApprox F D Y (-y) (-r) :=
  ⟨h.one_le, h.D_nonneg, by rw [norm_neg]; exact h.norm_le, by
    rw [show -r - -y = -(r - y) by ring, norm_neg]; exact h.err⟩

theorem zero' (h : 1 ≤ F) : NApprox F 0 0 (0 : K) 0 := ⟨h, le_rfl, by simp, by simp⟩

end NApprox

theorem eq_done_of_toRes {σ : Type} {x : Upd σ} {c : σ} (h : x.toRes = .ok c) : x = .done c := by
  obtain ⟨v, p⟩ := x
  cases p with
  | none => cases h; rfl
  | some e => cases h

/-- The coefficients of a sum. -/
theorem padd_coef [AddAssignRef T] (p q r : Poly T) (h : p.add q = .ok r) :
    r.a.length = max p.a.length q.a.length ∧ ∀ (k : ℕ) x, r.a[k]? = some x →
      (∃ y z, p.a[k]? = some y ∧ q.a[k]? = some z ∧
        (AddAssignRef.addAssign y z = .done x ∨ AddAssignRef.addAssign z y = .done x)) ∨
      (p.a[k]? = some x ∧ q.a.length ≤ k) ∨ (p.a.length ≤ k ∧ q.a[k]? = some x) := by
  have key : ∀ p q : Poly T, q.a.length ≤ p.a.length → ((zipUpd AddAssignRef.addAssign q.a p.a).into Poly.mk).toRes = .ok r →
      r.a.length = p.a.length ∧ ∀ (k : ℕ) x, r.a[k]? = some x →
      (∃ y z, p.a[k]? = some y ∧ q.a[k]? = some z ∧ AddAssignRef.addAssign y z = .done x) ∨
      (p.a[k]? = some x ∧ q.a.length ≤ k) := by
    intro p q hl h
    have hp : (zipUpd AddAssignRef.addAssign q.a p.a).panic = none := by
      cases hp : (zipUpd AddAssignRef.addAssign q.a p.a).panic with
      | none => rfl
      | some e => simp [Upd.into, Upd.toRes, hp] at h
    rw [into_toRes_of_done hp] at h
    cases h
    obtain ⟨_, h1, h2⟩ := zipUpd_done _ _ _ hp
    refine ⟨zipUpd_length _ _ _, fun k x hx => ?_⟩
    by_cases hk : k < q.a.length
    · obtain ⟨y, hy, h3, h4⟩ := h1 k _ (List.getElem?_eq_getElem hk)
      refine .inl ⟨y, _, hy, List.getElem?_eq_getElem hk, ?_⟩
      cases hx.symm.trans h4
      exact eq_done_of_toRes (by simp [Upd.toRes, h3])
    · exact .inr ⟨by rw [← h2 k (by omega)]; exact hx, by omega⟩
  rw [Poly.add_eq] at h
  split at h
  · obtain ⟨h1, h2⟩ := key q p (by omega) h
    refine ⟨by omega, fun k x hx => ?_⟩
    rcases h2 k x hx with ⟨y, z, hy, hz, e⟩ | ⟨h3, h4⟩
    · exact .inl ⟨z, y, hz, hy, .inr e⟩
    · exact .inr (.inr ⟨h4, h3⟩)
  · obtain ⟨h1, h2⟩ := key p q (by omega) h
    refine ⟨by omega, fun k x hx => ?_⟩
    rcases h2 k x hx with ⟨y, z, hy, hz, e⟩ | ⟨h3, h4⟩
    · exact .inl ⟨y, z, hy, hz, .inl e⟩
    · exact .inr (.inl ⟨h3, h4⟩)

/-- The coefficients of the negative. -/
theorem pneg_coef [RNeg T] (p r : Poly T) (h : p.neg = .ok r) : r.a.length = p.a.length ∧
    ∀ (k : ℕ) x, r.a[k]? = some x → ∃ y, p.a[k]? = some y ∧ RNeg.neg y = .ok x := by
  obtain ⟨a, h1, h2⟩ := bind_ok h
  cases h2
  obtain ⟨h3, h4⟩ := mapM_ok_iff.1 h1
  refine ⟨h3, fun k x hx => ?_⟩
  have hk : k < p.a.length := by rw [← h3]; exact (List.getElem?_eq_some_iff.1 hx).1
  obtain ⟨b, hb, e⟩ := h4 k _ (List.getElem?_eq_getElem hk)
  cases hx.symm.trans hb
  exact ⟨_, List.getElem?_eq_getElem hk, e⟩

section loops
variable [RRing T] [RAdd T T T] [RSub T T T] [RMul T T T] {fin : T → Prop} {φ : T → K} {B u v η : ℝ}
  (hA : RingFloat fin φ B u v η)
include hA

theorem RingFloat.one_le_pow (n : ℕ) : 1 ≤ (1 + u) ^ n := one_le_pow₀ (by linarith [hA.u_nonneg])

/-- Sums of products of approximations. -/
theorem dot_approx {ι : Type} (f g : ι → T) {Fa Fb : ℝ} {Da Ya Db Yb : ι → ℝ} {ya yb : ι → K} : ∀ (l : List ι) (s r : T),
    l.foldlM (fun sum i => do
      let prod ← mulRefs (f i) (g i)
      (AddAssignRef.addAssign sum prod).toRes) s = .ok r →
    (fin r → fin s ∧ ∀ i ∈ l, fin (f i) ∧ fin (g i)) ∧
    ((∀ i ∈ l, NApprox Fa (Da i) (Ya i) (ya i) (φ (f i)) ∧ NApprox Fb (Db i) (Yb i) (yb i) (φ (g i))) →
      ∀ (n : ℕ) (D Y : ℝ) (y : K), NApprox (Fa * Fb * (1 + v) * (1 + u) ^ n) D Y y (φ s) →
      (fin r → NApprox (Fa * Fb * (1 + v) * (1 + u) ^ (n + l.length))
        (D + (l.map fun i => Da i * Db i + Ya i * Db i + Da i * Yb i + η).sum)
        (Y + (l.map fun i => Ya i * Yb i).sum) (y + (l.map fun i => ya i * yb i).sum) (φ r)) ∧
      (fin s → (∀ i ∈ l, fin (f i) ∧ fin (g i)) →
        Fa * Fb * (1 + v) * (1 + u) ^ (n + l.length) * ((Y + (l.map fun i => Ya i * Yb i).sum) +
          (D + (l.map fun i => Da i * Db i + Ya i * Db i + Da i * Yb i + η).sum)) ≤ B → fin r)) := by
  intro l
  induction l with
  | nil =>
    intro s r e
    cases pure_ok e
    refine ⟨fun h => ⟨h, by simp⟩, fun _ n D Y y h => ⟨fun _ => by simpa using h, fun h _ _ => h⟩⟩
  | cons a l ih =>
    intro s r e
    rw [List.foldlM_cons] at e
    obtain ⟨t, e1, e⟩ := bind_ok e
    obtain ⟨m, e2, e1⟩ := bind_ok e1
    obtain ⟨ih1, ih2⟩ := ih t r e
    obtain ⟨a1, a2⟩ := hA.add _ _ _ (eq_done_of_toRes e1)
    obtain ⟨m1, m2⟩ := hA.mul _ _ _ e2
    have bwd : fin r → fin s ∧ ∀ i ∈ a :: l, fin (f i) ∧ fin (g i) := by
      intro hr
      obtain ⟨ht, hl⟩ := ih1 hr
      obtain ⟨hs, hm, _⟩ := a1 ht
      obtain ⟨hf, hg, _⟩ := m1 hm
      exact ⟨hs, by simpa using ⟨⟨hf, hg⟩, hl⟩⟩
    refine ⟨bwd, fun h n D Y y hs => ?_⟩
    obtain ⟨ha, hb⟩ := h a (by simp)
    have hl : ∀ i ∈ l, NApprox Fa (Da i) (Ya i) (ya i) (φ (f i)) ∧ NApprox Fb (Db i) (Yb i) (yb i) (φ (g i)) :=
      fun i hi => h i (by simp [hi])
    have hF := ha.one_le; have hG := hb.one_le
    have hu := hA.u_nonneg; have hv := hA.v_nonneg; have hη := hA.η_nonneg
    have hY := ha.nonneg; have hY' := hb.nonneg; have hD := ha.D_nonneg; have hD' := hb.D_nonneg
    have hpn := hA.one_le_pow n
    have hprod : fin m → NApprox (Fa * Fb * (1 + v) * (1 + u) ^ n) (Da a * Db a + Ya a * Db a + Da a * Yb a + η)
        (Ya a * Yb a) (ya a * yb a) (φ m) := fun hm =>
      (ha.mulRound hb hv hη (m1 hm).2.2).mono (le_mul_of_one_le_right (by positivity) hpn) le_rfl le_rfl
    have hsum : fin t → NApprox (Fa * Fb * (1 + v) * (1 + u) ^ (n + 1))
        (D + (Da a * Db a + Ya a * Db a + Da a * Yb a + η)) (Y + Ya a * Yb a) (y + ya a * yb a) (φ t) := by
      intro ht
      obtain ⟨_, hm, h3⟩ := a1 ht
      have := hs.add (hprod hm) hu h3
      rwa [mul_assoc _ ((1 + u) ^ n), ← pow_succ] at this
    constructor
    · intro hr
      obtain ⟨ht, _⟩ := ih1 hr
      have := (ih2 hl (n + 1) _ _ _ (hsum ht)).1 hr
      simp only [List.length_cons, List.map_cons, List.sum_cons]
      rw [show n + (l.length + 1) = n + 1 + l.length by ring]
      simpa only [add_assoc] using this
    · intro fs hfin hB
      obtain ⟨hf, hg⟩ := hfin a (by simp)
      simp only [List.length_cons, List.map_cons, List.sum_cons] at hB
      rw [show n + (l.length + 1) = n + 1 + l.length by ring] at hB
      have s1 : 0 ≤ (l.map fun i => Ya i * Yb i).sum := List.sum_nonneg (by
        intro x hx
        obtain ⟨i, hi, rfl⟩ := List.mem_map.1 hx
        exact mul_nonneg (hl i hi).1.nonneg (hl i hi).2.nonneg)
      have s2 : 0 ≤ (l.map fun i => Da i * Db i + Ya i * Db i + Da i * Yb i + η).sum := List.sum_nonneg (by
        intro x hx
        obtain ⟨i, hi, rfl⟩ := List.mem_map.1 hx
        have := (hl i hi).1.nonneg; have := (hl i hi).2.nonneg
        have := (hl i hi).1.D_nonneg; have := (hl i hi).2.D_nonneg
        positivity)
      have hY0 := hs.nonneg; have hD0 := hs.D_nonneg
      have hG0 : 0 ≤ Fa * Fb * (1 + v) * (1 + u) ^ n := by positivity
      have hpow : Fa * Fb * (1 + v) * (1 + u) ^ n ≤ Fa * Fb * (1 + v) * (1 + u) ^ (n + 1 + l.length) :=
        mul_le_mul_of_nonneg_left (pow_le_pow_right₀ (by linarith) (by omega)) (by positivity)
      have hstep : Fa * Fb * (1 + v) * (1 + u) ^ n *
          ((Y + Ya a * Yb a) + (D + (Da a * Db a + Ya a * Db a + Da a * Yb a + η))) ≤ B := by
        refine le_trans (mul_le_mul hpow ?_ (by positivity) (by positivity)) hB
        linarith
      have hm : fin m := m2 hf hg (by
        have h1 := (ha.mulApprox hb).norm_val'
        have h2 : Fa * Fb ≤ Fa * Fb * (1 + v) * (1 + u) ^ n := by
          rw [mul_assoc]
          exact le_mul_of_one_le_right (by positivity) (one_le_mul_of_one_le_of_one_le (by linarith) hpn)
        refine h1.trans (le_trans (mul_le_mul h2 ?_ (by positivity) hG0) hstep)
        linarith)
      have ht : fin t := a2 fs hm (by
        have h1 := hs.norm_val'; have h2 := (hprod hm).norm_val'
        refine (norm_add_le _ _).trans (le_trans (add_le_add h1 h2) (le_trans (le_of_eq ?_) hstep))
        ring)
      exact (ih2 hl (n + 1) _ _ _ (hsum ht)).2 ht (fun i hi => hfin i (by simp [hi]))
        (by simpa only [add_assoc] using hB)

end loops

end Magnesia
