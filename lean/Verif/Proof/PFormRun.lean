import Verif.Proof.PForm

/-!
# Error bounds for formulas of polynomials: induction on the formula (helper lemmas)
-/

namespace Magnesia

open RZero ROne MulRefs Polynomial

variable {T K : Type} [NormedField K]

theorem coeff_geo (n i : ℕ) : (geo n).coeff i = if i < n then 1 else 0 := by
  unfold geo
  rw [finsetSum_coeff]
  simp only [coeff_X_pow]
  simp

theorem foldlM_congr_mem {α ι : Type} {f g : α → ι → Res α} : ∀ (l : List ι), (∀ i ∈ l, ∀ s, f s i = g s i) →
    ∀ s, l.foldlM f s = l.foldlM g s
  | [], _, _ => rfl
  | i :: l, h, s => by
    rw [List.foldlM_cons, List.foldlM_cons, h i (by simp)]
    congr 1
    funext t
    exact foldlM_congr_mem l (fun j hj => h j (by simp [hj])) t

/-- The positions that contribute to coefficient `k` of a product. -/
def pairs (m n k : ℕ) : List ℕ := (List.range m).filter fun i => i ≤ k ∧ k - i < n

theorem mem_pairs {m n k i : ℕ} : i ∈ pairs m n k ↔ i < m ∧ i ≤ k ∧ k - i < n := by simp [pairs]

theorem nodup_pairs (m n k : ℕ) : (pairs m n k).Nodup := List.nodup_range.filter _

theorem length_pairs (m n k : ℕ) : (pairs m n k).length ≤ min m n := by
  refine le_min ?_ ?_
  · exact (List.length_filter_le _ _).trans (by simp)
  · rw [← List.toFinset_card_of_nodup (nodup_pairs m n k)]
    have : ((pairs m n k).toFinset.image fun i => k - i) ⊆ Finset.range n := by
      intro x hx
      obtain ⟨i, hi, rfl⟩ := Finset.mem_image.1 hx
      exact Finset.mem_range.2 (mem_pairs.1 (List.mem_toFinset.1 hi)).2.2
    have h2 := Finset.card_le_card this
    rw [Finset.card_image_of_injOn, Finset.card_range] at h2
    · exact h2
    · intro i hi j hj h
      have := (mem_pairs.1 (List.mem_toFinset.1 hi)).2.1
      have := (mem_pairs.1 (List.mem_toFinset.1 hj)).2.1
      simp only at h
      omega

theorem coeff_mul_pairs {R : Type} [CommRing R] {P Q : R[X]} {m n : ℕ} (hP : ∀ i, m ≤ i → P.coeff i = 0)
    (hQ : ∀ i, n ≤ i → Q.coeff i = 0) (k : ℕ) :
    (P * Q).coeff k = ((pairs m n k).map fun i => P.coeff i * Q.coeff (k - i)).sum := by
  rw [← List.sum_toFinset _ (nodup_pairs m n k), coeff_mul, Finset.Nat.sum_antidiagonal_eq_sum_range_succ_mk]
  symm
  apply Finset.sum_subset
  · intro i hi
    have := (mem_pairs.1 (List.mem_toFinset.1 hi)).2.1
    exact Finset.mem_range.2 (by omega)
  · intro i hi hn
    have h1 := Finset.mem_range.1 hi
    have h2 : ¬ (i < m ∧ i ≤ k ∧ k - i < n) := fun h => hn (List.mem_toFinset.2 (mem_pairs.2 h))
    by_cases h3 : i < m
    · rw [hQ _ (by omega), mul_zero]
    · rw [hP _ (by omega), zero_mul]

theorem pairs_empty {m n k : ℕ} (h : (if m = 0 ∨ n = 0 then 0 else m + n - 1) ≤ k) : pairs m n k = [] := by
  rw [List.eq_nil_iff_forall_not_mem]
  intro i hi
  have := mem_pairs.1 hi
  split_ifs at h <;> omega

namespace PForm

variable {φ : T → K} {u v η : ℝ}

theorem coeff_toPoly_norm (p : Poly T) (k : ℕ) :
    (p.toPolynomial fun x => ‖φ x‖).coeff k = (p.a[k]?).elim 0 fun x => ‖φ x‖ := coeff_toPolynomial _ _ _

/-- Coefficients beyond the length are zero. -/
theorem vanish (f : PForm T) : ∀ k, f.len ≤ k →
    (f.den φ).coeff k = 0 ∧ (f.mag φ).coeff k = 0 ∧ (f.under η φ).coeff k = 0 := by
  induction f with
  | poly p =>
    intro k h
    refine ⟨?_, ?_, coeff_zero k⟩
    · show (p.toPolynomial φ).coeff k = 0
      rw [coeff_toPolynomial, coef_eq_zero h]
    · show (p.toPolynomial fun x => ‖φ x‖).coeff k = 0
      rw [coeff_toPolynomial, coef_eq_zero h]
  | zero => intro k h; exact ⟨coeff_zero k, coeff_zero k, coeff_zero k⟩
  | one =>
    intro k h
    have h : 1 ≤ k := h
    refine ⟨?_, ?_, coeff_zero k⟩
    · show (1 : K[X]).coeff k = 0
      rw [coeff_one, if_neg (by omega)]
    · show (1 : ℝ[X]).coeff k = 0
      rw [coeff_one, if_neg (by omega)]
  | add a b iha ihb =>
    intro k h
    have h : max a.len b.len ≤ k := h
    obtain ⟨a1, a2, a3⟩ := iha k (by omega)
    obtain ⟨b1, b2, b3⟩ := ihb k (by omega)
    simp only [den, mag, under, coeff_add, a1, a2, a3, b1, b2, b3, add_zero, and_self]
  | sub a b iha ihb =>
    intro k h
    have h : max a.len b.len ≤ k := h
    obtain ⟨a1, a2, a3⟩ := iha k (by omega)
    obtain ⟨b1, b2, b3⟩ := ihb k (by omega)
    simp only [den, mag, under, coeff_add, coeff_sub, a1, a2, a3, b1, b2, b3, add_zero, sub_zero, and_self]
  | neg a ih =>
    intro k h
    obtain ⟨a1, a2, a3⟩ := ih k h
    simp only [den, mag, under, coeff_neg, a1, a2, a3, neg_zero, and_self]
  | mul a b iha ihb =>
    intro k h
    have he : pairs a.len b.len k = [] := pairs_empty h
    have z : ∀ {R : Type} [CommRing R] (P Q : R[X]), (∀ i, a.len ≤ i → P.coeff i = 0) →
        (∀ i, b.len ≤ i → Q.coeff i = 0) → (P * Q).coeff k = 0 := by
      intro R _ P Q hP hQ
      rw [coeff_mul_pairs hP hQ, he]; rfl
    have g : ∀ n i, n ≤ i → (geo n).coeff i = 0 := fun n i h => by rw [coeff_geo, if_neg (by omega)]
    simp only [den, mag, under, coeff_add, coeff_C_mul]
    rw [z _ _ (fun i h => (iha i h).1) (fun i h => (ihb i h).1),
      z _ _ (fun i h => (iha i h).2.1) (fun i h => (ihb i h).2.1),
      z _ _ (fun i h => (iha i h).2.2) (fun i h => (ihb i h).2.2),
      z _ _ (fun i h => (iha i h).2.1) (fun i h => (ihb i h).2.2),
      z _ _ (fun i h => (iha i h).2.2) (fun i h => (ihb i h).2.1),
      z _ _ (g a.len) (g b.len)]
    simp

theorem mul_coeff_nonneg {P Q : ℝ[X]} (hP : ∀ k, 0 ≤ P.coeff k) (hQ : ∀ k, 0 ≤ Q.coeff k) (k : ℕ) :
    0 ≤ (P * Q).coeff k := by
  rw [coeff_mul]
  exact Finset.sum_nonneg fun ij _ => mul_nonneg (hP _) (hQ _)

theorem mag_nonneg (f : PForm T) : ∀ k, 0 ≤ (f.mag φ).coeff k := by
  induction f with
  | poly p =>
    intro k
    show 0 ≤ (p.toPolynomial fun x => ‖φ x‖).coeff k
    rw [coeff_toPoly_norm]
    cases p.a[k]? with
    | none => exact le_rfl
    | some x => exact norm_nonneg _
  | zero => intro k; exact (coeff_zero k).ge
  | one => intro k; show 0 ≤ (1 : ℝ[X]).coeff k; rw [coeff_one]; split_ifs <;> norm_num
  | add a b iha ihb => intro k; show 0 ≤ (a.mag φ + b.mag φ).coeff k; rw [coeff_add]; exact add_nonneg (iha k) (ihb k)
  | sub a b iha ihb => intro k; show 0 ≤ (a.mag φ + b.mag φ).coeff k; rw [coeff_add]; exact add_nonneg (iha k) (ihb k)
  | neg a ih => exact ih
  | mul a b iha ihb => exact mul_coeff_nonneg iha ihb

theorem under_nonneg (hη : 0 ≤ η) (f : PForm T) : ∀ k, 0 ≤ (f.under η φ).coeff k := by
  have g : ∀ n i, 0 ≤ (geo n).coeff i := fun n i => by rw [coeff_geo]; split_ifs <;> norm_num
  induction f with
  | add a b iha ihb =>
    intro k; show 0 ≤ (a.under η φ + b.under η φ).coeff k; rw [coeff_add]; exact add_nonneg (iha k) (ihb k)
  | sub a b iha ihb =>
    intro k; show 0 ≤ (a.under η φ + b.under η φ).coeff k; rw [coeff_add]; exact add_nonneg (iha k) (ihb k)
  | neg a ih => exact ih
  | mul a b iha ihb =>
    intro k
    simp only [under, coeff_add, coeff_C_mul]
    have h1 := mul_coeff_nonneg iha ihb k
    have h2 := mul_coeff_nonneg (mag_nonneg (φ := φ) a) ihb k
    have h3 := mul_coeff_nonneg iha (mag_nonneg (φ := φ) b) k
    have h4 := mul_coeff_nonneg (g a.len) (g b.len) k
    positivity
  | poly p => intro k; exact (coeff_zero k).ge
  | zero => intro k; exact (coeff_zero k).ge
  | one => intro k; exact (coeff_zero k).ge

theorem one_le_factor (hu : 0 ≤ u) (hv : 0 ≤ v) (f : PForm T) : 1 ≤ f.factor u v := by
  have h1 : 1 ≤ 1 + u := by linarith
  have h2 : 1 ≤ 1 + v := by linarith
  induction f with
  | add a b iha ihb => exact one_le_mul_of_one_le_of_one_le (iha.trans (le_max_left _ _)) h1
  | sub a b iha ihb => exact one_le_mul_of_one_le_of_one_le (iha.trans (le_max_left _ _)) h1
  | mul a b iha ihb => exact one_le_mul_of_one_le_of_one_le (one_le_mul_of_one_le_of_one_le
      (one_le_mul_of_one_le_of_one_le iha ihb) h2) (one_le_pow₀ h1)
  | neg a ih => exact ih
  | _ => exact le_refl _

theorem uses_beyond (fin : T → Prop) (f : PForm T) : ∀ k, f.len ≤ k → f.Uses fin k := by
  induction f with
  | poly p => intro k h x hx; rw [List.getElem?_eq_none h] at hx; cases hx
  | add a b iha ihb => intro k h; have h : max a.len b.len ≤ k := h; exact ⟨iha k (by omega), ihb k (by omega)⟩
  | sub a b iha ihb => intro k h; have h : max a.len b.len ≤ k := h; exact ⟨iha k (by omega), ihb k (by omega)⟩
  | neg a ih => exact ih
  | mul a b _ _ =>
    intro k h i j hij hi hj
    have h : (if a.len = 0 ∨ b.len = 0 then 0 else a.len + b.len - 1) ≤ k := h
    split_ifs at h <;> omega
  | zero => intro k _; trivial
  | one => intro k _; trivial

section run
variable [RRing T] [RAdd T T T] [RSub T T T] [RMul T T T] {fin : T → Prop} {B : ℝ}

/-- What is known about the result `r` of a formula `f`. -/
def Good (f : PForm T) (fin : T → Prop) (φ : T → K) (B u v η : ℝ) (r : Poly T) : Prop :=
  r.a.length = f.len ∧ ∀ (k : ℕ) x, r.a[k]? = some x →
    (fin x → f.Uses fin k ∧
      NApprox (f.factor u v) ((f.under η φ).coeff k) ((f.mag φ).coeff k) ((f.den φ).coeff k) (φ x)) ∧
    (f.Within fin B u v η φ → fin x)

theorem good_add (hA : RingFloat fin φ B u v η) {a b : PForm T} {p q r : Poly T} (hp : a.Good fin φ B u v η p)
    (hq : b.Good fin φ B u v η q) (h : p.add q = .ok r) : (add a b).Good fin φ B u v η r := by
  obtain ⟨h1, h2⟩ := padd_coef p q r h
  refine ⟨by rw [h1, hp.1, hq.1]; rfl, fun k x hx => ?_⟩
  have hu := hA.u_nonneg
  have fa := a.one_le_factor hu hA.v_nonneg; have fb := b.one_le_factor hu hA.v_nonneg
  have hM : a.factor u v ≤ max (a.factor u v) (b.factor u v) * (1 + u) :=
    (le_max_left _ _).trans (le_mul_of_one_le_right (by positivity) (by linarith))
  have hM' : b.factor u v ≤ max (a.factor u v) (b.factor u v) * (1 + u) :=
    (le_max_right _ _).trans (le_mul_of_one_le_right (by positivity) (by linarith))
  rcases h2 k x hx with ⟨y, z, hy, hz, e⟩ | ⟨hy, hz⟩ | ⟨hy, hz⟩
  · obtain ⟨a1, a2⟩ := hp.2 k y hy
    obtain ⟨b1, b2⟩ := hq.2 k z hz
    have key : (fin x → fin y ∧ fin z ∧ ‖φ x - (φ y + φ z)‖ ≤ u * ‖φ y + φ z‖) ∧
        (fin y → fin z → ‖φ y + φ z‖ ≤ B → fin x) := by
      rcases e with e | e
      · exact hA.add _ _ _ e
      · obtain ⟨h3, h4⟩ := hA.add _ _ _ e
        refine ⟨fun h => ?_, fun hy hz h => h4 hz hy (by rwa [add_comm])⟩
        obtain ⟨h5, h6, h7⟩ := h3 h
        rw [add_comm] at h7
        exact ⟨h6, h5, h7⟩
    constructor
    · intro hf
      obtain ⟨hy', hz', he⟩ := key.1 hf
      obtain ⟨u1, n1⟩ := a1 hy'
      obtain ⟨u2, n2⟩ := b1 hz'
      refine ⟨⟨u1, u2⟩, ?_⟩
      simp only [factor, under, mag, den, coeff_add]
      exact (n1.mono (le_max_left _ (b.factor u v)) le_rfl le_rfl).add (n2.mono (le_max_right _ _) le_rfl le_rfl) hu he
    · rintro ⟨w1, w2, w3⟩
      have fy := a2 w1; have fz := b2 w2
      have n1 := ((a1 fy).2.mono hM le_rfl le_rfl).norm_val'
      have n2 := ((b1 fz).2.mono hM' le_rfl le_rfl).norm_val'
      refine key.2 fy fz ((norm_add_le _ _).trans (le_trans (add_le_add n1 n2) (le_trans (le_of_eq ?_) (w3 k))))
      simp only [factor, under, mag, coeff_add]
      ring
  · obtain ⟨a1, a2⟩ := hp.2 k x hy
    rw [hq.1] at hz
    obtain ⟨z1, z2, z3⟩ := b.vanish (φ := φ) (η := η) k hz
    refine ⟨fun hf => ⟨⟨(a1 hf).1, b.uses_beyond fin k hz⟩, ?_⟩, fun w => a2 w.1⟩
    simp only [factor, under, mag, den, coeff_add, z1, z2, z3, add_zero]
    exact (a1 hf).2.mono hM le_rfl le_rfl
  · obtain ⟨b1, b2⟩ := hq.2 k x hz
    rw [hp.1] at hy
    obtain ⟨z1, z2, z3⟩ := a.vanish (φ := φ) (η := η) k hy
    refine ⟨fun hf => ⟨⟨a.uses_beyond fin k hy, (b1 hf).1⟩, ?_⟩, fun w => b2 w.2.1⟩
    simp only [factor, under, mag, den, coeff_add, z1, z2, z3, zero_add]
    exact (b1 hf).2.mono hM' le_rfl le_rfl

theorem good_neg (hA : RingFloat fin φ B u v η) {a : PForm T} {p r : Poly T} (hp : a.Good fin φ B u v η p)
    (h : p.neg = .ok r) : (neg a).Good fin φ B u v η r := by
  obtain ⟨h1, h2⟩ := pneg_coef p r h
  refine ⟨by rw [h1, hp.1]; rfl, fun k x hx => ?_⟩
  obtain ⟨y, hy, e⟩ := h2 k x hx
  obtain ⟨a1, a2⟩ := hp.2 k y hy
  obtain ⟨n1, n2⟩ := hA.neg y x e
  refine ⟨fun hf => ⟨(a1 (n2.1 hf)).1, ?_⟩, fun w => n2.2 (a2 w)⟩
  simp only [factor, under, mag, den, coeff_neg, n1]
  exact (a1 (n2.1 hf)).2.neg

theorem good_mul (hA : RingFloat fin φ B u v η) {a b : PForm T} {p q r : Poly T} (hp : a.Good fin φ B u v η p)
    (hq : b.Good fin φ B u v η q) (h : p.mulRef q = .ok r) : (mul a b).Good fin φ B u v η r := by
  obtain ⟨h1, h2⟩ := mulRef_coef p q r h
  refine ⟨by rw [h1, hp.1, hq.1]; rfl, fun k x hx => ?_⟩
  have e := h2 k x hx
  rw [hp.1, hq.1] at e
  change (pairs a.len b.len k).foldlM _ _ = _ at e
  have hu := hA.u_nonneg; have hv := hA.v_nonneg
  have fa := a.one_le_factor hu hv; have fb := b.one_le_factor hu hv
  have ha : ∀ i ∈ pairs a.len b.len k, ∃ y, p.a[i]? = some y := fun i hi =>
    ⟨_, List.getElem?_eq_getElem (by rw [hp.1]; exact (mem_pairs.1 hi).1)⟩
  have hb : ∀ i ∈ pairs a.len b.len k, ∃ y, q.a[k - i]? = some y := fun i hi =>
    ⟨_, List.getElem?_eq_getElem (by rw [hq.1]; exact (mem_pairs.1 hi).2.2)⟩
  rw [foldlM_congr_mem (g := fun sum i => do
      let prod ← mulRefs ((p.a[i]?).getD RZero.zero) ((q.a[k - i]?).getD RZero.zero)
      (AddAssignRef.addAssign sum prod).toRes) (pairs a.len b.len k) (fun i hi s => by
        obtain ⟨y, hy⟩ := ha i hi
        obtain ⟨z, hz⟩ := hb i hi
        unfold mulStep
        simp only [getIdx, hy, hz, bind, Except.bind, Option.getD_some])] at e
  obtain ⟨d1, d2⟩ := dot_approx hA (fun i => (p.a[i]?).getD RZero.zero) (fun i => (q.a[k - i]?).getD RZero.zero)
    (Fa := a.factor u v) (Fb := b.factor u v)
    (Da := fun i => (a.under η φ).coeff i) (Ya := fun i => (a.mag φ).coeff i)
    (Db := fun i => (b.under η φ).coeff (k - i)) (Yb := fun i => (b.mag φ).coeff (k - i))
    (ya := fun i => (a.den φ).coeff i) (yb := fun i => (b.den φ).coeff (k - i)) _ _ _ e
  have terms : (∀ i ∈ pairs a.len b.len k, fin ((p.a[i]?).getD RZero.zero) ∧ fin ((q.a[k - i]?).getD RZero.zero)) →
      ∀ i ∈ pairs a.len b.len k,
      NApprox (a.factor u v) ((a.under η φ).coeff i) ((a.mag φ).coeff i) ((a.den φ).coeff i) (φ ((p.a[i]?).getD RZero.zero)) ∧
      NApprox (b.factor u v) ((b.under η φ).coeff (k - i)) ((b.mag φ).coeff (k - i)) ((b.den φ).coeff (k - i))
        (φ ((q.a[k - i]?).getD RZero.zero)) := by
    intro hf i hi
    obtain ⟨y, hy⟩ := ha i hi
    obtain ⟨z, hz⟩ := hb i hi
    obtain ⟨f1, f2⟩ := hf i hi
    rw [hy] at f1 ⊢; rw [hz] at f2 ⊢
    exact ⟨((hp.2 i y hy).1 f1).2, ((hq.2 _ z hz).1 f2).2⟩
  have start : NApprox (a.factor u v * b.factor u v * (1 + v) * (1 + u) ^ 0) 0 0 (0 : K) (φ (RZero.zero : T)) := by
    rw [hA.zero.1]
    exact NApprox.zero' (one_le_mul_of_one_le_of_one_le (one_le_mul_of_one_le_of_one_le
      (one_le_mul_of_one_le_of_one_le fa fb) (by linarith)) (by simp))
  have va := fun i hi => (a.vanish (φ := φ) (η := η) i hi)
  have vb := fun i hi => (b.vanish (φ := φ) (η := η) i hi)
  have eden : ((mul a b).den φ).coeff k = ((pairs a.len b.len k).map fun i => (a.den φ).coeff i * (b.den φ).coeff (k - i)).sum :=
    coeff_mul_pairs (fun i hi => (va i hi).1) (fun i hi => (vb i hi).1) k
  have emag : ((mul a b).mag φ).coeff k = ((pairs a.len b.len k).map fun i => (a.mag φ).coeff i * (b.mag φ).coeff (k - i)).sum :=
    coeff_mul_pairs (fun i hi => (va i hi).2.1) (fun i hi => (vb i hi).2.1) k
  have eunder : ((mul a b).under η φ).coeff k = ((pairs a.len b.len k).map fun i =>
      (a.under η φ).coeff i * (b.under η φ).coeff (k - i) + (a.mag φ).coeff i * (b.under η φ).coeff (k - i) +
      (a.under η φ).coeff i * (b.mag φ).coeff (k - i) + η).sum := by
    simp only [under, coeff_add, coeff_C_mul]
    rw [coeff_mul_pairs (fun i hi => (va i hi).2.2) (fun i hi => (vb i hi).2.2) k,
      coeff_mul_pairs (fun i hi => (va i hi).2.1) (fun i hi => (vb i hi).2.2) k,
      coeff_mul_pairs (fun i hi => (va i hi).2.2) (fun i hi => (vb i hi).2.1) k,
      coeff_mul_pairs (P := geo a.len) (Q := geo b.len) (m := a.len) (n := b.len)
        (fun i hi => by rw [coeff_geo, if_neg (by omega)]) (fun i hi => by rw [coeff_geo, if_neg (by omega)]) k]
    have hg : η * ((pairs a.len b.len k).map fun i => (geo a.len).coeff i * (geo b.len).coeff (k - i)).sum =
        ((pairs a.len b.len k).map fun _ => η).sum := by
      rw [← List.sum_map_mul_left]
      congr 1
      refine List.map_congr_left fun i hi => ?_
      obtain ⟨h1, _, h2⟩ := mem_pairs.1 hi
      rw [coeff_geo, coeff_geo, if_pos h1, if_pos h2]; ring
    rw [hg, List.sum_map_add, List.sum_map_add, List.sum_map_add]
  have hpow : (1 + u) ^ (0 + (pairs a.len b.len k).length) ≤ (1 + u) ^ min a.len b.len :=
    pow_le_pow_right₀ (by linarith) (by rw [Nat.zero_add]; exact length_pairs _ _ _)
  have hfac : a.factor u v * b.factor u v * (1 + v) * (1 + u) ^ (0 + (pairs a.len b.len k).length) ≤ (mul a b).factor u v :=
    mul_le_mul_of_nonneg_left hpow (by positivity)
  constructor
  · intro hf
    obtain ⟨_, h4⟩ := d1 hf
    refine ⟨fun i j hij hi hj => ?_, ?_⟩
    · have hm : i ∈ pairs a.len b.len k := mem_pairs.2 ⟨hi, by omega, by omega⟩
      obtain ⟨y, hy⟩ := ha i hm
      obtain ⟨z, hz⟩ := hb i hm
      obtain ⟨f1, f2⟩ := h4 i hm
      rw [hy] at f1; rw [hz] at f2
      have hj' : k - i = j := by omega
      rw [hj'] at hz
      exact ⟨((hp.2 i y hy).1 f1).1, ((hq.2 j z hz).1 f2).1⟩
    · have := ((d2 (terms h4) 0 0 0 0 start).1 hf).mono hfac le_rfl le_rfl
      rw [zero_add, zero_add, zero_add] at this
      rw [eden, emag, eunder]
      exact this
  · rintro ⟨w1, w2, w3⟩
    have hf : ∀ i ∈ pairs a.len b.len k, fin ((p.a[i]?).getD RZero.zero) ∧ fin ((q.a[k - i]?).getD RZero.zero) := by
      intro i hi
      obtain ⟨y, hy⟩ := ha i hi
      obtain ⟨z, hz⟩ := hb i hi
      rw [hy, hz]
      exact ⟨(hp.2 i y hy).2 w1, (hq.2 _ z hz).2 w2⟩
    refine (d2 (terms hf) 0 0 0 0 start).2 hA.zero.2 hf ?_
    have := w3 k
    rw [emag, eunder] at this
    rw [zero_add (List.sum _), zero_add (List.sum _)]
    refine le_trans (mul_le_mul_of_nonneg_right hfac ?_) this
    rw [← emag, ← eunder]
    exact add_nonneg (mag_nonneg _ k) (under_nonneg hA.η_nonneg _ k)

/-- Computing a formula. -/
theorem run_good (hA : RingFloat fin φ B u v η) (f : PForm T) : ∃ r, f.run = .ok r ∧ f.Good fin φ B u v η r := by
  induction f with
  | poly p =>
    refine ⟨p, rfl, rfl, fun k x hx => ⟨fun hf => ⟨fun y hy => ?_, ?_⟩, fun w => w x (List.mem_of_getElem? hx)⟩⟩
    · cases hx.symm.trans hy; exact hf
    · simp only [factor, under, mag, den, coeff_zero]
      rw [coeff_toPoly_norm, coeff_toPolynomial, Poly.coef, hx]
      exact NApprox.exact _
  | zero => exact ⟨_, rfl, rfl, fun k x hx => by cases hx⟩
  | one =>
    refine ⟨_, rfl, rfl, fun k x hx => ?_⟩
    have hx : [(ROne.one : T)][k]? = some x := hx
    cases k with
    | succ k => cases hx
    | zero =>
      cases hx
      refine ⟨fun _ => ⟨trivial, ?_⟩, fun _ => hA.one.2⟩
      simp only [factor, under, mag, den, coeff_zero, coeff_one_zero, hA.one.1]
      simpa using NApprox.exact (1 : K)
  | add a b iha ihb =>
    obtain ⟨p, e1, hp⟩ := iha
    obtain ⟨q, e2, hq⟩ := ihb
    obtain ⟨r, e3⟩ := (C02_add_returns hA.never p q).1
    refine ⟨r, ?_, good_add hA hp hq e3⟩
    simp only [run, e1, e2, bind, Except.bind]
    exact e3
  | neg a ih =>
    obtain ⟨p, e1, hp⟩ := ih
    obtain ⟨r, e3⟩ := (C03_sub_returns hA.never p p).2.1
    refine ⟨r, ?_, good_neg hA hp e3⟩
    simp only [run, e1, bind, Except.bind]
    exact e3
  | sub a b iha ihb =>
    obtain ⟨p, e1, hp⟩ := iha
    obtain ⟨q, e2, hq⟩ := ihb
    obtain ⟨n, e3⟩ := (C03_sub_returns hA.never q q).2.1
    obtain ⟨r, e4⟩ := (C02_add_returns hA.never p n).1
    have hg := good_add hA hp (good_neg hA hq e3) e4
    refine ⟨r, ?_, hg.1, fun k x hx => ?_⟩
    · simp only [run, e1, e2, bind, Except.bind]
      show p.sub q = _
      unfold Poly.sub
      rw [e3]
      exact e4
    · obtain ⟨g1, g2⟩ := hg.2 k x hx
      refine ⟨fun hf => ?_, fun w => g2 ⟨w.1, w.2.1, w.2.2⟩⟩
      obtain ⟨g3, g4⟩ := g1 hf
      refine ⟨g3, ?_⟩
      have : (a.sub b).den φ = (a.add b.neg).den φ := sub_eq_add_neg _ _
      rw [this]
      exact g4
  | mul a b iha ihb =>
    obtain ⟨p, e1, hp⟩ := iha
    obtain ⟨q, e2, hq⟩ := ihb
    obtain ⟨r, e3⟩ := C04_mul_returns hA.never p q
    refine ⟨r, ?_, good_mul hA hp hq e3⟩
    simp only [run, e1, e2, bind, Except.bind]
    exact e3

end run

end PForm

end Magnesia
