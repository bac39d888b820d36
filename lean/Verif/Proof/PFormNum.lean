import Verif.Proof.PFormRun
import Mathlib.Algebra.Polynomial.Eval.Degree

/-!
# Error bounds for values of formulas of polynomials (helper lemmas)
-/

namespace Magnesia

open RZero ROne MulRefs Polynomial

variable {T K : Type} [NormedField K]

theorem eval_eq_sum {R : Type} [CommRing R] {P : R[X]} {n : ℕ} (h : ∀ i, n ≤ i → P.coeff i = 0) (x : R) :
    P.eval x = ∑ i ∈ Finset.range n, P.coeff i * x ^ i := by
  rw [eval_eq_sum_range' (n := n + P.natDegree + 1) (by omega)]
  symm
  apply Finset.sum_subset
  · intro i hi
    have := Finset.mem_range.1 hi
    exact Finset.mem_range.2 (by omega)
  · intro i _ hi
    rw [h i (by simpa using hi), zero_mul]

section loops
variable [RRing T] [RAdd T T T] [RSub T T T] [RMul T T T] {fin : T → Prop} {φ : T → K} {B u v η : ℝ}

/-- Horner's scheme with approximations of the coefficients and of the point. -/
theorem horner_approx (hA : RingFloat fin φ B u v η) (x : T) {Fp Gx E Z M : ℝ} {xv : K} (hF : 1 ≤ Fp) (hG : 1 ≤ Gx)
    (hM : 1 ≤ M) (hZM : Z + E ≤ M) :
    ∀ (l : List T) (Da Ya : ℕ → ℝ) (ya : ℕ → K),
    ∃ y, l.foldrM (fun a y => do
      let y ← mulRefs y x
      (AddAssignRef.addAssign y a).toRes) zero = .ok y ∧
    (fin y → (∀ a ∈ l, fin a) ∧ (l ≠ [] → fin x)) ∧
    ((l ≠ [] → NApprox Gx E Z xv (φ x)) → (∀ (i : ℕ) a, l[i]? = some a → NApprox Fp (Da i) (Ya i) (ya i) (φ a)) →
      (fin y → NApprox (Fp * (Gx * (1 + v) * (1 + u)) ^ l.length)
        (∑ i ∈ Finset.range l.length, (Ya i + Da i + η) * (Z + E) ^ i - ∑ i ∈ Finset.range l.length, Ya i * Z ^ i)
        (∑ i ∈ Finset.range l.length, Ya i * Z ^ i) (∑ i ∈ Finset.range l.length, ya i * xv ^ i) (φ y)) ∧
      ((∀ a ∈ l, fin a) → (l ≠ [] → fin x) → Fp * (Gx * (1 + v) * (1 + u)) ^ l.length *
        ∑ i ∈ Finset.range l.length, (Ya i + Da i + η) * M ^ i ≤ B → fin y)) := by
  have hu := hA.u_nonneg; have hv := hA.v_nonneg; have hη := hA.η_nonneg
  have hH : 1 ≤ Gx * (1 + v) * (1 + u) :=
    one_le_mul_of_one_le_of_one_le (one_le_mul_of_one_le_of_one_le hG (by linarith)) (by linarith)
  intro l
  induction l with
  | nil =>
    intro Da Ya ya
    refine ⟨_, rfl, fun _ => ⟨by simp, by simp⟩, fun _ _ => ⟨fun _ => ?_, fun _ _ _ => hA.zero.2⟩⟩
    simp only [List.length_nil, Finset.range_zero, Finset.sum_empty, sub_zero, pow_zero, mul_one, hA.zero.1]
    exact NApprox.zero' hF
  | cons a l ih =>
    intro Da Ya ya
    obtain ⟨y, e, ih1, ih2⟩ := ih (fun i => Da (i + 1)) (fun i => Ya (i + 1)) (fun i => ya (i + 1))
    obtain ⟨m, em⟩ := hA.never.mul y x
    obtain ⟨w, ew⟩ : ∃ w, AddAssignRef.addAssign m a = .done w := ⟨_, eq_done_of_toRes (by
      simp [Upd.toRes, hA.never.add m a]; rfl)⟩
    obtain ⟨m1, m2⟩ := hA.mul _ _ _ em
    obtain ⟨a1, a2⟩ := hA.add _ _ _ ew
    refine ⟨w, ?_, fun hw => ?_, fun hx hc => ?_⟩
    · rw [List.foldrM_cons, e]
      simp only [bind, Except.bind, em, ew]
      rfl
    · obtain ⟨hm, ha, _⟩ := a1 hw
      obtain ⟨hy, hx, _⟩ := m1 hm
      exact ⟨by simpa using ⟨ha, (ih1 hy).1⟩, fun _ => hx⟩
    · have hx' := hx (by simp)
      have ha0 := hc 0 a rfl
      obtain ⟨i1, i2⟩ := ih2 (fun _ => hx') (fun i a h => hc (i + 1) a (by simpa using h))
      have hZ := hx'.nonneg; have hE := hx'.D_nonneg
      have hYa := ha0.nonneg; have hDa := ha0.D_nonneg
      set H := Gx * (1 + v) * (1 + u) with hHdef
      set P := ∑ i ∈ Finset.range l.length, (Ya (i + 1) + Da (i + 1) + η) * (Z + E) ^ i with hP
      set PM := ∑ i ∈ Finset.range l.length, (Ya (i + 1) + Da (i + 1) + η) * M ^ i with hPM
      set Q := ∑ i ∈ Finset.range l.length, Ya (i + 1) * Z ^ i with hQ
      set q := ∑ i ∈ Finset.range l.length, ya (i + 1) * xv ^ i with hq
      have eP : ∀ t : ℝ, ∑ i ∈ Finset.range (l.length + 1), (Ya i + Da i + η) * t ^ i =
          (∑ i ∈ Finset.range l.length, (Ya (i + 1) + Da (i + 1) + η) * t ^ i) * t + (Ya 0 + Da 0 + η) := by
        intro t
        rw [Finset.sum_range_succ', Finset.sum_mul, pow_zero, mul_one]
        congr 1
        exact Finset.sum_congr rfl fun i _ => by rw [pow_succ]; ring
      have eQ : ∑ i ∈ Finset.range (l.length + 1), Ya i * Z ^ i = Q * Z + Ya 0 := by
        rw [Finset.sum_range_succ', hQ, Finset.sum_mul, pow_zero, mul_one]
        congr 1
        exact Finset.sum_congr rfl fun i _ => by rw [pow_succ]; ring
      have eq' : ∑ i ∈ Finset.range (l.length + 1), ya i * xv ^ i = q * xv + ya 0 := by
        rw [Finset.sum_range_succ', hq, Finset.sum_mul, pow_zero, mul_one]
        congr 1
        exact Finset.sum_congr rfl fun i _ => by rw [pow_succ]; ring
      have hn := one_le_pow₀ hH (n := l.length)
      have hFn : Fp ≤ Fp * H ^ l.length * Gx * (1 + v) := by
        rw [mul_assoc, mul_assoc]
        exact le_mul_of_one_le_right (by linarith) (one_le_mul_of_one_le_of_one_le hn
          (one_le_mul_of_one_le_of_one_le hG (by linarith)))
      have epow : Fp * H ^ l.length * Gx * (1 + v) * (1 + u) = Fp * H ^ (l.length + 1) := by
        rw [pow_succ, hHdef]; ring
      have hP0 : ∀ i ∈ Finset.range l.length, 0 ≤ Ya (i + 1) + Da (i + 1) + η := by
        intro i hi
        have hi := Finset.mem_range.1 hi
        have h1 := hc (i + 1) l[i] (by simp [hi])
        have := h1.nonneg; have := h1.D_nonneg
        linarith
      have hPnn : 0 ≤ P := Finset.sum_nonneg fun i hi => mul_nonneg (hP0 i hi) (by positivity)
      have hPPM : P ≤ PM := Finset.sum_le_sum fun i hi =>
        mul_le_mul_of_nonneg_left (pow_le_pow_left₀ (by positivity) hZM _) (hP0 i hi)
      have hpm : fin m → NApprox (Fp * H ^ l.length * Gx * (1 + v))
          ((P - Q) * E + Q * E + (P - Q) * Z + η) (Q * Z) (q * xv) (φ m) := fun hm =>
        (i1 (m1 hm).1).mulRound hx' hv hη (m1 hm).2.2
      constructor
      · intro hw
        obtain ⟨hm, ha, h3⟩ := a1 hw
        have := (hpm hm).add (ha0.mono hFn le_rfl le_rfl) hu h3
        rw [epow] at this
        rw [List.length_cons, eQ, eq', eP]
        exact this.mono le_rfl (le_of_eq (by ring)) le_rfl
      · intro hl hxf hB
        rw [List.length_cons, eP] at hB
        have hx0 := hxf (by simp)
        have hpow0 : 0 ≤ Fp * H ^ (l.length + 1) := by positivity
        have hpowle : Fp * H ^ l.length ≤ Fp * H ^ (l.length + 1) :=
          mul_le_mul_of_nonneg_left (pow_le_pow_right₀ hH (by omega)) (by linarith)
        have hPMnn : 0 ≤ PM := hPnn.trans hPPM
        have hy : fin y := by
          refine i2 (fun b hb => hl b (by simp [hb])) (fun _ => hx0) (le_trans (mul_le_mul hpowle ?_ hPMnn hpow0) hB)
          have := le_mul_of_one_le_right hPMnn hM
          linarith
        have hyx : P * (Z + E) ≤ PM * M := mul_le_mul hPPM hZM (by positivity) hPMnn
        have hm : fin m := by
          refine m2 hy hx0 (((i1 hy).mulApprox hx').norm_val'.trans (le_trans (mul_le_mul (b := Fp * H ^ (l.length + 1))
            (d := PM * M + (Ya 0 + Da 0 + η)) ?_ ?_ ?_ hpow0) hB))
          · rw [← epow, mul_assoc (Fp * H ^ l.length * Gx)]
            exact le_mul_of_one_le_right (by positivity) (one_le_mul_of_one_le_of_one_le (by linarith) (by linarith))
          · calc _ = P * (Z + E) := by ring
              _ ≤ _ := by linarith
          · calc (0 : ℝ) ≤ P * (Z + E) := by positivity
              _ = _ := by ring
        refine a2 hm (hl a (by simp)) ?_
        have h1 := (hpm hm).norm_val'
        have h2 := (ha0.mono hFn le_rfl le_rfl).norm_val'
        refine (norm_add_le _ _).trans (le_trans (add_le_add h1 h2) (le_trans ?_ hB))
        calc _ = Fp * H ^ l.length * Gx * (1 + v) * (P * (Z + E) + (Ya 0 + Da 0 + η)) := by ring
          _ ≤ _ := mul_le_mul (by rw [← epow]; exact le_mul_of_one_le_right (by positivity) (by linarith)) (by linarith)
            (by positivity) hpow0

end loops

namespace NForm

variable {φ : T → K} {u v η : ℝ}

theorem one_le_factor (hu : 0 ≤ u) (hv : 0 ≤ v) (f : NForm T) : 1 ≤ f.factor u v := by
  have h1 : 1 ≤ 1 + u := by linarith
  have h2 : 1 ≤ 1 + v := by linarith
  induction f with
  | add a b iha ihb => exact one_le_mul_of_one_le_of_one_le (iha.trans (le_max_left _ _)) h1
  | sub a b iha ihb => exact one_le_mul_of_one_le_of_one_le (iha.trans (le_max_left _ _)) h1
  | mul a b iha ihb => exact one_le_mul_of_one_le_of_one_le (one_le_mul_of_one_le_of_one_le iha ihb) h2
  | neg a ih => exact ih
  | eval p x ih =>
    exact one_le_mul_of_one_le_of_one_le (p.one_le_factor hu hv)
      (one_le_pow₀ (one_le_mul_of_one_le_of_one_le (one_le_mul_of_one_le_of_one_le ih h2) h1))
  | _ => exact le_refl _

variable [RRing T] [RAdd T T T] [RSub T T T] [RMul T T T] {fin : T → Prop} {B : ℝ}

theorem eval_good (hA : RingFloat fin φ B u v η) (p : PForm T) (x : NForm T) (r : Poly T) (y : T)
    (hr : p.Good fin φ B u v η r)
    (hy : fin y → x.Uses fin ∧ NApprox (x.factor u v) (x.under η φ) (x.mag φ) (x.den φ) (φ y))
    (hw : x.Within fin B u v η φ → fin y) :
    ∃ z, r.eval y = .ok z ∧ (fin z → (eval p x).Uses fin ∧
      NApprox ((eval p x).factor u v) ((eval p x).under η φ) ((eval p x).mag φ) ((eval p x).den φ) (φ z)) ∧
      ((eval p x).Within fin B u v η φ → fin z) := by
  have hu := hA.u_nonneg; have hv := hA.v_nonneg; have hη := hA.η_nonneg
  obtain ⟨hlen, hco⟩ := hr
  obtain ⟨z, ez, h1, h2⟩ := horner_approx hA y (Fp := p.factor u v) (Gx := x.factor u v) (E := x.under η φ) (Z := x.mag φ)
    (xv := x.den φ) (M := max 1 (x.mag φ + x.under η φ)) (p.one_le_factor hu hv) (x.one_le_factor hu hv)
    (le_max_left _ _) (le_max_right _ _) r.a (fun k => (p.under η φ).coeff k) (fun k => (p.mag φ).coeff k)
    (fun k => (p.den φ).coeff k)
  have e0 : ∀ {l : List T}, l ≠ [] ↔ l.length ≠ 0 := by simp
  have va := fun i hi => (p.vanish (φ := φ) (η := η) i hi)
  have eP : ∀ t : ℝ, ∑ i ∈ Finset.range r.a.length, ((p.mag φ).coeff i + (p.under η φ).coeff i + η) * t ^ i =
      (p.mag φ + p.under η φ + C η * geo p.len).eval t := by
    intro t
    rw [eval_eq_sum (n := p.len) (fun i hi => by
      rw [coeff_add, coeff_add, coeff_C_mul, (va i hi).2.1, (va i hi).2.2, coeff_geo, if_neg (by omega)]; simp), hlen]
    refine Finset.sum_congr rfl fun i hi => ?_
    rw [coeff_add, coeff_add, coeff_C_mul, coeff_geo, if_pos (Finset.mem_range.1 hi), mul_one]
  have eQ : ∑ i ∈ Finset.range r.a.length, (p.mag φ).coeff i * x.mag φ ^ i = (p.mag φ).eval (x.mag φ) := by
    rw [eval_eq_sum (n := p.len) (fun i hi => (va i hi).2.1), hlen]
  have eq' : ∑ i ∈ Finset.range r.a.length, (p.den φ).coeff i * x.den φ ^ i = (p.den φ).eval (x.den φ) := by
    rw [eval_eq_sum (n := p.len) (fun i hi => (va i hi).1), hlen]
  refine ⟨z, ?_, fun hz => ?_, fun w => ?_⟩
  · unfold Poly.eval Poly.evalRef
    rw [List.foldlM_reverse]
    exact ez
  · obtain ⟨f1, f2⟩ := h1 hz
    refine ⟨⟨fun k hk => ?_, fun h0 => (hy (f2 (by rw [e0, hlen]; exact h0))).1⟩, ?_⟩
    · have hk' : k < r.a.length := by rw [hlen]; exact hk
      exact ((hco k _ (List.getElem?_eq_getElem hk')).1 (f1 _ (List.getElem_mem hk'))).1
    · have := (h2 (fun h0 => (hy (f2 h0)).2) (fun i a ha => ((hco i a ha).1 (f1 a (List.mem_of_getElem? ha))).2)).1 hz
      rw [eP, eQ, eq', hlen] at this
      exact this
  · obtain ⟨w1, w2, w3⟩ := w
    have fy := hw w2
    have fa : ∀ a ∈ r.a, fin a := fun a ha => by
      obtain ⟨k, hk⟩ := List.mem_iff_getElem?.1 ha
      exact (hco k a hk).2 w1
    refine (h2 (fun _ => (hy fy).2) (fun i a ha => ((hco i a ha).1 (fa a (List.mem_of_getElem? ha))).2)).2 fa (fun _ => fy) ?_
    rw [eP, hlen]
    exact w3

/-- Computing a formula. -/
theorem run_good (hA : RingFloat fin φ B u v η) (f : NForm T) : ∃ y, f.run = .ok y ∧
    (fin y → f.Uses fin ∧ NApprox (f.factor u v) (f.under η φ) (f.mag φ) (f.den φ) (φ y)) ∧
    (f.Within fin B u v η φ → fin y) := by
  have hu := hA.u_nonneg; have hv := hA.v_nonneg; have hη := hA.η_nonneg
  induction f with
  | num x => exact ⟨x, rfl, fun h => ⟨h, NApprox.exact _⟩, fun h => h⟩
  | zero =>
    refine ⟨_, rfl, fun _ => ⟨trivial, ?_⟩, fun _ => hA.zero.2⟩
    rw [hA.zero.1]
    exact NApprox.zero' (le_refl _)
  | one =>
    refine ⟨_, rfl, fun _ => ⟨trivial, ?_⟩, fun _ => hA.one.2⟩
    rw [hA.one.1]
    have := NApprox.exact (1 : K)
    rw [norm_one] at this
    exact this
  | add a b iha ihb =>
    obtain ⟨x, e1, x1, x2⟩ := iha
    obtain ⟨y, e2, y1, y2⟩ := ihb
    obtain ⟨w, ew⟩ : ∃ w, AddAssignRef.addAssign x y = .done w := ⟨_, eq_done_of_toRes (by
      simp [Upd.toRes, hA.never.add x y]; rfl)⟩
    obtain ⟨a1, a2⟩ := hA.add _ _ _ ew
    have fa := a.one_le_factor hu hv; have fb := b.one_le_factor hu hv
    refine ⟨w, ?_, fun hw => ?_, fun w => ?_⟩
    · simp only [run, e1, e2, bind, Except.bind, hA.addV, ew]; rfl
    · obtain ⟨hx, hy, h3⟩ := a1 hw
      exact ⟨⟨(x1 hx).1, (y1 hy).1⟩, ((x1 hx).2.mono (le_max_left _ (b.factor u v)) le_rfl le_rfl).add
        ((y1 hy).2.mono (le_max_right _ _) le_rfl le_rfl) hu h3⟩
    · obtain ⟨w1, w2, w3⟩ := w
      have hx := x2 w1; have hy := y2 w2
      have hM : a.factor u v ≤ max (a.factor u v) (b.factor u v) * (1 + u) :=
        (le_max_left _ _).trans (le_mul_of_one_le_right (by positivity) (by linarith))
      have hM' : b.factor u v ≤ max (a.factor u v) (b.factor u v) * (1 + u) :=
        (le_max_right _ _).trans (le_mul_of_one_le_right (by positivity) (by linarith))
      have n1 := ((x1 hx).2.mono hM le_rfl le_rfl).norm_val'
      have n2 := ((y1 hy).2.mono hM' le_rfl le_rfl).norm_val'
      refine a2 hx hy ((norm_add_le _ _).trans (le_trans (add_le_add n1 n2) (le_trans (le_of_eq ?_) w3)))
      simp only [factor, under, mag]
      ring
  | sub a b iha ihb =>
    obtain ⟨x, e1, x1, x2⟩ := iha
    obtain ⟨y, e2, y1, y2⟩ := ihb
    obtain ⟨w, ew, a1, a2⟩ := hA.sub x y
    have fa := a.one_le_factor hu hv; have fb := b.one_le_factor hu hv
    refine ⟨w, ?_, fun hw => ?_, fun w => ?_⟩
    · simp only [run, e1, e2, bind, Except.bind, ew]
    · obtain ⟨hx, hy, h3⟩ := a1 hw
      exact ⟨⟨(x1 hx).1, (y1 hy).1⟩, ((x1 hx).2.mono (le_max_left _ (b.factor u v)) le_rfl le_rfl).sub
        ((y1 hy).2.mono (le_max_right _ _) le_rfl le_rfl) hu h3⟩
    · obtain ⟨w1, w2, w3⟩ := w
      have hx := x2 w1; have hy := y2 w2
      have hM : a.factor u v ≤ max (a.factor u v) (b.factor u v) * (1 + u) :=
        (le_max_left _ _).trans (le_mul_of_one_le_right (by positivity) (by linarith))
      have hM' : b.factor u v ≤ max (a.factor u v) (b.factor u v) * (1 + u) :=
        (le_max_right _ _).trans (le_mul_of_one_le_right (by positivity) (by linarith))
      have n1 := ((x1 hx).2.mono hM le_rfl le_rfl).norm_val'
      have n2 := ((y1 hy).2.mono hM' le_rfl le_rfl).norm_val'
      refine a2 hx hy ((norm_sub_le _ _).trans (le_trans (add_le_add n1 n2) (le_trans (le_of_eq ?_) w3)))
      simp only [factor, under, mag]
      ring
  | neg a ih =>
    obtain ⟨x, e1, x1, x2⟩ := ih
    obtain ⟨w, ew⟩ := hA.never.neg x
    obtain ⟨n1, n2⟩ := hA.neg x w ew
    refine ⟨w, ?_, fun hw => ⟨(x1 (n2.1 hw)).1, ?_⟩, fun w => n2.2 (x2 w)⟩
    · simp only [run, e1, bind, Except.bind, ew]
    · rw [n1]; exact (x1 (n2.1 hw)).2.neg
  | mul a b iha ihb =>
    obtain ⟨x, e1, x1, x2⟩ := iha
    obtain ⟨y, e2, y1, y2⟩ := ihb
    obtain ⟨w, ew⟩ := hA.never.mul x y
    obtain ⟨a1, a2⟩ := hA.mul _ _ _ ew
    have fa := a.one_le_factor hu hv; have fb := b.one_le_factor hu hv
    refine ⟨w, ?_, fun hw => ?_, fun w => ?_⟩
    · simp only [run, e1, e2, bind, Except.bind, hA.mulV, ew]
    · obtain ⟨hx, hy, h3⟩ := a1 hw
      exact ⟨⟨(x1 hx).1, (y1 hy).1⟩, (x1 hx).2.mulRound (y1 hy).2 hv hη h3⟩
    · obtain ⟨w1, w2, w3⟩ := w
      have hx := x2 w1; have hy := y2 w2
      have nx := (x1 hx).2; have ny := (y1 hy).2
      have := nx.nonneg; have := ny.nonneg; have := nx.D_nonneg; have := ny.D_nonneg
      refine a2 hx hy ((nx.mulApprox ny).norm_val'.trans (le_trans (mul_le_mul
        (le_mul_of_one_le_right (b := 1 + v) (by positivity) (by linarith)) ?_ (by positivity) (by positivity)) w3))
      simp only [under, mag]
      linarith
  | eval p x ih =>
    obtain ⟨y, e1, y1, y2⟩ := ih
    obtain ⟨r, e2, hr⟩ := p.run_good hA
    obtain ⟨z, ez, z1, z2⟩ := eval_good hA p x r y hr y1 y2
    refine ⟨z, ?_, z1, z2⟩
    simp only [run, e1, e2, bind, Except.bind]
    exact ez

end NForm

end Magnesia
