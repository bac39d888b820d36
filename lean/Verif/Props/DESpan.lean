import Verif.Props.DEIeee
import Mathlib.Algebra.BigOperators.Group.Finset.Basic
import Mathlib.Algebra.BigOperators.Ring.Finset
import Mathlib.Algebra.BigOperators.Fin

/-!
# C68: the optimizer never leaves the span of its population

Trial points are combinations of population members, so whatever all members have in common, all later points have.
-/

namespace Magnesia

open RZero ROne

section generic

variable {T P G S : Type} {N n : ℕ} [RPartialOrd P] [RZero P] [ROne P] [RPartialOrd T] [RAdd T T T] [RSub T T T] [RMul T T T]
  [FromI8 T]
variable {bounds : Fin N → T × T} {cp : P} {w : T} {iters : ℕ} {result : Pt T N}

/-- A property of points which the trial points of a population inherit from its members, once all members have it, stays
with the population, the compared points and the result. -/
theorem explains_closed {J : Pt T N → Prop}
    (hJ : ∀ (pop : Fin n → Pt T N) (i : Fin n) (x : Pt T N), (∀ j, J (pop j)) → IsTrial cp w pop i x → J x)
    {R : DERun T N n} {hn : 0 < n} {calls : List (Call T N)} (hR : R.Explains hn bounds cp w iters calls result)
    {t0 : ℕ} (h0 : t0 ≤ iters) (h : ∀ i, J (R.pop t0 i)) :
    (∀ t, t0 ≤ t → t ≤ iters → ∀ i, J (R.pop t i)) ∧ J result ∧ ∀ call ∈ calls.drop t0, J call.a ∧ J call.b := by
  have key : ∀ t, t0 ≤ t → t ≤ iters → ∀ i, J (R.pop t i) := by
    intro t ht
    induction t, ht using Nat.le_induction with
    | base => intro _; exact h
    | succ t ht ih =>
      intro hi i
      rw [hR.step t (by omega)]
      cases R.answer t with
      | false => exact ih (by omega) i
      | true =>
        rw [if_pos rfl]
        by_cases his : i = slot hn t
        · rw [his, Function.update_self]
          exact hJ _ _ _ (ih (by omega)) (hR.trial t (by omega))
        · rw [Function.update_of_ne his]; exact ih (by omega) i
  have fin : ∀ y, y ∈ Finset.univ.val.map (R.pop iters) → J y := by
    intro y hy
    obtain ⟨i, _, rfl⟩ := Multiset.mem_map.1 hy
    exact key iters h0 (le_refl _) i
  refine ⟨key, fin _ hR.knockout.mem, fun call hcall => ?_⟩
  rw [hR.calls_eq, List.drop_append_of_le_length (by simpa using h0), List.mem_append] at hcall
  rcases hcall with hcall | hcall
  · rw [← List.map_drop] at hcall
    obtain ⟨t, ht, rfl⟩ := List.mem_map.1 hcall
    obtain ⟨k, hk, rfl⟩ := List.mem_iff_getElem.1 ht
    simp only [List.length_drop, List.length_range] at hk
    simp only [List.getElem_drop, List.getElem_range]
    exact ⟨hJ _ _ _ (key _ (by omega) (by omega)) (hR.trial _ (by omega)), key _ (by omega) (by omega) _⟩
  · exact ⟨fin _ (hR.knockout.calls_mem _ hcall).1, fin _ (hR.knockout.calls_mem _ hcall).2⟩

end generic

section Ring

variable {P G S : Type} {N n : ℕ} [RPartialOrd P] [RZero P] [ROne P]
variable {K : Type} [CommRing K] [LinearOrder K] {env : DEnv (Exact K) P N G S}
  {fuel : ℕ} {bounds : Fin N → Exact K × Exact K} {cp : P} {w : Exact K} {iters : ℕ} {result : Pt (Exact K) N}
  {s s' : DEWorld (Exact K) N G S}

/-- C68: once all members of the population agree in a coordinate, this coordinate never changes again: all points compared
from then on have it, and so does the result. For every comparator. -/
theorem C68_coordinate (hc : env.RandContract) (h : env.optimize fuel bounds n cp w iters s = (.ok result, s')) :
    ∃ (hn : 0 < n) (R : DERun (Exact K) N n) (calls : List (Call (Exact K) N)), s'.log = s.log ++ calls ∧
      env.Drawn bounds s.rng (R.pop 0) ∧ R.Explains hn bounds cp w iters calls result ∧
      ∀ t ≤ iters, ∀ (c : Fin N) (v : K), (∀ i, (R.pop t i c).val = v) →
        (result c).val = v ∧ ∀ call ∈ calls.drop t, (call.a c).val = v ∧ (call.b c).val = v := by
  obtain ⟨hn, R, calls, h1, h2, h3, h4, _⟩ := DEnv.optimize_ok hc h
  refine ⟨hn, R, calls, h1, h3, h4, fun t ht c v hv =>
    (explains_closed (J := fun x => (x c).val = v) ?_ h4 ht hv).2⟩
  rintro pop i x hp ⟨j, k, l, r, m, _, _, hm1, hm2, _⟩
  cases hmc : m c with
  | true =>
    have hx : (x c).val = (pop j c).val + ((pop k c).val - (pop l c).val) * w.val := by
      rw [← Except.ok.inj (hm1 c hmc)]
    rw [hx, hp, hp, hp]; ring
  | false => rw [hm2 c hmc]; exact hp i

/-- C68: a population that has collapsed to a single point stays there: that point is returned. -/
theorem C68_collapsed (hc : env.RandContract) (h : env.optimize fuel bounds n cp w iters s = (.ok result, s')) :
    ∃ (hn : 0 < n) (R : DERun (Exact K) N n) (calls : List (Call (Exact K) N)), s'.log = s.log ++ calls ∧
      env.Drawn bounds s.rng (R.pop 0) ∧ R.Explains hn bounds cp w iters calls result ∧
      ∀ t ≤ iters, ∀ x, (∀ i, R.pop t i = x) → result = x := by
  obtain ⟨hn, R, calls, h1, h3, h4, h5⟩ := C68_coordinate hc h
  refine ⟨hn, R, calls, h1, h3, h4, fun t ht x hx => funext fun c => Exact.ext ?_⟩
  exact (h5 t ht c (x c).val fun i => by rw [hx i]).1

/-- C68: with crossover probability 1, every linear equation that all members of the population satisfy (at the beginning,
or at any later time) is satisfied by all points compared from then on, and by the result: the search is confined to the
affine subspace spanned by the population. -/
theorem C68_affine_span (hc : env.RandContract) (h : env.optimize fuel bounds n (one : P) w iters s = (.ok result, s')) :
    ∃ (hn : 0 < n) (R : DERun (Exact K) N n) (calls : List (Call (Exact K) N)), s'.log = s.log ++ calls ∧
      env.Drawn bounds s.rng (R.pop 0) ∧ R.Explains hn bounds (one : P) w iters calls result ∧
      ∀ t ≤ iters, ∀ (α : Fin N → K) (β : K), (∀ i, ∑ c, α c * (R.pop t i c).val = β) →
        ∑ c, α c * (result c).val = β ∧
        ∀ call ∈ calls.drop t, ∑ c, α c * (call.a c).val = β ∧ ∑ c, α c * (call.b c).val = β := by
  obtain ⟨hn, R, calls, h1, h2, h3, h4, _⟩ := DEnv.optimize_ok hc h
  refine ⟨hn, R, calls, h1, h3, h4, fun t ht α β hv =>
    (explains_closed (J := fun x => ∑ c, α c * (x c).val = β) ?_ h4 ht hv).2⟩
  rintro pop i x hp ⟨j, k, l, r, m, _, hr, hm1, _, hm3⟩
  have hx : ∀ c, (x c).val = (pop j c).val + ((pop k c).val - (pop l c).val) * w.val := by
    intro c
    have hmc : m c = true := by
      by_cases hcr : c = r
      · rw [hcr]; exact hr
      · obtain ⟨u, _, hu2, hu3⟩ := hm3 c hcr
        rw [hu3, hu2]
    rw [← Except.ok.inj (hm1 c hmc)]
  have : ∑ c, α c * (x c).val = ∑ c, α c * (pop j c).val +
      (∑ c, α c * (pop k c).val - ∑ c, α c * (pop l c).val) * w.val := by
    rw [← Finset.sum_sub_distrib, Finset.sum_mul, ← Finset.sum_add_distrib]
    refine Finset.sum_congr rfl fun c _ => ?_
    rw [hx c]; ring
  rw [this, hp, hp, hp]; ring

/-- C68: with an integer weight (0, 1 or 2) a coordinate that starts on a grid stays on the grid. -/
theorem C68_grid (hc : env.RandContract) (h : env.optimize fuel bounds n cp w iters s = (.ok result, s'))
    (m : ℤ) (hw : w.val = m) :
    ∃ (hn : 0 < n) (R : DERun (Exact K) N n) (calls : List (Call (Exact K) N)), s'.log = s.log ++ calls ∧
      env.Drawn bounds s.rng (R.pop 0) ∧ R.Explains hn bounds cp w iters calls result ∧
      ∀ t ≤ iters, ∀ (c : Fin N) (o d : K), (∀ i, ∃ z : ℤ, (R.pop t i c).val = o + d * z) →
        (∃ z : ℤ, (result c).val = o + d * z) ∧
        ∀ call ∈ calls.drop t, (∃ z : ℤ, (call.a c).val = o + d * z) ∧ ∃ z : ℤ, (call.b c).val = o + d * z := by
  obtain ⟨hn, R, calls, h1, h2, h3, h4, _⟩ := DEnv.optimize_ok hc h
  refine ⟨hn, R, calls, h1, h3, h4, fun t ht c o d hv =>
    (explains_closed (J := fun x => ∃ z : ℤ, (x c).val = o + d * z) ?_ h4 ht hv).2⟩
  rintro pop i x hp ⟨j, k, l, r, mu, _, _, hm1, hm2, _⟩
  cases hmc : mu c with
  | true =>
    have hx : (x c).val = (pop j c).val + ((pop k c).val - (pop l c).val) * w.val := by
      rw [← Except.ok.inj (hm1 c hmc)]
    obtain ⟨z1, e1⟩ := hp j
    obtain ⟨z2, e2⟩ := hp k
    obtain ⟨z3, e3⟩ := hp l
    refine ⟨z1 + (z2 - z3) * m, ?_⟩
    rw [hx, e1, e2, e3, hw]; push_cast; ring
  | false => rw [hm2 c hmc]; exact hp i

end Ring

section Float

variable {E F : Fmt} {G S : Type} {N n : ℕ} {env : DEnv (Ieee F) (Ieee E) N G S}
variable {fuel : ℕ} {bounds : Fin N → Ieee F × Ieee F} {cp : Ieee E} {w : Ieee F} {iters : ℕ} {result : Pt (Ieee F) N}
  {s s' : DEWorld (Ieee F) N G S}

/-- C68 for floating point coordinates: once all members of the population have the same finite number as their coordinate
(zeros of either sign count as the same number), it never changes again. No overflow or rounding can interfere. -/
theorem C68_float (hc : env.RandContract) (h : env.optimize fuel bounds n cp w iters s = (.ok result, s')) :
    ∃ (hn : 0 < n) (R : DERun (Ieee F) N n) (calls : List (Call (Ieee F) N)), s'.log = s.log ++ calls ∧
      env.Drawn bounds s.rng (R.pop 0) ∧ R.Explains hn bounds cp w iters calls result ∧
      ∀ t ≤ iters, ∀ (c : Fin N) (v : ℚ), (∀ i, (R.pop t i c).Finite ∧ (R.pop t i c).value = v) →
        ((result c).Finite ∧ (result c).value = v) ∧
        ∀ call ∈ calls.drop t, ((call.a c).Finite ∧ (call.a c).value = v) ∧ (call.b c).Finite ∧ (call.b c).value = v := by
  obtain ⟨_, _, hwf, _⟩ := (C53_params n cp w).1 (C37_valid_of_returns h)
  obtain ⟨hn, R, calls, h1, h2, h3, h4, _⟩ := DEnv.optimize_ok hc h
  refine ⟨hn, R, calls, h1, h3, h4, fun t ht c v hv =>
    (explains_closed (J := fun x => (x c).Finite ∧ (x c).value = v) ?_ h4 ht hv).2⟩
  rintro pop i x hp ⟨j, k, l, r, m, _, _, hm1, hm2, _⟩
  cases hmc : m c with
  | true =>
    rw [trial_ieee (hm1 c hmc)]
    have hs : ((pop k c).sub (pop l c)).Finite ∧ ((pop k c).sub (pop l c)).value = 0 := by
      have hf : ((pop k c).sub (pop l c)).Finite := by
        rw [Ieee.sub_finite_iff (hp k).1 (hp l).1, (hp k).2, (hp l).2, sub_self, F.roundQ_zero, abs_zero]
        positivity
      refine ⟨hf, ?_⟩
      rw [(Ieee.sub_finite hf).2.2, (hp k).2, (hp l).2, sub_self, F.roundQ_zero]
    obtain ⟨m1, m2⟩ := Ieee.mul_zero_value hs.1 hwf (.inl hs.2)
    obtain ⟨r1, r2⟩ := Ieee.add_value_zero (hp j).1 m1 m2
    exact ⟨r1, r2.trans (hp j).2⟩
  | false => rw [hm2 c hmc]; exact hp i

/-- C68: a floating point population that has collapsed to a single point `x` with finite coordinates stays there: the
result compares equal (`==`) to `x` in every coordinate. -/
theorem C68_float_collapsed (hc : env.RandContract) (h : env.optimize fuel bounds n cp w iters s = (.ok result, s')) :
    ∃ (hn : 0 < n) (R : DERun (Ieee F) N n) (calls : List (Call (Ieee F) N)), s'.log = s.log ++ calls ∧
      env.Drawn bounds s.rng (R.pop 0) ∧ R.Explains hn bounds cp w iters calls result ∧
      ∀ t ≤ iters, ∀ x : Pt (Ieee F) N, (∀ c, (x c).Finite) → (∀ i, R.pop t i = x) →
        ∀ c, (result c).feq (x c) = true := by
  obtain ⟨hn, R, calls, h1, h3, h4, h5⟩ := C68_float hc h
  refine ⟨hn, R, calls, h1, h3, h4, fun t ht x hf hx c => ?_⟩
  obtain ⟨⟨g1, g2⟩, _⟩ := h5 t ht c (x c).value fun i => by rw [hx i]; exact ⟨hf c, rfl⟩
  exact (Ieee.feq_value g1 (hf c)).2 g2

end Float

end Magnesia
