import Verif.Spec.Minimise
import Verif.Props.AckleyIeee
import Verif.Props.Ackley
import Verif.Props.DEIeee
import Verif.Props.DERel

/-!
# Property C61: minimising the Ackley function with the optimizer, end to end
-/

namespace Magnesia

open RZero ROne AckleyLib

/-! ### The real function -/

theorem ackley_le_15 {x y : ℝ} (hx : |x| ≤ 5) (hy : |y| ≤ 5) : SReal.ackley x y ≤ 15 := by
  rw [C46_textbook]
  have h1 : √((x ^ 2 + y ^ 2) / 2) ≤ 5 := by
    rw [Real.sqrt_le_left (by norm_num)]
    have a := sq_le_sq' (abs_le.1 hx).1 (abs_le.1 hx).2
    have b := sq_le_sq' (abs_le.1 hy).1 (abs_le.1 hy).2
    linarith
  have h2 : Real.exp (-1) ≤ Real.exp (-(1 / 5) * √((x ^ 2 + y ^ 2) / 2)) := Real.exp_le_exp.2 (by linarith)
  have h3 : Real.exp (-1) ≤ Real.exp ((Real.cos (2 * Real.pi * x) + Real.cos (2 * Real.pi * y)) / 2) :=
    Real.exp_le_exp.2 (by linarith [Real.neg_one_le_cos (2 * Real.pi * x), Real.neg_one_le_cos (2 * Real.pi * y)])
  have h4 := Real.exp_neg_one_gt_d9
  have h5 := Real.exp_one_lt_d9
  norm_num at h4 h5
  linarith

/-- Far from the origin the value is large. -/
theorem ackley_far {x y r : ℝ} (hr : 0 ≤ r) (h : r ≤ |x| ∨ r ≤ |y|) :
    20 * (1 - Real.exp (-(0.14142 * r))) ≤ SReal.ackley x y := by
  rw [C46_textbook]
  have h1 : 0.7071 * r ≤ √((x ^ 2 + y ^ 2) / 2) := by
    apply Real.le_sqrt_of_sq_le
    have : r ^ 2 ≤ x ^ 2 + y ^ 2 := by
      rcases h with h | h
      · have := pow_le_pow_left₀ hr h 2
        rw [sq_abs] at this; nlinarith
      · have := pow_le_pow_left₀ hr h 2
        rw [sq_abs] at this; nlinarith
    norm_num
    nlinarith [sq_nonneg r]
  have h2 : Real.exp (-(1 / 5) * √((x ^ 2 + y ^ 2) / 2)) ≤ Real.exp (-(0.14142 * r)) :=
    Real.exp_le_exp.2 (by norm_num at h1 ⊢; linarith)
  linarith [(ackley_parts x y).2]

theorem ackley_far_10 {x y : ℝ} (h : SReal.ackley x y ≤ 15.09) : |x| ≤ 10 ∧ |y| ≤ 10 := by
  have key : ¬ (10 ≤ |x| ∨ 10 ≤ |y|) := by
    intro hf
    have h1 := ackley_far (by norm_num) hf
    have h2 : Real.exp (-(0.14142 * 10)) ≤ 1 / 4.077 := by
      rw [Real.exp_neg, ← one_div]
      apply one_div_le_one_div_of_le (by norm_num)
      have e : Real.exp (0.14142 * 10) = Real.exp 1 * Real.exp 0.4142 := by rw [← Real.exp_add]; norm_num
      rw [e]
      have a := Real.exp_one_gt_d9
      have b := Real.quadratic_le_exp_of_nonneg (show (0 : ℝ) ≤ 0.4142 by norm_num)
      norm_num at a b ⊢
      nlinarith
    norm_num at h h1 h2
    linarith
  push Not at key
  exact ⟨key.1.le, key.2.le⟩

theorem ackley_near {x y : ℝ} (h : SReal.ackley x y ≤ 0.2785) : |x| < 0.1 ∧ |y| < 0.1 := by
  have key : ¬ (0.1 ≤ |x| ∨ 0.1 ≤ |y|) := by
    intro hf
    have h1 := ackley_far (by norm_num) hf
    have h2 : Real.exp (-(0.14142 * 0.1)) ≤ 1 / 1.014142 := by
      rw [Real.exp_neg, ← one_div]
      apply one_div_le_one_div_of_le (by norm_num)
      have := Real.add_one_le_exp (0.14142 * 0.1 : ℝ)
      norm_num at this ⊢
      linarith
    norm_num at h h1 h2
    linarith
  push Not at key
  exact key

/-! ### Trial points stay within the fivefold square -/

theorem Fmt.abs_roundQ_le_rep (F : Fmt) {x m : ℚ} (hm : F.Representable m) (h : |x| ≤ m) : |F.roundQ x| ≤ m :=
  abs_le.2 ⟨F.le_roundQ_of_representable (F.representable_neg hm) (abs_le.1 h).1,
    F.roundQ_le_of_representable hm (abs_le.1 h).2⟩

theorem trial_bound {a b d w : Ieee .f32} (ha : a.Finite ∧ |a.value| ≤ 10) (hb : b.Finite ∧ |b.value| ≤ 10)
    (hd : d.Finite ∧ |d.value| ≤ 10) (hw : w.Finite) (h0 : 0 ≤ w.value) (h2 : w.value ≤ 2) :
    (a.add ((b.sub d).mul w)).Finite ∧ |(a.add ((b.sub d).mul w)).value| ≤ 50 := by
  have r20 : Fmt.f32.Representable 20 := ⟨⟨20, 0, by norm_num, by decide, by decide⟩, by norm_num [Fmt.f32]⟩
  have r40 : Fmt.f32.Representable 40 := ⟨⟨40, 0, by norm_num, by decide, by decide⟩, by norm_num [Fmt.f32]⟩
  have r50 : Fmt.f32.Representable 50 := ⟨⟨50, 0, by norm_num, by decide, by decide⟩, by norm_num [Fmt.f32]⟩
  have s0 : |b.value - d.value| ≤ 20 := (abs_sub _ _).trans (by linarith [hb.2, hd.2])
  obtain ⟨s1, s2⟩ := Ieee.sub_moderate (k := 6) hb.1 hd.1 (by decide) (by decide) (s0.trans (by norm_num))
  have s3 := Fmt.f32.abs_roundQ_le_rep r20 s0
  rw [← s2] at s3
  have m0 : |(b.sub d).value * w.value| ≤ 40 := by
    rw [abs_mul, abs_of_nonneg h0]
    have := abs_nonneg (b.sub d).value
    nlinarith
  obtain ⟨m1, m2⟩ := Ieee.mul_moderate (k := 6) s1 hw (by decide) (by decide) (m0.trans (by norm_num))
  have m3 := Fmt.f32.abs_roundQ_le_rep r40 m0
  rw [← m2] at m3
  have t0 : |a.value + ((b.sub d).mul w).value| ≤ 50 := (abs_add_le _ _).trans (by linarith [ha.2])
  obtain ⟨t1, t2⟩ := Ieee.add_moderate (k := 6) ha.1 m1 (by decide) (by decide) (t0.trans (by norm_num))
  exact ⟨t1, by rw [t2]; exact Fmt.f32.abs_roundQ_le_rep r50 t0⟩

/-! ### The runs -/

variable {L : AckleyLib} {G S : Type} {n : ℕ} {env : DEnv (Ieee .f32) (Ieee .f32) 2 G S}
variable {fuel : ℕ} {bounds : Fin 2 → Ieee .f32 × Ieee .f32} {cp w : Ieee .f32} {iters : ℕ} {result : Pt (Ieee .f32) 2}
  {s s' : DEWorld (Ieee .f32) 2 G S}

theorem InSquare.mono {p : Pt (Ieee .f32) 2} {r r' : ℚ} (h : InSquare r p) (hr : r ≤ r') : InSquare r' p :=
  fun c => ⟨(h c).1, (h c).2.trans hr⟩

/-- The function is accurate at a point of a square. -/
theorem ackleyAt_acc (hL : L.Decent) {p : Pt (Ieee .f32) 2} (hp : InSquare 50 p) : (ackleyAt L p).Finite ∧
    |((ackleyAt L p).value : ℝ) - SReal.ackley (p 0).value (p 1).value| ≤ 0.0256 := by
  obtain ⟨ε, θ, hε, hθ, hs, h⟩ := hL
  obtain ⟨h1, h2⟩ := C60_accuracy_wide L (B := 50) hε hθ hs h (p 0) (p 1) (hp 0).1 (hp 1).1 (by norm_num) (by norm_num)
    (by exact_mod_cast (hp 0).2) (by exact_mod_cast (hp 1).2)
  refine ⟨h1, h2.trans ?_⟩
  norm_num at hs ⊢
  linarith

theorem ackley_run_invariant (hL : L.Decent) (hA : AckleyRun L env bounds)
    (hw : w.Finite ∧ 0 ≤ w.value ∧ w.value ≤ 2) {R : DERun (Ieee .f32) 2 n} {hn : 0 < n} {calls : List (Call (Ieee .f32) 2)}
    (hR : R.Explains hn bounds cp w iters calls result) (hh : env.Honest calls) :
    (∀ t ≤ iters, ∀ i, InSquare 10 (R.pop t i)) ∧ ∀ t < iters, InSquare 50 (R.trial t) := by
  have trial : ∀ t < iters, (∀ i, InSquare 10 (R.pop t i)) → InSquare 50 (R.trial t) := by
    intro t ht hpop c
    obtain ⟨j, k, l, r, m, _, _, hm1, hm2, _⟩ := hR.trial t ht
    cases hmc : m c with
    | true =>
      rw [trial_ieee (hm1 c hmc)]
      exact trial_bound (hpop j c) (hpop k c) (hpop l c) hw.1 hw.2.1 hw.2.2
    | false =>
      rw [hm2 c hmc]
      exact ((hpop (slot hn t)).mono (by norm_num)) c
  have key : ∀ t ≤ iters, ∀ i, InSquare 10 (R.pop t i) ∧ ((ackleyAt L (R.pop t i)).value : ℝ) ≤ 15.03 := by
    intro t
    induction t with
    | zero =>
      intro _ i
      have h5 : InSquare 5 (R.pop 0 i) := by
        intro c
        obtain ⟨g1, g2⟩ := hR.initial i c
        obtain ⟨g3, g4, g5⟩ := Ieee.between_finite (hA.lower c).1 (hA.upper c).1 g1 g2
        refine ⟨g3, abs_le.2 ⟨?_, ?_⟩⟩
        · have := (abs_le.1 (hA.lower c).2).1; linarith
        · have := (abs_le.1 (hA.upper c).2).2; linarith
      refine ⟨h5.mono (by norm_num), ?_⟩
      obtain ⟨_, h2⟩ := ackleyAt_acc hL (h5.mono (by norm_num))
      have h3 := ackley_le_15 (x := (R.pop 0 i 0).value) (y := (R.pop 0 i 1).value) (by exact_mod_cast (h5 0).2)
        (by exact_mod_cast (h5 1).2)
      have := (abs_le.1 h2).2
      norm_num at this ⊢
      linarith
    | succ t ih =>
      intro ht i
      have ih := ih (by omega)
      rw [hR.step t (by omega)]
      have ha := explains_answer hA.compares hR hh t (by omega)
      cases hans : R.answer t with
      | false => exact ih i
      | true =>
        rw [if_pos rfl]
        by_cases his : i = slot hn t
        · rw [his, Function.update_self]
          have hsq := trial t (by omega) (fun i => (ih i).1)
          obtain ⟨f1, e1⟩ := ackleyAt_acc hL hsq
          obtain ⟨f2, _⟩ := ackleyAt_acc hL ((ih (slot hn t)).1.mono (show (10 : ℚ) ≤ 50 by norm_num))
          rw [hans] at ha
          have hlt := (Ieee.flt_value f1 f2).1 ha.symm
          have hlt' : ((ackleyAt L (R.trial t)).value : ℝ) < (ackleyAt L (R.pop t (slot hn t))).value := by exact_mod_cast hlt
          have hv := (ih (slot hn t)).2
          obtain ⟨g1, g2⟩ := ackley_far_10 (x := (R.trial t 0).value) (y := (R.trial t 1).value) (by
            have := (abs_le.1 e1).1
            norm_num at this hv ⊢
            linarith)
          refine ⟨fun c => ⟨(hsq c).1, ?_⟩, by linarith⟩
          match c with
          | 0 => exact_mod_cast g1
          | 1 => exact_mod_cast g2
        · rw [Function.update_of_ne his]; exact ih i
  exact ⟨fun t ht i => (key t ht i).1, fun t ht => trial t ht (fun i => (key t ht.le i).1)⟩

theorem ackley_calls (hL : L.Decent) (hA : AckleyRun L env bounds)
    (hw : w.Finite ∧ 0 ≤ w.value ∧ w.value ≤ 2) {R : DERun (Ieee .f32) 2 n} {hn : 0 < n} {calls : List (Call (Ieee .f32) 2)}
    (hR : R.Explains hn bounds cp w iters calls result) (hh : env.Honest calls) :
    InSquare 10 result ∧ ∀ call ∈ calls, InSquare 50 call.a ∧ InSquare 10 call.b := by
  obtain ⟨h1, h2⟩ := ackley_run_invariant hL hA hw hR hh
  have hp : ∀ y ∈ (Finset.univ.val.map (R.pop iters) : Multiset _), InSquare 10 y := by
    intro y hy
    obtain ⟨i, _, rfl⟩ := Multiset.mem_map.1 hy
    exact h1 iters le_rfl i
  refine ⟨hp _ hR.knockout.mem, fun call hcall => ?_⟩
  rw [hR.calls_eq] at hcall
  rcases List.mem_append.1 hcall with hc | hc
  · obtain ⟨t, ht, rfl⟩ := List.mem_map.1 hc
    have ht : t < iters := by simpa using ht
    exact ⟨h2 t ht, h1 t ht.le _⟩
  · obtain ⟨g1, g2⟩ := hR.knockout.calls_mem call hc
    exact ⟨(hp _ g1).mono (by norm_num), hp _ g2⟩

/-- C61: the search never runs away, however many iterations are made and whatever random numbers are drawn: all points kept
have coordinates within `-10..10`, all points tried within `-50..50`. No overflow and no NaN occurs in any coordinate. -/
theorem C61_confined (hL : L.Decent) (hA : AckleyRun L env bounds)
    (h : env.optimize fuel bounds n cp w iters s = (.ok result, s')) :
    InSquare 10 result ∧ ∃ calls, s'.log = s.log ++ calls ∧ ∀ call ∈ calls, InSquare 50 call.a ∧ InSquare 10 call.b := by
  obtain ⟨_, _, hw⟩ := (C53_params n cp w).1 (C37_valid_of_returns h)
  obtain ⟨hn, R, calls, h1, h2, h3, h4, _⟩ := DEnv.optimize_ok hA.contract h
  obtain ⟨k1, k2⟩ := ackley_calls hL hA hw h4 h2
  exact ⟨k1, calls, h1, k2⟩

/-- C61: the returned point is the best of all points ever compared: the computed value there is at most the computed value
at each of them, and none of the values is NaN or infinite. -/
theorem C61_best (hL : L.Decent) (hA : AckleyRun L env bounds)
    (h : env.optimize fuel bounds n cp w iters s = (.ok result, s')) {calls : List (Call (Ieee .f32) 2)}
    (hl : s'.log = s.log ++ calls) {p : Pt (Ieee .f32) 2} (hp : ∃ call ∈ calls, p = call.a ∨ p = call.b) :
    (ackleyAt L result).Finite ∧ (ackleyAt L p).Finite ∧ (ackleyAt L result).value ≤ (ackleyAt L p).value := by
  obtain ⟨_, _, hw⟩ := (C53_params n cp w).1 (C37_valid_of_returns h)
  obtain ⟨hn, R, calls', h1, h2, h3, h4, _⟩ := DEnv.optimize_ok hA.contract h
  rw [hl] at h1
  obtain rfl := List.append_cancel_left h1
  obtain ⟨k1, k2⟩ := ackley_calls hL hA hw h4 h2
  have fr := (ackleyAt_acc hL (k1.mono (by norm_num))).1
  have hf : ∀ i, ackleyAt L (R.pop 0 i) ≠ .nan := by
    intro i hx
    have := (ackley_run_invariant hL hA hw h4 h2).1 0 (Nat.zero_le _) i
    have := (ackleyAt_acc hL (this.mono (by norm_num))).1
    rw [hx] at this
    exact this
  obtain ⟨_, _, calls', h5, h6⟩ := C53_minimum (ackleyAt L) hA.contract hA.compares (R.pop 0) h3 hf h
  rw [hl] at h5
  obtain rfl := List.append_cancel_left h5
  obtain ⟨call, hc, hp⟩ := hp
  obtain ⟨q1, q2⟩ := k2 call hc
  obtain ⟨_, r2, r3⟩ := h6 call hc
  have fa := (ackleyAt_acc hL q1).1
  have fb := (ackleyAt_acc hL (q2.mono (by norm_num))).1
  rcases hp with rfl | rfl
  · exact ⟨fr, fa, (Ieee.fle_value fr fa).1 (r3 (by intro hx; rw [hx] at fa; exact fa))⟩
  · exact ⟨fr, fb, (Ieee.fle_value fr fb).1 r2⟩

/-- C61: compared with the real Ackley function: no point ever compared is better than the returned point by more than twice
the error of one evaluation. -/
theorem C61_real {ε θ : ℝ} (hε : 0 ≤ ε) (hθ : 0 ≤ θ) (hs : ε + θ ≤ 1 / 2 ^ 10) (hL : L.Accurate ε θ) (hA : AckleyRun L env bounds)
    (h : env.optimize fuel bounds n cp w iters s = (.ok result, s')) {calls : List (Call (Ieee .f32) 2)}
    (hl : s'.log = s.log ++ calls) {p : Pt (Ieee .f32) 2} (hp : ∃ call ∈ calls, p = call.a ∨ p = call.b) :
    SReal.ackley (result 0).value (result 1).value ≤
      SReal.ackley (p 0).value (p 1).value + 2 * (2306 / 2 ^ 24 + 26 * (ε + θ)) := by
  have hD : L.Decent := ⟨ε, θ, hε, hθ, hs, hL⟩
  obtain ⟨_, _, hb⟩ := C61_best hD hA h hl hp
  obtain ⟨k1, calls', h1, k2⟩ := C61_confined hD hA h
  rw [hl] at h1
  obtain rfl := List.append_cancel_left h1
  have acc : ∀ q : Pt (Ieee .f32) 2, InSquare 50 q → |((ackleyAt L q).value : ℝ) - SReal.ackley (q 0).value (q 1).value| ≤
      2306 / 2 ^ 24 + 26 * (ε + θ) := by
    intro q hq
    have := (C60_accuracy_wide L (B := 50) hε hθ hs hL (q 0) (q 1) (hq 0).1 (hq 1).1 (by norm_num) (by norm_num)
      (by exact_mod_cast (hq 0).2) (by exact_mod_cast (hq 1).2)).2
    refine this.trans ?_
    norm_num
  have ap : InSquare 50 p := by
    obtain ⟨call, hc, rfl | rfl⟩ := hp
    · exact (k2 call hc).1
    · exact (k2 call hc).2.mono (by norm_num)
  have e1 := (abs_le.1 (acc _ (k1.mono (by norm_num)))).1
  have e2 := (abs_le.1 (acc _ ap)).2
  have hb' : ((ackleyAt L result).value : ℝ) ≤ (ackleyAt L p).value := by exact_mod_cast hb
  linarith

/-- C61: the assertions of the documentation, `loc[0].abs() < 0.1` and `loc[1].abs() < 0.1`, hold whenever any of the points
compared has a computed value of at most `1/4`. -/
theorem C61_documented_assertion (hL : L.Decent) (hA : AckleyRun L env bounds)
    (h : env.optimize fuel bounds n cp w iters s = (.ok result, s')) {calls : List (Call (Ieee .f32) 2)}
    (hl : s'.log = s.log ++ calls) {p : Pt (Ieee .f32) 2} (hp : ∃ call ∈ calls, p = call.a ∨ p = call.b)
    (hv : (ackleyAt L p).value ≤ 1 / 4) (c : Fin 2) : RPartialOrd.lt (result c).abs (lit (1 / 10)) = true := by
  obtain ⟨_, _, hb⟩ := C61_best hL hA h hl hp
  obtain ⟨k1, _⟩ := C61_confined hL hA h
  obtain ⟨f1, e1⟩ := ackleyAt_acc hL (k1.mono (show (10 : ℚ) ≤ 50 by norm_num))
  have hv' : ((ackleyAt L result).value : ℝ) ≤ 1 / 4 := by
    have : ((ackleyAt L result).value : ℝ) ≤ ((1 / 4 : ℚ) : ℝ) := Rat.cast_le.2 (hb.trans hv)
    push_cast at this
    exact this
  obtain ⟨g1, g2⟩ := ackley_near (x := (result 0).value) (y := (result 1).value) (by
    have := (abs_le.1 e1).1
    norm_num at this ⊢
    linarith)
  have hl : (lit (1 / 10)).Finite ∧ 1 / 10 ≤ (lit (1 / 10)).value := by decide +kernel
  have hc : |(result c).value| < 1 / 10 := by
    have : |((result c).value : ℝ)| < ((1 / 10 : ℚ) : ℝ) := by
      push_cast
      norm_num at g1 g2
      match c with
      | 0 => linarith
      | 1 => linarith
    exact_mod_cast this
  refine (Ieee.flt_value (Ieee.abs_finite.2 (k1 c).1) hl.1).2 ?_
  rw [Ieee.abs_value]
  linarith [hl.2]

/-- C61: more iterations with the same random numbers never give a worse computed value. -/
theorem C61_more_iterations (hL : L.Decent) (hA : AckleyRun L env bounds) {iters' : ℕ} (hle : iters ≤ iters')
    {result' : Pt (Ieee .f32) 2} {s'' : DEWorld (Ieee .f32) 2 G S}
    (h : env.optimize fuel bounds n cp w iters s = (.ok result, s'))
    (h' : env.optimize fuel bounds n cp w iters' s = (.ok result', s'')) :
    (ackleyAt L result').value ≤ (ackleyAt L result).value := by
  let cmp' : Pt (Ieee .f32) 2 → Pt (Ieee .f32) 2 → S → Res Bool × S :=
    fun a b st => (.ok (nanLast (ackleyAt L) a b), (env.compare a b st).2)
  have hfin : ∀ {p}, InSquare 50 p → ackleyAt L p ≠ .nan := by
    intro p hp hx
    have := (ackleyAt_acc hL hp).1
    rw [hx] at this
    exact this
  have hsame : ∀ {a b : Pt (Ieee .f32) 2}, InSquare 50 a → InSquare 50 b → ∀ st, cmp' a b st = env.compare a b st := by
    intro a b ha hb st
    have := hA.compares a b st
    unfold cmp'
    unfold nanLast
    rw [if_neg (hfin ha), if_neg (hfin hb)]
    exact Prod.ext this.symm rfl
  obtain ⟨k1, calls, h1, k2⟩ := C61_confined hL hA h
  obtain ⟨k1', calls', h1', k2'⟩ := C61_confined hL hA h'
  have g := C54_local h h1 (compare' := cmp') (fun call hc => hsame (k2 call hc).1 ((k2 call hc).2.mono (by norm_num)))
  have g' := C54_local h' h1' (compare' := cmp') (fun call hc => hsame (k2' call hc).1 ((k2' call hc).2.mono (by norm_num)))
  have hc : (env.withComparator cmp').RandContract :=
    ⟨hA.contract.index_empty, hA.contract.index_returns, hA.contract.index_range, hA.contract.uniform_empty,
      hA.contract.uniform_range, hA.contract.unit_range⟩
  have := C54_more_iterations (env := env.withComparator cmp') hc (fun _ _ _ => rfl) (nanLast_strictWeak (ackleyAt L)) hle g g'
  unfold nanLast at this
  have n1 := k1.mono (show (10 : ℚ) ≤ 50 by norm_num)
  have n2 := k1'.mono (show (10 : ℚ) ≤ 50 by norm_num)
  rw [if_neg (hfin n1), if_neg (hfin n2)] at this
  exact (Ieee.fle_value (ackleyAt_acc hL n2).1 (ackleyAt_acc hL n1).1).1 ((Ieee.not_flt (hfin n1) (hfin n2)).1 this)

/-- C61: the call returns a point (with C42: for every generator that avoids no index forever), for every population size of
at least four, every crossover probability in `[0, 1]`, every weight in `[0, 2]` and every number of iterations. -/
theorem C61_returns (hA : AckleyRun L env bounds) (hf : env.Fair) (hn : 4 ≤ n) (hcp : cp.Finite ∧ 0 ≤ cp.value ∧ cp.value ≤ 1)
    (hw : w.Finite ∧ 0 ≤ w.value ∧ w.value ≤ 2)
    (hu : ∀ c g, ∃ x, (env.genUniform (bounds c).1 (bounds c).2 g).1 = .ok x)
    (hg : ∀ lo hi g, (env.genUniform lo hi g).1 ≠ .error .fuel) (iters : ℕ) (s : DEWorld (Ieee .f32) 2 G S) :
    ∃ F result s', ∀ fuel, F ≤ fuel → env.optimize fuel bounds n cp w iters s = (.ok result, s') := by
  refine C42_returns (bounds := bounds) hA.contract hf ⟨fun a b s => ?_, hg, fun a b c w h => by cases h⟩ C53_arith
    (fun a b s => ⟨_, hA.compares a b s⟩) ((C53_params _ _ _).2 ⟨hn, hcp, hw⟩) hu (.inl (by omega)) s
  rw [hA.compares]
  intro h
  cases h

end Magnesia
