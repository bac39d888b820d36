import Verif.Props.IeeeSqrt
import Verif.Proof.SqrtErr

/-!
# C56: the complex square root is accurate in each part

The square root avoids cancellation: each part of the computed root is close to the same part of the exact principal root,
relative to that part alone, even if it is much smaller than the other part.
-/

namespace Magnesia

variable {F : Fmt}

open Ieee (nan inf)

open RZero ROne MulRefs

namespace Ieee

theorem add_in_range {a b : Ieee F} (ha : a.Finite) (hb : b.Finite) (h1 : 2 ^ F.emin ≤ |a.value + b.value|)
    (h2 : |a.value + b.value| ≤ 2 ^ F.emax) :
    (a.add b).Finite ∧ |(a.add b).value - (a.value + b.value)| ≤ F.u * |a.value + b.value| := by
  have h0 : a.value + b.value ≠ 0 := by
    intro h0; rw [h0, abs_zero] at h1
    exact absurd h1 (not_le.2 (by positivity))
  rw [add_fin ha hb h0]
  have h3 := (round_between le_rfl le_rfl h1 h2).1.1
  exact ⟨h3, by rw [round_finite h3]; exact F.roundQ_err_normal h1⟩

theorem half_sqrt {s : Ieee F} (h : 2 ^ (F.emin + 1) ≤ s.value) :
    let r := (s.mul (.fin (1 / 2) (by norm_num) F.representable_half)).sqrt
    r.Finite ∧ 0 ≤ r.value ∧ (1 - F.u) ^ 2 * (s.value / 2) ≤ r.value ^ 2 ∧ r.value ^ 2 ≤ (1 + F.u) ^ 2 * (s.value / 2) := by
  have hpos : 0 < s.value := lt_of_lt_of_le (by positivity) h
  have hrep : F.Representable (s.value / 2) := (value_representable s).halve (by rwa [abs_of_pos hpos])
  have hh0 : s.value / 2 ≠ 0 := div_ne_zero hpos.ne' two_ne_zero
  have e : s.mul (.fin (1 / 2) (by norm_num) F.representable_half) = .fin _ hh0 hrep := by
    rw [mul_fin (b := .fin (1 / 2) _ _) hpos.ne' (show (1 / 2 : ℚ) ≠ 0 by norm_num),
      show (fin (1 / 2) (by norm_num) F.representable_half : Ieee F).value = 1 / 2 from rfl, mul_one_div,
      fin_eq_round hh0 hrep]
  have hp : 0 < s.value / 2 := by positivity
  rw [e, show (fin (s.value / 2) hh0 hrep : Ieee F).sqrt = .fin (F.roundSqrt (s.value / 2)) (F.roundSqrt_ne_zero hp)
    (F.representable_roundSqrt hp hrep) from dif_pos hp]
  exact ⟨trivial, F.roundSqrt_err hp⟩

theorem two_sqrt {s : Ieee F} (h : 0 < s.value) (h2 : s.value * 2 < 2 ^ (F.emax + 1)) :
    let t := (s.mul (.fin 2 two_ne_zero F.representable_two)).sqrt
    t.Finite ∧ 0 < t.value ∧ (1 - F.u) ^ 2 * (s.value * 2) ≤ t.value ^ 2 ∧ t.value ^ 2 ≤ (1 + F.u) ^ 2 * (s.value * 2) := by
  have hp : 0 < s.value * 2 := by positivity
  have hrep : F.Representable (s.value * 2) := (value_representable s).double (by rwa [abs_of_pos hp])
  have e : s.mul (.fin 2 two_ne_zero F.representable_two) = .fin _ hp.ne' hrep := by
    rw [mul_fin (b := .fin 2 _ _) h.ne' (show (2 : ℚ) ≠ 0 by norm_num),
      show (fin 2 two_ne_zero F.representable_two : Ieee F).value = 2 from rfl, fin_eq_round hp.ne' hrep]
  rw [e, show (fin (s.value * 2) hp.ne' hrep : Ieee F).sqrt = .fin (F.roundSqrt (s.value * 2)) (F.roundSqrt_ne_zero hp)
    (F.representable_roundSqrt hp hrep) from dif_pos hp]
  have h3 := F.roundSqrt_err hp
  exact ⟨trivial, lt_of_le_of_ne h3.1 (Ne.symm (F.roundSqrt_ne_zero hp)), h3.2⟩

theorem div_in_range {a b : Ieee F} (ha : a.Finite) (hb : b.Finite) (hb0 : b.value ≠ 0)
    (h1 : a.value = 0 ∨ 2 ^ F.emin ≤ |a.value / b.value| ∧ |a.value / b.value| ≤ 2 ^ F.emax) :
    (a.div b).Finite ∧ |(a.div b).value - a.value / b.value| ≤ F.u * |a.value / b.value| := by
  by_cases h0 : a.value = 0
  · obtain ⟨h2, h3⟩ := div_zero_value ha hb h0 hb0
    refine ⟨h2, ?_⟩
    rw [h3, h0]; simp
  · obtain ⟨h1, h2⟩ := h1.resolve_left h0
    rw [div_fin h0 hb0]
    have h3 := (round_between le_rfl le_rfl h1 h2).1.1
    exact ⟨h3, by rw [round_finite h3]; exact F.roundQ_err_normal h1⟩

theorem abs_two {y : Ieee F} (hy : y.Finite) (h : |y.value| * 2 < 2 ^ (F.emax + 1)) :
    (y.abs.mul (.fin 2 two_ne_zero F.representable_two)).Finite ∧
    (y.abs.mul (.fin 2 two_ne_zero F.representable_two)).value = |y.value| * 2 := by
  by_cases h0 : y.value = 0
  · have h1 : y.abs.value = 0 := by rw [abs_value, h0, abs_zero]
    obtain ⟨h2, h3⟩ := mul_zero_value (b := .fin 2 two_ne_zero F.representable_two) (abs_finite.2 hy) trivial (.inl h1)
    exact ⟨h2, by rw [h3, h0]; simp⟩
  · have hp : 0 < y.abs.value := by rw [abs_value]; exact abs_pos.2 h0
    have hp2 : 0 < y.abs.value * 2 := by positivity
    have hrep : F.Representable (y.abs.value * 2) := (value_representable _).double (by
      rw [abs_of_pos hp2, abs_value]; exact h)
    rw [mul_fin (b := .fin 2 _ _) hp.ne' (show (2 : ℚ) ≠ 0 by norm_num),
      show (fin 2 two_ne_zero F.representable_two : Ieee F).value = 2 from rfl, ← fin_eq_round hp2.ne' hrep]
    exact ⟨trivial, by show y.abs.value * 2 = _; rw [abs_value]⟩

end Ieee

theorem le_of_sq_le' {t N : ℝ} (ht : 0 < t) (h : t ^ 2 ≤ N) (h1 : 1 ≤ N) : t ≤ N := by
  by_contra hc
  have hc := not_le.1 hc
  nlinarith

theorem le_of_le_sq' {t M : ℝ} (ht : 0 < t) (h : M ≤ t ^ 2) (h1 : M ≤ 1) : M ≤ t := by
  by_contra hc
  have hc := not_le.1 hc
  nlinarith

theorem two_le_cast {n : ℤ} {q : ℚ} : (2 : ℚ) ^ n ≤ q ↔ (2 : ℝ) ^ n ≤ (q : ℝ) := by
  rw [← Rat.cast_le (K := ℝ)]; push_cast; rfl

theorem cast_le_two {n : ℤ} {q : ℚ} : q ≤ (2 : ℚ) ^ n ↔ (q : ℝ) ≤ (2 : ℝ) ^ n := by
  rw [← Rat.cast_le (K := ℝ)]; push_cast; rfl

theorem cast_lt_two {n : ℤ} {q : ℚ} : q < (2 : ℚ) ^ n ↔ (q : ℝ) < (2 : ℝ) ^ n := by
  rw [← Rat.cast_lt (K := ℝ)]; push_cast; rfl

/-- The principal square root, in parts. -/
theorem exact_root (x y H : ℝ) (hH : 0 ≤ H) (h : H ^ 2 = x ^ 2 + y ^ 2) :
    let w : ℂ := ⟨√((H + x) / 2), if y < 0 then -√((H - x) / 2) else √((H - x) / 2)⟩
    w ^ 2 = ⟨x, y⟩ ∧ 0 ≤ w.re ∧ (w.re = 0 → 0 ≤ w.im) := by
  have hx : |x| ≤ H := abs_le_of_sq_le_sq (by nlinarith [sq_nonneg y]) hH
  obtain ⟨h1, h2⟩ := abs_le.1 hx
  have hA : 0 ≤ (H + x) / 2 := by linarith
  have hB : 0 ≤ (H - x) / 2 := by linarith
  have hAB : √((H + x) / 2) * √((H - x) / 2) = |y| / 2 := by
    rw [← Real.sqrt_mul hA, show (H + x) / 2 * ((H - x) / 2) = (|y| / 2) ^ 2 by rw [div_pow, sq_abs]; linarith]
    exact Real.sqrt_sq (by positivity)
  have sA := Real.sq_sqrt hA
  have sB := Real.sq_sqrt hB
  intro w
  have hw : w.im ^ 2 = (H - x) / 2 := by
    show (if y < 0 then -√((H - x) / 2) else √((H - x) / 2)) ^ 2 = _
    split
    · rw [neg_sq, sB]
    · exact sB
  have hw2 : w.re * w.im = y / 2 := by
    show √((H + x) / 2) * (if y < 0 then -√((H - x) / 2) else √((H - x) / 2)) = _
    split
    · rename_i h3
      rw [mul_neg, hAB, abs_of_neg h3]; ring
    · rename_i h3
      rw [hAB, abs_of_nonneg (not_lt.1 h3)]
  have hw1 : w.re ^ 2 = (H + x) / 2 := sA
  refine ⟨?_, Real.sqrt_nonneg _, fun h0 => ?_⟩
  · rw [pow_two]
    apply _root_.Complex.ext
    · rw [Complex.mul_re, ← pow_two, ← pow_two, hw1, hw]
      show _ = x
      ring
    · rw [Complex.mul_im, mul_comm w.im, hw2]
      show _ = y
      ring
  · have h3 : y = 0 := by rw [h0] at hw2; linarith
    show (0 : ℝ) ≤ if y < 0 then _ else _
    rw [if_neg (by rw [h3]; exact lt_irrefl 0)]
    exact Real.sqrt_nonneg _

/-- `r` is the rounded square root of the exact half of `s`. -/
structure HalfRoot (u s r : ℝ) : Prop where
  nonneg : 0 ≤ r
  lo : (1 - u) ^ 2 * (s / 2) ≤ r ^ 2
  hi : r ^ 2 ≤ (1 + u) ^ 2 * (s / 2)

/-- The rounded steps from the computed absolute value `h` to the parts `a`, `b` of the root of `x ± yi`. -/
inductive SqrtSteps (u x y h a b : ℝ) : Prop
  | direct (s d : ℝ) (hxy : |x| ≤ y * 2) (hs : |s - (h + x)| ≤ u * |h + x|) (hd : |d - (h - x)| ≤ u * |h - x|)
      (ha : HalfRoot u s a) (hb : HalfRoot u d b)
  | right (s t : ℝ) (hxy : y * 2 ≤ |x|) (hx : 0 ≤ x) (hs : |s - (h + |x|)| ≤ u * |h + (|x|)|) (ha : HalfRoot u s a)
      (ht : 0 < t) (ht1 : (1 - u) ^ 2 * (s * 2) ≤ t ^ 2) (ht2 : t ^ 2 ≤ (1 + u) ^ 2 * (s * 2))
      (hb : |b - y / t| ≤ u * |y / t|)
  | left (s t : ℝ) (hxy : y * 2 ≤ |x|) (hx : x ≤ 0) (hs : |s - (h + |x|)| ≤ u * |h + (|x|)|) (hb : HalfRoot u s b)
      (ht : 0 < t) (ht1 : (1 - u) ^ 2 * (s * 2) ≤ t ^ 2) (ht2 : t ^ 2 ≤ (1 + u) ^ 2 * (s * 2))
      (ha : |a - y / t| ≤ u * |y / t|)

theorem Fmt.u_real (hp : 6 ≤ F.p) : (0 : ℝ) < F.u ∧ ((F.u : ℚ) : ℝ) ≤ 1 / 64 := by
  refine ⟨by exact_mod_cast F.u_pos, ?_⟩
  have h : F.u ≤ 2 ^ (-6 : ℤ) := zpow_le_zpow_right₀ (by norm_num) (by omega)
  have h2 : F.u ≤ 1 / 64 := h.trans (by norm_num)
  have h3 : ((F.u : ℚ) : ℝ) ≤ ((1 / 64 : ℚ) : ℝ) := by exact_mod_cast h2
  exact h3.trans (by norm_num)

theorem sqrt_trace (hp : 6 ≤ F.p) (k : ℕ) (hk : 2 * k + 8 ≤ F.emax) (z : Complex (Ieee F))
    (hr : z.re.Between (-k) k) (hi : z.im.Between (-k) k) (hz : z.re.value ≠ 0 ∨ z.im.value ≠ 0) {H : ℝ} (hH0 : 0 ≤ H)
    (hH : H ^ 2 = (z.re.value : ℝ) ^ 2 + (z.im.value : ℝ) ^ 2)
    (hn : ‖(⟨z.re.value, z.im.value⟩ : ℂ)‖ = H) :
    ∃ a b h : Ieee F, z.sqrt = .ok ⟨a, if z.im.flt zero then b.neg else b⟩ ∧ z.abs = .ok h ∧ a.Finite ∧ b.Finite ∧
      h.Finite ∧ |(h.value : ℝ) - H| ≤ ((1 + (F.u : ℝ)) ^ 2 - 1) * H ∧
      SqrtSteps F.u z.re.value |(z.im.value : ℝ)| h.value a.value b.value := by
  have hem : F.emin = 1 - F.emax := rfl
  have hu0 : (0 : ℝ) < F.u := by exact_mod_cast F.u_pos
  have hu : ((F.u : ℚ) : ℝ) ≤ 1 / 64 := by
    have h : F.u ≤ 2 ^ (-6 : ℤ) := zpow_le_zpow_right₀ (by norm_num) (by omega)
    have h2 : F.u ≤ 1 / 64 := h.trans (by norm_num)
    have h3 : ((F.u : ℚ) : ℝ) ≤ ((1 / 64 : ℚ) : ℝ) := by exact_mod_cast h2
    exact h3.trans (by norm_num)
  have hu2 : (F.u : ℝ) ^ 2 ≤ F.u / 64 := by rw [pow_two, div_eq_mul_one_div]; exact mul_le_mul_of_nonneg_left hu hu0.le
  -- the computed absolute value
  obtain ⟨h, eh, hf, herr⟩ := C49_ieee_abs_error k (by omega) z hr hi
  rw [hn] at herr
  have eh' := eh
  rw [ieee_abs] at eh
  have eh := Except.ok.inj eh
  set x := z.re.value with hx
  set y := z.im.value with hy
  have hxH : |(x : ℝ)| ≤ H := abs_le_of_sq_le_sq (by nlinarith [sq_nonneg (y : ℝ)]) hH0
  have hyH : |(y : ℝ)| ≤ H := abs_le_of_sq_le_sq (by nlinarith [sq_nonneg (x : ℝ)]) hH0
  have hM : (2 : ℝ) ^ (-(k : ℤ)) ≤ H := by
    rcases hz with h0 | h0
    · have h1 := (hr.2.resolve_left h0).1
      have h2 : (2 : ℝ) ^ (-(k : ℤ)) ≤ |(x : ℝ)| := (two_le_cast.1 h1).trans_eq (Rat.cast_abs _)
      exact h2.trans hxH
    · have h1 := (hi.2.resolve_left h0).1
      have h2 : (2 : ℝ) ^ (-(k : ℤ)) ≤ |(y : ℝ)| := (two_le_cast.1 h1).trans_eq (Rat.cast_abs _)
      exact h2.trans hyH
  have hHp : 0 < H := lt_of_lt_of_le (by positivity) hM
  have hxk : |(x : ℝ)| ≤ (2 : ℝ) ^ (k : ℤ) := (Rat.cast_abs _).ge.trans (cast_le_two.1 (Trap.abs_le_of_between hr))
  have hyk : |(y : ℝ)| ≤ (2 : ℝ) ^ (k : ℤ) := (Rat.cast_abs _).ge.trans (cast_le_two.1 (Trap.abs_le_of_between hi))
  have hN : H ≤ 2 * (2 : ℝ) ^ (k : ℤ) := by
    refine abs_le_of_sq_le_sq' ?_ (by positivity) |>.2
    rw [hH, ← sq_abs (x : ℝ), ← sq_abs (y : ℝ)]
    have h1 := pow_le_pow_left₀ (abs_nonneg _) hxk 2
    have h2 := pow_le_pow_left₀ (abs_nonneg _) hyk 2
    nlinarith
  have hd : ((1 + (F.u : ℝ)) ^ 2 - 1) * H ≤ 0.04 * H := mul_le_mul_of_nonneg_right (by linarith) hHp.le
  obtain ⟨h1, h2⟩ := abs_le.1 herr
  -- powers of two
  have hlo : (2 : ℝ) ^ (F.emin + 1) ≤ (2 : ℝ) ^ (-(k : ℤ)) / 32 := by
    rw [show (32 : ℝ) = 2 ^ (5 : ℤ) by norm_num, ← zpow_sub₀ (by norm_num)]
    exact zpow_le_zpow_right₀ (by norm_num) (by omega)
  have hlo' : (2 : ℝ) ^ F.emin ≤ (2 : ℝ) ^ (-(k : ℤ)) / 32 :=
    (zpow_le_zpow_right₀ (by norm_num) (by omega)).trans hlo
  have hhi : 16 * (2 : ℝ) ^ (k : ℤ) ≤ (2 : ℝ) ^ F.emax := by
    rw [show (16 : ℝ) = 2 ^ (4 : ℤ) by norm_num, ← zpow_add₀ (by norm_num)]
    exact zpow_le_zpow_right₀ (by norm_num) (by omega)
  have hM0 : (0 : ℝ) < (2 : ℝ) ^ (-(k : ℤ)) := by positivity
  have hN0 : (0 : ℝ) < (2 : ℝ) ^ (k : ℤ) := by positivity
  -- the branch
  have hy2 : |y| * 2 < 2 ^ (F.emax + 1) := by
    have h3 : |(y : ℝ)| * 2 < (2 : ℝ) ^ (F.emax + 1) := by
      rw [zpow_add_one₀ (by norm_num)]
      linarith
    exact cast_lt_two.2 (by push_cast; exact h3)
  obtain ⟨c1, c2⟩ := Ieee.abs_two hi.1 hy2
  have hc : z.re.abs.fle (z.im.abs.mul (.fin 2 two_ne_zero F.representable_two)) = true ↔ |x| ≤ |y| * 2 := by
    rw [Ieee.fle_value (Ieee.abs_finite.2 hr.1) c1, c2, Ieee.abs_value]
  rw [ieee_csqrt]
  simp only [eh]
  by_cases hb : |x| ≤ |y| * 2
  · -- direct branch
    rw [if_pos (hc.2 hb)]
    refine ⟨_, _, h, rfl, eh', ?_⟩
    have hb' : |(x : ℝ)| ≤ |(y : ℝ)| * 2 := by exact_mod_cast hb
    have hx9 : |(x : ℝ)| ≤ 0.8945 * H := by
      refine abs_le_of_sq_le_sq' ?_ (by positivity) |>.2
      have h3 := pow_le_pow_left₀ (abs_nonneg _) hb' 2
      rw [mul_pow, sq_abs, sq_abs] at h3
      rw [sq_abs, mul_pow, hH]
      nlinarith [sq_nonneg (x : ℝ), sq_nonneg (y : ℝ)]
    -- one part: the argument is `± re`
    have key : ∀ v : Ieee F, v.Finite → |(v.value : ℝ)| ≤ 0.8945 * H →
        (((h.add v).mul (.fin (1 / 2) (by norm_num) F.representable_half)).sqrt.Finite ∧ ∃ s : ℝ,
          |s - (h.value + v.value)| ≤ F.u * |(h.value : ℝ) + v.value| ∧
          HalfRoot F.u s (((h.add v).mul (.fin (1 / 2) (by norm_num) F.representable_half)).sqrt.value : ℚ)) := by
      intro v hv hv9
      obtain ⟨v1, v2⟩ := abs_le.1 hv9
      have hsum : 0.06 * H ≤ (h.value : ℝ) + v.value := by linarith
      have hsum2 : (h.value : ℝ) + v.value ≤ 2 * H := by linarith
      have hsp : 0 < (h.value : ℝ) + v.value := by linarith
      have hspQ : 0 < h.value + v.value := by exact_mod_cast hsp
      obtain ⟨f1, f2⟩ := Ieee.add_in_range (a := h) (b := v) hf hv (by
          rw [abs_of_pos hspQ]
          have : (2 : ℝ) ^ F.emin ≤ (h.value : ℝ) + v.value := by linarith
          exact two_le_cast.2 (by push_cast; exact this)) (by
          rw [abs_of_pos hspQ]
          have : (h.value : ℝ) + v.value ≤ (2 : ℝ) ^ F.emax := by linarith
          exact cast_le_two.2 (by push_cast; exact this))
      have f2' : |(((h.add v).value : ℚ) : ℝ) - (h.value + v.value)| ≤ F.u * |(h.value : ℝ) + v.value| := by
        exact_mod_cast f2
      have hslo : (2 : ℚ) ^ (F.emin + 1) ≤ (h.add v).value := by
        have h3 := (abs_le.1 f2').1
        rw [abs_of_pos hsp] at h3
        have h4 : (F.u : ℝ) * (h.value + v.value) ≤ 1 / 64 * (h.value + v.value) :=
          mul_le_mul_of_nonneg_right hu hsp.le
        have h5 : (2 : ℝ) ^ (F.emin + 1) ≤ (((h.add v).value : ℚ) : ℝ) := by linarith
        exact two_le_cast.2 h5
      obtain ⟨g1, g2, g3, g4⟩ := Ieee.half_sqrt hslo
      exact ⟨g1, _, f2', by exact_mod_cast g2, by exact_mod_cast g3, by exact_mod_cast g4⟩
    obtain ⟨k1, s, k2, k3⟩ := key z.re hr.1 hx9
    obtain ⟨l1, d, l2, l3⟩ := key z.re.neg (Ieee.neg_finite.2 hr.1)
      (by rw [Ieee.neg_value, Rat.cast_neg, abs_neg]; exact hx9)
    rw [Ieee.neg_value, Rat.cast_neg, ← sub_eq_add_neg] at l2
    exact ⟨k1, l1, hf, herr, .direct s d hb' k2 l2 k3 l3⟩
  · -- the other branch
    have hc' : z.re.abs.fle (z.im.abs.mul (.fin 2 two_ne_zero F.representable_two)) = false := by
      rw [Bool.eq_false_iff]; exact fun h3 => hb (hc.1 h3)
    rw [if_neg (by rw [hc']; simp)]
    have hav : z.re.abs.value = |x| := Ieee.abs_value _
    have hyv : z.im.abs.value = |y| := Ieee.abs_value _
    have hx0 : (0 : ℝ) ≤ |(x : ℝ)| := abs_nonneg _
    have hX : 0 < H + |(x : ℝ)| := by linarith
    have hspR : 0 < (h.value : ℝ) + |(x : ℝ)| := by linarith
    have hspQ : 0 < h.value + z.re.abs.value := by rw [hav]; exact_mod_cast hspR
    obtain ⟨f1, f2⟩ := Ieee.add_in_range (a := h) (b := z.re.abs) hf (Ieee.abs_finite.2 hr.1) (by
        rw [abs_of_pos hspQ, hav]
        have : (2 : ℝ) ^ F.emin ≤ (h.value : ℝ) + |(x : ℝ)| := by linarith
        exact two_le_cast.2 (by push_cast; exact this)) (by
        rw [abs_of_pos hspQ, hav]
        have : (h.value : ℝ) + |(x : ℝ)| ≤ (2 : ℝ) ^ F.emax := by linarith
        exact cast_le_two.2 (by push_cast; exact this))
    rw [hav] at f2
    have f2' : |(((h.add z.re.abs).value : ℚ) : ℝ) - (h.value + |(x : ℝ)|)| ≤ F.u * |(h.value : ℝ) + (|(x : ℝ)|)| := by
      exact_mod_cast f2
    obtain ⟨s1, s2⟩ := stable_sum hu0 hu hHp hx0 herr f2'
    have hslow : 0.9 * H ≤ (((h.add z.re.abs).value : ℚ) : ℝ) := by
      refine le_trans ?_ s1
      have h3 := mul_le_mul_of_nonneg_right (show 0.9 ≤ 1 - 3.1 * (F.u : ℝ) by linarith) hX.le
      linarith
    have hshigh : (((h.add z.re.abs).value : ℚ) : ℝ) ≤ 1.1 * (2 * H) := by
      refine s2.trans ?_
      have h3 := mul_le_mul_of_nonneg_right (show 1 + 3.1 * (F.u : ℝ) ≤ 1.1 by linarith) hX.le
      linarith
    have hslo : (2 : ℚ) ^ (F.emin + 1) ≤ (h.add z.re.abs).value := by
      have h5 : (2 : ℝ) ^ (F.emin + 1) ≤ (((h.add z.re.abs).value : ℚ) : ℝ) := by linarith
      exact two_le_cast.2 h5
    have hspos : 0 < (h.add z.re.abs).value := lt_of_lt_of_le (by positivity) hslo
    obtain ⟨g1, g2, g3, g4⟩ := Ieee.half_sqrt hslo
    obtain ⟨t1, t2, t3, t4⟩ := Ieee.two_sqrt hspos (by
      have h5 : (((h.add z.re.abs).value : ℚ) : ℝ) * 2 < (2 : ℝ) ^ (F.emax + 1) := by
        rw [zpow_add_one₀ (by norm_num)]
        linarith
      exact cast_lt_two.2 (by push_cast; exact h5))
    generalize ((h.add z.re.abs).mul (.fin (1 / 2) (by norm_num) F.representable_half)).sqrt = bb at *
    generalize ((h.add z.re.abs).mul (.fin 2 two_ne_zero F.representable_two)).sqrt = tt at *
    generalize (h.add z.re.abs) = ss at *
    have t3' : (1 - (F.u : ℝ)) ^ 2 * ((ss.value : ℝ) * 2) ≤ (tt.value : ℝ) ^ 2 := by exact_mod_cast t3
    have t4' : (tt.value : ℝ) ^ 2 ≤ (1 + (F.u : ℝ)) ^ 2 * ((ss.value : ℝ) * 2) := by exact_mod_cast t4
    have t2' : (0 : ℝ) < tt.value := by exact_mod_cast t2
    have hs0 : (0 : ℝ) < ss.value := by exact_mod_cast hspos
    -- the size of the divisor
    have htl : (tt.value : ℝ) ^ 2 ≤ 16 * (2 : ℝ) ^ (k : ℤ) := by
      refine t4'.trans ?_
      have h3 : (1 + (F.u : ℝ)) ^ 2 ≤ 1.04 := by linarith
      have h4 := mul_le_mul_of_nonneg_right h3 (show (0 : ℝ) ≤ (ss.value : ℝ) * 2 by positivity)
      linarith
    have hth : (2 : ℝ) ^ (-(k : ℤ)) ≤ (tt.value : ℝ) ^ 2 := by
      refine le_trans ?_ t3'
      have h3 : 0.9 ≤ (1 - (F.u : ℝ)) ^ 2 := by linarith [sq_nonneg (F.u : ℝ)]
      have h4 := mul_le_mul_of_nonneg_right h3 (show (0 : ℝ) ≤ (ss.value : ℝ) * 2 by positivity)
      linarith
    obtain ⟨q1, q2⟩ := Ieee.div_in_range (a := z.im.abs) (b := tt) (Ieee.abs_finite.2 hi.1) t1 t2.ne' (by
      by_cases h0 : y = 0
      · left; rw [hyv, h0, abs_zero]
      · right
        obtain ⟨y1, _⟩ := hi.2.resolve_left h0
        have y1' : (2 : ℝ) ^ (-(k : ℤ)) ≤ |(y : ℝ)| := (two_le_cast.1 y1).trans_eq (Rat.cast_abs _)
        rw [hyv, abs_div, abs_abs, abs_of_pos t2]
        have hk1 : (1 : ℝ) ≤ (2 : ℝ) ^ (k : ℤ) := by rw [zpow_natCast]; exact one_le_pow₀ (by norm_num)
        have hM1 : (2 : ℝ) ^ (-(k : ℤ)) ≤ 1 := zpow_le_one_of_nonpos₀ (by norm_num) (by omega)
        have tup : (tt.value : ℝ) ≤ 16 * (2 : ℝ) ^ (k : ℤ) := le_of_sq_le' t2' htl (by linarith)
        have tlow : (2 : ℝ) ^ (-(k : ℤ)) ≤ (tt.value : ℝ) := le_of_le_sq' t2' hth hM1
        constructor
        · have h5 : (2 : ℝ) ^ F.emin ≤ |(y : ℝ)| / tt.value := by
            rw [le_div_iff₀ t2']
            have h6 : (2 : ℝ) ^ F.emin * (16 * (2 : ℝ) ^ (k : ℤ)) ≤ (2 : ℝ) ^ (-(k : ℤ)) := by
              rw [show (16 : ℝ) = 2 ^ (4 : ℤ) by norm_num, ← zpow_add₀ (by norm_num), ← zpow_add₀ (by norm_num)]
              exact zpow_le_zpow_right₀ (by norm_num) (by omega)
            have h7 := mul_le_mul_of_nonneg_left tup (show (0 : ℝ) ≤ (2 : ℝ) ^ F.emin by positivity)
            linarith
          exact two_le_cast.2 (by push_cast; exact h5)
        · have h5 : |(y : ℝ)| / tt.value ≤ (2 : ℝ) ^ F.emax := by
            rw [div_le_iff₀ t2']
            have h6 : (2 : ℝ) ^ (k : ℤ) ≤ (2 : ℝ) ^ F.emax * (2 : ℝ) ^ (-(k : ℤ)) := by
              rw [← zpow_add₀ (by norm_num)]
              exact zpow_le_zpow_right₀ (by norm_num) (by omega)
            have h7 := mul_le_mul_of_nonneg_left tlow (show (0 : ℝ) ≤ (2 : ℝ) ^ F.emax by positivity)
            linarith
          exact cast_le_two.2 (by push_cast; exact h5))
    rw [hyv] at q2
    have q2' : |(((z.im.abs.div tt).value : ℚ) : ℝ) - |(y : ℝ)| / tt.value| ≤ F.u * |(|(y : ℝ)|) / tt.value| := by
      exact_mod_cast q2
    generalize z.im.abs.div tt = aa at *
    -- both parts
    have hb' : |(y : ℝ)| * 2 ≤ |(x : ℝ)| := by exact_mod_cast (not_le.1 hb).le
    have hβ : HalfRoot F.u ss.value bb.value := ⟨by exact_mod_cast g2, by exact_mod_cast g3, by exact_mod_cast g4⟩
    have hz0 : (zero : Ieee F).fle z.re = true ↔ 0 ≤ x := Ieee.fle_value (a := .zero false) trivial hr.1
    by_cases h0 : 0 ≤ x
    · rw [if_pos (hz0.2 h0)]
      exact ⟨bb, aa, h, rfl, eh', g1, q1, hf, herr,
        .right _ _ hb' (by exact_mod_cast h0) f2' hβ t2' t3' t4' q2'⟩
    · rw [if_neg (fun h3 => h0 (hz0.1 h3))]
      exact ⟨aa, bb, h, rfl, eh', q1, g1, hf, herr,
        .left _ _ hb' (by exact_mod_cast (not_le.1 h0).le) f2' hβ t2' t3' t4' q2'⟩

theorem SqrtSteps.err {u x y h a b H : ℝ} (hu0 : 0 < u) (hu : u ≤ 1 / 64) (hHp : 0 < H) (hH : H ^ 2 = x ^ 2 + y ^ 2)
    (herr : |h - H| ≤ ((1 + u) ^ 2 - 1) * H) (st : SqrtSteps u x |y| h a b) :
    |a - √((H + x) / 2)| ≤ 12 * u * √((H + x) / 2) ∧ |b - √((H - x) / 2)| ≤ 12 * u * √((H - x) / 2) := by
  have hH0 := hHp.le
  have hxH : |x| ≤ H := abs_le_of_sq_le_sq (by nlinarith [sq_nonneg y]) hH0
  obtain ⟨n1, n2⟩ := abs_le.1 hxH
  have small : ∀ {s t w : ℝ}, |s - (h + |x|)| ≤ u * |h + (|x|)| → 0 < t →
      (1 - u) ^ 2 * (s * 2) ≤ t ^ 2 → t ^ 2 ≤ (1 + u) ^ 2 * (s * 2) → |w - |y| / t| ≤ u * |(|y|) / t| →
      |w - √((H - |x|) / 2)| ≤ 12 * u * √((H - |x|) / 2) := by
    intro s t w hs ht ht1 ht2 hw
    obtain ⟨s1, s2⟩ := stable_sum hu0 hu hHp (abs_nonneg x) herr hs
    have hX : 0 < H + |x| := by have := abs_nonneg x; linarith
    refine stable_small hu0 hu hX (abs_nonneg y) s1 s2 ht ht1 ht2 hw (Real.sqrt_nonneg _) ?_
    rw [Real.sq_sqrt (by linarith), sq_abs]
    have := sq_abs x
    linarith
  have big : ∀ {s w : ℝ}, |s - (h + |x|)| ≤ u * |h + (|x|)| → HalfRoot u s w →
      |w - √((H + |x|) / 2)| ≤ 12 * u * √((H + |x|) / 2) := by
    intro s w hs hw
    obtain ⟨s1, s2⟩ := stable_sum hu0 hu hHp (abs_nonneg x) herr hs
    have hX : 0 < H + |x| := by have := abs_nonneg x; linarith
    exact stable_big hu0 hu hX s1 s2 hw.nonneg hw.lo hw.hi (Real.sqrt_nonneg _) (Real.sq_sqrt (by positivity))
  cases st with
  | direct s d hxy hs hd ha hb =>
    have hx9 : |x| ≤ 0.8945 * H := by
      refine abs_le_of_sq_le_sq' ?_ (by positivity) |>.2
      have h3 := pow_le_pow_left₀ (abs_nonneg _) hxy 2
      rw [mul_pow, sq_abs, sq_abs] at h3
      rw [sq_abs, mul_pow, hH]
      nlinarith [sq_nonneg x, sq_nonneg y]
    refine ⟨direct_err hu0 hu hHp hx9 herr hs ha.nonneg ha.lo ha.hi (Real.sqrt_nonneg _) (Real.sq_sqrt (by linarith)), ?_⟩
    rw [sub_eq_add_neg H]
    rw [sub_eq_add_neg h] at hd
    exact direct_err hu0 hu hHp (by rwa [abs_neg]) herr hd hb.nonneg hb.lo hb.hi (Real.sqrt_nonneg _)
      (Real.sq_sqrt (by linarith))
  | right s t hxy hx hs ha ht ht1 ht2 hb =>
    have e := abs_of_nonneg hx
    have h1 := big hs ha
    have h2 := small hs ht ht1 ht2 hb
    rw [e] at h1 h2
    exact ⟨h1, h2⟩
  | left s t hxy hx hs hb ht ht1 ht2 ha =>
    have e := abs_of_nonpos hx
    have h1 := big hs hb
    have h2 := small hs ht ht1 ht2 ha
    rw [e] at h1 h2
    rw [sub_neg_eq_add] at h2
    rw [← sub_eq_add_neg] at h1
    exact ⟨h2, h1⟩

theorem sqrt_parts (hp : 6 ≤ F.p) (k : ℕ) (hk : 2 * k + 8 ≤ F.emax) (z : Complex (Ieee F))
    (hr : z.re.Between (-k) k) (hi : z.im.Between (-k) k) (hz : z.re.value ≠ 0 ∨ z.im.value ≠ 0) {H : ℝ} (hH0 : 0 ≤ H)
    (hH : H ^ 2 = (z.re.value : ℝ) ^ 2 + (z.im.value : ℝ) ^ 2)
    (hn : ‖(⟨z.re.value, z.im.value⟩ : ℂ)‖ = H) :
    ∃ a b : Ieee F, z.sqrt = .ok ⟨a, if z.im.flt zero then b.neg else b⟩ ∧ a.Finite ∧ b.Finite ∧
      |(a.value : ℝ) - √((H + z.re.value) / 2)| ≤ 12 * F.u * √((H + z.re.value) / 2) ∧
      |(b.value : ℝ) - √((H - z.re.value) / 2)| ≤ 12 * F.u * √((H - z.re.value) / 2) := by
  obtain ⟨hu0, hu⟩ := Fmt.u_real hp
  obtain ⟨a, b, h, e, _, ha, hb, _, herr, st⟩ := sqrt_trace hp k hk z hr hi hz hH0 hH hn
  refine ⟨a, b, e, ha, hb, ?_⟩
  have hxz : (z.re.value : ℝ) = 0 → z.re.value = 0 := fun h => by exact_mod_cast h
  have hyz : (z.im.value : ℝ) = 0 → z.im.value = 0 := fun h => by exact_mod_cast h
  refine SqrtSteps.err hu0 hu ?_ hH herr st
  refine lt_of_le_of_ne hH0 fun h0 => ?_
  rw [← h0] at hH
  exact hz.elim (fun h => h (hxz (by nlinarith [sq_nonneg (z.re.value : ℝ), sq_nonneg (z.im.value : ℝ)])))
    fun h => h (hyz (by nlinarith [sq_nonneg (z.re.value : ℝ), sq_nonneg (z.im.value : ℝ)]))

/-- C56: for every `z` whose parts are zero or of magnitude between `2^-k` and `2^k` with `2k + 8 ≤ emax` (for `f32`
`k = 59`, for `f64` `k = 507`) both parts of the computed square root are finite and within `12u` of the parts of the
exact principal square root `w`, relative to each part by itself (`u = 2^-24` for `f32`, `2^-53` for `f64`). -/
theorem C56_sqrt_error (hp : 6 ≤ F.p) (k : ℕ) (hk : 2 * k + 8 ≤ F.emax) (z : Complex (Ieee F))
    (hr : z.re.Between (-k) k) (hi : z.im.Between (-k) k) :
    ∃ (r : Complex (Ieee F)) (w : ℂ), z.sqrt = .ok r ∧ w ^ 2 = ⟨z.re.value, z.im.value⟩ ∧ 0 ≤ w.re ∧
      (w.re = 0 → 0 ≤ w.im) ∧ r.re.Finite ∧ r.im.Finite ∧
      |(r.re.value : ℝ) - w.re| ≤ 12 * F.u * |w.re| ∧ |(r.im.value : ℝ) - w.im| ≤ 12 * F.u * |w.im| := by
  by_cases hz : z.re.value ≠ 0 ∨ z.im.value ≠ 0
  · have hn0 := norm_nonneg (⟨z.re.value, z.im.value⟩ : ℂ)
    have hn : ‖(⟨z.re.value, z.im.value⟩ : ℂ)‖ ^ 2 = (z.re.value : ℝ) ^ 2 + (z.im.value : ℝ) ^ 2 := by
      rw [← Complex.normSq_eq_norm_sq, Complex.normSq_mk]; ring
    obtain ⟨a, b, e, ha, hb, h1, h2⟩ := sqrt_parts hp k hk z hr hi hz hn0 hn rfl
    obtain ⟨w1, w2, w3⟩ := exact_root _ _ _ hn0 hn
    refine ⟨_, _, e, w1, w2, w3, ha, ?_, ?_, ?_⟩
    · show (if _ then _ else _ : Ieee F).Finite
      split
      · exact Ieee.neg_finite.2 hb
      · exact hb
    · show |_ - √_| ≤ 12 * _ * |√_|
      rw [abs_of_nonneg (Real.sqrt_nonneg _)]
      exact h1
    · have hlt : z.im.flt (zero : Ieee F) = true ↔ (z.im.value : ℝ) < 0 := by
        refine (Ieee.flt_value (b := .zero false) hi.1 trivial).trans ?_
        show z.im.value < 0 ↔ _
        exact_mod_cast Iff.rfl
      show |(((if _ then _ else _ : Ieee F).value : ℚ) : ℝ) - (if _ then _ else _)| ≤ 12 * _ * |if _ then _ else _|
      by_cases h0 : (z.im.value : ℝ) < 0
      · rw [if_pos (hlt.2 h0), if_pos h0, Ieee.neg_value, Rat.cast_neg, abs_neg (√_),
          abs_of_nonneg (Real.sqrt_nonneg _), neg_sub_neg, abs_sub_comm]
        exact h2
      · rw [if_neg (fun h => h0 (hlt.1 h)), if_neg h0, abs_of_nonneg (Real.sqrt_nonneg _)]
        exact h2
  · rw [not_or, not_not, not_not] at hz
    obtain ⟨h1, h2⟩ := hz
    have hi0 : ∃ s, z.im = .zero s := by
      have hf := hi.1
      revert h2 hf
      generalize z.im = y
      intro h2 hf
      cases y with
      | nan => exact hf.elim
      | inf => exact hf.elim
      | zero s => exact ⟨s, rfl⟩
      | fin y h0 _ => exact (h0 h2).elim
    obtain ⟨s, hs⟩ := hi0
    have e := C55_sqrt_real z.re s hr.1 (.inl h1) (by
      rw [h1, zero_pow two_ne_zero, F.roundQ_zero, abs_zero]; positivity)
    rw [if_pos h1.ge, ← hs] at e
    refine ⟨_, 0, e, ?_, le_rfl, fun _ => le_rfl, ?_, trivial, ?_, ?_⟩
    · rw [h1, h2, zero_pow two_ne_zero]; simp; rfl
    all_goals
      have hrz : z.re.abs.sqrt.Finite ∧ z.re.abs.sqrt.value = 0 := by
        have hf := hr.1
        revert h1 hf
        generalize z.re = y
        intro h1 hf
        cases y with
        | nan => exact hf.elim
        | inf => exact hf.elim
        | zero s => exact ⟨trivial, rfl⟩
        | fin y h0 _ => exact (h0 h1).elim
    · exact hrz.1
    · simp [hrz.2]
    · simp [Ieee.value]

/-- C56: in particular the computed root is within `12u` of the exact one in the complex plane, and its square is within
`(1 + 12u)² - 1` of `z`, relatively. -/
theorem C56_sqrt_norm_error (hp : 6 ≤ F.p) (k : ℕ) (hk : 2 * k + 8 ≤ F.emax) (z : Complex (Ieee F))
    (hr : z.re.Between (-k) k) (hi : z.im.Between (-k) k) :
    ∃ (r : Complex (Ieee F)) (w : ℂ), z.sqrt = .ok r ∧ w ^ 2 = ⟨z.re.value, z.im.value⟩ ∧ 0 ≤ w.re ∧
      (w.re = 0 → 0 ≤ w.im) ∧ ‖(⟨r.re.value, r.im.value⟩ : ℂ) - w‖ ≤ 12 * F.u * ‖w‖ ∧
      ‖(⟨r.re.value, r.im.value⟩ : ℂ) ^ 2 - ⟨z.re.value, z.im.value⟩‖ ≤
        ((1 + 12 * F.u) ^ 2 - 1) * ‖(⟨z.re.value, z.im.value⟩ : ℂ)‖ := by
  obtain ⟨r, w, e, h1, h2, h3, _, _, h4, h5⟩ := C56_sqrt_error hp k hk z hr hi
  have hu0 : (0 : ℝ) ≤ 12 * F.u := by
    have : (0 : ℝ) < F.u := by exact_mod_cast F.u_pos
    positivity
  set v : ℂ := ⟨r.re.value, r.im.value⟩ with hv
  have h6 : ‖v - w‖ ≤ 12 * F.u * ‖w‖ := by
    refine abs_le_of_sq_le_sq' ?_ (by positivity) |>.2
    rw [mul_pow, ← Complex.normSq_eq_norm_sq, ← Complex.normSq_eq_norm_sq, Complex.normSq_apply, Complex.normSq_apply]
    have a1 := pow_le_pow_left₀ (abs_nonneg _) h4 2
    have a2 := pow_le_pow_left₀ (abs_nonneg _) h5 2
    rw [mul_pow, sq_abs, sq_abs] at a1 a2
    show ((r.re.value : ℝ) - w.re) * ((r.re.value : ℝ) - w.re) + ((r.im.value : ℝ) - w.im) * ((r.im.value : ℝ) - w.im) ≤ _
    linarith
  refine ⟨r, w, e, h1, h2, h3, h6, ?_⟩
  rw [← hv, ← h1, show v ^ 2 - w ^ 2 = (v - w) * (2 * w + (v - w)) by ring, Complex.norm_mul, Complex.norm_pow]
  have h7 : ‖2 * w + (v - w)‖ ≤ 2 * ‖w‖ + 12 * F.u * ‖w‖ := by
    refine (norm_add_le _ _).trans ?_
    rw [Complex.norm_mul, Complex.norm_ofNat]
    linarith
  have h8 := mul_le_mul h6 h7 (norm_nonneg _) (by positivity)
  refine h8.trans (le_of_eq ?_)
  ring

/-- The theorem applies to `1 + 2^-20 i` in `f32`, where the textbook formula `√((|z| - re)/2)` loses the imaginary part
completely (`|z|` rounds to 1); the code returns `1 + 2^-21 i`. -/
example : 6 ≤ Fmt.f32.p ∧ (2 * (59 : ℕ) + 8 : ℤ) ≤ Fmt.f32.emax ∧
    (⟨f32 1, f32 (1 / 2 ^ 20)⟩ : Complex _).abs = .ok (f32 1) ∧
    (⟨f32 1, f32 (1 / 2 ^ 20)⟩ : Complex _).sqrt = .ok ⟨f32 1, f32 (1 / 2 ^ 21)⟩ := by decide +kernel

example : (f32 (1 / 2 ^ 20)).Between (-(59 : ℕ)) (59 : ℕ) ∧ (f32 1).Between (-(59 : ℕ)) (59 : ℕ) := by
  unfold Ieee.Between; decide +kernel

end Magnesia
