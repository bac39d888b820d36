import Verif.Proof.LnMul
import Verif.Props.IeeeSqrtErr
import Verif.Props.SqrtCheck
import Verif.Proof.CPerturb
import Verif.Proof.Euler

/-!
# Square roots of complex numbers of bounded absolute value, whatever underflows
-/

namespace Magnesia

open RZero ROne MulRefs

variable {F : Fmt}

theorem Ieee.sqrt_near {n : Ieee F} (h : 0 < n.value) : n.sqrt.Finite ∧ (0 : ℝ) ≤ n.sqrt.value ∧
    (1 - (F.u : ℝ)) ^ 2 * n.value ≤ (n.sqrt.value : ℝ) ^ 2 ∧ (n.sqrt.value : ℝ) ^ 2 ≤ (1 + (F.u : ℝ)) ^ 2 * n.value := by
  cases n with
  | nan => exact absurd h (lt_irrefl _)
  | inf => exact absurd h (lt_irrefl _)
  | zero => exact absurd h (lt_irrefl _)
  | fin q h0 hq =>
    have h' : 0 < q := h
    rw [show (Ieee.fin q h0 hq : Ieee F).sqrt = .fin (F.roundSqrt q) (F.roundSqrt_ne_zero h') (F.representable_roundSqrt h' hq)
      from dif_pos h']
    obtain ⟨g1, g2, g3⟩ := F.roundSqrt_err h'
    exact ⟨trivial, by exact_mod_cast g1, by exact_mod_cast g2, by exact_mod_cast g3⟩

/-- Real arithmetic: the square root of a slightly wrong square. -/
theorem root_of_near {u n H h : ℝ} (u0 : 0 < u) (u1 : u ≤ 1 / 2 ^ 20) (H0 : 0 < H) (hn : |n - H ^ 2| ≤ 2.011 * u * H ^ 2)
    (h0 : 0 ≤ h) (h1 : (1 - u) ^ 2 * n ≤ h ^ 2) (h2 : h ^ 2 ≤ (1 + u) ^ 2 * n) : |h - H| ≤ 2.02 * u * H := by
  obtain ⟨n1, n2⟩ := abs_le.1 hn
  have HH : 0 < H ^ 2 := by positivity
  have uu : u ^ 2 ≤ 1 / 2 ^ 20 * u := by nlinarith
  have uu0 : 0 < u ^ 2 := by positivity
  have u3 : u ^ 3 ≤ 1 / 2 ^ 20 * u := by nlinarith
  have u30 : 0 < u ^ 3 := by positivity
  refine rel_of_sq h0 H0.le (by positivity) (by linarith) ?_ ?_
  · refine le_trans ?_ h1
    have k1 : (1 - u) ^ 2 * ((1 - 2.011 * u) * H ^ 2) ≤ (1 - u) ^ 2 * n := mul_le_mul_of_nonneg_left (by linarith) (sq_nonneg _)
    refine le_trans ?_ k1
    rw [← mul_assoc]
    refine mul_le_mul_of_nonneg_right ?_ HH.le
    nlinarith
  · refine h2.trans ?_
    have k1 : (1 + u) ^ 2 * n ≤ (1 + u) ^ 2 * ((1 + 2.011 * u) * H ^ 2) := mul_le_mul_of_nonneg_left (by linarith) (sq_nonneg _)
    refine k1.trans ?_
    rw [← mul_assoc]
    refine mul_le_mul_of_nonneg_right ?_ HH.le
    nlinarith

theorem HalfRoot.mono {u v s r : ℝ} (h : HalfRoot u s r) (u0 : 0 ≤ u) (v1 : v ≤ 1) (huv : u ≤ v) (hs : 0 ≤ s) : HalfRoot v s r := by
  refine ⟨h.nonneg, le_trans ?_ h.lo, h.hi.trans ?_⟩
  · exact mul_le_mul_of_nonneg_right (pow_le_pow_left₀ (by linarith) (by linarith) 2) (by linarith)
  · exact mul_le_mul_of_nonneg_right (pow_le_pow_left₀ (by linarith) (by linarith) 2) (by linarith)

/-- A number within `u q + η` of `q` is within `η` of one within `u q` of `q`. -/
theorem split_err {u η q b : ℝ} (hη : 0 ≤ η) (hu : 0 ≤ u) (hq : 0 ≤ q) (h : |b - q| ≤ u * q + η) :
    ∃ w, |b - w| ≤ η ∧ |w - q| ≤ u * |q| := by
  rw [abs_of_nonneg hq]
  have uq : 0 ≤ u * q := by positivity
  obtain ⟨h1, h2⟩ := abs_le.1 h
  rcases le_total (b - q) (-(u * q)) with h3 | h3
  · exact ⟨q - u * q, abs_le.2 ⟨by linarith, by linarith⟩, abs_le.2 ⟨by linarith, by linarith⟩⟩
  rcases le_total (b - q) (u * q) with h4 | h4
  · exact ⟨b, by simpa using hη, abs_le.2 ⟨h3, h4⟩⟩
  · exact ⟨q + u * q, abs_le.2 ⟨by linarith, by linarith⟩, abs_le.2 ⟨by linarith, by linarith⟩⟩

theorem Ieee.div_near {a b : Ieee F} (ha : a.Finite) (hb : b.Finite) (hb0 : b.value ≠ 0)
    (h : |(a.value : ℝ) / b.value| ≤ 2 ^ F.emax) : (a.div b).Finite ∧
    |((a.div b).value : ℝ) - a.value / b.value| ≤ F.u * |(a.value : ℝ) / b.value| + F.η := by
  have η0 : (0 : ℝ) ≤ F.η := by exact_mod_cast F.η_pos.le
  by_cases h0 : a.value = 0
  · obtain ⟨h2, h3⟩ := Ieee.div_zero_value ha hb h0 hb0
    exact ⟨h2, by rw [h3, h0]; simpa using η0⟩
  · rw [Ieee.div_fin h0 hb0]
    have f : (Ieee.round (a.value / b.value) : Ieee F).Finite := Ieee.round_small (le_of_real (by push_cast; exact h))
    refine ⟨f, ?_⟩
    rw [Ieee.round_finite f]
    have := F.roundQ_err_any (a.value / b.value)
    exact_mod_cast this

section trace

variable {z : Complex (Ieee F)} {h : Ieee F} {H : ℝ}

/-- The direct branch: one part, the argument is `± re`. -/
theorem direct_part (hu0 : (0 : ℝ) < F.u) (hu : (F.u : ℝ) ≤ 1 / 2 ^ 20) (H0 : 0 < H) (hlo : (2 : ℝ) ^ (F.emin + 1) ≤ H / 32)
    (hhi : 16 * H ≤ 2 ^ F.emax) (hf : h.Finite) (herr : |(h.value : ℝ) - H| ≤ 2.02 * F.u * H) {v : Ieee F} (hv : v.Finite)
    (hv9 : |(v.value : ℝ)| ≤ 0.8945 * H) :
    ((h.add v).mul (.fin (1 / 2) (by norm_num) F.representable_half)).sqrt.Finite ∧ ∃ s : ℝ,
      |s - (h.value + v.value)| ≤ 1.01 * F.u * |(h.value : ℝ) + v.value| ∧
      HalfRoot (1.01 * F.u) s (((h.add v).mul (.fin (1 / 2) (by norm_num) F.representable_half)).sqrt.value : ℚ) := by
  obtain ⟨h1, h2⟩ := abs_le.1 herr
  obtain ⟨v1, v2⟩ := abs_le.1 hv9
  have uH : (F.u : ℝ) * H ≤ 1 / 2 ^ 20 * H := mul_le_mul_of_nonneg_right hu H0.le
  have hsum : 0.06 * H ≤ (h.value : ℝ) + v.value := by linarith
  have hsum2 : (h.value : ℝ) + v.value ≤ 2 * H := by linarith
  have hsp : 0 < (h.value : ℝ) + v.value := by linarith
  obtain ⟨f1, f2⟩ := Ieee.add_near hf hv (M := 2 * H) (by rw [abs_of_pos hsp]; exact hsum2) (by linarith)
  have hslo' : 0.05 * H ≤ (((h.add v).value : ℚ) : ℝ) := by
    have h3 := (abs_le.1 f2).1
    rw [abs_of_pos hsp] at h3
    have h4 : (F.u : ℝ) * (h.value + v.value) ≤ 1 / 2 ^ 20 * (h.value + v.value) := mul_le_mul_of_nonneg_right hu hsp.le
    linarith
  have hslo : (2 : ℚ) ^ (F.emin + 1) ≤ (h.add v).value := two_le_cast.2 (by linarith)
  obtain ⟨g1, g2, g3, g4⟩ := Ieee.half_sqrt hslo
  refine ⟨g1, _, f2.trans (mul_le_mul_of_nonneg_right (by linarith) (abs_nonneg _)), ?_⟩
  refine HalfRoot.mono (u := F.u) ⟨by exact_mod_cast g2, by exact_mod_cast g3, by exact_mod_cast g4⟩ hu0.le (by linarith)
    (by linarith) (by linarith)

/-- The stable branch: the two numbers computed. -/
theorem stable_parts (hu0 : (0 : ℝ) < F.u) (hu : (F.u : ℝ) ≤ 1 / 2 ^ 20) (H0 : 0 < H) (hlo : (2 : ℝ) ^ (F.emin + 1) ≤ H / 32)
    (hhi : 16 * H ≤ 2 ^ F.emax) (hbig : (1 : ℝ) ≤ 2 ^ F.emax) (hf : h.Finite)
    (herr : |(h.value : ℝ) - H| ≤ 2.02 * F.u * H) {x y : Ieee F}
    (hx : x.Finite) (hxH : |(x.value : ℝ)| ≤ H) (hy : y.Finite) (hyH : |(y.value : ℝ)| ≤ H) :
    ∃ s t w : ℝ, |s - (h.value + |(x.value : ℝ)|)| ≤ 1.01 * F.u * |(h.value : ℝ) + (|(x.value : ℝ)|)| ∧
      ((h.add x.abs).mul (.fin (1 / 2) (by norm_num) F.representable_half)).sqrt.Finite ∧
      HalfRoot (1.01 * F.u) s (((h.add x.abs).mul (.fin (1 / 2) (by norm_num) F.representable_half)).sqrt.value : ℚ) ∧
      0 < t ∧ (1 - 1.01 * F.u) ^ 2 * (s * 2) ≤ t ^ 2 ∧ t ^ 2 ≤ (1 + 1.01 * F.u) ^ 2 * (s * 2) ∧
      (y.abs.div ((h.add x.abs).mul (.fin 2 two_ne_zero F.representable_two)).sqrt).Finite ∧
      |((y.abs.div ((h.add x.abs).mul (.fin 2 two_ne_zero F.representable_two)).sqrt).value : ℝ) - w| ≤ F.η ∧
      |w - |(y.value : ℝ)| / t| ≤ 1.01 * F.u * |(|(y.value : ℝ)|) / t| := by
  obtain ⟨h1, h2⟩ := abs_le.1 herr
  have uH : (F.u : ℝ) * H ≤ 1 / 2 ^ 20 * H := mul_le_mul_of_nonneg_right hu H0.le
  have hav : ((x.abs.value : ℚ) : ℝ) = |(x.value : ℝ)| := by rw [Ieee.abs_value, Rat.cast_abs]
  have hyv : ((y.abs.value : ℚ) : ℝ) = |(y.value : ℝ)| := by rw [Ieee.abs_value, Rat.cast_abs]
  have hx0 := abs_nonneg (x.value : ℝ)
  have hsp : 0 < (h.value : ℝ) + |(x.value : ℝ)| := by linarith
  have hs2 : (h.value : ℝ) + |(x.value : ℝ)| ≤ 3 * H := by linarith
  obtain ⟨f1, f2⟩ := Ieee.add_near hf (Ieee.abs_finite.2 hx) (M := 3 * H) (by rw [hav, abs_of_pos hsp]; exact hs2) (by linarith)
  rw [hav] at f2
  have h4 : (F.u : ℝ) * (h.value + |(x.value : ℝ)|) ≤ 1 / 2 ^ 20 * (h.value + |(x.value : ℝ)|) :=
    mul_le_mul_of_nonneg_right hu hsp.le
  have h3 := abs_le.1 f2
  rw [abs_of_pos hsp] at h3
  have slow : 0.9 * H ≤ (((h.add x.abs).value : ℚ) : ℝ) := by linarith
  have shigh : (((h.add x.abs).value : ℚ) : ℝ) ≤ 4 * H := by linarith
  have hslo : (2 : ℚ) ^ (F.emin + 1) ≤ (h.add x.abs).value := two_le_cast.2 (by linarith)
  have hspos : 0 < (h.add x.abs).value := lt_of_lt_of_le (by positivity) hslo
  obtain ⟨g1, g2, g3, g4⟩ := Ieee.half_sqrt hslo
  obtain ⟨t1, t2, t3, t4⟩ := Ieee.two_sqrt hspos (by
    have h5 : (((h.add x.abs).value : ℚ) : ℝ) * 2 < (2 : ℝ) ^ (F.emax + 1) := by
      rw [zpow_add_one₀ (by norm_num)]
      linarith
    exact cast_lt_two.2 (by push_cast; exact h5))
  generalize ((h.add x.abs).mul (.fin (1 / 2) (by norm_num) F.representable_half)).sqrt = bb at *
  generalize ((h.add x.abs).mul (.fin 2 two_ne_zero F.representable_two)).sqrt = tt at *
  generalize (h.add x.abs) = ss at *
  have t3' : (1 - (F.u : ℝ)) ^ 2 * ((ss.value : ℝ) * 2) ≤ (tt.value : ℝ) ^ 2 := by exact_mod_cast t3
  have t4' : (tt.value : ℝ) ^ 2 ≤ (1 + (F.u : ℝ)) ^ 2 * ((ss.value : ℝ) * 2) := by exact_mod_cast t4
  have t2' : (0 : ℝ) < tt.value := by exact_mod_cast t2
  have s0 : (0 : ℝ) ≤ ss.value := by linarith
  have tH : H ≤ (tt.value : ℝ) ^ 2 := by
    refine le_trans ?_ t3'
    have h5 : 0.9 ≤ (1 - (F.u : ℝ)) ^ 2 := by nlinarith
    have h6 := mul_le_mul_of_nonneg_right h5 (show (0 : ℝ) ≤ (ss.value : ℝ) * 2 by positivity)
    linarith
  have e0 : (0 : ℝ) < 2 ^ F.emax := by positivity
  have q0 : 0 ≤ |(y.value : ℝ)| / tt.value := by positivity
  have qb : |(y.value : ℝ)| / tt.value ≤ 2 ^ F.emax := by
    rw [div_le_iff₀ t2']
    refine hyH.trans ?_
    refine abs_le_of_sq_le_sq' ?_ (by positivity) |>.2
    rw [mul_pow, pow_two H]
    have h6 := mul_le_mul_of_nonneg_left tH (show (0 : ℝ) ≤ (2 ^ F.emax) ^ 2 by positivity)
    refine le_trans ?_ h6
    rw [pow_two, mul_assoc]
    have h7 : H * H ≤ 2 ^ F.emax * H := mul_le_mul_of_nonneg_right (by linarith) H0.le
    have h8 : 1 * (2 ^ F.emax * H) ≤ 2 ^ F.emax * (2 ^ F.emax * H) := mul_le_mul_of_nonneg_right hbig (by positivity)
    linarith only [h7, h8]
  have η0 : (0 : ℝ) ≤ F.η := by exact_mod_cast F.η_pos.le
  obtain ⟨q1, q2⟩ := Ieee.div_near (a := y.abs) (b := tt) (Ieee.abs_finite.2 hy) t1 t2.ne' (by rw [hyv, abs_of_nonneg q0]; exact qb)
  rw [hyv, abs_of_nonneg q0] at q2
  obtain ⟨w, w1, w2⟩ := split_err η0 hu0.le q0 q2
  refine ⟨ss.value, tt.value, w, f2.trans (mul_le_mul_of_nonneg_right (by linarith) (abs_nonneg _)), g1,
    HalfRoot.mono (u := F.u) ⟨by exact_mod_cast g2, by exact_mod_cast g3, by exact_mod_cast g4⟩ hu0.le (by linarith)
      (by linarith) s0, t2', ?_, ?_, q1, w1, w2.trans (mul_le_mul_of_nonneg_right (by linarith) (abs_nonneg _))⟩
  · exact le_trans (mul_le_mul_of_nonneg_right (pow_le_pow_left₀ (by linarith) (by linarith) 2) (by linarith)) t3'
  · exact t4'.trans (mul_le_mul_of_nonneg_right (pow_le_pow_left₀ (by linarith) (by linarith) 2) (by linarith))

/-- The whole computation: up to `η` in each part, the steps of `SqrtSteps` with `1.01 u` for `u`. -/
theorem sqrt_trace_sized (hp : 20 ≤ F.p) {k : ℕ} (hk : 4 * k + 10 ≤ F.emax) (hz : CFinite z)
    (h1 : (2 : ℝ) ^ (-(k : ℤ)) ≤ ‖cval z‖) (h2 : ‖cval z‖ ≤ 2 ^ (k : ℤ)) :
    ∃ (a b : Ieee F) (h a' b' : ℝ), z.sqrt = .ok ⟨a, if z.im.flt zero then b.neg else b⟩ ∧ a.Finite ∧ b.Finite ∧
      |(a.value : ℝ) - a'| ≤ F.η ∧ |(b.value : ℝ) - b'| ≤ F.η ∧ |h - ‖cval z‖| ≤ ((1 + 1.01 * (F.u : ℝ)) ^ 2 - 1) * ‖cval z‖ ∧
      SqrtSteps (1.01 * F.u) z.re.value |(z.im.value : ℝ)| h a' b' := by
  obtain ⟨u0, u1⟩ := Fmt.u_small (F := F) hp
  have hη := Fmt.η_small hk
  have η0 := (η_le_one F).1
  have hem : F.emin = 1 - F.emax := rfl
  have K1 : (1 : ℝ) ≤ 2 ^ (k : ℤ) := one_le_zpow₀ (by norm_num) (by positivity)
  have hbig : 2 ^ 10 * ((2 : ℝ) ^ (k : ℤ)) ^ 2 ≤ 2 ^ F.emax := by
    rw [← zpow_natCast, ← zpow_natCast, ← zpow_mul, ← zpow_add₀ (by norm_num)]
    exact zpow_le_zpow_right₀ (by norm_num) (by push_cast; omega)
  have hlo : (2 : ℝ) ^ (F.emin + 1) ≤ (2 : ℝ) ^ (-(k : ℤ)) / 32 := by
    rw [show (32 : ℝ) = 2 ^ (5 : ℤ) by norm_num, ← zpow_sub₀ (by norm_num)]
    exact zpow_le_zpow_right₀ (by norm_num) (by omega)
  have L0 : (0 : ℝ) < 2 ^ (-(k : ℤ)) := by positivity
  have L1 : (2 : ℝ) ^ (-(k : ℤ)) ≤ 1 := zpow_le_one_of_nonpos₀ (by norm_num) (by omega)
  set K : ℝ := (2 : ℝ) ^ (k : ℤ) with hK
  set L : ℝ := (2 : ℝ) ^ (-(k : ℤ)) with hL
  set H : ℝ := ‖cval z‖ with hH
  have H0 : 0 < H := L0.trans_le h1
  have hz0 : cval z ≠ 0 := norm_pos_iff.1 H0
  have HK : H ^ 2 ≤ K ^ 2 := pow_le_pow_left₀ H0.le h2 2
  have K2 : K ≤ K ^ 2 := by nlinarith
  have LH : L ^ 2 ≤ H ^ 2 := pow_le_pow_left₀ L0.le h1 2
  have L4 : L ^ 4 ≤ L ^ 2 := pow_le_pow_of_le_one L0.le L1 (by norm_num)
  have uL : F.u * L ^ 4 ≤ F.u * L ^ 2 := mul_le_mul_of_nonneg_left L4 u0.le
  have uH : F.u * L ^ 2 ≤ F.u * H ^ 2 := mul_le_mul_of_nonneg_left LH u0.le
  have hx : |(z.re.value : ℝ)| ≤ H := _root_.Complex.abs_re_le_norm (cval z)
  have hy : |(z.im.value : ℝ)| ≤ H := _root_.Complex.abs_im_le_norm (cval z)
  -- the absolute value
  obtain ⟨n, en, fn⟩ := sqrNorm_finite hz (by rw [← hH]; linarith)
  have hn := sqrNorm_rel en fn hz0
  obtain ⟨r1, -, -⟩ := sqrNormErr_small (F := F) hp H0 (by linarith)
  have hn' := hn.trans (mul_le_mul_of_nonneg_right r1 (sq_nonneg _))
  rw [← hH] at hn'
  have nb := (abs_le.1 hn').1
  have uW1 : F.u * H ^ 2 ≤ 1 / 2 ^ 20 * H ^ 2 := mul_le_mul_of_nonneg_right u1 (sq_nonneg _)
  have HH : 0 < H ^ 2 := by positivity
  have np : (0 : ℝ) < n.value := by linarith
  obtain ⟨hf, s1, s2, s3⟩ := Ieee.sqrt_near (n := n) (by exact_mod_cast np)
  have herr := root_of_near u0 u1 H0 hn' s1 s2 s3
  have en' : (z.re.mul z.re).add (z.im.mul z.im) = n := Except.ok.inj en
  rw [ieee_csqrt]
  simp only [en']
  generalize n.sqrt = h at *
  have herr' : |(h.value : ℝ) - H| ≤ ((1 + 1.01 * (F.u : ℝ)) ^ 2 - 1) * H := by
    refine herr.trans (mul_le_mul_of_nonneg_right ?_ H0.le)
    nlinarith
  -- the branch
  have hy2 : |z.im.value| * 2 < 2 ^ (F.emax + 1) := by
    have h3 : |(z.im.value : ℝ)| * 2 < (2 : ℝ) ^ (F.emax + 1) := by
      rw [zpow_add_one₀ (by norm_num)]
      linarith
    exact cast_lt_two.2 (by push_cast; exact h3)
  obtain ⟨c1, c2⟩ := Ieee.abs_two hz.2 hy2
  have hc : z.re.abs.fle (z.im.abs.mul (.fin 2 two_ne_zero F.representable_two)) = true ↔ |z.re.value| ≤ |z.im.value| * 2 := by
    rw [Ieee.fle_value (Ieee.abs_finite.2 hz.1) c1, c2, Ieee.abs_value]
  have η00 : |(0 : ℝ)| ≤ F.η := by rw [abs_zero]; exact η0.le
  by_cases hb : |z.re.value| ≤ |z.im.value| * 2
  · rw [if_pos (hc.2 hb)]
    have hb' : |(z.re.value : ℝ)| ≤ |(z.im.value : ℝ)| * 2 := by exact_mod_cast hb
    have hH2 : H ^ 2 = (z.re.value : ℝ) ^ 2 + (z.im.value : ℝ) ^ 2 := by
      rw [hH, _root_.Complex.sq_norm, _root_.Complex.normSq_apply]; simp only [cval]; ring
    have hx9 : |(z.re.value : ℝ)| ≤ 0.8945 * H := by
      refine abs_le_of_sq_le_sq' ?_ (by positivity) |>.2
      have h3 := pow_le_pow_left₀ (abs_nonneg _) hb' 2
      rw [mul_pow, sq_abs, sq_abs] at h3
      rw [sq_abs, mul_pow, hH2]
      nlinarith [sq_nonneg (z.re.value : ℝ), sq_nonneg (z.im.value : ℝ)]
    obtain ⟨k1, s, k2, k3⟩ := direct_part u0 u1 H0 (by linarith) (by linarith) hf herr hz.1 hx9
    obtain ⟨l1, d, l2, l3⟩ := direct_part u0 u1 H0 (by linarith) (by linarith) hf herr (Ieee.neg_finite.2 hz.1)
      (by rw [Ieee.neg_value, Rat.cast_neg, abs_neg]; exact hx9)
    rw [Ieee.neg_value, Rat.cast_neg, ← sub_eq_add_neg] at l2
    exact ⟨_, _, h.value, _, _, rfl, k1, l1, (congrArg abs (sub_self _)).trans_le η00, (congrArg abs (sub_self _)).trans_le η00,
      herr', .direct s d hb' k2 l2 k3 l3⟩
  · have hc' : z.re.abs.fle (z.im.abs.mul (.fin 2 two_ne_zero F.representable_two)) = false := by
      rw [Bool.eq_false_iff]; exact fun h3 => hb (hc.1 h3)
    rw [if_neg (by rw [hc']; simp)]
    have hb' : |(z.im.value : ℝ)| * 2 ≤ |(z.re.value : ℝ)| := by exact_mod_cast (not_le.1 hb).le
    obtain ⟨s, t, w, i1, i2, i3, i4, i5, i6, i7, i8, i9⟩ := stable_parts u0 u1 H0 (by linarith) (by linarith) (by linarith)
      hf herr hz.1 hx hz.2 hy
    have hz0 : (zero : Ieee F).fle z.re = true ↔ 0 ≤ z.re.value := Ieee.fle_value (a := .zero false) trivial hz.1
    by_cases h0 : 0 ≤ z.re.value
    · rw [if_pos (hz0.2 h0)]
      exact ⟨_, _, h.value, _, w, rfl, i2, i7, by rw [sub_self]; exact η00, i8, herr',
        .right _ _ hb' (by exact_mod_cast h0) i1 i3 i4 i5 i6 i9⟩
    · rw [if_neg (fun h3 => h0 (hz0.1 h3))]
      exact ⟨_, _, h.value, w, _, rfl, i7, i2, i8, by rw [sub_self]; exact η00, herr',
        .left _ _ hb' (by exact_mod_cast (not_le.1 h0).le) i1 i3 i4 i5 i6 i9⟩

/-- The square root of a number of absolute value between `2 ^ -k` and `2 ^ k` is finite and within `12.2u` of the principal
root, plus `2η`, in the complex plane. The parts may be arbitrarily small. -/
theorem sqrt_sized (hp : 20 ≤ F.p) {k : ℕ} (hk : 4 * k + 10 ≤ F.emax) (hz : CFinite z)
    (h1 : (2 : ℝ) ^ (-(k : ℤ)) ≤ ‖cval z‖) (h2 : ‖cval z‖ ≤ 2 ^ (k : ℤ)) :
    ∃ r, z.sqrt = .ok r ∧ CFinite r ∧
      ‖cval r - cval z ^ (1 / 2 : ℂ)‖ ≤ 12.2 * F.u * Real.sqrt ‖cval z‖ + 2 * F.η := by
  obtain ⟨u0, u1⟩ := Fmt.u_small (F := F) hp
  have η0 := (η_le_one F).1
  obtain ⟨a, b, h, a', b', e, fa, fb, ea, eb, herr, st⟩ := sqrt_trace_sized hp hk hz h1 h2
  have H0 : 0 < ‖cval z‖ := lt_of_lt_of_le (by positivity) h1
  have hH2 : ‖cval z‖ ^ 2 = (z.re.value : ℝ) ^ 2 + (z.im.value : ℝ) ^ 2 := by
    rw [_root_.Complex.sq_norm, _root_.Complex.normSq_apply]; simp only [cval]; ring
  obtain ⟨p1, p2⟩ := SqrtSteps.err (by positivity) (by linarith) H0 hH2 herr st
  obtain ⟨w1, w2, w3⟩ := exact_root _ _ _ H0.le hH2
  refine ⟨_, e, ⟨fa, ?_⟩, ?_⟩
  · show (if _ then _ else _ : Ieee F).Finite
    split
    · exact Ieee.neg_finite.2 fb
    · exact fb
  have hw := principal_root w1 w2 w3
  have sn := sqrt_norm (cval z)
  change _ = cval z ^ (1 / 2 : ℂ) at hw
  rw [← hw] at sn ⊢
  rw [← sn]
  set w : ℂ := ⟨√((‖cval z‖ + z.re.value) / 2), if (z.im.value : ℝ) < 0 then -√((‖cval z‖ - z.re.value) / 2)
    else √((‖cval z‖ - z.re.value) / 2)⟩ with hwd
  have r1 : |(a.value : ℝ) - w.re| ≤ 12.2 * F.u * |w.re| + F.η := by
    rw [show w.re = √((‖cval z‖ + z.re.value) / 2) from rfl, abs_of_nonneg (Real.sqrt_nonneg _)]
    have s0 := Real.sqrt_nonneg ((‖cval z‖ + z.re.value) / 2)
    have us : 0 ≤ F.u * √((‖cval z‖ + z.re.value) / 2) := by positivity
    have := abs_sub_le (a.value : ℝ) a' (√((‖cval z‖ + z.re.value) / 2))
    linarith only [this, ea, p1, us]
  have hlt : z.im.flt (zero : Ieee F) = true ↔ (z.im.value : ℝ) < 0 := by
    refine (Ieee.flt_value (b := .zero false) hz.2 trivial).trans ?_
    show z.im.value < 0 ↔ _
    exact_mod_cast Iff.rfl
  have r2 : |(((if z.im.flt zero then b.neg else b : Ieee F).value : ℚ) : ℝ) - w.im| ≤ 12.2 * F.u * |w.im| + F.η := by
    have s0 := Real.sqrt_nonneg ((‖cval z‖ - z.re.value) / 2)
    have us : 0 ≤ F.u * √((‖cval z‖ - z.re.value) / 2) := by positivity
    have := abs_sub_le (b.value : ℝ) b' (√((‖cval z‖ - z.re.value) / 2))
    rw [show w.im = if (z.im.value : ℝ) < 0 then -√((‖cval z‖ - z.re.value) / 2) else √((‖cval z‖ - z.re.value) / 2) from rfl]
    by_cases h0 : (z.im.value : ℝ) < 0
    · rw [if_pos (hlt.2 h0), if_pos h0, Ieee.neg_value, Rat.cast_neg, abs_neg (√_), abs_of_nonneg s0, neg_sub_neg, abs_sub_comm]
      linarith only [this, eb, p2, us]
    · rw [if_neg (fun h => h0 (hlt.1 h)), if_neg h0, abs_of_nonneg s0]
      linarith only [this, eb, p2, us]
  have := norm_le_of_parts_add (e := cval ⟨a, if z.im.flt zero then b.neg else b⟩ - w) (s := w)
    (show (0 : ℝ) ≤ 12.2 * F.u by positivity) η0.le r1 r2
  have q2 := sqrt_two_bounds.1
  have k2 : Real.sqrt 2 * F.η ≤ 1.415 * F.η := mul_le_mul_of_nonneg_right q2 η0.le
  linarith

end trace

end Magnesia
