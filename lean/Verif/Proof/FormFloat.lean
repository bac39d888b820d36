import Verif.Proof.FormErr
import Verif.Props.CxRound

/-!
# Floating point numbers as entries of formulas (helper lemmas)
-/

namespace Magnesia

open RZero ROne

variable {F : Fmt}

namespace Ieee

theorem round_small {x : ℚ} (h : |x| ≤ 2 ^ F.emax) : (round x : Ieee F).Finite := by
  have h5 := F.abs_roundQ_le F.emin_le_emax h
  have h7 : |F.roundQ x| < 2 ^ (F.emax + 1) := h5.trans_lt (zpow_lt_zpow_right₀ (by norm_num) (by omega))
  unfold round
  split_ifs
  · trivial
  · trivial

theorem add_small {a b : Ieee F} (ha : a.Finite) (hb : b.Finite) (h : |a.value + b.value| ≤ 2 ^ F.emax) :
    (a.add b).Finite := by
  by_cases h0 : a.value + b.value = 0
  · exact (add_zero_value ha hb h0).1
  · rw [add_fin ha hb h0]; exact round_small h

theorem sub_small {a b : Ieee F} (ha : a.Finite) (hb : b.Finite) (h : |a.value - b.value| ≤ 2 ^ F.emax) :
    (a.sub b).Finite :=
  add_small ha (neg_finite.2 hb) (by rw [neg_value, ← sub_eq_add_neg]; exact h)

theorem mul_small {a b : Ieee F} (ha : a.Finite) (hb : b.Finite) (h : |a.value * b.value| ≤ 2 ^ F.emax) :
    (a.mul b).Finite := by
  by_cases h0 : a.value = 0 ∨ b.value = 0
  · exact (mul_zero_value ha hb h0).1
  · obtain ⟨h1, h2⟩ := not_or.1 h0
    rw [mul_fin h1 h2]; exact round_small h

theorem mul_errR {a b : Ieee F} (h : (a.mul b).Finite) :
    |((a.mul b).value : ℝ) - a.value * b.value| ≤ F.u * |(a.value : ℝ) * b.value| + F.η := by
  have : |(a.mul b).value - a.value * b.value| ≤ F.u * |a.value * b.value| + F.η := by
    rw [(mul_finite h).2.2]; exact F.roundQ_err_any _
  exact_mod_cast this

end Ieee

theorem le_of_real {x : ℚ} {e : ℤ} (h : |(x : ℝ)| ≤ 2 ^ e) : |x| ≤ 2 ^ e := by
  have : ((|x| : ℚ) : ℝ) ≤ ((2 ^ e : ℚ) : ℝ) := by push_cast; exact h
  exact_mod_cast this

theorem ieee_one : (one : Ieee F).real = 1 ∧ (one : Ieee F).Finite := by
  constructor
  · show ((1 : ℚ) : ℝ) = 1; norm_num
  · trivial

theorem ieee_floatOps : FloatOps (Ieee.Finite (F := F)) Ieee.real id (2 ^ F.emax) F.u F.u F.η where
  u_nonneg := by exact_mod_cast F.u_pos.le
  v_nonneg := by exact_mod_cast F.u_pos.le
  η_nonneg := by exact_mod_cast F.η_pos.le
  zero := ⟨by simp [Ieee.real, Ieee.value, zero], trivial⟩
  one := ieee_one
  add a b d h hd := by
    cases h
    obtain ⟨h1, h2, _⟩ := Ieee.add_finite hd
    exact ⟨h1, h2, Ieee.add_errR hd⟩
  sub a b d h hd := by
    cases h
    obtain ⟨h1, h2, _⟩ := Ieee.sub_finite hd
    exact ⟨h1, h2, Ieee.sub_errR hd⟩
  mul a b d h hd := by
    cases h
    obtain ⟨h1, h2, _⟩ := Ieee.mul_finite hd
    exact ⟨h1, h2, Ieee.mul_errR hd⟩
  addAssign a b d h hd := by
    cases h
    obtain ⟨h1, h2, _⟩ := Ieee.add_finite hd
    exact ⟨h1, h2, Ieee.add_errR hd⟩
  conj a d h := by cases h; exact ⟨rfl, Iff.rfl⟩
  σ_dist _ _ := rfl
  σ_zero := rfl
  add_fin a b ha hb h := ⟨_, rfl, Ieee.add_small ha hb (by
    have h : |(a.value : ℝ) + b.value| ≤ 2 ^ F.emax := h
    exact le_of_real (by push_cast; exact h))⟩
  sub_fin a b ha hb h := ⟨_, rfl, Ieee.sub_small ha hb (by
    have h : |(a.value : ℝ) - b.value| ≤ 2 ^ F.emax := h
    exact le_of_real (by push_cast; exact h))⟩
  mul_fin a b ha hb h := ⟨_, rfl, Ieee.mul_small ha hb (by
    have h : |(a.value : ℝ) * b.value| ≤ 2 ^ F.emax := h
    exact le_of_real (by push_cast; exact h))⟩
  addAssign_fin a b ha hb h := ⟨_, rfl, Ieee.add_small ha hb (by
    have h : |(a.value : ℝ) + b.value| ≤ 2 ^ F.emax := h
    exact le_of_real (by push_cast; exact h))⟩
  conj_ret a := ⟨_, rfl⟩

/-- The parts of a product of moderate size are finite. -/
theorem cmul_small {z w : Complex (Ieee F)} (hz : CFinite z) (hw : CFinite w)
    (h : ‖cval z * cval w‖ ≤ 2 ^ (F.emax - 1)) :
    ((z.re.mul w.re).sub (z.im.mul w.im)).Finite ∧ ((z.re.mul w.im).add (z.im.mul w.re)).Finite := by
  obtain ⟨h1, h2⟩ := prods_le_norm (cval z) (cval w)
  rw [← norm_mul] at h1 h2
  have half : (2 : ℝ) ^ (F.emax - 1) * 2 = 2 ^ F.emax := by
    rw [← zpow_add_one₀ (by norm_num)]; congr 1; ring
  have hB : (0 : ℝ) < 2 ^ (F.emax - 1) := zpow_pos (by norm_num) _
  have hu : (0 : ℝ) ≤ F.u := by exact_mod_cast F.u_pos.le
  have hu4 : (F.u : ℝ) ≤ 1 / 4 := by
    have h : F.u ≤ 2 ^ (-2 : ℤ) := zpow_le_zpow_right₀ (by norm_num) (by have := F.two_le_p; omega)
    have h2 : F.u ≤ 1 / 4 := by norm_num at h ⊢; exact h
    have h3 : (F.u : ℝ) ≤ ((1 / 4 : ℚ) : ℝ) := by exact_mod_cast h2
    norm_num at h3 ⊢; exact h3
  have hη : (F.η : ℝ) ≤ 2 ^ (F.emax - 1) / 16 := by
    have h : F.η ≤ 2 ^ (F.emax - 1 - 4) := zpow_le_zpow_right₀ (by norm_num) (by
      have := F.two_le_p; have := F.p_le_emax; unfold Fmt.emin; omega)
    rw [zpow_sub₀ (by norm_num)] at h
    have h3 : (F.η : ℝ) ≤ ((2 ^ (F.emax - 1) / 2 ^ (4 : ℤ) : ℚ) : ℝ) := by exact_mod_cast h
    push_cast at h3
    exact h3
  have prod : ∀ {a b : Ieee F}, a.Finite → b.Finite → |(a.value : ℝ)| * |(b.value : ℝ)| ≤ 2 ^ (F.emax - 1) →
      (a.mul b).Finite ∧ |((a.mul b).value : ℝ)| ≤ (1 + F.u) * (|(a.value : ℝ)| * |(b.value : ℝ)|) + F.η := by
    intro a b ha hb h
    have hf : (a.mul b).Finite := Ieee.mul_small ha hb (le_of_real (by
      push_cast; rw [abs_mul]; linarith))
    refine ⟨hf, ?_⟩
    have := Ieee.mul_errR hf
    rw [abs_mul] at this
    have h3 := abs_sub_abs_le_abs_sub ((a.mul b).value : ℝ) (a.value * b.value)
    rw [abs_mul] at h3
    linarith
  have total : ∀ {x y X Y : ℝ}, |x| ≤ (1 + F.u) * X + F.η → |y| ≤ (1 + F.u) * Y + F.η → X + Y ≤ 2 ^ (F.emax - 1) →
      0 ≤ X → 0 ≤ Y → |x| + |y| ≤ 2 ^ F.emax := by
    intro x y X Y hx hy hs h1 h2
    rw [← half]
    nlinarith [mul_le_mul_of_nonneg_left hs hu]
  have p1 : 0 ≤ |(z.re.value : ℝ)| * |(w.re.value : ℝ)| := by positivity
  have p2 : 0 ≤ |(z.im.value : ℝ)| * |(w.im.value : ℝ)| := by positivity
  have p3 : 0 ≤ |(z.re.value : ℝ)| * |(w.im.value : ℝ)| := by positivity
  have p4 : 0 ≤ |(z.im.value : ℝ)| * |(w.re.value : ℝ)| := by positivity
  have h1 : |(z.re.value : ℝ)| * |(w.re.value : ℝ)| + |(z.im.value : ℝ)| * |(w.im.value : ℝ)| ≤ 2 ^ (F.emax - 1) := h1.trans h
  have h2 : |(z.re.value : ℝ)| * |(w.im.value : ℝ)| + |(z.im.value : ℝ)| * |(w.re.value : ℝ)| ≤ 2 ^ (F.emax - 1) := h2.trans h
  obtain ⟨f1, b1⟩ := prod hz.1 hw.1 (by linarith)
  obtain ⟨f2, b2⟩ := prod hz.2 hw.2 (by linarith)
  obtain ⟨f3, b3⟩ := prod hz.1 hw.2 (by linarith)
  obtain ⟨f4, b4⟩ := prod hz.2 hw.1 (by linarith)
  constructor
  · refine Ieee.sub_small f1 f2 (le_of_real ?_)
    push_cast
    exact (abs_sub _ _).trans (total b1 b2 h1 p1 p2)
  · refine Ieee.add_small f3 f4 (le_of_real ?_)
    push_cast
    exact (abs_add_le _ _).trans (total b3 b4 h2 p3 p4)

theorem cadd_small {x y : ℚ} {e : ℂ} (h : ‖e‖ ≤ 2 ^ (F.emax - 1)) (h1 : e.re = x) (h2 : e.im = y) :
    |x| ≤ 2 ^ F.emax ∧ |y| ≤ 2 ^ F.emax := by
  have hB : (2 : ℝ) ^ (F.emax - 1) ≤ 2 ^ F.emax := zpow_le_zpow_right₀ (by norm_num) (by omega)
  constructor
  · exact le_of_real (by rw [← h1]; exact (_root_.Complex.abs_re_le_norm e).trans (h.trans hB))
  · exact le_of_real (by rw [← h2]; exact (_root_.Complex.abs_im_le_norm e).trans (h.trans hB))

theorem cx_floatOps : FloatOps (CFinite (F := F)) cval (starRingEnd ℂ) (2 ^ (F.emax - 1)) F.u F.cu F.cη where
  u_nonneg := by exact_mod_cast F.u_pos.le
  v_nonneg := F.cu_nonneg
  η_nonneg := F.cη_nonneg
  zero := ⟨cx_rounds.zero, trivial, trivial⟩
  one := by
    refine ⟨?_, ?_, trivial⟩
    · have h : cval (⟨one, zero⟩ : Complex (Ieee F)) = 1 := by
        refine _root_.Complex.ext ?_ ?_
        · exact ieee_one.1
        · show ((0 : ℚ) : ℝ) = 0; norm_num
      exact h
    · exact ieee_one.2
  add a b d h hd := by
    obtain ⟨s, h1, h2⟩ := C57_add_error a b
    cases h.symm.trans h1
    exact h2 hd
  sub a b d h hd := by
    obtain ⟨s, h1, h2⟩ := C57_sub_error a b
    cases h.symm.trans h1
    exact h2 hd
  mul a b d h hd := by
    obtain ⟨s, h1, h2⟩ := C57_mul_error a b
    cases h.symm.trans h1
    exact h2 hd
  addAssign a b d h hd := by
    obtain ⟨s, h1, h2⟩ := C57_add_error a b
    cases h.symm.trans h1
    exact h2 hd
  conj a d h := by
    cases h
    refine ⟨_root_.Complex.ext rfl ?_, and_congr Iff.rfl Ieee.neg_finite⟩
    show (((a.im.neg).value : ℚ) : ℝ) = -((a.im.value : ℚ) : ℝ)
    rw [Ieee.neg_value]; push_cast; rfl
  σ_dist x y := by rw [← map_sub, _root_.Complex.norm_conj]
  σ_zero := map_zero _
  add_fin a b ha hb h := by
    obtain ⟨h1, h2⟩ := cadd_small (x := a.re.value + b.re.value) (y := a.im.value + b.im.value) h
      (by push_cast; rfl) (by push_cast; rfl)
    exact ⟨_, rfl, Ieee.add_small ha.1 hb.1 h1, Ieee.add_small ha.2 hb.2 h2⟩
  sub_fin a b ha hb h := by
    obtain ⟨h1, h2⟩ := cadd_small (x := a.re.value - b.re.value) (y := a.im.value - b.im.value) h
      (by push_cast; rfl) (by push_cast; rfl)
    exact ⟨_, rfl, Ieee.sub_small ha.1 hb.1 h1, Ieee.sub_small ha.2 hb.2 h2⟩
  mul_fin a b ha hb h := ⟨_, rfl, cmul_small ha hb h⟩
  addAssign_fin a b ha hb h := by
    obtain ⟨h1, h2⟩ := cadd_small (x := a.re.value + b.re.value) (y := a.im.value + b.im.value) h
      (by push_cast; rfl) (by push_cast; rfl)
    exact ⟨_, rfl, Ieee.add_small ha.1 hb.1 h1, Ieee.add_small ha.2 hb.2 h2⟩
  conj_ret a := ⟨_, rfl⟩

theorem neverPanicsV_ieee : NeverPanicsV (Ieee F) :=
  ⟨fun _ _ => ⟨_, rfl⟩, fun _ _ => ⟨_, rfl⟩, fun _ _ => ⟨_, rfl⟩, fun _ _ => rfl, fun _ _ => rfl⟩

theorem neverPanicsV_cx : NeverPanicsV (Complex (Ieee F)) :=
  ⟨fun _ _ => ⟨_, rfl⟩, fun _ _ => ⟨_, rfl⟩, fun _ _ => ⟨_, rfl⟩, fun _ _ => rfl, fun _ _ => rfl⟩

end Magnesia
