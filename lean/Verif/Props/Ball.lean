import Verif.Spec.Ball
import Verif.Props.Generic
import Verif.Props.Track
import Verif.Props.Ieee
import Verif.Proof.IeeeMono
import Verif.Proof.IeeeLaws

/-!
# Property C98: self-validating numbers
-/

namespace Magnesia

open RZero ROne

variable {F : Fmt}

namespace Ieee

theorem pow2_spec {k : ℤ} (h1 : F.emin - (F.p - 1) ≤ k) (h2 : k ≤ F.emax) : (pow2 F k).Finite ∧ (pow2 F k).value = 2 ^ k := by
  have h := F.representable_of (m := 1) (e := k) (by rw [abs_one]; exact one_le_pow₀ (by norm_num)) h1 (by
    rw [Int.cast_one, _root_.one_mul, abs_of_pos (by positivity)]
    exact zpow_lt_zpow_right₀ (by norm_num) (by omega))
  rw [Int.cast_one, _root_.one_mul] at h
  unfold pow2
  rw [round_representable (by positivity) h]
  exact ⟨trivial, rfl⟩

theorem slack_spec : (slack F).Finite ∧ (slack F).value = 16 * F.u := by
  have hp := F.two_le_p
  have he := F.p_le_emax
  obtain ⟨h1, h2⟩ := pow2_spec (F := F) (k := 4 - F.p) (by unfold Fmt.emin; omega) (by omega)
  refine ⟨h1, h2.trans ?_⟩
  rw [Fmt.u, sub_eq_add_neg, zpow_add₀ (by norm_num)]; norm_num

theorem eps_spec : (eps F).Finite ∧ (eps F).value = 2 * F.u := by
  have hp := F.two_le_p
  have he := F.p_le_emax
  obtain ⟨h1, h2⟩ := pow2_spec (F := F) (k := 1 - F.p) (by unfold Fmt.emin; omega) (by omega)
  refine ⟨h1, h2.trans ?_⟩
  rw [Fmt.u, sub_eq_add_neg, zpow_add₀ (by norm_num)]; norm_num

theorem tiny_spec : (tiny F).Finite ∧ (tiny F).value = 4 * F.η := by
  have hp := F.two_le_p
  have he := F.p_le_emax
  obtain ⟨h1, h2⟩ := pow2_spec (F := F) (k := F.emin - F.p + 2) (by omega) (by unfold Fmt.emin; omega)
  refine ⟨h1, h2.trans ?_⟩
  rw [Fmt.η, zpow_add₀ (by norm_num)]; norm_num; ring

theorem up_finite {y : Ieee F} (h : (up y).Finite) : y.Finite := (add_finite (add_finite h).1).1

theorem up_le {y : Ieee F} (h : (up y).Finite) (h0 : 0 ≤ y.value) : (1 + 2 * F.u) * (y.value + F.η) ≤ (up y).value := by
  obtain ⟨h1, _, e1⟩ := add_finite h
  obtain ⟨h2, h3, e2⟩ := add_finite h1
  obtain ⟨_, _, e3⟩ := mul_finite h3
  have hu := F.u_pos
  have hη := F.η_pos
  have hu4 := F.u_le_quarter
  have b1 := F.roundQ_add_err (value_representable (y.add (y.mul (slack F)))) (value_representable (tiny F))
  have b2 := F.roundQ_add_err (value_representable y) (value_representable (y.mul (slack F)))
  have b3 := F.roundQ_err_any (y.value * (slack F).value)
  rw [← e1] at b1
  rw [← e2] at b2
  rw [← e3] at b3
  rw [tiny_spec.2] at b1
  rw [slack_spec.2] at b3
  change |(up y).value - _| ≤ _ at b1
  generalize (up y).value = w at *
  generalize (y.add (y.mul (slack F))).value = s at *
  have hz : 0 ≤ (y.mul (slack F)).value := by
    rw [e3, ← F.roundQ_zero, slack_spec.2]
    exact F.roundQ_mono (by positivity)
  generalize (y.mul (slack F)).value = z at *
  generalize y.value = v at *
  generalize F.u = u at *
  generalize F.η = η at *
  have hs : (1 - u) * (v + z) ≤ s := by
    rw [abs_of_nonneg (by linarith : 0 ≤ v + z)] at b2
    have := (abs_le.1 b2).1
    linarith
  have hs0 : 0 ≤ s := le_trans (mul_nonneg (by linarith) (by linarith)) hs
  have hw : (1 - u) * (s + 4 * η) ≤ w := by
    rw [abs_of_nonneg (by linarith : 0 ≤ s + 4 * η)] at b1
    have := (abs_le.1 b1).1
    linarith
  have hz' : 16 * u * v * (1 - u) - η ≤ z := by
    rw [abs_of_nonneg (by positivity : 0 ≤ v * (16 * u))] at b3
    have := (abs_le.1 b3).1
    nlinarith
  have h1 : (1 - u) * (v + (16 * u * v * (1 - u) - η)) ≤ s :=
    le_trans (mul_le_mul_of_nonneg_left (by linarith) (by linarith)) hs
  have h2 : (1 - u) * ((1 - u) * (v + (16 * u * v * (1 - u) - η)) + 4 * η) ≤ w :=
    le_trans (mul_le_mul_of_nonneg_left (by linarith) (by linarith)) hw
  refine le_trans ?_ h2
  have k1 : 0 ≤ (1 - u) ^ 2 * (1 + 16 * u * (1 - u)) - (1 + 2 * u) := by
    have : (1 - u) ^ 2 * (1 + 16 * u * (1 - u)) - (1 + 2 * u) = u * ((1 - 4 * u) * (12 + u) + 48 * u ^ 2 + 4 * u ^ 2 - 16 * u ^ 3) := by ring
    rw [this]
    refine mul_nonneg hu.le ?_
    have : 0 ≤ (1 - 4 * u) * (12 + u) := mul_nonneg (by linarith) (by linarith)
    have : 0 ≤ u ^ 2 * (1 - 4 * u) := mul_nonneg (by positivity) (by linarith)
    nlinarith
  have k2 : 0 ≤ (1 - u) * (3 + u) - (1 + 2 * u) := by nlinarith
  nlinarith [mul_nonneg k1 h0, mul_nonneg k2 hη.le]

theorem addUp_finite {a b : Ieee F} (h : (addUp a b).Finite) : a.Finite ∧ b.Finite :=
  have := add_finite (up_finite h)
  ⟨this.1, this.2.1⟩

theorem mulUp_finite {a b : Ieee F} (h : (mulUp a b).Finite) : a.Finite ∧ b.Finite :=
  have := mul_finite (up_finite h)
  ⟨this.1, this.2.1⟩

/-- A number is not much larger than its rounded value. -/
theorem le_of_round {x y : ℚ} {u η : ℚ} (hu : 0 < u) (hu4 : u ≤ 1 / 4) (h : |y - x| ≤ u * |x| + η) :
    |x| ≤ (1 + 2 * u) * (|y| + η) := by
  have h1 : |x| ≤ |y| + |y - x| := by
    have := abs_sub_abs_le_abs_sub x y
    rw [abs_sub_comm x y] at this
    linarith
  have h2 : |x| * (1 - u) ≤ |y| + η := by linarith
  have h3 : 1 ≤ (1 + 2 * u) * (1 - u) := by nlinarith
  calc |x| ≤ |x| * ((1 + 2 * u) * (1 - u)) := le_mul_of_one_le_right (abs_nonneg _) h3
    _ = (1 + 2 * u) * (|x| * (1 - u)) := by ring
    _ ≤ _ := mul_le_mul_of_nonneg_left h2 (by linarith)

theorem addUp_le {a b : Ieee F} (h : (addUp a b).Finite) (ha : 0 ≤ a.value) (hb : 0 ≤ b.value) :
    a.value + b.value ≤ (addUp a b).value := by
  obtain ⟨_, _, e⟩ := add_finite (up_finite h)
  have h0 : 0 ≤ (a.add b).value := by
    rw [e, ← F.roundQ_zero]; exact F.roundQ_mono (by linarith)
  refine le_trans ?_ (up_le h h0)
  have := le_of_round (y := (a.add b).value) (x := a.value + b.value) F.u_pos F.u_le_quarter (by
    rw [e]; exact F.roundQ_err_any _)
  rwa [abs_of_nonneg (by linarith), abs_of_nonneg h0] at this

theorem mulUp_le {a b : Ieee F} (h : (mulUp a b).Finite) (ha : 0 ≤ a.value) (hb : 0 ≤ b.value) :
    a.value * b.value ≤ (mulUp a b).value := by
  obtain ⟨_, _, e⟩ := mul_finite (up_finite h)
  have h0 : 0 ≤ (a.mul b).value := by
    rw [e, ← F.roundQ_zero]; exact F.roundQ_mono (by positivity)
  refine le_trans ?_ (up_le h h0)
  have := le_of_round (y := (a.mul b).value) (x := a.value * b.value) F.u_pos F.u_le_quarter (by
    rw [e]; exact F.roundQ_err_any _)
  rwa [abs_of_nonneg (by positivity), abs_of_nonneg h0] at this

end Ieee

open Ieee

namespace Ball

theorem contains_add {a b : Ball F} {x y : Exact ℚ} (ha : a.Contains x) (hb : b.Contains y) : (a.add b).Contains ⟨x.val + y.val⟩ := by
  intro hm hr
  obtain ⟨m1, m2, e⟩ := Ieee.add_finite hm
  obtain ⟨r1, r2⟩ := addUp_finite hr
  obtain ⟨r3, r4⟩ := addUp_finite r1
  have ha := ha m1 r3
  have hb := hb m2 r4
  have p1 := (abs_nonneg _).trans ha
  have p2 := (abs_nonneg _).trans hb
  have q1 := addUp_le r1 p1 p2
  have q2 := mulUp_le r2 (by rw [abs_value]; exact abs_nonneg _) (by rw [eps_spec.2]; linarith [F.u_pos])
  have q3 := addUp_le hr (by linarith) (le_trans (mul_nonneg (by rw [abs_value]; exact abs_nonneg _) (by rw [eps_spec.2]; linarith [F.u_pos])) q2)
  rw [abs_value, eps_spec.2] at q2
  have herr := F.roundQ_add_err (value_representable a.mid) (value_representable b.mid)
  rw [← e] at herr
  have hle := le_of_round (η := 0) F.u_pos F.u_le_quarter (by rw [_root_.add_zero]; exact herr)
  rw [_root_.add_zero] at hle
  have hfin : |(a.mid.add b.mid).value - (a.mid.value + b.mid.value)| ≤ |(a.mid.add b.mid).value| * (2 * F.u) := by
    refine herr.trans ?_
    have := mul_le_mul_of_nonneg_left hle F.u_pos.le
    have h2 : F.u * ((1 + 2 * F.u) * |(a.mid.add b.mid).value|) ≤ |(a.mid.add b.mid).value| * (2 * F.u) := by
      have := mul_nonneg F.u_pos.le (abs_nonneg (a.mid.add b.mid).value)
      nlinarith [F.u_le_quarter]
    linarith
  show |(a.mid.add b.mid).value - (x.val + y.val)| ≤ (addUp (addUp a.rad b.rad) (mulUp (a.mid.add b.mid).abs (eps F))).value
  have t : |(a.mid.add b.mid).value - (x.val + y.val)| ≤ |(a.mid.add b.mid).value - (a.mid.value + b.mid.value)| +
      |a.mid.value - x.val| + |b.mid.value - y.val| := by
    have := abs_add_three ((a.mid.add b.mid).value - (a.mid.value + b.mid.value)) (a.mid.value - x.val) (b.mid.value - y.val)
    refine le_trans (le_of_eq ?_) this
    ring_nf
  linarith

theorem contains_neg {a : Ball F} {x : Exact ℚ} (ha : a.Contains x) : a.neg.Contains ⟨-x.val⟩ := by
  intro hm hr
  have := ha (neg_finite.1 hm) hr
  show |a.mid.neg.value - -x.val| ≤ _
  rw [neg_value, ← neg_sub', abs_neg]
  exact this

theorem contains_sub {a b : Ball F} {x y : Exact ℚ} (ha : a.Contains x) (hb : b.Contains y) : (a.sub b).Contains ⟨x.val - y.val⟩ := by
  have := contains_add ha (contains_neg hb)
  rw [_root_.sub_eq_add_neg]
  exact this

theorem contains_mul {a b : Ball F} {x y : Exact ℚ} (ha : a.Contains x) (hb : b.Contains y) : (a.mul b).Contains ⟨x.val * y.val⟩ := by
  intro hm hr
  obtain ⟨m1, m2, e⟩ := Ieee.mul_finite hm
  obtain ⟨r1, r2⟩ := addUp_finite hr
  obtain ⟨r3, r4⟩ := addUp_finite r1
  obtain ⟨r5, r6⟩ := addUp_finite r2
  obtain ⟨r7, _⟩ := addUp_finite r6
  have ha := ha m1 (mulUp_finite r4).1
  have hb := hb m2 (mulUp_finite r3).2
  have p1 := (abs_nonneg _).trans ha
  have p2 := (abs_nonneg _).trans hb
  have nn : ∀ c : Ieee F, 0 ≤ c.abs.value := fun c => by rw [abs_value]; exact abs_nonneg _
  have pe : 0 ≤ (eps F).value := by rw [eps_spec.2]; linarith [F.u_pos]
  have pt : 0 ≤ (tiny F).value := by rw [tiny_spec.2]; linarith [F.η_pos]
  have q3 := mulUp_le r3 (nn _) p2
  have q4 := mulUp_le r4 p1 (nn _)
  have q5 := mulUp_le r5 p1 p2
  have q7 := mulUp_le r7 (nn _) pe
  have n3 := (mul_nonneg (nn a.mid) p2).trans q3
  have n4 := (mul_nonneg p1 (nn b.mid)).trans q4
  have n5 := (mul_nonneg p1 p2).trans q5
  have n7 := (mul_nonneg (nn (a.mid.mul b.mid)) pe).trans q7
  have q6 := addUp_le r6 n7 pt
  have n6 := (add_nonneg n7 pt).trans q6
  have q1 := addUp_le r1 n3 n4
  have n1 := (add_nonneg n3 n4).trans q1
  have q2 := addUp_le r2 n5 n6
  have n2 := (add_nonneg n5 n6).trans q2
  have q0 := addUp_le hr n1 n2
  rw [abs_value] at q3 q4 q7
  rw [eps_spec.2] at q7
  rw [tiny_spec.2] at q6
  have herr := F.roundQ_err_any (a.mid.value * b.mid.value)
  rw [← e] at herr
  have hle := le_of_round F.u_pos F.u_le_quarter herr
  have hfin : |(a.mid.mul b.mid).value - a.mid.value * b.mid.value| ≤ |(a.mid.mul b.mid).value| * (2 * F.u) + 4 * F.η := by
    refine herr.trans ?_
    have := mul_le_mul_of_nonneg_left hle F.u_pos.le
    have h1 := mul_nonneg F.u_pos.le (abs_nonneg (a.mid.mul b.mid).value)
    have h2 := mul_nonneg F.u_pos.le F.η_pos.le
    nlinarith [F.u_le_quarter, F.η_pos]
  show |(a.mid.mul b.mid).value - x.val * y.val| ≤ (a.mul b).rad.value
  have t : |(a.mid.mul b.mid).value - x.val * y.val| ≤ |(a.mid.mul b.mid).value - a.mid.value * b.mid.value| +
      (|a.mid.value| * |b.mid.value - y.val| + |a.mid.value - x.val| * |b.mid.value| + |a.mid.value - x.val| * |b.mid.value - y.val|) := by
    rw [← abs_mul, ← abs_mul, ← abs_mul]
    have h1 := abs_add_three (a.mid.value * (b.mid.value - y.val)) ((a.mid.value - x.val) * b.mid.value)
      (-((a.mid.value - x.val) * (b.mid.value - y.val)))
    rw [abs_neg] at h1
    have h2 := abs_add_le ((a.mid.mul b.mid).value - a.mid.value * b.mid.value)
      (a.mid.value * (b.mid.value - y.val) + (a.mid.value - x.val) * b.mid.value + -((a.mid.value - x.val) * (b.mid.value - y.val)))
    refine le_trans (le_of_eq ?_) (h2.trans (by linarith))
    ring_nf
  have s1 := mul_le_mul_of_nonneg_left hb (abs_nonneg a.mid.value)
  have s2 := mul_le_mul_of_nonneg_right ha (abs_nonneg b.mid.value)
  have s3 := mul_le_mul ha hb (abs_nonneg _) p1
  have : (a.mul b).rad.value = (addUp (addUp (mulUp a.mid.abs b.rad) (mulUp a.rad b.mid.abs))
    (addUp (mulUp a.rad b.rad) (addUp (mulUp (a.mid.mul b.mid).abs (eps F)) (tiny F)))).value := rfl
  rw [this]
  linarith

end Ball

theorem respects_contains : Respects (Ball.Contains (F := F)) :=
  ⟨fun _ _ => by simp [RZero.zero, Ieee.value], fun _ _ => by simp [ROne.one, RZero.zero, Ieee.value],
    fun _ _ _ _ h1 h2 => ⟨rfl, Ball.contains_add h1 h2⟩, fun _ _ _ _ h1 h2 => ⟨rfl, Ball.contains_sub h1 h2⟩,
    fun _ _ _ _ h1 h2 => Ball.contains_mul h1 h2, fun _ _ h => Ball.contains_neg h,
    fun _ _ _ _ h1 h2 => Ball.contains_add h1 h2, fun _ _ _ _ h1 h2 => Ball.contains_sub h1 h2,
    fun _ _ _ _ h1 h2 => Ball.contains_mul h1 h2,
    fun _ _ _ _ h1 h2 => ⟨rfl, Ball.contains_add h1 h2⟩, fun _ _ _ _ h1 h2 => ⟨rfl, Ball.contains_sub h1 h2⟩, fun _ _ h => h⟩

theorem respects_mid : Respects fun (b : Ball F) (x : Ieee F) => b.mid = x := by
  refine ⟨rfl, rfl, ?_, ?_, ?_, ?_, ?_, ?_, ?_, ?_, ?_, ?_⟩
  all_goals first
    | (rintro a b _ _ rfl rfl; exact ⟨rfl, rfl⟩)
    | (rintro a b _ _ rfl rfl; exact rfl)
    | (rintro a _ rfl; exact rfl)

/-! ## Programs -/

/-- C98: run with balls that contain given exact numbers, every program ends like with the exact numbers, and every ball it
returns contains the exact number at the same place. -/
theorem C98_programs (pr : Profile) (Γ : ℕ → Ty) (hΓ : ∀ i, (Γ i).IsData) (ty : Ty) (hty : ty.IsData) (p : Prog Γ ty)
    (z : (i : ℕ) → (Γ i).type {q : Ball F × Exact ℚ // q.1.Contains q.2}) :
    SameEnd (fun y y' => ∃ r : ty.type {q : Ball F × Exact ℚ // q.1.Contains q.2},
        y = ty.map (fun a => a.1.1) hty r ∧ y' = ty.map (fun a => a.1.2) hty r)
      (p.run pr fun i => (Γ i).map (fun a => a.1.1) (hΓ i) (z i)) (p.run pr fun i => (Γ i).map (fun a => a.1.2) (hΓ i) (z i)) :=
  C78_generic respects_contains pr Γ hΓ ty hty p z

/-- C98: the midpoints are what the program computes without radii, bit for bit. -/
theorem C98_midpoints (pr : Profile) (Γ : ℕ → Ty) (hΓ : ∀ i, (Γ i).IsData) (ty : Ty) (hty : ty.IsData) (p : Prog Γ ty)
    (b : (i : ℕ) → (Γ i).type (Ball F)) :
    SameEnd (fun y x => ty.map Ball.mid hty y = x) (p.run pr b) (p.run pr fun i => (Γ i).map Ball.mid (hΓ i) (b i)) := by
  have h := C78_generic respects_mid pr Γ hΓ ty hty p fun i => (Γ i).map (fun b : Ball F => ⟨(b, b.mid), rfl⟩) (hΓ i) (b i)
  simp only [Ty.map_map] at h
  have e : (fun i => (Γ i).map (fun b : Ball F => b) (hΓ i) (b i)) = b := funext fun i => Ty.map_id _ _ _
  change SameEnd _ (p.run pr fun i => (Γ i).map (fun b : Ball F => b) (hΓ i) (b i)) (p.run pr fun i => (Γ i).map Ball.mid (hΓ i) (b i)) at h
  rw [e] at h
  revert h
  cases p.run pr b <;> cases (p.run pr fun i => (Γ i).map Ball.mid (hΓ i) (b i))
  · exact id
  · exact id
  · exact id
  · rintro ⟨r, rfl, rfl⟩
    show ty.map _ _ _ = _
    rw [Ty.map_map]
    congr 1
    funext a
    exact a.2

/-- C98: a program that computes one number from floating point numbers taken as exact: run with balls it returns the same
number together with a radius, and unless the number or the radius is not finite, the exact result is not farther away. -/
theorem C98_scalar (pr : Profile) (Γ : ℕ → Ty) (hΓ : ∀ i, (Γ i).IsData) (p : Prog Γ (.ring .scalar))
    (env : (i : ℕ) → (Γ i).type (Ieee F)) (x : Ieee F) (h : p.run pr env = .ok x) : ∃ (r : Ieee F) (e : ℚ),
      p.run pr (fun i => (Γ i).map Ball.ofFloat (hΓ i) (env i)) = .ok (⟨x, r⟩ : Ball F) ∧
      p.run pr (fun i => (Γ i).map Ieee.toExact (hΓ i) (env i)) = .ok (⟨e⟩ : Exact ℚ) ∧
      (x.Finite → r.Finite → |x.value - e| ≤ r.value) := by
  have h1 := C98_midpoints pr Γ hΓ (.ring .scalar) trivial p fun i => (Γ i).map (Ball.ofFloat (F := F)) (hΓ i) (env i)
  have h2 := C98_programs pr Γ hΓ (.ring .scalar) trivial p
    fun i => (Γ i).map (fun x : Ieee F => ⟨(Ball.ofFloat x, x.toExact), fun _ _ => by simp [Ball.ofFloat, Ieee.toExact, Ieee.value, RZero.zero]⟩) (hΓ i) (env i)
  simp only [Ty.map_map] at h1 h2
  change SameEnd _ (p.run pr fun i => (Γ i).map Ball.ofFloat (hΓ i) (env i)) (p.run pr fun i => (Γ i).map Ieee.toExact (hΓ i) (env i)) at h2
  have e : (fun i => (Γ i).map (Ball.mid ∘ Ball.ofFloat (F := F)) (hΓ i) (env i)) = env := funext fun i => Ty.map_id _ _ _
  change SameEnd _ _ (p.run pr fun i => (Γ i).map (Ball.mid ∘ Ball.ofFloat (F := F)) (hΓ i) (env i)) at h1
  rw [e, h] at h1
  generalize p.run pr (fun i => (Γ i).map Ball.ofFloat (hΓ i) (env i)) = B at *
  generalize p.run pr (fun i => (Γ i).map Ieee.toExact (hΓ i) (env i)) = E at *
  match B, E, h1, h2 with
  | .ok b, .ok e, h1, ⟨q, hb, he⟩ =>
    have h1 : b.mid = x := h1
    have hb : b = q.1.1 := hb
    have he : e = q.1.2 := he
    subst h1
    refine ⟨b.rad, e.val, rfl, rfl, ?_⟩
    rw [hb, he]
    exact q.2

/-- C98: the sign is certain if the number is larger than the radius, as the program compares. -/
theorem C98_sign (pr : Profile) (Γ : ℕ → Ty) (hΓ : ∀ i, (Γ i).IsData) (p : Prog Γ (.ring .scalar))
    (env : (i : ℕ) → (Γ i).type (Ieee F)) (x r : Ieee F)
    (h : p.run pr (fun i => (Γ i).map Ball.ofFloat (hΓ i) (env i)) = .ok (⟨x, r⟩ : Ball F)) (hx : x.Finite) (hr : r.Finite) :
    ∃ e : ℚ, p.run pr (fun i => (Γ i).map Ieee.toExact (hΓ i) (env i)) = .ok (⟨e⟩ : Exact ℚ) ∧
      (r.flt x = true → 0 < e) ∧ (x.flt r.neg = true → e < 0) := by
  have h1 := C98_midpoints pr Γ hΓ (.ring .scalar) trivial p fun i => (Γ i).map (Ball.ofFloat (F := F)) (hΓ i) (env i)
  simp only [Ty.map_map] at h1
  have e : (fun i => (Γ i).map (Ball.mid ∘ Ball.ofFloat (F := F)) (hΓ i) (env i)) = env := funext fun i => Ty.map_id _ _ _
  change SameEnd _ _ (p.run pr fun i => (Γ i).map (Ball.mid ∘ Ball.ofFloat (F := F)) (hΓ i) (env i)) at h1
  rw [e, h] at h1
  obtain ⟨y, hy⟩ : ∃ y, p.run pr env = .ok y := by
    revert h1
    cases p.run pr env with
    | ok y => exact fun _ => ⟨y, rfl⟩
    | error e => exact fun h => h.elim
  obtain ⟨r', e, h2, h3, h4⟩ := C98_scalar pr Γ hΓ p env y hy
  have h2 : (⟨x, r⟩ : Ball F) = ⟨y, r'⟩ := Except.ok.inj (h.symm.trans h2)
  injection h2 with h5 h6
  subst h5 h6
  have h4 := abs_le.1 (h4 hx hr)
  refine ⟨e, h3, fun h => ?_, fun h => ?_⟩
  · have := (Ieee.flt_value hr hx).1 h
    linarith
  · have := (Ieee.flt_value hx (neg_finite.2 hr)).1 h
    rw [neg_value] at this
    linarith

/-! ## The radii are not much too large -/

namespace Ieee

theorem up_ge {y : Ieee F} (h : (up y).Finite) (h0 : 0 ≤ y.value) : 0 ≤ (up y).value ∧ (up y).value ≤ (1 + 34 * F.u) * y.value + 7 * F.η := by
  refine ⟨le_trans (mul_nonneg (by linarith [F.u_pos]) (add_nonneg h0 F.η_pos.le)) (up_le h h0), ?_⟩
  obtain ⟨h1, _, e1⟩ := add_finite h
  obtain ⟨h2, h3, e2⟩ := add_finite h1
  obtain ⟨_, _, e3⟩ := mul_finite h3
  have hu := F.u_pos
  have hη := F.η_pos
  have hu4 := F.u_le_quarter
  have b1 := F.roundQ_add_err (value_representable (y.add (y.mul (slack F)))) (value_representable (tiny F))
  have b2 := F.roundQ_add_err (value_representable y) (value_representable (y.mul (slack F)))
  have b3 := F.roundQ_err_any (y.value * (slack F).value)
  rw [← e1] at b1
  rw [← e2] at b2
  rw [← e3] at b3
  rw [tiny_spec.2] at b1
  rw [slack_spec.2] at b3
  change |(up y).value - _| ≤ _ at b1
  have hz : 0 ≤ (y.mul (slack F)).value := by
    rw [e3, ← F.roundQ_zero, slack_spec.2]
    exact F.roundQ_mono (by positivity)
  have hs0 : 0 ≤ (y.add (y.mul (slack F))).value := by
    rw [e2, ← F.roundQ_zero]
    exact F.roundQ_mono (by positivity)
  generalize (up y).value = w at *
  generalize (y.add (y.mul (slack F))).value = s at *
  generalize (y.mul (slack F)).value = z at *
  generalize y.value = v at *
  generalize F.u = u at *
  generalize F.η = η at *
  rw [abs_of_nonneg (by linarith : 0 ≤ v + z)] at b2
  rw [abs_of_nonneg (by linarith : 0 ≤ s + 4 * η)] at b1
  rw [abs_of_nonneg (by positivity : 0 ≤ v * (16 * u))] at b3
  have hw : w ≤ (1 + u) * (s + 4 * η) := by have := (abs_le.1 b1).2; linarith
  have hs : s ≤ (1 + u) * (v + z) := by have := (abs_le.1 b2).2; linarith
  have hz' : z ≤ (1 + u) * (16 * u * v) + η := by have := (abs_le.1 b3).2; linarith
  have h1 : s ≤ (1 + u) * (v + ((1 + u) * (16 * u * v) + η)) := hs.trans (mul_le_mul_of_nonneg_left (by linarith) (by linarith))
  have h2 : w ≤ (1 + u) * ((1 + u) * (v + ((1 + u) * (16 * u * v) + η)) + 4 * η) :=
    hw.trans (mul_le_mul_of_nonneg_left (by linarith) (by linarith))
  refine h2.trans ?_
  have u2 : u ^ 2 ≤ u / 4 := by nlinarith
  have u3 : u ^ 3 ≤ u / 16 := by nlinarith
  have u4 : u ^ 4 ≤ u / 64 := by nlinarith
  have k1 : 0 ≤ (1 + 34 * u) - (1 + u) ^ 2 * (1 + 16 * u * (1 + u)) := by nlinarith
  have k2 : 0 ≤ 7 - ((1 + u) ^ 2 + 4 * (1 + u)) := by nlinarith
  nlinarith [mul_nonneg k1 h0, mul_nonneg k2 hη.le]

theorem addUp_ge {a b : Ieee F} (h : (addUp a b).Finite) (ha : 0 ≤ a.value) (hb : 0 ≤ b.value) :
    0 ≤ (addUp a b).value ∧ (addUp a b).value ≤ (1 + 44 * F.u) * (a.value + b.value) + 7 * F.η := by
  obtain ⟨_, _, e⟩ := add_finite (up_finite h)
  have h0 : 0 ≤ (a.add b).value := by
    rw [e, ← F.roundQ_zero]; exact F.roundQ_mono (by linarith)
  obtain ⟨h1, h2⟩ := up_ge h h0
  refine ⟨h1, h2.trans ?_⟩
  have herr := F.roundQ_add_err (value_representable a) (value_representable b)
  rw [← e, abs_of_nonneg (add_nonneg ha hb)] at herr
  have h3 : (a.add b).value ≤ (1 + F.u) * (a.value + b.value) := by have := (abs_le.1 herr).2; linarith
  have h4 := mul_le_mul_of_nonneg_left h3 (by linarith [F.u_pos] : 0 ≤ 1 + 34 * F.u)
  have h5 : 0 ≤ F.u * (9 - 34 * F.u) * (a.value + b.value) :=
    mul_nonneg (mul_nonneg F.u_pos.le (by linarith [F.u_le_quarter])) (add_nonneg ha hb)
  nlinarith

theorem mulUp_ge {a b : Ieee F} (h : (mulUp a b).Finite) (ha : 0 ≤ a.value) (hb : 0 ≤ b.value) :
    0 ≤ (mulUp a b).value ∧ (mulUp a b).value ≤ (1 + 44 * F.u) * (a.value * b.value) + 19 * F.η := by
  obtain ⟨_, _, e⟩ := mul_finite (up_finite h)
  have h0 : 0 ≤ (a.mul b).value := by
    rw [e, ← F.roundQ_zero]; exact F.roundQ_mono (by positivity)
  obtain ⟨h1, h2⟩ := up_ge h h0
  refine ⟨h1, h2.trans ?_⟩
  have herr := F.roundQ_err_any (a.value * b.value)
  rw [← e, abs_of_nonneg (mul_nonneg ha hb)] at herr
  have h3 : (a.mul b).value ≤ (1 + F.u) * (a.value * b.value) + F.η := by have := (abs_le.1 herr).2; linarith
  have h4 := mul_le_mul_of_nonneg_left h3 (by linarith [F.u_pos] : 0 ≤ 1 + 34 * F.u)
  have h5 : 0 ≤ F.u * (9 - 34 * F.u) * (a.value * b.value) :=
    mul_nonneg (mul_nonneg F.u_pos.le (by linarith [F.u_le_quarter])) (mul_nonneg ha hb)
  have h6 : 34 * F.u * F.η ≤ 9 * F.η := mul_le_mul_of_nonneg_right (by linarith [F.u_le_quarter]) F.η_pos.le
  nlinarith [F.η_pos]

end Ieee

/-- C98: one operation makes the radius hardly larger than the textbook formula: the errors of the operands and one rounding. -/
theorem C98_tight (a b : Ball F) (x y : Exact ℚ) (ha : a.Contains x) (hb : b.Contains y) :
    ((a.add b).mid.Finite → (a.add b).rad.Finite → (a.add b).rad.value ≤
      (1 + 44 * F.u) ^ 4 * (a.rad.value + b.rad.value + 2 * F.u * |(a.add b).mid.value|) + 50000 * F.η) ∧
    ((a.mul b).mid.Finite → (a.mul b).rad.Finite → (a.mul b).rad.value ≤
      (1 + 44 * F.u) ^ 4 * (|a.mid.value| * b.rad.value + a.rad.value * |b.mid.value| + a.rad.value * b.rad.value +
        2 * F.u * |(a.mul b).mid.value|) + 50000 * F.η) := by
  have hu := F.u_pos
  have hη := F.η_pos
  have hu4 := F.u_le_quarter
  have nn : ∀ c : Ieee F, 0 ≤ c.abs.value := fun c => by rw [abs_value]; exact abs_nonneg _
  have pe : 0 ≤ (eps F).value := by rw [eps_spec.2]; linarith [F.u_pos]
  have pt : 0 ≤ (tiny F).value := by rw [tiny_spec.2]; linarith [F.η_pos]
  obtain ⟨k, hk⟩ : ∃ k, k = 1 + 44 * F.u := ⟨_, rfl⟩
  have hk1 : 1 ≤ k := by linarith
  have hk12 : k ≤ 12 := by linarith
  have grow : ∀ {A B : ℚ}, A ≤ B → k * A ≤ k * B := fun h => mul_le_mul_of_nonneg_left h (by linarith)
  have const : ∀ {c : ℚ}, 0 ≤ c → k * (c * F.η) ≤ 12 * c * F.η := fun {c} hc => by
    have := mul_le_mul_of_nonneg_right hk12 (mul_nonneg hc hη.le)
    linarith
  have up1 : ∀ {A : ℚ}, 0 ≤ A → A ≤ k * A := fun h => le_mul_of_one_le_left h hk1
  rw [← hk]
  constructor
  · intro hm hr
    obtain ⟨m1, m2, _⟩ := Ieee.add_finite hm
    obtain ⟨r1, r2⟩ := addUp_finite hr
    obtain ⟨r3, r4⟩ := addUp_finite r1
    have p1 := (abs_nonneg _).trans (ha m1 r3)
    have p2 := (abs_nonneg _).trans (hb m2 r4)
    obtain ⟨n1, q1⟩ := addUp_ge r1 p1 p2
    obtain ⟨n2, q2⟩ := mulUp_ge r2 (nn _) pe
    obtain ⟨_, q3⟩ := addUp_ge hr n1 n2
    rw [← hk] at q1 q2 q3
    rw [abs_value, eps_spec.2] at q2
    refine q3.trans ?_
    have g1 := grow (add_le_add q1 q2)
    show _ ≤ k ^ 4 * (a.rad.value + b.rad.value + 2 * F.u * |(a.mid.add b.mid).value|) + 50000 * F.η
    have e1 : k * (k * (a.rad.value + b.rad.value) + 7 * F.η + (k * (|(a.mid.add b.mid).value| * (2 * F.u)) + 19 * F.η)) =
        k ^ 2 * (a.rad.value + b.rad.value + 2 * F.u * |(a.mid.add b.mid).value|) + k * (26 * F.η) := by ring
    rw [e1] at g1
    have hS : 0 ≤ a.rad.value + b.rad.value + 2 * F.u * |(a.mid.add b.mid).value| := by
      have := mul_nonneg hu.le (abs_nonneg (a.mid.add b.mid).value)
      linarith
    have h1 : k ^ 2 * (a.rad.value + b.rad.value + 2 * F.u * |(a.mid.add b.mid).value|) ≤
        k ^ 4 * (a.rad.value + b.rad.value + 2 * F.u * |(a.mid.add b.mid).value|) :=
      mul_le_mul_of_nonneg_right (pow_le_pow_right₀ hk1 (by norm_num)) hS
    have := const (c := 26) (by norm_num)
    linarith
  · intro hm hr
    obtain ⟨m1, m2, e⟩ := Ieee.mul_finite hm
    obtain ⟨r1, r2⟩ := addUp_finite hr
    obtain ⟨r3, r4⟩ := addUp_finite r1
    obtain ⟨r5, r6⟩ := addUp_finite r2
    obtain ⟨r7, _⟩ := addUp_finite r6
    have p1 := (abs_nonneg _).trans (ha m1 (mulUp_finite r4).1)
    have p2 := (abs_nonneg _).trans (hb m2 (mulUp_finite r3).2)
    obtain ⟨n3, q3⟩ := mulUp_ge r3 (nn _) p2
    obtain ⟨n4, q4⟩ := mulUp_ge r4 p1 (nn _)
    obtain ⟨n5, q5⟩ := mulUp_ge r5 p1 p2
    obtain ⟨n7, q7⟩ := mulUp_ge r7 (nn _) pe
    obtain ⟨n6, q6⟩ := addUp_ge r6 n7 pt
    obtain ⟨n1, q1⟩ := addUp_ge r1 n3 n4
    obtain ⟨n2, q2⟩ := addUp_ge r2 n5 n6
    obtain ⟨_, q0⟩ := addUp_ge hr n1 n2
    rw [← hk] at q0 q1 q2 q3 q4 q5 q6 q7
    rw [abs_value] at q3 q4 q7
    rw [eps_spec.2] at q7
    rw [tiny_spec.2] at q6
    refine q0.trans ?_
    show _ ≤ k ^ 4 * (|a.mid.value| * b.rad.value + a.rad.value * |b.mid.value| + a.rad.value * b.rad.value +
      2 * F.u * |(a.mid.mul b.mid).value|) + 50000 * F.η
    have s1 : 0 ≤ |a.mid.value| * b.rad.value := mul_nonneg (abs_nonneg _) p2
    have s2 : 0 ≤ a.rad.value * |b.mid.value| := mul_nonneg p1 (abs_nonneg _)
    have s3 : 0 ≤ a.rad.value * b.rad.value := mul_nonneg p1 p2
    have s4 : 0 ≤ |(a.mid.mul b.mid).value| * (2 * F.u) := mul_nonneg (abs_nonneg _) (by linarith)
    rw [show 2 * F.u * |(a.mid.mul b.mid).value| = |(a.mid.mul b.mid).value| * (2 * F.u) from mul_comm _ _]
    generalize |a.mid.value| * b.rad.value = A at *
    generalize a.rad.value * |b.mid.value| = B at *
    generalize a.rad.value * b.rad.value = C at *
    generalize |(a.mid.mul b.mid).value| * (2 * F.u) = D at *
    have c := fun {c : ℚ} hc => const (c := c) hc
    have g1 := grow (add_le_add q3 q4)
    have g6 := grow (add_le_add_left q7 (4 * F.η))
    have g2 := grow (add_le_add q5 (q6.trans (add_le_add_left (α := ℚ) g6 (7 * F.η))))
    have g0 := grow (add_le_add (q1.trans (add_le_add_left (α := ℚ) g1 (7 * F.η))) (q2.trans (add_le_add_left (α := ℚ) g2 (7 * F.η))))
    have kp : ∀ {X : ℚ} {i : ℕ}, i ≤ 4 → 0 ≤ X → k ^ i * X ≤ k ^ 4 * X := fun {X i} hi hX =>
      mul_le_mul_of_nonneg_right (pow_le_pow_right₀ hk1 hi) hX
    have t1 := kp (i := 3) (by norm_num) s1
    have t2 := kp (i := 3) (by norm_num) s2
    have t3 := kp (i := 3) (by norm_num) s3
    have k2 : k ^ 2 ≤ 144 := by nlinarith
    have k3 : k ^ 3 ≤ 1728 := by nlinarith
    have f1 := mul_le_mul_of_nonneg_right hk12 hη.le
    have f2 := mul_le_mul_of_nonneg_right k2 hη.le
    have f3 := mul_le_mul_of_nonneg_right k3 hη.le
    nlinarith

end Magnesia
