import Verif.Spec.Growth
import Verif.Props.Generic
import Verif.Props.Track
import Verif.Props.Ieee
import Verif.Proof.IeeeMono
import Verif.Proof.IeeeLaws

/-!
# Property C99: no overflow and error bounds that are known before the inputs are
-/

namespace Magnesia

open RZero ROne

variable {F : Fmt}

/-! ## Running a program with images of the inputs -/

section
variable {T T' : Type} [RRing T] [RAdd T T T] [RSub T T T] [RMul T T T] [RAddAssign T T] [RSubAssign T T] [RConj T]
  [RRing T'] [RAdd T' T' T'] [RSub T' T' T'] [RMul T' T' T'] [RAddAssign T' T'] [RSubAssign T' T'] [RConj T']

/-- A map that respects the operations. -/
theorem run_image {f : T → T'} (hf : Respects fun a b => f a = b) (pr : Profile) (Γ : ℕ → Ty) (hΓ : ∀ i, (Γ i).IsData) (ty : Ty)
    (hty : ty.IsData) (p : Prog Γ ty) (b : (i : ℕ) → (Γ i).type T) :
    SameEnd (fun y x => ty.map f hty y = x) (p.run pr b) (p.run pr fun i => (Γ i).map f (hΓ i) (b i)) := by
  have h := C78_generic hf pr Γ hΓ ty hty p fun i => (Γ i).map (fun b => ⟨(b, f b), rfl⟩) (hΓ i) (b i)
  simp only [Ty.map_map] at h
  have e : (fun i => (Γ i).map (fun b : T => b) (hΓ i) (b i)) = b := funext fun i => Ty.map_id _ _ _
  change SameEnd _ (p.run pr fun i => (Γ i).map (fun b : T => b) (hΓ i) (b i)) (p.run pr fun i => (Γ i).map f (hΓ i) (b i)) at h
  rw [e] at h
  revert h
  cases p.run pr b <;> cases (p.run pr fun i => (Γ i).map f (hΓ i) (b i))
  · exact id
  · exact id
  · exact id
  · rintro ⟨r, rfl, rfl⟩
    show ty.map _ _ _ = _
    rw [Ty.map_map]
    congr 1
    funext a
    exact a.2

end

/-! ## Magnitudes -/

/-- If the bound is finite, so is the number, and it is not larger. -/
def MaxMag.Bounds (m : MaxMag F) (x : Ieee F) : Prop := m.val.Finite → x.Finite ∧ |x.value| ≤ m.val.value

namespace MaxMag

theorem bounds_add {m n : MaxMag F} {x y : Ieee F} (hx : m.Bounds x) (hy : n.Bounds y) : Bounds ⟨m.val.add n.val⟩ (x.add y) := by
  intro h
  obtain ⟨h1, h2, e⟩ := Ieee.add_finite h
  obtain ⟨f1, l1⟩ := hx h1
  obtain ⟨f2, l2⟩ := hy h2
  have hr := (Ieee.add_finite_iff h1 h2).1 h
  have p : |x.value + y.value| ≤ m.val.value + n.val.value := (abs_add_le _ _).trans (by linarith)
  have q : |F.roundQ (x.value + y.value)| ≤ F.roundQ (m.val.value + n.val.value) := by
    rw [← F.roundQ_abs]; exact F.roundQ_mono p
  have f := (Ieee.add_finite_iff f1 f2).2 (q.trans_lt ((le_abs_self _).trans_lt hr))
  refine ⟨f, ?_⟩
  show _ ≤ (m.val.add n.val).value
  rw [(Ieee.add_finite f).2.2, e]
  exact q

theorem bounds_neg {m : MaxMag F} {x : Ieee F} (hx : m.Bounds x) : m.Bounds x.neg := fun h => by
  rw [Ieee.neg_value, abs_neg]
  exact ⟨Ieee.neg_finite.2 (hx h).1, (hx h).2⟩

theorem bounds_mul {m n : MaxMag F} {x y : Ieee F} (hx : m.Bounds x) (hy : n.Bounds y) : Bounds ⟨m.val.mul n.val⟩ (x.mul y) := by
  intro h
  obtain ⟨h1, h2, e⟩ := Ieee.mul_finite h
  obtain ⟨f1, l1⟩ := hx h1
  obtain ⟨f2, l2⟩ := hy h2
  have hr := (Ieee.mul_finite_iff h1 h2).1 h
  have p : |x.value * y.value| ≤ m.val.value * n.val.value := by
    rw [abs_mul]; exact mul_le_mul l1 l2 (abs_nonneg _) ((abs_nonneg _).trans l1)
  have q : |F.roundQ (x.value * y.value)| ≤ F.roundQ (m.val.value * n.val.value) := by
    rw [← F.roundQ_abs]; exact F.roundQ_mono p
  have f := (Ieee.mul_finite_iff f1 f2).2 (q.trans_lt ((le_abs_self _).trans_lt hr))
  refine ⟨f, ?_⟩
  show _ ≤ (m.val.mul n.val).value
  rw [(Ieee.mul_finite f).2.2, e]
  exact q

end MaxMag

theorem respects_mag : Respects (MaxMag.Bounds (F := F)) :=
  ⟨fun _ => ⟨trivial, by simp [RZero.zero, Ieee.value]⟩, fun h => ⟨h, le_of_eq (abs_of_nonneg (by
      show (0 : ℚ) ≤ (one : Ieee F).value
      simp [ROne.one, Ieee.value]))⟩,
    fun _ _ _ _ h1 h2 => ⟨rfl, MaxMag.bounds_add h1 h2⟩, fun _ _ _ _ h1 h2 => ⟨rfl, MaxMag.bounds_add h1 (MaxMag.bounds_neg h2)⟩,
    fun _ _ _ _ h1 h2 => MaxMag.bounds_mul h1 h2, fun _ _ h => MaxMag.bounds_neg h,
    fun _ _ _ _ h1 h2 => MaxMag.bounds_add h1 h2, fun _ _ _ _ h1 h2 => MaxMag.bounds_add h1 (MaxMag.bounds_neg h2),
    fun _ _ _ _ h1 h2 => MaxMag.bounds_mul h1 h2,
    fun _ _ _ _ h1 h2 => ⟨rfl, MaxMag.bounds_add h1 h2⟩, fun _ _ _ _ h1 h2 => ⟨rfl, MaxMag.bounds_add h1 (MaxMag.bounds_neg h2)⟩, fun _ _ h => h⟩

/-! ## Errors -/

/-- The computed number together with the growth. -/
structure Grown (F : Fmt) where
  computed : Ieee F
  growth : Growth F

namespace Grown

instance : RZero (Grown F) := ⟨⟨zero, zero⟩⟩
instance : ROne (Grown F) := ⟨⟨one, one⟩⟩
instance : AddAssignRef (Grown F) := ⟨fun a b => .done ⟨a.computed.add b.computed, a.growth.add b.growth⟩⟩
instance : SubAssignRef (Grown F) := ⟨fun a b => .done ⟨a.computed.sub b.computed, a.growth.add b.growth⟩⟩
instance : MulRefs (Grown F) := ⟨fun a b => .ok ⟨a.computed.mul b.computed, a.growth.mul b.growth⟩⟩
instance : RNeg (Grown F) := ⟨fun a => .ok ⟨a.computed.neg, a.growth⟩⟩
instance : RPartialEq (Grown F) := ⟨fun a b => RPartialEq.eq a.computed b.computed⟩
instance : RRing (Grown F) where
instance : RAdd (Grown F) (Grown F) (Grown F) := ⟨fun a b => .ok ⟨a.computed.add b.computed, a.growth.add b.growth⟩⟩
instance : RSub (Grown F) (Grown F) (Grown F) := ⟨fun a b => .ok ⟨a.computed.sub b.computed, a.growth.add b.growth⟩⟩
instance : RMul (Grown F) (Grown F) (Grown F) := ⟨fun a b => .ok ⟨a.computed.mul b.computed, a.growth.mul b.growth⟩⟩
instance : RAddAssign (Grown F) (Grown F) := ⟨fun a b => .done ⟨a.computed.add b.computed, a.growth.add b.growth⟩⟩
instance : RSubAssign (Grown F) (Grown F) := ⟨fun a b => .done ⟨a.computed.sub b.computed, a.growth.add b.growth⟩⟩
instance : RConj (Grown F) := ⟨fun a => .ok a⟩

/-- The growth is right about the error. -/
def Right (a : Grown F) (e : Exact ℚ) : Prop := 0 ≤ a.growth.size ∧ 0 ≤ a.growth.under ∧ |e.val| ≤ a.growth.size ∧
  (a.computed.Finite → |a.computed.value - e.val| ≤ a.growth.bound)

theorem one_le_pow (n : ℕ) : 1 ≤ (1 + F.u) ^ n := one_le_pow₀ (by linarith [F.u_pos])

theorem bound_nonneg {g : Growth F} (h1 : 0 ≤ g.size) (h2 : 0 ≤ g.under) : 0 ≤ g.bound :=
  add_nonneg (mul_nonneg (by linarith [one_le_pow (F := F) g.depth]) h1) (mul_nonneg h2 F.η_pos.le)

theorem right_add {a b : Grown F} {x y : Exact ℚ} (ha : a.Right x) (hb : b.Right y) :
    Right ⟨a.computed.add b.computed, a.growth.add b.growth⟩ ⟨x.val + y.val⟩ := by
  obtain ⟨s1, n1, m1, c1⟩ := ha
  obtain ⟨s2, n2, m2, c2⟩ := hb
  refine ⟨add_nonneg s1 s2, mul_nonneg (by linarith [F.u_pos]) (add_nonneg n1 n2), (abs_add_le _ _).trans (add_le_add m1 m2), fun h => ?_⟩
  obtain ⟨f1, f2, e⟩ := Ieee.add_finite h
  have c1 := c1 f1
  have c2 := c2 f2
  have herr := F.roundQ_add_err (Ieee.value_representable a.computed) (Ieee.value_representable b.computed)
  rw [← e] at herr
  have hu := F.u_pos
  show |(a.computed.add b.computed).value - (x.val + y.val)| ≤ ((1 + F.u) ^ (max a.growth.depth b.growth.depth + 1) - 1) *
    (a.growth.size + b.growth.size) + (1 + F.u) * (a.growth.under + b.growth.under) * F.η
  have g1 : (1 + F.u) ^ a.growth.depth ≤ (1 + F.u) ^ max a.growth.depth b.growth.depth :=
    pow_le_pow_right₀ (by linarith) (le_max_left _ _)
  have g2 : (1 + F.u) ^ b.growth.depth ≤ (1 + F.u) ^ max a.growth.depth b.growth.depth :=
    pow_le_pow_right₀ (by linarith) (le_max_right _ _)
  rw [pow_succ]
  unfold Growth.bound at c1 c2
  generalize (1 + F.u) ^ max a.growth.depth b.growth.depth = g at *
  have k1 := mul_le_mul_of_nonneg_right g1 s1
  have k2 := mul_le_mul_of_nonneg_right g2 s2
  have t1 : |a.computed.value| ≤ |a.computed.value - x.val| + |x.val| := by
    have := abs_add_le (a.computed.value - x.val) x.val
    rwa [sub_add_cancel] at this
  have t2 : |b.computed.value| ≤ |b.computed.value - y.val| + |y.val| := by
    have := abs_add_le (b.computed.value - y.val) y.val
    rwa [sub_add_cancel] at this
  have t3 : |a.computed.value + b.computed.value| ≤ g * (a.growth.size + b.growth.size) + (a.growth.under + b.growth.under) * F.η :=
    (abs_add_le _ _).trans (by linarith)
  have t4 := mul_le_mul_of_nonneg_left t3 hu.le
  have t := abs_add_three ((a.computed.add b.computed).value - (a.computed.value + b.computed.value)) (a.computed.value - x.val) (b.computed.value - y.val)
  have t5 : (a.computed.add b.computed).value - (a.computed.value + b.computed.value) + (a.computed.value - x.val) + (b.computed.value - y.val) =
    (a.computed.add b.computed).value - (x.val + y.val) := by ring
  rw [t5] at t
  linarith

theorem right_neg {a : Grown F} {x : Exact ℚ} (ha : a.Right x) : Right ⟨a.computed.neg, a.growth⟩ ⟨-x.val⟩ := by
  obtain ⟨s1, n1, m1, c1⟩ := ha
  refine ⟨s1, n1, by rwa [abs_neg], fun h => ?_⟩
  have := c1 (Ieee.neg_finite.1 h)
  show |a.computed.neg.value - -x.val| ≤ _
  rw [Ieee.neg_value, ← neg_sub', abs_neg]
  exact this

theorem right_sub {a b : Grown F} {x y : Exact ℚ} (ha : a.Right x) (hb : b.Right y) :
    Right ⟨a.computed.sub b.computed, a.growth.add b.growth⟩ ⟨x.val - y.val⟩ := by
  rw [_root_.sub_eq_add_neg]
  exact right_add ha (right_neg hb)

theorem right_mul {a b : Grown F} {x y : Exact ℚ} (ha : a.Right x) (hb : b.Right y) :
    Right ⟨a.computed.mul b.computed, a.growth.mul b.growth⟩ ⟨x.val * y.val⟩ := by
  obtain ⟨s1, n1, m1, c1⟩ := ha
  obtain ⟨s2, n2, m2, c2⟩ := hb
  have hu := F.u_pos
  have hη := F.η_pos
  have p1 := one_le_pow (F := F) a.growth.depth
  have p2 := one_le_pow (F := F) b.growth.depth
  refine ⟨mul_nonneg s1 s2, by show 0 ≤ (1 + F.u) * (_ + _ + _) + 1; positivity, ?_, fun h => ?_⟩
  · show |x.val * y.val| ≤ _
    rw [abs_mul]
    exact mul_le_mul m1 m2 (abs_nonneg _) s1
  obtain ⟨f1, f2, e⟩ := Ieee.mul_finite h
  have c1 := c1 f1
  have c2 := c2 f2
  have herr := F.roundQ_err_any (a.computed.value * b.computed.value)
  rw [← e] at herr
  show |(a.computed.mul b.computed).value - x.val * y.val| ≤ ((1 + F.u) ^ (a.growth.depth + b.growth.depth + 1) - 1) *
    (a.growth.size * b.growth.size) + ((1 + F.u) * ((1 + F.u) ^ a.growth.depth * a.growth.size * b.growth.under +
      a.growth.under * ((1 + F.u) ^ b.growth.depth * b.growth.size) + a.growth.under * b.growth.under * F.η) + 1) * F.η
  rw [pow_succ, pow_add]
  unfold Growth.bound at c1 c2
  generalize (1 + F.u) ^ a.growth.depth = g at *
  generalize (1 + F.u) ^ b.growth.depth = g' at *
  generalize (a.computed.mul b.computed).value = w at *
  generalize a.computed.value = v at *
  generalize b.computed.value = v' at *
  generalize a.growth.size = M at *
  generalize b.growth.size = M' at *
  generalize a.growth.under = N at *
  generalize b.growth.under = N' at *
  generalize x.val = X at *
  generalize y.val = Y at *
  generalize F.u = u at *
  generalize F.η = η at *
  have t1 : |v| ≤ g * M + N * η := by
    have := abs_add_le (v - X) X
    rw [sub_add_cancel] at this
    linarith
  have t2 : |v'| ≤ g' * M' + N' * η := by
    have := abs_add_le (v' - Y) Y
    rw [sub_add_cancel] at this
    linarith
  have t0 : 0 ≤ g * M + N * η := (abs_nonneg _).trans t1
  have t3 : |v * v'| ≤ (g * M + N * η) * (g' * M' + N' * η) := by
    rw [abs_mul]; exact mul_le_mul t1 t2 (abs_nonneg _) t0
  have t4 := mul_le_mul_of_nonneg_left t3 hu.le
  have t5 : |v - X| * |v'| ≤ ((g - 1) * M + N * η) * (g' * M' + N' * η) := mul_le_mul c1 t2 (abs_nonneg _) ((abs_nonneg _).trans c1)
  have t6 : |X| * |v' - Y| ≤ M * ((g' - 1) * M' + N' * η) := mul_le_mul m1 c2 (abs_nonneg _) s1
  rw [← abs_mul] at t5 t6
  have t := abs_add_three (w - v * v') ((v - X) * v') (X * (v' - Y))
  have t7 : w - v * v' + (v - X) * v' + X * (v' - Y) = w - X * Y := by ring
  rw [t7] at t
  nlinarith

end Grown

theorem respects_right : Respects (Grown.Right (F := F)) :=
  ⟨⟨le_refl _, le_refl _, by simp [RZero.zero], fun _ => by simp [RZero.zero, Ieee.value, Growth.bound]⟩,
    ⟨zero_le_one, le_refl _, by simp [ROne.one], fun _ => by simp [ROne.one, Ieee.value, Growth.bound]⟩,
    fun _ _ _ _ h1 h2 => ⟨rfl, Grown.right_add h1 h2⟩, fun _ _ _ _ h1 h2 => ⟨rfl, Grown.right_sub h1 h2⟩,
    fun _ _ _ _ h1 h2 => Grown.right_mul h1 h2, fun _ _ h => Grown.right_neg h,
    fun _ _ _ _ h1 h2 => Grown.right_add h1 h2, fun _ _ _ _ h1 h2 => Grown.right_sub h1 h2,
    fun _ _ _ _ h1 h2 => Grown.right_mul h1 h2,
    fun _ _ _ _ h1 h2 => ⟨rfl, Grown.right_add h1 h2⟩, fun _ _ _ _ h1 h2 => ⟨rfl, Grown.right_sub h1 h2⟩, fun _ _ h => h⟩

theorem respects_computed : Respects fun (a : Grown F) (x : Ieee F) => a.computed = x := by
  refine ⟨rfl, rfl, ?_, ?_, ?_, ?_, ?_, ?_, ?_, ?_, ?_, ?_⟩
  all_goals first
    | (rintro a b _ _ rfl rfl; exact ⟨rfl, rfl⟩)
    | (rintro a b _ _ rfl rfl; exact rfl)
    | (rintro a _ rfl; exact rfl)

theorem respects_growth : Respects fun (a : Grown F) (x : Growth F) => a.growth = x := by
  refine ⟨rfl, rfl, ?_, ?_, ?_, ?_, ?_, ?_, ?_, ?_, ?_, ?_⟩
  all_goals first
    | (rintro a b _ _ rfl rfl; exact ⟨rfl, rfl⟩)
    | (rintro a b _ _ rfl rfl; exact rfl)
    | (rintro a _ rfl; exact rfl)

theorem respects_depth : Respects fun a b : Growth F => a.depth = b.depth := by
  refine ⟨rfl, rfl, ?_, ?_, ?_, ?_, ?_, ?_, ?_, ?_, ?_, ?_⟩
  all_goals first
    | (intro a b a' b' h h'; exact ⟨rfl, by show max _ _ + 1 = max _ _ + 1; rw [h, h']⟩)
    | (intro a b a' b' h h'; show max _ _ + 1 = max _ _ + 1; rw [h, h'])
    | (intro a b a' b' h h'; show _ + _ + 1 = _ + _ + 1; rw [h, h'])
    | (intro a b h; exact h)

/-! ## The property -/

/-- C99: run with magnitudes, a program returns bounds of everything it can return with inputs within the given bounds; where
such a bound is finite, nothing overflows and nothing is NaN. -/
theorem C99_no_overflow (pr : Profile) (Γ : ℕ → Ty) (hΓ : ∀ i, (Γ i).IsData) (ty : Ty) (hty : ty.IsData) (p : Prog Γ ty)
    (z : (i : ℕ) → (Γ i).type (BoundedInput F)) :
    SameEnd (fun y y' => ∃ r : ty.type {q : MaxMag F × Ieee F // q.1.val.Finite → q.2.Finite ∧ |q.2.value| ≤ q.1.val.value},
        y = ty.map (fun a => a.1.1) hty r ∧ y' = ty.map (fun a => a.1.2) hty r)
      (p.run pr fun i => (Γ i).map (fun a => (⟨a.bound⟩ : MaxMag F)) (hΓ i) (z i)) (p.run pr fun i => (Γ i).map BoundedInput.input (hΓ i) (z i)) := by
  have h := C78_generic respects_mag pr Γ hΓ ty hty p fun i =>
    (Γ i).map (fun a : BoundedInput F => ⟨((⟨a.bound⟩ : MaxMag F), a.input), fun _ => ⟨a.finite, a.le⟩⟩) (hΓ i) (z i)
  simp only [Ty.map_map] at h
  exact h

/-- C99: the errors of all results of a program: the textbook bound. -/
theorem C99_errors (pr : Profile) (Γ : ℕ → Ty) (hΓ : ∀ i, (Γ i).IsData) (ty : Ty) (hty : ty.IsData) (p : Prog Γ ty)
    (z : (i : ℕ) → (Γ i).type (BoundedInput F)) (x : ty.type (Ieee F)) (h : p.run pr (fun i => (Γ i).map BoundedInput.input (hΓ i) (z i)) = .ok x) :
    ∃ r : ty.type {q : Growth F × Ieee F × ℚ // q.2.1.Finite → |q.2.1.value - q.2.2| ≤ q.1.bound},
      p.run pr (fun i => (Γ i).map (fun a => Growth.ofBound a.bound) (hΓ i) (z i)) = .ok (ty.map (fun a => a.1.1) hty r) ∧
      x = ty.map (fun a => a.1.2.1) hty r ∧
      p.run pr (fun i => (Γ i).map (fun a => a.input.toExact) (hΓ i) (z i)) = .ok (ty.map (fun a => ⟨a.1.2.2⟩) hty r) := by
  have h1 := run_image respects_computed pr Γ hΓ ty hty p fun i => (Γ i).map (fun a : BoundedInput F => (⟨a.input, .ofBound a.bound⟩ : Grown F)) (hΓ i) (z i)
  have h2 := run_image respects_growth pr Γ hΓ ty hty p fun i => (Γ i).map (fun a : BoundedInput F => (⟨a.input, .ofBound a.bound⟩ : Grown F)) (hΓ i) (z i)
  have h3 := C78_generic respects_right pr Γ hΓ ty hty p fun i =>
    (Γ i).map (fun a : BoundedInput F => ⟨((⟨a.input, .ofBound a.bound⟩ : Grown F), a.input.toExact),
      ⟨(abs_nonneg _).trans a.le, le_refl _, a.le, fun _ => by simp [Ieee.toExact, Growth.bound, Growth.ofBound]⟩⟩) (hΓ i) (z i)
  simp only [Ty.map_map] at h1 h2 h3
  change SameEnd _ _ (p.run pr fun i => (Γ i).map BoundedInput.input (hΓ i) (z i)) at h1
  change SameEnd _ _ (p.run pr fun i => (Γ i).map (fun a => Growth.ofBound a.bound) (hΓ i) (z i)) at h2
  change SameEnd _ (p.run pr fun i => (Γ i).map (fun a : BoundedInput F => (⟨a.input, .ofBound a.bound⟩ : Grown F)) (hΓ i) (z i))
    (p.run pr fun i => (Γ i).map (fun a => a.input.toExact) (hΓ i) (z i)) at h3
  rw [h] at h1
  generalize p.run pr (fun i => (Γ i).map (fun a => Growth.ofBound a.bound) (hΓ i) (z i)) = G at *
  generalize p.run pr (fun i => (Γ i).map (fun a => a.input.toExact) (hΓ i) (z i)) = E at *
  generalize p.run pr (fun i => (Γ i).map (fun a : BoundedInput F => (⟨a.input, .ofBound a.bound⟩ : Grown F)) (hΓ i) (z i)) = A at *
  match A, G, E, h1, h2, h3 with
  | .ok a, .ok g, .ok e, h1, h2, ⟨q, ha, he⟩ =>
    have h1 : ty.map _ _ a = x := h1
    have h2 : ty.map _ _ a = g := h2
    have ha : a = ty.map (fun a => a.1.1) hty q := ha
    have he : e = ty.map (fun a => a.1.2) hty q := he
    subst ha he
    rw [Ty.map_map] at h1 h2
    refine ⟨ty.map (fun b => ⟨(b.1.1.growth, b.1.1.computed, b.1.2.val), b.2.2.2.2⟩) hty q, ?_, ?_, ?_⟩
    · rw [Ty.map_map, ← h2]; rfl
    · rw [Ty.map_map, ← h1]; rfl
    · rw [Ty.map_map]; rfl

/-- C99: how many roundings pile up does not depend on the inputs: only on the program and the sizes of vectors and matrices. -/
theorem C99_depth (pr : Profile) (Γ : ℕ → Ty) (hΓ : ∀ i, (Γ i).IsData) (ty : Ty) (hty : ty.IsData) (p : Prog Γ ty)
    (z : (i : ℕ) → (Γ i).type (Ieee F × Ieee F)) :
    SameEnd (fun y y' => ty.map Growth.depth hty y = ty.map Growth.depth hty y')
      (p.run pr fun i => (Γ i).map (fun a => Growth.ofBound a.1) (hΓ i) (z i))
      (p.run pr fun i => (Γ i).map (fun a => Growth.ofBound a.2) (hΓ i) (z i)) := by
  have h := C78_generic (respects_depth (F := F)) pr Γ hΓ ty hty p fun i =>
    (Γ i).map (fun a : Ieee F × Ieee F => ⟨(Growth.ofBound a.1, Growth.ofBound a.2), rfl⟩) (hΓ i) (z i)
  simp only [Ty.map_map] at h
  change SameEnd _ (p.run pr fun i => (Γ i).map (fun a => Growth.ofBound a.1) (hΓ i) (z i))
    (p.run pr fun i => (Γ i).map (fun a => Growth.ofBound a.2) (hΓ i) (z i)) at h
  revert h
  cases (p.run pr fun i => (Γ i).map (fun a => Growth.ofBound a.1) (hΓ i) (z i)) <;>
    cases (p.run pr fun i => (Γ i).map (fun a => Growth.ofBound a.2) (hΓ i) (z i))
  · exact id
  · exact id
  · exact id
  · rintro ⟨r, rfl, rfl⟩
    show ty.map _ _ _ = ty.map _ _ _
    rw [Ty.map_map, Ty.map_map]
    congr 1
    funext a
    exact a.2

/-- C99: a program that computes one number. If the program run with bounds of the magnitudes of the inputs returns the finite number
`m`, then with all inputs within the bounds it returns a finite number of at most the magnitude `m`, and the error is at most the
textbook bound, that is calculated from the same bounds. -/
theorem C99_scalar (pr : Profile) (Γ : ℕ → Ty) (hΓ : ∀ i, (Γ i).IsData) (p : Prog Γ (.ring .scalar))
    (z : (i : ℕ) → (Γ i).type (BoundedInput F)) (m : Ieee F) (g : Growth F)
    (hm : p.run pr (fun i => (Γ i).map (fun a => (⟨a.bound⟩ : MaxMag F)) (hΓ i) (z i)) = .ok (⟨m⟩ : MaxMag F)) (hf : m.Finite)
    (hg : p.run pr (fun i => (Γ i).map (fun a => Growth.ofBound a.bound) (hΓ i) (z i)) = .ok g) :
    ∃ (x : Ieee F) (e : ℚ), p.run pr (fun i => (Γ i).map BoundedInput.input (hΓ i) (z i)) = .ok x ∧
      p.run pr (fun i => (Γ i).map (fun a => a.input.toExact) (hΓ i) (z i)) = .ok (⟨e⟩ : Exact ℚ) ∧
      x.Finite ∧ |x.value| ≤ m.value ∧ |x.value - e| ≤ ((1 + F.u) ^ g.depth - 1) * g.size + g.under * F.η := by
  have h1 := C99_no_overflow pr Γ hΓ (.ring .scalar) trivial p z
  rw [hm] at h1
  obtain ⟨x, hx⟩ : ∃ x, p.run pr (fun i => (Γ i).map BoundedInput.input (hΓ i) (z i)) = .ok x := by
    revert h1
    cases p.run pr (fun i => (Γ i).map BoundedInput.input (hΓ i) (z i)) with
    | ok y => exact fun _ => ⟨y, rfl⟩
    | error e => exact fun h => h.elim
  rw [hx] at h1
  obtain ⟨q, h2, h3⟩ := h1
  have h2 : (⟨m⟩ : MaxMag F) = q.1.1 := h2
  have h3 : x = q.1.2 := h3
  have hq := q.2
  rw [← h2, ← h3] at hq
  obtain ⟨f, l⟩ := hq hf
  obtain ⟨r, h4, h5, h6⟩ := C99_errors pr Γ hΓ (.ring .scalar) trivial p z x hx
  have h4 : g = r.1.1 := Except.ok.inj (hg.symm.trans h4)
  have h5 : x = r.1.2.1 := h5
  have hr := r.2
  rw [← h4, ← h5] at hr
  exact ⟨x, r.1.2.2, hx, h6, f, l, hr f⟩

end Magnesia
