import Verif.Spec.RealCx
import Verif.Proof.RealFns
import Verif.Proof.Containers

/-!
# Properties C17–C21: the complex functions, in exact real arithmetic
-/

namespace Magnesia

open RZero ROne

theorem toC_injective : Function.Injective Complex.toC := by
  intro a b h
  have h1 := congrArg _root_.Complex.re h
  have h2 := congrArg _root_.Complex.im h
  exact Complex.ext (SReal.ext h1) (SReal.ext h2)

theorem Yields.ext {x y : Res (Complex SReal)} {v : ℂ} (hx : Yields x v) (hy : Yields y v) : x = y := by
  obtain ⟨a, rfl, ha⟩ := hx
  obtain ⟨b, rfl, hb⟩ := hy
  rw [toC_injective (ha.trans hb.symm)]

theorem Yields.bind {x : Res (Complex SReal)} {f : Complex SReal → Res (Complex SReal)} {u v : ℂ} (hx : Yields x u)
    (hf : ∀ a, a.toC = u → Yields (f a) v) : Yields (x >>= f) v := by
  obtain ⟨a, rfl, ha⟩ := hx
  exact hf a ha

theorem Yields.bindReal {x : Res (Complex SReal)} {f : Complex SReal → Res SReal} {u : ℂ} {v : ℝ} (hx : Yields x u)
    (hf : ∀ a, a.toC = u → YieldsReal (f a) v) : YieldsReal (x >>= f) v := by
  obtain ⟨a, rfl, ha⟩ := hx
  exact hf a ha

variable (z a b : Complex SReal)

theorem yields_add : Yields (a.add b) (a.toC + b.toC) := ⟨_, rfl, rfl⟩
theorem yields_sub : Yields (a.sub b) (a.toC - b.toC) := ⟨_, rfl, by
  apply _root_.Complex.ext
  · rw [_root_.Complex.sub_re]; rfl
  · rw [_root_.Complex.sub_im]; rfl⟩
theorem yields_neg : Yields (a.neg) (-a.toC) := ⟨_, rfl, rfl⟩
theorem yields_conj : Yields (a.conj) (starRingEnd ℂ a.toC) := ⟨_, rfl, rfl⟩
theorem yields_mul : Yields (a.mul b) (a.toC * b.toC) := ⟨_, rfl, by
  apply _root_.Complex.ext
  · rw [_root_.Complex.mul_re]; rfl
  · rw [_root_.Complex.mul_im]; rfl⟩

theorem yields_div (hb : b.toC ≠ 0) : Yields (a.div b) (a.toC / b.toC) := by
  have hn : b.re.val * b.re.val + b.im.val * b.im.val ≠ 0 := by
    intro h
    apply hb
    have h1 : b.re.val = 0 := by nlinarith [mul_self_nonneg b.re.val, mul_self_nonneg b.im.val]
    have h2 : b.im.val = 0 := by nlinarith [mul_self_nonneg b.re.val, mul_self_nonneg b.im.val]
    exact _root_.Complex.ext h1 h2
  have hd : SReal.div ⟨1⟩ ⟨b.re.val * b.re.val + b.im.val * b.im.val⟩ =
      .ok ⟨1 / (b.re.val * b.re.val + b.im.val * b.im.val)⟩ := if_neg hn
  refine ⟨⟨⟨(a.re.val * b.re.val + a.im.val * b.im.val) * (1 / (b.re.val * b.re.val + b.im.val * b.im.val))⟩,
    ⟨(a.im.val * b.re.val - a.re.val * b.im.val) * (1 / (b.re.val * b.re.val + b.im.val * b.im.val))⟩⟩, ?_, ?_⟩
  · show (do
      let rcp ← SReal.div ⟨1⟩ ⟨b.re.val * b.re.val + b.im.val * b.im.val⟩
      pure (⟨⟨(a.re.val * b.re.val + a.im.val * b.im.val) * rcp.val⟩,
        ⟨(a.im.val * b.re.val - a.re.val * b.im.val) * rcp.val⟩⟩ : Complex SReal) : Res (Complex SReal)) = _
    rw [hd]
    rfl
  · apply _root_.Complex.ext
    · rw [_root_.Complex.div_re, _root_.Complex.normSq_apply]
      show (a.re.val * b.re.val + a.im.val * b.im.val) * (1 / (b.re.val * b.re.val + b.im.val * b.im.val)) =
        a.re.val * b.re.val / (b.re.val * b.re.val + b.im.val * b.im.val) +
          a.im.val * b.im.val / (b.re.val * b.re.val + b.im.val * b.im.val)
      field_simp
    · rw [_root_.Complex.div_im, _root_.Complex.normSq_apply]
      show (a.im.val * b.re.val - a.re.val * b.im.val) * (1 / (b.re.val * b.re.val + b.im.val * b.im.val)) =
        a.im.val * b.re.val / (b.re.val * b.re.val + b.im.val * b.im.val) -
          a.re.val * b.im.val / (b.re.val * b.re.val + b.im.val * b.im.val)
      field_simp

/-! ### C21: abs and arg -/

/-- C21: `abs` is the modulus. -/
theorem C21_abs : YieldsReal z.abs ‖z.toC‖ := by
  have h : ¬ z.re.val * z.re.val + z.im.val * z.im.val < 0 :=
    not_lt.2 (add_nonneg (mul_self_nonneg _) (mul_self_nonneg _))
  refine ⟨⟨Real.sqrt (z.re.val * z.re.val + z.im.val * z.im.val)⟩, ?_, ?_⟩
  · show (if z.re.val * z.re.val + z.im.val * z.im.val < 0 then _ else _) = _
    rw [if_neg h]; rfl
  · rw [_root_.Complex.norm_def, _root_.Complex.normSq_apply]
    rfl

/-- C21: `arg` is the principal argument. -/
theorem C21_arg : YieldsReal z.arg (_root_.Complex.arg z.toC) :=
  ⟨⟨SReal.atan2 z.im.val z.re.val⟩, rfl, SReal.atan2_eq_arg _ _⟩

/-- C21: `abs(z) >= 0`, and it is zero only for zero. -/
theorem C21_abs_zero {r : SReal} (h : z.abs = .ok r) : 0 ≤ r.val ∧ (r.val = 0 ↔ z = zero) := by
  obtain ⟨r', h', hr⟩ := C21_abs z
  rw [h] at h'
  cases h'
  rw [hr]
  refine ⟨norm_nonneg _, ?_⟩
  rw [norm_eq_zero]
  exact ⟨fun e => toC_injective e, fun e => by rw [e]; rfl⟩

/-- C21: `abs(a * b) = abs(a) * abs(b)`. -/
theorem C21_abs_mul : (do (← a.mul b).abs) = (do RMul.mul (← a.abs) (← b.abs) : Res SReal) := by
  obtain ⟨ra, h1, e1⟩ := C21_abs a
  obtain ⟨rb, h2, e2⟩ := C21_abs b
  obtain ⟨m, h3, e3⟩ := yields_mul a b
  obtain ⟨rm, h4, e4⟩ := C21_abs m
  rw [h1, h2, h3]
  show m.abs = .ok ⟨ra.val * rb.val⟩
  rw [h4, e1, e2, ← norm_mul, ← e3, ← e4]

/-- C21: the triangle inequality. -/
theorem C21_triangle {ra rb rs : SReal} {s : Complex SReal} (hs : a.add b = .ok s) (h1 : a.abs = .ok ra)
    (h2 : b.abs = .ok rb) (h3 : s.abs = .ok rs) : rs.val ≤ ra.val + rb.val := by
  obtain ⟨_, h1', e1⟩ := C21_abs a
  obtain ⟨_, h2', e2⟩ := C21_abs b
  obtain ⟨_, h3', e3⟩ := C21_abs s
  rw [h1] at h1'; cases h1'
  rw [h2] at h2'; cases h2'
  rw [h3] at h3'; cases h3'
  cases hs
  rw [e1, e2, e3]
  exact norm_add_le a.toC b.toC

/-- C21: the argument lies in `(-π, π]`, and `z = abs(z) (cos(arg z) + i sin(arg z))`. -/
theorem C21_polar {r θ : SReal} (h1 : z.abs = .ok r) (h2 : z.arg = .ok θ) : -Real.pi < θ.val ∧ θ.val ≤ Real.pi ∧
    z.re.val = r.val * Real.cos θ.val ∧ z.im.val = r.val * Real.sin θ.val := by
  obtain ⟨_, h1', e1⟩ := C21_abs z
  obtain ⟨_, h2', e2⟩ := C21_arg z
  rw [h1] at h1'; cases h1'
  rw [h2] at h2'; cases h2'
  rw [e1, e2]
  exact ⟨_root_.Complex.neg_pi_lt_arg _, _root_.Complex.arg_le_pi _, (_root_.Complex.norm_mul_cos_arg z.toC).symm,
    (_root_.Complex.norm_mul_sin_arg z.toC).symm⟩

/-- On the negative real axis the argument is `π`. -/
example : YieldsReal (⟨⟨-1⟩, ⟨0⟩⟩ : Complex SReal).arg Real.pi := by
  obtain ⟨r, h1, h2⟩ := C21_arg ⟨⟨-1⟩, ⟨0⟩⟩
  refine ⟨r, h1, h2.trans ?_⟩
  have : (⟨⟨-1⟩, ⟨0⟩⟩ : Complex SReal).toC = ((-1 : ℝ) : ℂ) := rfl
  rw [this, _root_.Complex.arg_ofReal_of_neg (by norm_num)]

/-! ### C17: exp -/

/-- C17: `exp` is the complex exponential function. -/
theorem C17_exp : Yields z.exp (_root_.Complex.exp z.toC) :=
  ⟨_, rfl, by
    apply _root_.Complex.ext
    · rw [_root_.Complex.exp_re]; rfl
    · rw [_root_.Complex.exp_im]; rfl⟩

/-- C17: `exp(a + b) = exp(a) * exp(b)`. -/
theorem C17_exp_add : (do (← a.add b).exp) = (do (← a.exp).mul (← b.exp)) := by
  refine Yields.ext (v := _root_.Complex.exp (a.toC + b.toC)) ?_ ?_
  · exact (yields_add a b).bind fun c hc => by rw [← hc]; exact C17_exp c
  · rw [_root_.Complex.exp_add]
    exact (C17_exp a).bind fun c hc => (C17_exp b).bind fun d hd => by rw [← hc, ← hd]; exact yields_mul c d

/-- C17: `exp(z)` is never zero. -/
theorem C17_exp_ne_zero : z.exp ≠ .ok zero := by
  intro h
  obtain ⟨r, h1, h2⟩ := C17_exp z
  rw [h] at h1
  cases h1
  exact _root_.Complex.exp_ne_zero _ h2.symm

/-- C17: `|exp(z)| = exp(re z)`. -/
theorem C17_abs_exp : (do (← z.exp).abs) = (RExp.exp z.re : Res SReal) := by
  obtain ⟨r, h1, h2⟩ := C17_exp z
  obtain ⟨n, h3, h4⟩ := C21_abs r
  rw [h1]
  show r.abs = .ok ⟨Real.exp z.re.val⟩
  rw [h3]
  congr 1
  ext
  rw [h4, h2, _root_.Complex.norm_exp]
  rfl

/-- C17: `exp(conj z) = conj(exp z)`. -/
theorem C17_exp_conj : (do (← z.conj).exp) = (do (← z.exp).conj) := by
  refine Yields.ext (v := _root_.Complex.exp (starRingEnd ℂ z.toC)) ?_ ?_
  · exact (yields_conj z).bind fun c hc => by rw [← hc]; exact C17_exp c
  · rw [_root_.Complex.exp_conj]
    exact (C17_exp z).bind fun c hc => by rw [← hc]; exact yields_conj c

/-! ### C18: sin, cos, sinh, cosh, tan -/

/-- Computing with real and imaginary parts. -/
macro "parts" : tactic => `(tactic| simp only [_root_.Complex.add_re, _root_.Complex.add_im, _root_.Complex.sub_re,
  _root_.Complex.sub_im, _root_.Complex.mul_re, _root_.Complex.mul_im, _root_.Complex.I_re, _root_.Complex.I_im,
  _root_.Complex.sin_ofReal_re, _root_.Complex.sin_ofReal_im, _root_.Complex.cosh_ofReal_re,
  _root_.Complex.cosh_ofReal_im, _root_.Complex.cos_ofReal_re, _root_.Complex.cos_ofReal_im,
  _root_.Complex.sinh_ofReal_re, _root_.Complex.sinh_ofReal_im, Complex.toC, mul_zero, mul_one, zero_mul, sub_zero, zero_sub,
  add_zero, zero_add, neg_zero])

/-- C18: `sin` is the complex sine. -/
theorem C18_sin : Yields z.sin (_root_.Complex.sin z.toC) :=
  ⟨_, rfl, by rw [_root_.Complex.sin_eq]; apply _root_.Complex.ext <;> parts⟩

/-- C18: `cos` is the complex cosine. -/
theorem C18_cos : Yields z.cos (_root_.Complex.cos z.toC) :=
  ⟨_, rfl, by rw [_root_.Complex.cos_eq]; apply _root_.Complex.ext <;> parts⟩

/-- C18: `sinh` is the complex hyperbolic sine. -/
theorem C18_sinh : Yields z.sinh (_root_.Complex.sinh z.toC) :=
  ⟨_, rfl, by
    rw [← _root_.Complex.re_add_im z.toC, _root_.Complex.sinh_add, _root_.Complex.sinh_mul_I, _root_.Complex.cosh_mul_I]
    apply _root_.Complex.ext <;> parts⟩

/-- C18: `cosh` is the complex hyperbolic cosine. -/
theorem C18_cosh : Yields z.cosh (_root_.Complex.cosh z.toC) :=
  ⟨_, rfl, by
    rw [← _root_.Complex.re_add_im z.toC, _root_.Complex.cosh_add, _root_.Complex.sinh_mul_I, _root_.Complex.cosh_mul_I]
    apply _root_.Complex.ext <;> parts⟩

/-- C18: `tan` is the complex tangent wherever the cosine is not zero. -/
theorem C18_tan (h : _root_.Complex.cos z.toC ≠ 0) : Yields z.tan (_root_.Complex.tan z.toC) := by
  unfold Complex.tan
  rw [_root_.Complex.tan]
  exact (C18_sin z).bind fun c hc => (C18_cos z).bind fun d hd => by
    rw [← hc, ← hd]; exact yields_div c d (by rw [hd]; exact h)

/-- The domain of `C18_tan` contains e.g. `0`, and it does not contain `π/2`. -/
example : _root_.Complex.cos (⟨⟨0⟩, ⟨0⟩⟩ : Complex SReal).toC ≠ 0 := by
  have : (⟨⟨0⟩, ⟨0⟩⟩ : Complex SReal).toC = 0 := rfl
  rw [this, _root_.Complex.cos_zero]; exact one_ne_zero

/-- C18: at a zero of the cosine `tan` divides by zero. -/
theorem C18_tan_pole (h : _root_.Complex.cos z.toC = 0) : z.tan = .error .undefinedReal := by
  obtain ⟨c, h1, h2⟩ := C18_cos z
  obtain ⟨s, h3, _⟩ := C18_sin z
  have hc : c = ⟨⟨0⟩, ⟨0⟩⟩ := toC_injective (h2.trans h)
  show (do Complex.div (← z.sin) (← z.cos)) = _
  rw [h1, h3, hc]
  show (do
    let rcp ← SReal.div ⟨1⟩ ⟨0 * 0 + 0 * 0⟩
    _ : Res (Complex SReal)) = _
  rw [show SReal.div ⟨1⟩ ⟨0 * 0 + 0 * 0⟩ = .error .undefinedReal from if_pos (by norm_num)]
  rfl

/-- C18: `sin² + cos² = 1`. -/
theorem C18_sin_sq_add_cos_sq : (do
    let s ← z.sin
    let c ← z.cos
    (← s.mul s).add (← c.mul c)) = .ok one := by
  refine Yields.ext (v := 1) ?_ ⟨_, rfl, rfl⟩
  rw [← _root_.Complex.sin_sq_add_cos_sq z.toC, sq, sq]
  exact (C18_sin z).bind fun s hs => (C18_cos z).bind fun c hc => (yields_mul s s).bind fun x hx =>
    (yields_mul c c).bind fun y hy => by rw [← hs, ← hc, ← hx, ← hy]; exact yields_add x y

/-- C18: `cosh² - sinh² = 1`. -/
theorem C18_cosh_sq_sub_sinh_sq : (do
    let s ← z.sinh
    let c ← z.cosh
    (← c.mul c).sub (← s.mul s)) = .ok one := by
  refine Yields.ext (v := 1) ?_ ⟨_, rfl, rfl⟩
  rw [← _root_.Complex.cosh_sq_sub_sinh_sq z.toC, sq, sq]
  exact (C18_sinh z).bind fun s hs => (C18_cosh z).bind fun c hc => (yields_mul c c).bind fun x hx =>
    (yields_mul s s).bind fun y hy => by rw [← hs, ← hc, ← hx, ← hy]; exact yields_sub x y

/-! ### C19: ln -/

/-- C19: for `z ≠ 0`, `ln` is the principal branch of the logarithm. -/
theorem C19_ln (hz : z ≠ zero) : Yields z.ln (_root_.Complex.log z.toC) := by
  have hz' : z.toC ≠ 0 := fun h => hz (toC_injective h)
  have hn : 0 < z.re.val * z.re.val + z.im.val * z.im.val := by
    have := _root_.Complex.normSq_pos.2 hz'
    rwa [_root_.Complex.normSq_apply] at this
  refine ⟨⟨⟨Real.log (z.re.val * z.re.val + z.im.val * z.im.val) / (1 + 1)⟩, ⟨SReal.atan2 z.im.val z.re.val⟩⟩, ?_, ?_⟩
  · show (do
      let l ← (if z.re.val * z.re.val + z.im.val * z.im.val ≤ 0 then .error .undefinedReal
        else .ok ⟨Real.log (z.re.val * z.re.val + z.im.val * z.im.val)⟩ : Res SReal)
      let re ← SReal.div l ⟨1 + 1⟩
      pure (⟨re, ⟨SReal.atan2 z.im.val z.re.val⟩⟩ : Complex SReal)) = _
    rw [if_neg (not_le.2 hn)]
    show (do
      let re ← SReal.div ⟨Real.log (z.re.val * z.re.val + z.im.val * z.im.val)⟩ ⟨1 + 1⟩
      pure (⟨re, ⟨SReal.atan2 z.im.val z.re.val⟩⟩ : Complex SReal)) = _
    rw [SReal.div, if_neg (by norm_num)]
    rfl
  · apply _root_.Complex.ext
    · rw [_root_.Complex.log_re, _root_.Complex.norm_def, _root_.Complex.normSq_apply, Real.log_sqrt (by
        exact hn.le)]
      show Real.log (z.re.val * z.re.val + z.im.val * z.im.val) / (1 + 1) = Real.log (z.re.val * z.re.val + z.im.val * z.im.val) / 2
      norm_num
    · rw [_root_.Complex.log_im]
      exact SReal.atan2_eq_arg _ _

/-- C19: `ln(0)` is undefined. -/
theorem C19_ln_zero : (zero : Complex SReal).ln = .error .undefinedReal := by
  show (do
      let l ← (if (0 : ℝ) * 0 + 0 * 0 ≤ 0 then .error .undefinedReal else .ok ⟨Real.log (0 * 0 + 0 * 0)⟩ : Res SReal)
      let re ← SReal.div l ⟨1 + 1⟩
      pure (⟨re, ⟨SReal.atan2 0 0⟩⟩ : Complex SReal)) = _
  rw [if_pos (by norm_num)]
  rfl

/-- C19: `exp(ln z) = z` for `z ≠ 0`. -/
theorem C19_exp_ln (hz : z ≠ zero) : (do (← z.ln).exp) = .ok z := by
  refine Yields.ext (v := z.toC) ?_ ⟨z, rfl, rfl⟩
  refine (C19_ln z hz).bind fun c hc => ?_
  have := C17_exp c
  rwa [hc, _root_.Complex.exp_log fun h => hz (toC_injective h)] at this

/-- C19: the imaginary part of `ln z` lies in `(-π, π]`, its real part is `ln |z|`. -/
theorem C19_parts (hz : z ≠ zero) {l : Complex SReal} (h : z.ln = .ok l) : -Real.pi < l.im.val ∧ l.im.val ≤ Real.pi ∧
    (do RLn.ln (← z.abs)) = .ok l.re := by
  obtain ⟨l', h1, h2⟩ := C19_ln z hz
  rw [h] at h1; cases h1
  have hi : l.im.val = (_root_.Complex.log z.toC).im := congrArg _root_.Complex.im h2
  have hr : l.re.val = (_root_.Complex.log z.toC).re := congrArg _root_.Complex.re h2
  rw [_root_.Complex.log_im] at hi
  rw [_root_.Complex.log_re] at hr
  refine ⟨by rw [hi]; exact _root_.Complex.neg_pi_lt_arg _, by rw [hi]; exact _root_.Complex.arg_le_pi _, ?_⟩
  obtain ⟨n, h3, h4⟩ := C21_abs z
  rw [h3]
  show (if n.val ≤ 0 then _ else _) = _
  have hz' : z.toC ≠ 0 := fun h => hz (toC_injective h)
  rw [if_neg (by rw [h4]; exact not_le.2 (norm_pos_iff.2 hz'))]
  congr 1
  ext
  rw [hr, ← h4]

/-- C19: `ln(exp z) = z` if the imaginary part of `z` is in `(-π, π]`. -/
theorem C19_ln_exp (h1 : -Real.pi < z.im.val) (h2 : z.im.val ≤ Real.pi) : (do (← z.exp).ln) = .ok z := by
  refine Yields.ext (v := z.toC) ?_ ⟨z, rfl, rfl⟩
  refine (C17_exp z).bind fun c hc => ?_
  have hne : c ≠ zero := by
    rintro rfl
    exact _root_.Complex.exp_ne_zero _ hc.symm
  have := C19_ln c hne
  rwa [hc, _root_.Complex.log_exp h1 h2] at this

/-- The branch cut: `ln(-1) = iπ`. -/
example : Yields (⟨⟨-1⟩, ⟨0⟩⟩ : Complex SReal).ln (Real.pi * _root_.Complex.I) := by
  have h := C19_ln ⟨⟨-1⟩, ⟨0⟩⟩ (fun h => by
    have := congrArg (fun z : Complex SReal => z.re.val) h
    norm_num [RZero.zero] at this)
  have e : (⟨⟨-1⟩, ⟨0⟩⟩ : Complex SReal).toC = -1 := by
    apply _root_.Complex.ext
    · rw [_root_.Complex.neg_re, _root_.Complex.one_re]; rfl
    · rw [_root_.Complex.neg_im, _root_.Complex.one_im, neg_zero]; rfl
  rwa [e, _root_.Complex.log_neg_one] at h

/-! ### C20: sqrt -/

/-- `sqrt` of non-negative numbers. -/
theorem sqrt_nonneg_eq {x : ℝ} (h : 0 ≤ x) : (RSqrt.sqrt (⟨x⟩ : SReal) : Res SReal) = .ok ⟨Real.sqrt x⟩ :=
  if_neg (not_lt.2 h)

section Root
variable (x y : ℝ)

/-- The modulus. -/
noncomputable abbrev modulus : ℝ := Real.sqrt (x * x + y * y)

theorem abs_le_modulus : |x| ≤ modulus x y := by
  rw [← Real.sqrt_sq_eq_abs]
  exact Real.sqrt_le_sqrt (by nlinarith [mul_self_nonneg y])

theorem direct_eq : (⟨⟨x⟩, ⟨y⟩⟩ : Complex SReal).sqrtDirect ⟨modulus x y⟩ ⟨1 / (1 + 1)⟩ =
    .ok (⟨Real.sqrt ((modulus x y + x) * (1 / (1 + 1)))⟩, ⟨Real.sqrt ((modulus x y - x) * (1 / (1 + 1)))⟩) := by
  have h := abs_le.1 (abs_le_modulus x y)
  show (do
    let re ← RSqrt.sqrt (⟨(modulus x y + x) * (1 / (1 + 1))⟩ : SReal)
    let im ← RSqrt.sqrt (⟨(modulus x y - x) * (1 / (1 + 1))⟩ : SReal)
    pure (re, im) : Res (SReal × SReal)) = _
  rw [sqrt_nonneg_eq (by linarith), sqrt_nonneg_eq (by linarith)]
  rfl

theorem direct_prod : Real.sqrt ((modulus x y + x) * (1 / (1 + 1))) * Real.sqrt ((modulus x y - x) * (1 / (1 + 1))) =
    |y| / 2 := by
  have h := abs_le.1 (abs_le_modulus x y)
  have hm : modulus x y * modulus x y = x * x + y * y := Real.mul_self_sqrt (by nlinarith [mul_self_nonneg x, mul_self_nonneg y])
  rw [← Real.sqrt_mul (by linarith)]
  have : (modulus x y + x) * (1 / (1 + 1)) * ((modulus x y - x) * (1 / (1 + 1))) = (y / 2) ^ 2 := by
    have : (modulus x y + x) * (1 / (1 + 1)) * ((modulus x y - x) * (1 / (1 + 1))) = (modulus x y * modulus x y - x * x) / 4 := by ring
    rw [this, hm]; ring
  rw [this, Real.sqrt_sq_eq_abs, abs_div, abs_of_pos (by norm_num : (0 : ℝ) < 2)]

theorem stable_eq (hz : x ≠ 0 ∨ y ≠ 0) : (⟨⟨x⟩, ⟨y⟩⟩ : Complex SReal).sqrtStable ⟨modulus x y⟩ ⟨1 + 1⟩ ⟨1 / (1 + 1)⟩ =
    (⟨⟨x⟩, ⟨y⟩⟩ : Complex SReal).sqrtDirect ⟨modulus x y⟩ ⟨1 / (1 + 1)⟩ := by
  have h := abs_le.1 (abs_le_modulus x y)
  have hpos : 0 < modulus x y + |x| := by
    have h0 : 0 < x * x + y * y := by
      rcases hz with h | h
      · nlinarith [mul_self_pos.2 h, mul_self_nonneg y]
      · nlinarith [mul_self_pos.2 h, mul_self_nonneg x]
    have := Real.sqrt_pos.2 h0
    have := abs_nonneg x
    linarith
  have hden : Real.sqrt ((modulus x y + |x|) * (1 + 1)) = 2 * Real.sqrt ((modulus x y + |x|) * (1 / (1 + 1))) := by
    have : (modulus x y + |x|) * (1 + 1) = 2 ^ 2 * ((modulus x y + |x|) * (1 / (1 + 1))) := by ring
    rw [this, Real.sqrt_mul (by norm_num), Real.sqrt_sq (by norm_num)]
  have hb : 0 < Real.sqrt ((modulus x y + |x|) * (1 / (1 + 1))) := Real.sqrt_pos.2 (by linarith)
  have hs : (⟨⟨x⟩, ⟨y⟩⟩ : Complex SReal).sqrtStable ⟨modulus x y⟩ ⟨1 + 1⟩ ⟨1 / (1 + 1)⟩ =
      if decide (0 ≤ x) = true then .ok (⟨Real.sqrt ((modulus x y + |x|) * (1 / (1 + 1)))⟩,
        ⟨|y| / Real.sqrt ((modulus x y + |x|) * (1 + 1))⟩)
      else .ok (⟨|y| / Real.sqrt ((modulus x y + |x|) * (1 + 1))⟩, ⟨Real.sqrt ((modulus x y + |x|) * (1 / (1 + 1)))⟩) := by
    show (do
      let den ← RSqrt.sqrt (⟨(modulus x y + |x|) * (1 + 1)⟩ : SReal)
      let alpha ← SReal.div ⟨|y|⟩ den
      let beta ← RSqrt.sqrt (⟨(modulus x y + |x|) * (1 / (1 + 1))⟩ : SReal)
      if decide (0 ≤ x) = true then pure (beta, alpha) else pure (alpha, beta) : Res (SReal × SReal)) = _
    rw [sqrt_nonneg_eq (by linarith), sqrt_nonneg_eq (by linarith)]
    show (do
      let alpha ← SReal.div ⟨|y|⟩ ⟨Real.sqrt ((modulus x y + |x|) * (1 + 1))⟩
      if decide (0 ≤ x) = true then pure (⟨Real.sqrt ((modulus x y + |x|) * (1 / (1 + 1)))⟩, alpha)
        else pure (alpha, ⟨Real.sqrt ((modulus x y + |x|) * (1 / (1 + 1)))⟩) : Res (SReal × SReal)) = _
    rw [SReal.div, if_neg (by show Real.sqrt ((modulus x y + |x|) * (1 + 1)) ≠ 0; rw [hden]; positivity)]
    rfl
  rw [hs, direct_eq, hden]
  have hp := direct_prod x y
  by_cases hx : 0 ≤ x
  · rw [if_pos (by simpa using hx)]
    rw [abs_of_nonneg hx] at hb ⊢
    congr 3
    rw [div_eq_iff (by positivity)]
    linarith
  · rw [if_neg (by simpa using hx)]
    rw [abs_of_neg (not_le.1 hx)] at hb ⊢
    rw [← sub_eq_add_neg] at hb ⊢
    congr 3
    rw [div_eq_iff (by positivity)]
    linarith

theorem sqrt_eq : (⟨⟨x⟩, ⟨y⟩⟩ : Complex SReal).sqrt =
    .ok ⟨⟨Real.sqrt ((modulus x y + x) * (1 / (1 + 1)))⟩,
      ⟨if y < 0 then -Real.sqrt ((modulus x y - x) * (1 / (1 + 1))) else Real.sqrt ((modulus x y - x) * (1 / (1 + 1)))⟩⟩ := by
  have h2 : SReal.div ⟨1⟩ ⟨1 + 1⟩ = .ok ⟨1 / (1 + 1)⟩ := if_neg (by norm_num)
  have habs : (⟨⟨x⟩, ⟨y⟩⟩ : Complex SReal).abs = .ok ⟨modulus x y⟩ :=
    sqrt_nonneg_eq (by nlinarith [mul_self_nonneg x, mul_self_nonneg y])
  show (do
    let oneHalf ← SReal.div ⟨1⟩ ⟨1 + 1⟩
    let abs ← (⟨⟨x⟩, ⟨y⟩⟩ : Complex SReal).abs
    let parts ← (if decide (|x| ≤ |y| * (1 + 1)) = true then (⟨⟨x⟩, ⟨y⟩⟩ : Complex SReal).sqrtDirect abs oneHalf
      else (⟨⟨x⟩, ⟨y⟩⟩ : Complex SReal).sqrtStable abs ⟨1 + 1⟩ oneHalf : Res (SReal × SReal))
    let im ← (if decide (y < 0) = true then RNeg.neg parts.2 else pure parts.2 : Res SReal)
    pure (⟨parts.1, im⟩ : Complex SReal) : Res (Complex SReal)) = _
  rw [h2, habs]
  show (do
    let parts ← (if decide (|x| ≤ |y| * (1 + 1)) = true then
        (⟨⟨x⟩, ⟨y⟩⟩ : Complex SReal).sqrtDirect ⟨modulus x y⟩ ⟨1 / (1 + 1)⟩
      else (⟨⟨x⟩, ⟨y⟩⟩ : Complex SReal).sqrtStable ⟨modulus x y⟩ ⟨1 + 1⟩ ⟨1 / (1 + 1)⟩ : Res (SReal × SReal))
    let im ← (if decide (y < 0) = true then RNeg.neg parts.2 else pure parts.2 : Res SReal)
    pure (⟨parts.1, im⟩ : Complex SReal) : Res (Complex SReal)) = _
  have hb : (if decide (|x| ≤ |y| * (1 + 1)) = true then
        (⟨⟨x⟩, ⟨y⟩⟩ : Complex SReal).sqrtDirect ⟨modulus x y⟩ ⟨1 / (1 + 1)⟩
      else (⟨⟨x⟩, ⟨y⟩⟩ : Complex SReal).sqrtStable ⟨modulus x y⟩ ⟨1 + 1⟩ ⟨1 / (1 + 1)⟩ : Res (SReal × SReal)) =
      (⟨⟨x⟩, ⟨y⟩⟩ : Complex SReal).sqrtDirect ⟨modulus x y⟩ ⟨1 / (1 + 1)⟩ := by
    split
    · rfl
    · rename_i hlt
      refine stable_eq x y ?_
      by_contra hcon
      push Not at hcon
      apply hlt
      rw [hcon.1, hcon.2]
      simp
  rw [hb, direct_eq]
  by_cases hy : y < 0
  · show (do
      let im ← (if decide (y < 0) = true then _ else _ : Res SReal)
      _ : Res (Complex SReal)) = _
    rw [if_pos (by simpa using hy), if_pos hy]
    rfl
  · show (do
      let im ← (if decide (y < 0) = true then _ else _ : Res SReal)
      _ : Res (Complex SReal)) = _
    rw [if_neg (by simpa using hy), if_neg hy]
    rfl

end Root

/-- C20: `sqrt` returns for every `z` (so no branch divides by zero or takes the root of a negative number), and its
value is the principal square root: `s * s = z`, `s.re >= 0`, and `s.im >= 0` if `s.re = 0`. -/
theorem C20_sqrt : ∃ s, z.sqrt = .ok s ∧ IsPrincipalRoot s.toC z.toC := by
  obtain ⟨⟨x⟩, ⟨y⟩⟩ := z
  have h := abs_le.1 (abs_le_modulus x y)
  have hp := direct_prod x y
  have s1 := Real.mul_self_sqrt (show 0 ≤ (modulus x y + x) * (1 / (1 + 1)) by linarith)
  have s2 := Real.mul_self_sqrt (show 0 ≤ (modulus x y - x) * (1 / (1 + 1)) by linarith)
  refine ⟨_, sqrt_eq x y, ?_, Real.sqrt_nonneg _, ?_⟩
  · apply _root_.Complex.ext
    · rw [_root_.Complex.mul_re]
      simp only [Complex.toC]
      by_cases hy : y < 0
      · rw [if_pos hy, neg_mul_neg, s1, s2]; ring
      · rw [if_neg hy, s1, s2]; ring
    · rw [_root_.Complex.mul_im]
      simp only [Complex.toC]
      by_cases hy : y < 0
      · rw [if_pos hy, mul_neg, neg_mul, mul_comm (Real.sqrt ((modulus x y - x) * (1 / (1 + 1)))), hp, abs_of_neg hy]; ring
      · rw [if_neg hy, mul_comm (Real.sqrt ((modulus x y - x) * (1 / (1 + 1)))), hp, abs_of_nonneg (not_lt.1 hy)]; ring
  · intro h0
    have h0' : Real.sqrt ((modulus x y + x) * (1 / (1 + 1))) = 0 := h0
    rw [h0', zero_mul] at hp
    have hy : y = 0 := by
      have : |y| = 0 := by linarith
      exact abs_eq_zero.1 this
    show 0 ≤ if y < 0 then _ else _
    rw [if_neg (by rw [hy]; exact lt_irrefl 0)]
    exact Real.sqrt_nonneg _

/-- There is only one principal root. -/
theorem C20_unique {s t v : ℂ} (hs : IsPrincipalRoot s v) (ht : IsPrincipalRoot t v) : s = t := by
  rcases mul_self_eq_mul_self_iff.1 (hs.1.trans ht.1.symm) with h | h
  · exact h
  · have h1 : s.re = -t.re := by rw [h, _root_.Complex.neg_re]
    have h2 : s.im = -t.im := by rw [h, _root_.Complex.neg_im]
    have e1 : s.re = 0 := by linarith [hs.2.1, ht.2.1]
    have e2 : t.re = 0 := by linarith
    have i1 := hs.2.2 e1
    have i2 := ht.2.2 e2
    apply _root_.Complex.ext
    · rw [e1, e2]
    · linarith

/-- C20: `sqrt` agrees with Mathlib's principal power `z ^ (1/2)`. -/
theorem C20_cpow : Yields z.sqrt (z.toC ^ (1 / 2 : ℂ)) := by
  obtain ⟨s, h1, h2⟩ := C20_sqrt z
  refine ⟨s, h1, C20_unique h2 ⟨?_, ?_⟩⟩
  · by_cases hz : z.toC = 0
    · rw [hz, _root_.Complex.zero_cpow (by norm_num), mul_zero]
    · rw [← _root_.Complex.cpow_add _ _ hz]
      norm_num
  · by_cases hz : z.toC = 0
    · rw [hz, _root_.Complex.zero_cpow (by norm_num)]
      exact ⟨le_refl _, fun _ => le_refl _⟩
    · rw [_root_.Complex.cpow_def_of_ne_zero hz, _root_.Complex.exp_re, _root_.Complex.exp_im]
      have hre : (_root_.Complex.log z.toC * (1 / 2)).im = _root_.Complex.arg z.toC / 2 := by
        rw [show (1 / 2 : ℂ) = ((1 / 2 : ℝ) : ℂ) by norm_num, _root_.Complex.im_mul_ofReal, _root_.Complex.log_im]; ring
      rw [hre]
      have a1 := _root_.Complex.neg_pi_lt_arg z.toC
      have a2 := _root_.Complex.arg_le_pi z.toC
      have hpos := Real.exp_pos (_root_.Complex.log z.toC * (1 / 2)).re
      refine ⟨mul_nonneg hpos.le (Real.cos_nonneg_of_mem_Icc ⟨by linarith, by linarith⟩), fun h0 => ?_⟩
      rcases mul_eq_zero.1 h0 with h | h
      · exact absurd h hpos.ne'
      · refine mul_nonneg hpos.le (Real.sin_nonneg_of_nonneg_of_le_pi ?_ (by linarith [Real.pi_pos]))
        by_contra hneg
        have := Real.cos_pos_of_mem_Ioo (x := _root_.Complex.arg z.toC / 2) ⟨by linarith, by linarith [Real.pi_pos]⟩
        linarith

/-- C20: both branches of the implementation compute the same value, for every `z ≠ 0` (the second one is only taken for
such `z`). -/
theorem C20_branches_agree (hz : z ≠ zero) {r : SReal} (hr : z.abs = .ok r) :
    z.sqrtStable r ⟨1 + 1⟩ ⟨1 / (1 + 1)⟩ = z.sqrtDirect r ⟨1 / (1 + 1)⟩ := by
  obtain ⟨⟨x⟩, ⟨y⟩⟩ := z
  have habs : (⟨⟨x⟩, ⟨y⟩⟩ : Complex SReal).abs = .ok ⟨modulus x y⟩ :=
    sqrt_nonneg_eq (by nlinarith [mul_self_nonneg x, mul_self_nonneg y])
  rw [habs] at hr
  cases hr
  refine stable_eq x y ?_
  by_contra hcon
  push Not at hcon
  apply hz
  rw [hcon.1, hcon.2]
  rfl

/-- Both branches are taken: `|re| <= 2 |im|` for `z = i`, not for `z = 1`. -/
example : (|(0 : ℝ)| ≤ |1| * (1 + 1)) ∧ ¬ (|(1 : ℝ)| ≤ |0| * (1 + 1)) := by norm_num

end Magnesia
