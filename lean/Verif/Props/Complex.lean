import Verif.Proof.Laws
import Mathlib.Algebra.Order.Ring.Defs
import Mathlib.Tactic.Linarith
import Mathlib.Tactic.Positivity

/-!
# Properties C11 - C16: algebra of complex numbers
-/

namespace Magnesia

open RZero ROne MulRefs

variable {T R : Type} [RRing T]

/-- The imaginary unit `Complex::new(T::zero(), T::one())`. -/
def Complex.I {T : Type} [RZero T] [ROne T] : Complex T := ⟨zero, one⟩

/-! ## C11 -/

/-- C11: over a commutative ring (exact arithmetic: faithful and panic-free) all ring laws hold between the computed
values, multiplication is commutative, and `i * i = -1`. -/
theorem C11_commutative_ring [CommRing R] {φ : T → R} (h : Implements φ) (hi : Function.Injective φ)
    (hn : NeverPanics T) :
    RingLaws (Complex T) ∧ (∀ a b : Complex T, a.mul b = b.mul a) ∧
      (∀ m : Complex T, (ROne.one : Complex T).neg = .ok m → (Complex.I : Complex T).mul Complex.I = .ok m) := by
  have hc := h.complex
  have hci := toCx_injective hi
  have hcn := hn.complex
  refine ⟨ringLaws hc hci hcn, fun a b => ?_, fun m hm => ?_⟩
  · obtain ⟨x, hx⟩ := hcn.mul a b
    obtain ⟨y, hy⟩ := hcn.mul b a
    show mulRefs a b = mulRefs b a
    rw [hx, hy]
    congr 1
    apply hci
    rw [hc.mul _ _ _ hx, hc.mul _ _ _ hy, mul_comm]
  · obtain ⟨x, hx⟩ := hcn.mul Complex.I Complex.I
    show mulRefs (Complex.I : Complex T) Complex.I = _
    rw [hx]
    congr 1
    apply hci
    rw [hc.mul _ _ _ hx, hc.neg _ _ hm, hc.one]
    ext <;> simp [Complex.toCx, Complex.I, h.zero, h.one]

/-- C11: the denotation as pairs: what `+`, `-`, `*`, unary `-` compute, for every element type (also if some
operations panic). -/
theorem C11_values [Ring R] {φ : T → R} (h : Implements φ) (a b : Complex T) :
    (∀ c, (a.addAssignRef b).toRes = .ok c → φ c.re = φ a.re + φ b.re ∧ φ c.im = φ a.im + φ b.im) ∧
    (∀ c, (a.subAssignRef b).toRes = .ok c → φ c.re = φ a.re - φ b.re ∧ φ c.im = φ a.im - φ b.im) ∧
    (∀ c, a.mul b = .ok c → φ c.re = φ a.re * φ b.re - φ a.im * φ b.im ∧
      φ c.im = φ a.re * φ b.im + φ a.im * φ b.re) ∧
    (∀ c, a.neg = .ok c → φ c.re = -φ a.re ∧ φ c.im = -φ a.im) := by
  have hc := h.complex
  refine ⟨fun c e => ?_, fun c e => ?_, fun c e => ?_, fun c e => ?_⟩
  · have := hc.addR (a := a) (b := b) e
    exact ⟨congrArg Cx.re this, congrArg Cx.im this⟩
  · have := hc.subR (a := a) (b := b) e
    exact ⟨congrArg Cx.re this, congrArg Cx.im this⟩
  · have := hc.mul a b c e
    exact ⟨congrArg Cx.re this, congrArg Cx.im this⟩
  · have := hc.neg a c e
    exact ⟨congrArg Cx.re this, congrArg Cx.im this⟩

example : Implements (Exact.val : Exact ℚ → ℚ) ∧ Function.Injective (Exact.val : Exact ℚ → ℚ) ∧
    NeverPanics (Exact ℚ) := ⟨implements_exact, fun _ _ h => Exact.ext h, neverPanics_exact⟩

/-! ## C12 -/

/-- C12: if by-value and by-reference operators of the element type do the same, so do those of `Complex`, including
panics and the state left by a panicking in-place operator; `*=` computes `*`. -/
theorem C12_operators_agree [RAdd T T T] [RSub T T T] [RMul T T T] [RAddAssign T T] [RSubAssign T T]
    (h : ValueOpsAgree T) (a b : Complex T) :
    (a.addAssignV b).toRes = (a.add b : Res (Complex T)) ∧ a.addAssignRef b = a.addAssignV b ∧
    (a.subAssignV b).toRes = (a.sub b : Res (Complex T)) ∧ a.subAssignRef b = a.subAssignV b ∧
    a.mul b = a.mulRef b ∧ (a.mulAssign b).toRes = a.mulRef b := by
  have hc := h.complex
  have e1 : a.addAssignRef b = a.addAssignV b := (hc.addAssign a b).symm
  have e2 : a.subAssignRef b = a.subAssignV b := (hc.subAssign a b).symm
  refine ⟨?_, e1, ?_, e2, rfl, toRes_ofRes _ _⟩
  · rw [← e1]; exact (hc.add a b).symm
  · rw [← e2]; exact (hc.sub a b).symm

/-- C12: `z * s` is `z * Complex::new(s, 0)`. -/
theorem C12_mul_scalar [Ring R] {φ : T → R} (h : Implements φ) (hi : Function.Injective φ) (z w w' : Complex T) (s : T)
    (hw : z.mulScalar s = .ok w) (hw' : z.mul ⟨s, zero⟩ = .ok w') : w = w' := by
  apply toCx_injective hi
  rw [h.cmulScalar hw, h.complex.mul _ _ _ hw']
  ext <;> simp [Complex.toCx, h.zero]

/-- C12: and `z * s` returns if elements never panic. -/
theorem C12_mul_scalar_returns (hn : NeverPanics T) (z : Complex T) (s : T) :
    (∃ w, z.mulScalar s = .ok w) ∧ ∃ w, z.mul ⟨s, zero⟩ = .ok w := by
  refine ⟨?_, hn.complex.mul z _⟩
  obtain ⟨x, hx⟩ := hn.mul z.re s
  obtain ⟨y, hy⟩ := hn.mul z.im s
  exact ⟨⟨x, y⟩, by simp [Complex.mulScalar, hx, hy, bind, Except.bind, pure, Except.pure]⟩

example : ValueOpsAgree I32 := valueOpsAgree_mint
example : (Complex.mk (.lit 3) (.lit 5) : Complex I32).mulScalar (.lit 2) = .ok ⟨.lit 6, .lit 10⟩ := rfl
/-- A panicking `+=` leaves the real part already updated. -/
example : (Complex.mk (.lit 3) (.lit 100) : Complex I8).addAssignRef ⟨.lit 2, .lit 100⟩ =
    ⟨⟨.lit 5, .lit 100⟩, some .overflow⟩ := rfl

/-! ## C13 -/
section C13
variable [CommRing R] {φ : T → R}

/-- C13: conjugation is an involution. -/
theorem C13_conj_conj (h : Implements φ) (hi : Function.Injective φ) (z w v : Complex T) (h1 : z.conj = .ok w)
    (h2 : w.conj = .ok v) : v = z := by
  apply toCx_injective hi
  have e1 := h.cconj h1
  rw [h.cconj h2]
  have a1 := congrArg Cx.re e1
  have a2 := congrArg Cx.im e1
  simp only [Complex.toCx] at a1 a2
  ext <;> simp [Complex.toCx, a1, a2]

/-- C13: conjugation distributes over `+` and `*`. -/
theorem C13_conj_hom (h : Implements φ) (hi : Function.Injective φ) (a b a' b' : Complex T) (ha : a.conj = .ok a')
    (hb : b.conj = .ok b') :
    (∀ s s' t, ringAdd a b = .ok s → s.conj = .ok s' → ringAdd a' b' = .ok t → s' = t) ∧
    (∀ s s' t, a.mul b = .ok s → s.conj = .ok s' → a'.mul b' = .ok t → s' = t) := by
  have hc := h.complex
  have ea := h.cconj ha
  have eb := h.cconj hb
  constructor
  · intro s s' t h1 h2 h3
    apply toCx_injective hi
    have e := hc.ringAdd_ok h1
    have e1 := congrArg Cx.re e
    have e2 := congrArg Cx.im e
    simp only [Complex.toCx, Cx.add_re, Cx.add_im] at e1 e2
    rw [h.cconj h2, hc.ringAdd_ok h3, ea, eb]
    ext
    · simpa using e1
    · simp [e2]; ring
  · intro s s' t h1 h2 h3
    apply toCx_injective hi
    have e := hc.mul _ _ _ h1
    have e1 := congrArg Cx.re e
    have e2 := congrArg Cx.im e
    simp only [Complex.toCx, Cx.mul_re, Cx.mul_im] at e1 e2
    rw [h.cconj h2, hc.mul _ _ _ h3, ea, eb]
    ext
    · simp [e1]
    · simp [e2]; ring

/-- C13: `z * conj(z)` is `sqr_norm(z)` with zero imaginary part. -/
theorem C13_mul_conj (h : Implements φ) (z c w : Complex T) (n : T) (hcj : z.conj = .ok c) (hw : z.mul c = .ok w)
    (hn : z.sqrNorm = .ok n) : φ w.re = φ n ∧ φ w.im = 0 := by
  have e := h.complex.mul _ _ _ hw
  rw [h.cconj hcj] at e
  have e1 := congrArg Cx.re e
  have e2 := congrArg Cx.im e
  simp only [Complex.toCx, Cx.mul_re, Cx.mul_im] at e1 e2
  refine ⟨?_, ?_⟩
  · rw [e1, h.sqrNorm hn]; ring
  · rw [e2]; ring

/-- C13: the squared norm is multiplicative. -/
theorem C13_sqr_norm_mul (h : Implements φ) (a b c : Complex T) (na nb nc : T) (hc : a.mul b = .ok c)
    (ha : a.sqrNorm = .ok na) (hb : b.sqrNorm = .ok nb) (hn : c.sqrNorm = .ok nc) : φ nc = φ na * φ nb := by
  have e := h.complex.mul _ _ _ hc
  have e1 := congrArg Cx.re e
  have e2 := congrArg Cx.im e
  simp only [Complex.toCx, Cx.mul_re, Cx.mul_im] at e1 e2
  rw [h.sqrNorm hn, h.sqrNorm ha, h.sqrNorm hb, e1, e2]
  ring

/-- C13: over an ordered ring the squared norm is non-negative, and zero exactly for zero. -/
theorem C13_sqr_norm_nonneg [LinearOrder R] [IsStrictOrderedRing R] (h : Implements φ) (hi : Function.Injective φ)
    (z : Complex T) (n : T) (hn : z.sqrNorm = .ok n) : 0 ≤ φ n ∧ (φ n = 0 ↔ z = zero) := by
  rw [h.sqrNorm hn]
  refine ⟨add_nonneg (mul_self_nonneg _) (mul_self_nonneg _), ?_, ?_⟩
  · intro h0
    have h1 : φ z.re = 0 := by nlinarith [mul_self_nonneg (φ z.re), mul_self_nonneg (φ z.im)]
    have h2 : φ z.im = 0 := by nlinarith [mul_self_nonneg (φ z.re), mul_self_nonneg (φ z.im)]
    exact Complex.ext (hi (h1.trans h.zero.symm)) (hi (h2.trans h.zero.symm))
  · rintro rfl
    show φ zero * φ zero + φ zero * φ zero = 0
    simp [h.zero]

/-- C13: all of them return if elements never panic. -/
theorem C13_returns (hn : NeverPanics T) (z : Complex T) : (∃ c, z.conj = .ok c) ∧ ∃ n, z.sqrNorm = .ok n :=
  ⟨(pan_cconj z).exists_ok hn.noElementPanic, (pan_sqrNorm z).exists_ok hn.noElementPanic⟩

end C13

example : (Complex.mk (.lit 3) (.lit (-4)) : Complex I32).sqrNorm = .ok (.lit 25) := rfl
example : (Complex.mk (.lit 3) (.lit (-4)) : Complex I32).conj = .ok ⟨.lit 3, .lit 4⟩ := rfl

/-! ## C14 -/
section C14
variable {T R : Type} [RField T] [CommRing R] {φ : T → R}

/-- C14: `(a / b) * b = a` if the squared norm of `b` is not zero. -/
theorem C14_div_mul_cancel (h : ImplementsField φ) (hi : Function.Injective φ) (a b q r : Complex T)
    (hb : φ b.re * φ b.re + φ b.im * φ b.im ≠ 0) (hq : a.div b = .ok q) (hr : q.mul b = .ok r) : r = a := by
  obtain ⟨k, hk, e1, e2⟩ := h.cdiv hb hq
  apply toCx_injective hi
  rw [h.toImplements.complex.mul _ _ _ hr]
  ext
  · simp only [Complex.toCx, Cx.mul_re, e1, e2]
    linear_combination (φ a.re) * hk
  · simp only [Complex.toCx, Cx.mul_im, e1, e2]
    linear_combination (φ a.im) * hk

/-- C14: `(a * b) / b = a` if the squared norm of `b` is not zero. -/
theorem C14_mul_div_cancel (h : ImplementsField φ) (hi : Function.Injective φ) (a b p r : Complex T)
    (hb : φ b.re * φ b.re + φ b.im * φ b.im ≠ 0) (hp : a.mul b = .ok p) (hr : p.div b = .ok r) : r = a := by
  obtain ⟨k, hk, e1, e2⟩ := h.cdiv hb hr
  have e := h.toImplements.complex.mul _ _ _ hp
  have f1 := congrArg Cx.re e
  have f2 := congrArg Cx.im e
  simp only [Complex.toCx, Cx.mul_re, Cx.mul_im] at f1 f2
  apply toCx_injective hi
  ext
  · simp only [Complex.toCx, e1, f1, f2]
    linear_combination (φ a.re) * hk
  · simp only [Complex.toCx, e2, f1, f2]
    linear_combination (φ a.im) * hk

/-- C14: over an ordered field (e.g. the reals) division works for every `b` other than zero. -/
theorem C14_ordered [LinearOrder R] [IsStrictOrderedRing R] (h : ImplementsField φ) (hi : Function.Injective φ)
    (a b : Complex T) (hb : b ≠ zero) :
    (∀ q r, a.div b = .ok q → q.mul b = .ok r → r = a) ∧ (∀ p r, a.mul b = .ok p → p.div b = .ok r → r = a) := by
  have hb' : φ b.re * φ b.re + φ b.im * φ b.im ≠ 0 := by
    intro h0
    apply hb
    have h1 : φ b.re = 0 := by nlinarith [mul_self_nonneg (φ b.re), mul_self_nonneg (φ b.im)]
    have h2 : φ b.im = 0 := by nlinarith [mul_self_nonneg (φ b.re), mul_self_nonneg (φ b.im)]
    exact Complex.ext (hi (h1.trans h.zero.symm)) (hi (h2.trans h.zero.symm))
  exact ⟨fun q r => C14_div_mul_cancel h hi a b q r hb', fun p r => C14_mul_div_cancel h hi a b p r hb'⟩

omit [CommRing R] in
/-- C14: division returns if no element operation panics. -/
theorem C14_div_returns (hn : NeverPanics T) (hd : ∀ a b : T, ∃ c, DivRefs.divRefs a b = .ok c) (a b : Complex T) :
    ∃ q, a.div b = .ok q := by
  have hm := fun a b : T => (pan_mul a b).mono (Q := fun _ => False) fun e he => hn.noElementPanic e he
  have ha := fun a b : T => ((pan_add a b).toRes).mono (Q := fun _ => False) fun e he => hn.noElementPanic e he
  have hs := fun a b : T => ((pan_sub a b).toRes).mono (Q := fun _ => False) fun e he => hn.noElementPanic e he
  have hnrm := (pan_sqrNorm b).mono (Q := fun _ => False) fun e he => hn.noElementPanic e he
  have hdv : ∀ a b : T, ResPan (fun _ => False) (DivRefs.divRefs a b) := fun a b => by
    obtain ⟨c, hc⟩ := hd a b
    rw [hc]; exact ResPan.ok c
  refine ResPan.exists_ok (P := fun _ => False) ?_ (fun _ => id)
  exact hnrm.bind fun _ _ => (hdv _ _).bind fun _ _ => (hm _ _).bind fun _ _ => (hm _ _).bind fun _ _ =>
    (hm _ _).bind fun _ _ => (hm _ _).bind fun _ _ => (ha _ _).bind fun _ _ => (hs _ _).bind fun _ _ =>
    (hm _ _).bind fun _ _ => (hm _ _).bind fun _ _ => ResPan.pure _

end C14

example : ImplementsField (Exact.val : Exact ℚ → ℚ) := implementsField_exact
example : (⟨⟨3⟩, ⟨4⟩⟩ : Complex (Exact ℚ)).div ⟨⟨1⟩, ⟨2⟩⟩ = .ok ⟨⟨11 / 5⟩, ⟨-2 / 5⟩⟩ := by
  simp [Complex.div, Complex.divRef, Complex.sqrNorm, DivRefs.divRefs, mulRefs, AddAssignRef.addAssign,
    SubAssignRef.subAssign, one, bind, Except.bind, pure, Except.pure, Upd.toRes]
  norm_num

/-! ## C15 -/

/-- C15: the reference and value flavours of complex division, and the three flavours of division by a scalar, agree
(including panics). -/
theorem C15_operators_agree {T : Type} [RField T] [RDiv T T T] (a b : Complex T) (s : T) :
    a.div b = a.divRef b ∧ a.divScalarRefRef s = a.divScalar s ∧ a.divScalarRef s = a.divScalar s :=
  ⟨rfl, rfl, rfl⟩

/-- C15: division by a scalar divides both parts. -/
theorem C15_div_scalar {T : Type} [RDiv T T T] (z w : Complex T) (s : T) (h : z.divScalar s = .ok w) :
    (RDiv.div z.re s : Res T) = .ok w.re ∧ (RDiv.div z.im s : Res T) = .ok w.im := by
  obtain ⟨x, hx, h⟩ := bind_ok h
  obtain ⟨y, hy, h⟩ := bind_ok h
  cases pure_ok h
  exact ⟨hx, hy⟩

/-- C15: dividing by a non-zero scalar is dividing by that scalar as a complex number. -/
theorem C15_div_scalar_eq_div {T R : Type} [RField T] [RDiv T T T] [Field R] {φ : T → R} (h : ImplementsField φ)
    (hi : Function.Injective φ) (hd : ∀ a b : T, (RDiv.div a b : Res T) = DivRefs.divRefs a b) (z w w' : Complex T)
    (s : T) (hs : φ s ≠ 0) (h1 : z.divScalar s = .ok w) (h2 : z.div ⟨s, zero⟩ = .ok w') : w = w' := by
  obtain ⟨a1, a2⟩ := C15_div_scalar z w s h1
  rw [hd] at a1 a2
  have b1 := h.div _ _ _ hs a1
  have b2 := h.div _ _ _ hs a2
  have hb : φ (Complex.mk s zero).re * φ (Complex.mk s zero).re + φ (Complex.mk s zero).im * φ (Complex.mk s zero).im ≠ 0 := by
    simpa [h.zero] using hs
  obtain ⟨k, hk, e1, e2⟩ := h.cdiv hb h2
  simp only [h.zero, mul_zero, add_zero, sub_zero] at hk e1 e2
  apply Complex.ext <;> apply hi
  · rw [e1, ← b1]
    linear_combination (-(φ w.re)) * hk
  · rw [e2, ← b2]
    linear_combination (-(φ w.im)) * hk

/-- C15: dividing a complex integer by the scalar zero panics, in every build. -/
theorem C15_int_div_zero_panics {w : ℕ} {chk : Bool} (z : Complex (MInt w chk)) :
    z.divScalar zero = .error .divByZero := by
  have : ∀ a : MInt w chk, (RDiv.div a (zero : MInt w chk) : Res (MInt w chk)) = .error .divByZero := fun a => by
    show MInt.div a ⟨0⟩ = _
    simp [MInt.div]
  show (RDiv.div z.re zero >>= fun re => _) = _
  rw [this]
  rfl

example : (Complex.mk (.lit 13) (.lit (-4)) : Complex I32).divScalar (.lit 5) = .ok ⟨.lit 2, .lit 0⟩ := rfl

/-! ## C16 -/

/-- C16: with exact scalars from a field, division inverts multiplication for all non-zero divisors if and only if
`x² + y² = 0` has no non-trivial solution. -/
theorem C16_field_iff {R : Type} [Field R] [DecidableEq R] :
    (∀ a b q r : Complex (Exact R), b ≠ zero → a.div b = .ok q → q.mul b = .ok r → r = a) ↔
      ∀ x y : R, x * x + y * y = 0 → x = 0 ∧ y = 0 := by
  have hi : Function.Injective (Exact.val : Exact R → R) := fun _ _ h => Exact.ext h
  constructor
  · intro H x y hxy
    by_contra hne
    have hb : (⟨⟨x⟩, ⟨y⟩⟩ : Complex (Exact R)) ≠ zero := by
      intro h0
      have h0 : (⟨⟨x⟩, ⟨y⟩⟩ : Complex (Exact R)) = ⟨⟨0⟩, ⟨0⟩⟩ := h0
      simp only [Complex.mk.injEq, Exact.mk.injEq] at h0
      exact hne h0
    obtain ⟨q, hq⟩ := C14_div_returns neverPanics_exact (fun a b => ⟨_, rfl⟩) (one : Complex (Exact R)) ⟨⟨x⟩, ⟨y⟩⟩
    obtain ⟨r, hr⟩ := (neverPanics_exact (R := R)).complex.mul q ⟨⟨x⟩, ⟨y⟩⟩
    have h1 := H one ⟨⟨x⟩, ⟨y⟩⟩ q r hb hq hr
    have e := implements_exact.complex.mul _ _ _ hr
    rw [h1, implements_exact.complex.one] at e
    have e1 := congrArg Cx.re e
    have e2 := congrArg Cx.im e
    simp only [Complex.toCx, Cx.mul_re, Cx.mul_im, Cx.one_re, Cx.one_im] at e1 e2
    apply hne
    constructor
    · linear_combination x * e1 + y * e2 + q.re.val * hxy
    · linear_combination y * e1 - x * e2 - q.im.val * hxy
  · intro H a b q r hb hq hr
    refine C14_div_mul_cancel implementsField_exact hi a b q r (fun h0 => hb ?_) hq hr
    obtain ⟨h1, h2⟩ := H _ _ h0
    exact Complex.ext (Exact.ext h1) (Exact.ext h2)

/-- C16: if the squared norm of a non-zero `b` is zero, `b` is a zero divisor and *no* quotient `1 / b` exists, whatever
division computes. -/
theorem C16_no_inverse [CommRing R] {φ : T → R} (h : Implements φ) (hi : Function.Injective φ) (b : Complex T)
    (hb : b ≠ zero) (h0 : φ b.re * φ b.re + φ b.im * φ b.im = 0) :
    (∀ q : Complex T, q.mul b ≠ .ok (one : Complex T)) ∧
      ∀ c p, b.conj = .ok c → b.mul c = .ok p → c ≠ zero ∧ p = zero := by
  constructor
  · intro q hq
    have e := h.complex.mul _ _ _ hq
    rw [h.complex.one] at e
    have e1 := congrArg Cx.re e
    have e2 := congrArg Cx.im e
    simp only [Complex.toCx, Cx.mul_re, Cx.mul_im, Cx.one_re, Cx.one_im] at e1 e2
    apply hb
    have f1 : φ b.re = 0 := by linear_combination φ b.re * e1 + φ b.im * e2 + φ q.re * h0
    have f2 : φ b.im = 0 := by linear_combination φ b.im * e1 - φ b.re * e2 - φ q.im * h0
    exact Complex.ext (hi (f1.trans h.zero.symm)) (hi (f2.trans h.zero.symm))
  · intro c p hc hp
    have e := h.cconj hc
    constructor
    · rintro rfl
      apply hb
      have e1 := congrArg Cx.re e
      have e2 := congrArg Cx.im e
      simp only [Complex.toCx] at e1 e2
      have z0 : φ (zero : Complex T).re = 0 := h.zero
      have z1 : φ (zero : Complex T).im = 0 := h.zero
      rw [z0] at e1
      rw [z1] at e2
      exact Complex.ext (hi (e1.symm.trans h.zero.symm)) (hi ((neg_eq_zero.1 e2.symm).trans h.zero.symm))
    · apply toCx_injective hi
      rw [h.complex.mul _ _ _ hp, e, h.complex.zero]
      ext
      · simp only [Complex.toCx, Cx.mul_re, Cx.zero_re]; linear_combination h0
      · simp only [Complex.toCx, Cx.mul_im, Cx.zero_im]; ring

/-- C16: `Complex<Complex<T>>` is therefore never a field, although the crate declares it one: `(1, i)` is non-zero and
has squared norm `1 + i² = 0`, for every element type whose `1` and `0` differ. -/
theorem C16_nested_complex_not_field [CommRing R] [Nontrivial R] {φ : T → R} (h : Implements φ)
    (hi : Function.Injective φ) (q : Complex (Complex T)) :
    (⟨one, Complex.I⟩ : Complex (Complex T)) ≠ zero ∧ q.mul ⟨one, Complex.I⟩ ≠ .ok (one : Complex (Complex T)) := by
  have hne : (⟨one, Complex.I⟩ : Complex (Complex T)) ≠ zero := by
    intro h0
    have h1 : (one : Complex T) = zero := congrArg Complex.re h0
    have h2 := congrArg (Complex.toCx φ) h1
    rw [h.complex.one, h.complex.zero] at h2
    exact one_ne_zero (congrArg Cx.re h2)
  refine ⟨hne, (C16_no_inverse h.complex (toCx_injective hi) _ hne ?_).1 q⟩
  rw [h.complex.one]
  ext <;> simp [Complex.toCx, Complex.I, h.zero, h.one]

example : Implements (MInt.toInt : I32 → ℤ) ∧ Function.Injective (MInt.toInt : I32 → ℤ) ∧ Nontrivial ℤ :=
  ⟨implements_checked (by decide), toInt_injective, inferInstance⟩

end Magnesia
