import Verif.Spec.LibmSym
import Verif.Props.Libm
import Verif.Props.IeeeLaws

/-!
# Property C59: exact symmetries and special values of complex functions over floating point numbers

All equations are bit for bit (with a single NaN), unless stated with `SameC`, which ignores the sign of a zero.
-/

namespace Magnesia

open RZero ROne

variable {F : Fmt}

set_option linter.unusedSectionVars false

section Fns

variable [RExp (Ieee F)] [RSin (Ieee F)] [RCos (Ieee F)] [RSinh (Ieee F)] [RCosh (Ieee F)]

theorem ieee_exp {z : Complex (Ieee F)} {e c s : Ieee F} (he : RExp.exp z.re = .ok e) (hc : RCos.cos z.im = .ok c)
    (hs : RSin.sin z.im = .ok s) : z.exp = .ok ⟨e.mul c, e.mul s⟩ := by
  unfold Complex.exp; rw [he, hc, hs]; rfl

theorem ieee_sin {z : Complex (Ieee F)} {s c sh ch : Ieee F} (hs : RSin.sin z.re = .ok s) (hc : RCos.cos z.re = .ok c)
    (hsh : RSinh.sinh z.im = .ok sh) (hch : RCosh.cosh z.im = .ok ch) : z.sin = .ok ⟨s.mul ch, c.mul sh⟩ := by
  unfold Complex.sin; rw [hs, hc, hsh, hch]; rfl

theorem ieee_cos {z : Complex (Ieee F)} {s c sh ch : Ieee F} (hs : RSin.sin z.re = .ok s) (hc : RCos.cos z.re = .ok c)
    (hsh : RSinh.sinh z.im = .ok sh) (hch : RCosh.cosh z.im = .ok ch) : z.cos = .ok ⟨c.mul ch, (s.mul sh).neg⟩ := by
  unfold Complex.cos; rw [hs, hc, hsh, hch]; rfl

theorem ieee_sinh {z : Complex (Ieee F)} {s c sh ch : Ieee F} (hs : RSin.sin z.im = .ok s) (hc : RCos.cos z.im = .ok c)
    (hsh : RSinh.sinh z.re = .ok sh) (hch : RCosh.cosh z.re = .ok ch) : z.sinh = .ok ⟨sh.mul c, ch.mul s⟩ := by
  unfold Complex.sinh; rw [hs, hc, hsh, hch]; rfl

theorem ieee_cosh {z : Complex (Ieee F)} {s c sh ch : Ieee F} (hs : RSin.sin z.im = .ok s) (hc : RCos.cos z.im = .ok c)
    (hsh : RSinh.sinh z.re = .ok sh) (hch : RCosh.cosh z.re = .ok ch) : z.cosh = .ok ⟨ch.mul c, sh.mul s⟩ := by
  unfold Complex.cosh; rw [hs, hc, hsh, hch]; rfl

/-! ### Conjugation -/

/-- C59: the functions commute with conjugation. -/
theorem C59_exp_conj (h : SymFns F) (z : Complex (Ieee F)) : (do (← z.conj).exp) = (do (← z.exp).conj) := by
  obtain ⟨e, he⟩ := h.exp z.re
  obtain ⟨c, hc, hc'⟩ := h.cos z.im
  obtain ⟨s, hs, hs'⟩ := h.sin z.im
  rw [ieee_exp he hc hs]
  exact (ieee_exp (z := ⟨z.re, z.im.neg⟩) he hc' hs').trans (by rw [Ieee.mul_neg]; rfl)

/-- C59: see `C59_exp_conj`. -/
theorem C59_sin_conj (h : SymFns F) (z : Complex (Ieee F)) : (do (← z.conj).sin) = (do (← z.sin).conj) := by
  obtain ⟨c, hc, _⟩ := h.cos z.re
  obtain ⟨s, hs, _⟩ := h.sin z.re
  obtain ⟨ch, hch, hch'⟩ := h.cosh z.im
  obtain ⟨sh, hsh, hsh'⟩ := h.sinh z.im
  rw [ieee_sin hs hc hsh hch]
  exact (ieee_sin (z := ⟨z.re, z.im.neg⟩) hs hc hsh' hch').trans (by rw [Ieee.mul_neg]; rfl)

/-- C59: see `C59_exp_conj`. -/
theorem C59_cos_conj (h : SymFns F) (z : Complex (Ieee F)) : (do (← z.conj).cos) = (do (← z.cos).conj) := by
  obtain ⟨c, hc, _⟩ := h.cos z.re
  obtain ⟨s, hs, _⟩ := h.sin z.re
  obtain ⟨ch, hch, hch'⟩ := h.cosh z.im
  obtain ⟨sh, hsh, hsh'⟩ := h.sinh z.im
  rw [ieee_cos hs hc hsh hch]
  exact (ieee_cos (z := ⟨z.re, z.im.neg⟩) hs hc hsh' hch').trans (by rw [Ieee.mul_neg]; rfl)

/-- C59: see `C59_exp_conj`. -/
theorem C59_sinh_conj (h : SymFns F) (z : Complex (Ieee F)) : (do (← z.conj).sinh) = (do (← z.sinh).conj) := by
  obtain ⟨c, hc, hc'⟩ := h.cos z.im
  obtain ⟨s, hs, hs'⟩ := h.sin z.im
  obtain ⟨ch, hch, _⟩ := h.cosh z.re
  obtain ⟨sh, hsh, _⟩ := h.sinh z.re
  rw [ieee_sinh hs hc hsh hch]
  exact (ieee_sinh (z := ⟨z.re, z.im.neg⟩) hs' hc' hsh hch).trans (by rw [Ieee.mul_neg]; rfl)

/-- C59: see `C59_exp_conj`. -/
theorem C59_cosh_conj (h : SymFns F) (z : Complex (Ieee F)) : (do (← z.conj).cosh) = (do (← z.cosh).conj) := by
  obtain ⟨c, hc, hc'⟩ := h.cos z.im
  obtain ⟨s, hs, hs'⟩ := h.sin z.im
  obtain ⟨ch, hch, _⟩ := h.cosh z.re
  obtain ⟨sh, hsh, _⟩ := h.sinh z.re
  rw [ieee_cosh hs hc hsh hch]
  exact (ieee_cosh (z := ⟨z.re, z.im.neg⟩) hs' hc' hsh hch).trans (by rw [Ieee.mul_neg]; rfl)

/-! ### Odd and even functions -/

/-- C59: `sin (-z) = -sin z`. -/
theorem C59_sin_neg (h : SymFns F) (z : Complex (Ieee F)) : (do (← z.neg).sin) = (do (← z.sin).neg) := by
  obtain ⟨c, hc, hc'⟩ := h.cos z.re
  obtain ⟨s, hs, hs'⟩ := h.sin z.re
  obtain ⟨ch, hch, hch'⟩ := h.cosh z.im
  obtain ⟨sh, hsh, hsh'⟩ := h.sinh z.im
  rw [ieee_sin hs hc hsh hch]
  exact (ieee_sin (z := ⟨z.re.neg, z.im.neg⟩) hs' hc' hsh' hch').trans (by rw [Ieee.mul_neg, Ieee.neg_mul]; rfl)

/-- C59: `cos (-z) = cos z`. -/
theorem C59_cos_neg (h : SymFns F) (z : Complex (Ieee F)) : (do (← z.neg).cos) = z.cos := by
  obtain ⟨c, hc, hc'⟩ := h.cos z.re
  obtain ⟨s, hs, hs'⟩ := h.sin z.re
  obtain ⟨ch, hch, hch'⟩ := h.cosh z.im
  obtain ⟨sh, hsh, hsh'⟩ := h.sinh z.im
  rw [ieee_cos hs hc hsh hch]
  exact (ieee_cos (z := ⟨z.re.neg, z.im.neg⟩) hs' hc' hsh' hch').trans
    (by rw [Ieee.mul_neg, Ieee.neg_mul, Ieee.neg_neg])

/-- C59: `sinh (-z) = -sinh z`. -/
theorem C59_sinh_neg (h : SymFns F) (z : Complex (Ieee F)) : (do (← z.neg).sinh) = (do (← z.sinh).neg) := by
  obtain ⟨c, hc, hc'⟩ := h.cos z.im
  obtain ⟨s, hs, hs'⟩ := h.sin z.im
  obtain ⟨ch, hch, hch'⟩ := h.cosh z.re
  obtain ⟨sh, hsh, hsh'⟩ := h.sinh z.re
  rw [ieee_sinh hs hc hsh hch]
  exact (ieee_sinh (z := ⟨z.re.neg, z.im.neg⟩) hs' hc' hsh' hch').trans (by rw [Ieee.mul_neg, Ieee.neg_mul]; rfl)

/-- C59: `cosh (-z) = cosh z`. -/
theorem C59_cosh_neg (h : SymFns F) (z : Complex (Ieee F)) : (do (← z.neg).cosh) = z.cosh := by
  obtain ⟨c, hc, hc'⟩ := h.cos z.im
  obtain ⟨s, hs, hs'⟩ := h.sin z.im
  obtain ⟨ch, hch, hch'⟩ := h.cosh z.re
  obtain ⟨sh, hsh, hsh'⟩ := h.sinh z.re
  rw [ieee_cosh hs hc hsh hch]
  exact (ieee_cosh (z := ⟨z.re.neg, z.im.neg⟩) hs' hc' hsh' hch').trans
    (by rw [Ieee.mul_neg, Ieee.neg_mul, Ieee.neg_neg])

/-! ### Circular and hyperbolic functions -/

/-- C59: `sin (i z) = i sinh z`. -/
theorem C59_sin_rot (h : SymFns F) (z : Complex (Ieee F)) : z.rot.sin = (do pure (← z.sinh).rot) := by
  obtain ⟨c, hc, hc'⟩ := h.cos z.im
  obtain ⟨s, hs, hs'⟩ := h.sin z.im
  obtain ⟨ch, hch, _⟩ := h.cosh z.re
  obtain ⟨sh, hsh, _⟩ := h.sinh z.re
  rw [ieee_sinh hs hc hsh hch]
  exact (ieee_sin (z := z.rot) hs' hc' hsh hch).trans (by rw [Ieee.neg_mul, Ieee.mul_comm s, Ieee.mul_comm c]; rfl)

/-- C59: `cos (i z) = cosh z`. -/
theorem C59_cos_rot (h : SymFns F) (z : Complex (Ieee F)) : z.rot.cos = z.cosh := by
  obtain ⟨c, hc, hc'⟩ := h.cos z.im
  obtain ⟨s, hs, hs'⟩ := h.sin z.im
  obtain ⟨ch, hch, _⟩ := h.cosh z.re
  obtain ⟨sh, hsh, _⟩ := h.sinh z.re
  rw [ieee_cosh hs hc hsh hch]
  exact (ieee_cos (z := z.rot) hs' hc' hsh hch).trans
    (by rw [Ieee.neg_mul, Ieee.neg_neg, Ieee.mul_comm s, Ieee.mul_comm c])

/-- C59: `sinh (i z) = i sin z`. -/
theorem C59_sinh_rot (h : SymFns F) (z : Complex (Ieee F)) : z.rot.sinh = (do pure (← z.sin).rot) := by
  obtain ⟨c, hc, _⟩ := h.cos z.re
  obtain ⟨s, hs, _⟩ := h.sin z.re
  obtain ⟨ch, hch, hch'⟩ := h.cosh z.im
  obtain ⟨sh, hsh, hsh'⟩ := h.sinh z.im
  rw [ieee_sin hs hc hsh hch]
  exact (ieee_sinh (z := z.rot) hs hc hsh' hch').trans (by rw [Ieee.neg_mul, Ieee.mul_comm sh, Ieee.mul_comm ch]; rfl)

/-- C59: `cosh (i z) = cos z`. -/
theorem C59_cosh_rot (h : SymFns F) (z : Complex (Ieee F)) : z.rot.cosh = z.cos := by
  obtain ⟨c, hc, _⟩ := h.cos z.re
  obtain ⟨s, hs, _⟩ := h.sin z.re
  obtain ⟨ch, hch, hch'⟩ := h.cosh z.im
  obtain ⟨sh, hsh, hsh'⟩ := h.sinh z.im
  rw [ieee_cos hs hc hsh hch]
  exact (ieee_cosh (z := z.rot) hs hc hsh' hch').trans (by rw [Ieee.neg_mul, Ieee.mul_comm sh, Ieee.mul_comm ch])

/-! ### tan -/

theorem same_neg_mul (a b r : Ieee F) : Ieee.Same ((a.neg.add b.neg).mul r) ((a.add b).mul r).neg := by
  have := (Ieee.neg_add a b).mul (.refl r)
  rwa [Ieee.neg_mul (a.add b)] at this

/-- Division commutes with conjugation, up to signs of zeros. -/
theorem div_conj_same (a b r s : Complex (Ieee F)) (h1 : a.div b = .ok r)
    (h2 : (⟨a.re, a.im.neg⟩ : Complex (Ieee F)).div ⟨b.re, b.im.neg⟩ = .ok s) : s.SameC ⟨r.re, r.im.neg⟩ := by
  rw [ieee_cdiv] at h1 h2
  simp only [Ieee.mul_neg, Ieee.neg_mul, Ieee.neg_neg] at h2
  cases h1; cases h2
  refine ⟨.refl _, ?_⟩
  exact same_neg_mul _ _ _

/-- Negating the dividend negates the quotient, up to signs of zeros. -/
theorem div_neg_same (a b r s : Complex (Ieee F)) (h1 : a.div b = .ok r)
    (h2 : (⟨a.re.neg, a.im.neg⟩ : Complex (Ieee F)).div b = .ok s) : s.SameC ⟨r.re.neg, r.im.neg⟩ := by
  rw [ieee_cdiv] at h1 h2
  simp only [Ieee.neg_mul] at h2
  cases h1; cases h2
  constructor
  · exact same_neg_mul _ _ _
  · exact same_neg_mul _ _ _

/-- C59: `tan` commutes with conjugation and is odd, up to signs of zeros. -/
theorem C59_tan_sym (h : SymFns F) (z : Complex (Ieee F)) : ∃ r s t, z.tan = .ok r ∧
    (do (← z.conj).tan) = .ok s ∧ s.SameC ⟨r.re, r.im.neg⟩ ∧
    (do (← z.neg).tan) = .ok t ∧ t.SameC ⟨r.re.neg, r.im.neg⟩ := by
  obtain ⟨c, hc, hc'⟩ := h.cos z.re
  obtain ⟨s, hs, hs'⟩ := h.sin z.re
  obtain ⟨ch, hch, hch'⟩ := h.cosh z.im
  obtain ⟨sh, hsh, hsh'⟩ := h.sinh z.im
  have e : ∀ {w a b : Complex (Ieee F)}, w.sin = .ok a → w.cos = .ok b → w.tan = a.div b := by
    intro w a b h1 h2
    show (do RDiv.div (← w.sin) (← w.cos)) = _
    rw [h1, h2]; rfl
  have e0 := e (ieee_sin hs hc hsh hch) (ieee_cos hs hc hsh hch)
  have e1 := e (w := ⟨z.re, z.im.neg⟩) (ieee_sin hs hc hsh' hch') (ieee_cos hs hc hsh' hch')
  have e2 := e (w := ⟨z.re.neg, z.im.neg⟩) (ieee_sin hs' hc' hsh' hch') (ieee_cos hs' hc' hsh' hch')
  rw [Ieee.mul_neg, Ieee.mul_neg] at e1
  rw [Ieee.neg_mul, Ieee.mul_neg, Ieee.neg_mul, Ieee.mul_neg, Ieee.neg_neg] at e2
  refine ⟨_, _, _, e0, e1, ?_, e2, ?_⟩
  · exact div_conj_same _ _ _ _ rfl rfl
  · exact div_neg_same _ _ _ _ rfl rfl

/-- C59: as soon as `sqr_norm` of the cosine overflows, each part of `tan` is NaN or a zero (the true value is near `±i`). -/
theorem C59_tan_overflow (z c r : Complex (Ieee F)) (s : Bool) (hc : z.cos = .ok c) (hn : c.sqrNorm = .ok (.inf s))
    (hr : z.tan = .ok r) : (r.re = .nan ∨ ∃ t, r.re = .zero t) ∧ (r.im = .nan ∨ ∃ t, r.im = .zero t) := by
  replace hr : (do RDiv.div (← z.sin) (← z.cos)) = Except.ok r := hr
  cases hs : z.sin with
  | error e => rw [hs] at hr; cases hr
  | ok a =>
    rw [hs, hc] at hr
    exact C50_div_norm_overflow a c r s hn hr

/-! ### The axes -/

/-- C59: `exp` of a real number is the real exponential, exactly; but where it overflows the imaginary part is NaN. -/
theorem C59_exp_real (h : AtZero F) (x e : Ieee F) (s : Bool) (he : RExp.exp x = .ok e) :
    ∃ r : Complex (Ieee F), (⟨x, .zero s⟩ : Complex (Ieee F)).exp = .ok r ∧ r.re = e ∧
      (e.Finite → ∃ t, r.im = .zero t) ∧ (¬ e.Finite → r.im = .nan) := by
  refine ⟨_, ieee_exp (z := ⟨x, .zero s⟩) he (h.cos s) (h.sin s), Ieee.mul_one e, fun hf => ?_, fun hf => ?_⟩
  · cases e with
    | nan => exact hf.elim
    | inf => exact hf.elim
    | zero t => exact ⟨_, rfl⟩
    | fin a h0 hr => exact ⟨_, rfl⟩
  · cases e with
    | nan => rfl
    | inf => rfl
    | zero t => exact (hf trivial).elim
    | fin a h0 hr => exact (hf trivial).elim

/-- C59: Euler's formula: `exp (i y) = cos y + i sin y`, exactly. -/
theorem C59_exp_imag (h : AtZero F) (y c d : Ieee F) (s : Bool) (hc : RCos.cos y = .ok c) (hs : RSin.sin y = .ok d) :
    (⟨.zero s, y⟩ : Complex (Ieee F)).exp = .ok ⟨c, d⟩ :=
  (ieee_exp (z := ⟨.zero s, y⟩) (h.exp s) hc hs).trans (by rw [Ieee.one_mul, Ieee.one_mul])

theorem mul_zero_of_finite {a : Ieee F} (h : a.Finite) (s : Bool) : ∃ t, a.mul (.zero s) = .zero t := by
  cases a with
  | nan => exact h.elim
  | inf => exact h.elim
  | zero t => exact ⟨_, rfl⟩
  | fin a h0 hr => exact ⟨_, rfl⟩

/-- C59: `sin` of a real number is the real sine, exactly, and the imaginary part is a zero. -/
theorem C59_sin_real (h : AtZero F) (x c d : Ieee F) (s : Bool) (hc : RCos.cos x = .ok c) (hs : RSin.sin x = .ok d)
    (hf : c.Finite) : ∃ t, (⟨x, .zero s⟩ : Complex (Ieee F)).sin = .ok ⟨d, .zero t⟩ := by
  obtain ⟨t, ht⟩ := mul_zero_of_finite hf s
  exact ⟨t, (ieee_sin (z := ⟨x, .zero s⟩) hs hc (h.sinh s) (h.cosh s)).trans (by rw [Ieee.mul_one, ht])⟩

/-- C59: the same for `cos`. -/
theorem C59_cos_real (h : AtZero F) (x c d : Ieee F) (s : Bool) (hc : RCos.cos x = .ok c) (hs : RSin.sin x = .ok d)
    (hf : d.Finite) : ∃ t, (⟨x, .zero s⟩ : Complex (Ieee F)).cos = .ok ⟨c, .zero t⟩ := by
  obtain ⟨t, ht⟩ := mul_zero_of_finite hf s
  exact ⟨!t, (ieee_cos (z := ⟨x, .zero s⟩) hs hc (h.sinh s) (h.cosh s)).trans (by rw [Ieee.mul_one, ht]; rfl)⟩

/-- C59: the same for `sinh`, if the real hyperbolic cosine is finite; if it overflows, the imaginary part is NaN. -/
theorem C59_sinh_real (h : AtZero F) (x c d : Ieee F) (s : Bool) (hc : RCosh.cosh x = .ok c) (hs : RSinh.sinh x = .ok d) :
    (c.Finite → ∃ t, (⟨x, .zero s⟩ : Complex (Ieee F)).sinh = .ok ⟨d, .zero t⟩) ∧
    (¬ c.Finite → (⟨x, .zero s⟩ : Complex (Ieee F)).sinh = .ok ⟨d, .nan⟩) := by
  have e := ieee_sinh (z := ⟨x, .zero s⟩) (h.sin s) (h.cos s) hs hc
  rw [Ieee.mul_one] at e
  constructor <;> intro hf
  · obtain ⟨t, ht⟩ := mul_zero_of_finite hf s
    exact ⟨t, e.trans (by rw [ht])⟩
  · rw [e]
    cases c with
    | nan => rfl
    | inf => rfl
    | zero t => exact (hf trivial).elim
    | fin a h0 hr => exact (hf trivial).elim

/-- C59: the same for `cosh`. -/
theorem C59_cosh_real (h : AtZero F) (x c d : Ieee F) (s : Bool) (hc : RCosh.cosh x = .ok c) (hs : RSinh.sinh x = .ok d) :
    (d.Finite → ∃ t, (⟨x, .zero s⟩ : Complex (Ieee F)).cosh = .ok ⟨c, .zero t⟩) ∧
    (¬ d.Finite → (⟨x, .zero s⟩ : Complex (Ieee F)).cosh = .ok ⟨c, .nan⟩) := by
  have e := ieee_cosh (z := ⟨x, .zero s⟩) (h.sin s) (h.cos s) hs hc
  rw [Ieee.mul_one] at e
  constructor <;> intro hf
  · obtain ⟨t, ht⟩ := mul_zero_of_finite hf s
    exact ⟨t, e.trans (by rw [ht])⟩
  · rw [e]
    cases d with
    | nan => rfl
    | inf => rfl
    | zero t => exact (hf trivial).elim
    | fin a h0 hr => exact (hf trivial).elim

end Fns

/-! ### ln and sqrt -/

section Ln

variable [RLn (Ieee F)] [RAtan2 (Ieee F)]

theorem ieee_ln {z : Complex (Ieee F)} {l t : Ieee F} (hl : RLn.ln ((z.re.mul z.re).add (z.im.mul z.im)) = .ok l)
    (ht : RAtan2.atan2 z.im z.re = .ok t) : z.ln = .ok ⟨l.div (.fin 2 two_ne_zero F.representable_two), t⟩ := by
  have e1 : (AddAssignRef.addAssign (one : Ieee F) one).toRes = .ok (.fin 2 two_ne_zero F.representable_two) :=
    congrArg Except.ok Ieee.one_add_one
  have e2 : z.sqrNorm = .ok ((z.re.mul z.re).add (z.im.mul z.im)) := rfl
  unfold Complex.ln
  rw [e1, e2]
  show (do
    let re ← RDiv.div (← RLn.ln ((z.re.mul z.re).add (z.im.mul z.im))) (.fin 2 two_ne_zero F.representable_two : Ieee F)
    let im ← RAtan2.atan2 z.im z.re
    pure (⟨re, im⟩ : Complex (Ieee F))) = _
  rw [hl, ht]; rfl

/-- C59: `ln` commutes with conjugation if `atan2` is odd in its first argument (also at the branch cut, where the sign of
the zero matters). -/
theorem C59_ln_conj (h : ∀ a : Ieee F, ∃ c, RLn.ln a = .ok c)
    (h' : ∀ x : Ieee F, IsOdd (F := F) fun y => RAtan2.atan2 y x) (z : Complex (Ieee F)) :
    (do (← z.conj).ln) = (do (← z.ln).conj) := by
  obtain ⟨l, hl⟩ := h ((z.re.mul z.re).add (z.im.mul z.im))
  obtain ⟨t, ht, ht'⟩ := h' z.re z.im
  rw [ieee_ln hl ht]
  exact ieee_ln (z := ⟨z.re, z.im.neg⟩)
    (by simp only [Ieee.mul_neg, Ieee.neg_mul, Ieee.neg_neg]; exact hl) ht'

/-- C59: `z` and `-z` have the same real part of `ln`. -/
theorem C59_ln_neg (h : ∀ a : Ieee F, ∃ c, RLn.ln a = .ok c) (h' : ∀ y x : Ieee F, ∃ c, RAtan2.atan2 y x = .ok c)
    (z : Complex (Ieee F)) : ∃ r s, z.ln = .ok r ∧ (do (← z.neg).ln) = .ok s ∧ s.re = r.re := by
  obtain ⟨l, hl⟩ := h ((z.re.mul z.re).add (z.im.mul z.im))
  obtain ⟨t, ht⟩ := h' z.im z.re
  obtain ⟨t', ht'⟩ := h' z.im.neg z.re.neg
  refine ⟨_, _, ieee_ln hl ht, ieee_ln (z := ⟨z.re.neg, z.im.neg⟩) (l := l) ?_ ht', rfl⟩
  simp only [Ieee.mul_neg, Ieee.neg_mul, Ieee.neg_neg]; exact hl

/-- C59: where `sqr_norm` overflows, the real part of `ln` is infinite, although the logarithm of a finite number is
small; where it underflows to zero, it is minus infinity, although `z ≠ 0`. -/
theorem C59_ln_overflow (z : Complex (Ieee F)) (s t : Ieee F) (hs : z.sqrNorm = .ok s)
    (ht : RAtan2.atan2 z.im z.re = .ok t) :
    (s = .inf false → RLn.ln (.inf false : Ieee F) = .ok (.inf false) → z.ln = .ok ⟨.inf false, t⟩) ∧
    (∀ b, s = .zero b → RLn.ln (.zero b : Ieee F) = .ok (.inf true) → z.ln = .ok ⟨.inf true, t⟩) := by
  obtain rfl : (z.re.mul z.re).add (z.im.mul z.im) = s := Except.ok.inj hs
  constructor
  · intro e h
    refine (ieee_ln (l := .inf false) (by rw [e]; exact h) ht).trans ?_
    simp [Ieee.div]
  · intro b e h
    refine (ieee_ln (l := .inf true) (by rw [e]; exact h) ht).trans ?_
    simp [Ieee.div]

/-- C59: where `sqr_norm` rounds to one, the real part of `ln` is zero: all relative accuracy is lost near the unit
circle. -/
theorem C59_ln_unit (z : Complex (Ieee F)) (t : Ieee F) (hs : z.sqrNorm = .ok one) (ht : RAtan2.atan2 z.im z.re = .ok t)
    (h1 : RLn.ln (one : Ieee F) = .ok zero) : z.ln = .ok ⟨zero, t⟩ := by
  have e : (z.re.mul z.re).add (z.im.mul z.im) = one := Except.ok.inj hs
  refine (ieee_ln (l := zero) (by rw [e]; exact h1) ht).trans ?_
  simp [Ieee.div, zero]

end Ln

/-- C59: `sqrt` commutes with conjugation off the real axis. -/
theorem C59_sqrt_conj (z : Complex (Ieee F)) (h : ∀ s, z.im ≠ .zero s) : (do (← z.conj).sqrt) = (do (← z.sqrt).conj) := by
  by_cases hn : z.im = .nan
  · have e1 := (C50_nan_abs_sqrt z (.inr hn)).2.2
    have e2 := (C50_nan_abs_sqrt ⟨z.re, z.im.neg⟩ (.inr (by rw [hn]; rfl))).2.2
    rw [e1]
    exact e2
  · have hf : z.im.neg.flt zero = !z.im.flt zero := by
      cases hz : z.im with
      | nan => exact (hn hz).elim
      | inf s => cases s <;> rfl
      | zero s => exact (h s hz).elim
      | fin x h0 hr =>
        have e1 := Ieee.flt_value (a := (Ieee.fin x h0 hr : Ieee F).neg) (b := .zero false) trivial trivial
        have e2 := Ieee.flt_value (a := (Ieee.fin x h0 hr : Ieee F)) (b := .zero false) trivial trivial
        rw [Ieee.neg_value] at e1
        have e1 : (Ieee.fin x h0 hr : Ieee F).neg.flt zero = true ↔ -x < 0 := e1
        have e2 : (Ieee.fin x h0 hr : Ieee F).flt zero = true ↔ x < 0 := e2
        rcases lt_or_gt_of_ne h0 with hx | hx
        · rw [e2.2 hx, Bool.eq_false_iff.2 fun h' => absurd (e1.1 h') (by linarith)]; rfl
        · rw [e1.2 (by linarith), Bool.eq_false_iff.2 fun h' => absurd (e2.1 h') (by linarith)]; rfl
    have ha : z.im.neg.abs = z.im.abs := by cases z.im <;> simp [Ieee.neg, Ieee.abs]
    have hm : z.im.neg.mul z.im.neg = z.im.mul z.im := by rw [Ieee.neg_mul, Ieee.mul_neg, Ieee.neg_neg]
    show (⟨z.re, z.im.neg⟩ : Complex (Ieee F)).sqrt = _
    rw [ieee_csqrt, ieee_csqrt]
    simp only [ha, hm, hf]
    show _ = Except.ok (Complex.mk _ (Ieee.neg _))
    cases z.im.flt zero
    · rfl
    · simp only [Bool.not_true, Bool.false_eq_true, if_false, if_true, Ieee.neg_neg]

/-- C59: on the negative real axis it does not: `sqrt` ignores the sign of a zero imaginary part, so that
`sqrt (-4 - 0i) = 0 + 2i`, whereas the conjugate of `sqrt (-4 + 0i)` is `0 - 2i`. -/
theorem C59_sqrt_cut : ∃ z : Complex (Ieee .f64), (do (← z.conj).sqrt) = .ok ⟨f64 0, f64 2⟩ ∧
    (do (← z.sqrt).conj) = .ok ⟨f64 0, f64 (-2)⟩ :=
  ⟨⟨f64 (-4), f64 0⟩, by decide +kernel, by decide +kernel⟩

/-! ### The hypotheses can be met

A library of odd and even functions that are exact at zero and correctly rounded elsewhere, up to the rational
approximation: it meets the hypotheses of C58 and of C59. -/

/-- The odd function that agrees with `g` for positive numbers. -/
noncomputable def oddFn (g : ℝ → ℝ) : Ieee F → Res (Ieee F)
  | .zero s => .ok (.zero s)
  | .fin x _ _ => .ok (if x < 0 then (roundReal F (g (-x))).neg else roundReal F (g x))
  | _ => .ok .nan

/-- The even function that agrees with `g` for positive numbers and is one at zero. -/
noncomputable def evenFn (g : ℝ → ℝ) : Ieee F → Res (Ieee F)
  | .zero _ => .ok one
  | .fin x _ _ => .ok (if x < 0 then roundReal F (g (-x)) else roundReal F (g x))
  | _ => .ok .nan

theorem oddFn_odd (g : ℝ → ℝ) : IsOdd (F := F) (oddFn g) := by
  intro a
  cases a with
  | nan => exact ⟨_, rfl, rfl⟩
  | inf s => exact ⟨_, rfl, rfl⟩
  | zero s => exact ⟨_, rfl, rfl⟩
  | fin x h0 hr =>
    refine ⟨_, rfl, ?_⟩
    show Except.ok (if -x < 0 then (roundReal F (g (-((-x : ℚ) : ℝ)))).neg else roundReal F (g ((-x : ℚ) : ℝ))) = _
    rcases lt_or_gt_of_ne h0 with hx | hx
    · rw [if_neg (by linarith), if_pos hx, Ieee.neg_neg]; push_cast; rfl
    · rw [if_pos (by linarith), if_neg (by linarith)]; push_cast; rw [neg_neg]

theorem evenFn_even (g : ℝ → ℝ) : IsEven (F := F) (evenFn g) := by
  intro a
  cases a with
  | nan => exact ⟨_, rfl, rfl⟩
  | inf s => exact ⟨_, rfl, rfl⟩
  | zero s => exact ⟨_, rfl, rfl⟩
  | fin x h0 hr =>
    refine ⟨_, rfl, ?_⟩
    show Except.ok (if -x < 0 then roundReal F (g (-((-x : ℚ) : ℝ))) else roundReal F (g ((-x : ℚ) : ℝ))) = _
    rcases lt_or_gt_of_ne h0 with hx | hx
    · rw [if_neg (by linarith), if_pos hx]; push_cast; rfl
    · rw [if_pos (by linarith), if_neg (by linarith)]; push_cast; rw [neg_neg]

theorem oddFn_accurate {g : ℝ → ℝ} (hg : ∀ x, g (-x) = -g x) : Accurate (F := F) (oddFn g) g F.u (3 * F.η) := by
  have hu : (0 : ℝ) ≤ F.u := by exact_mod_cast F.u_pos.le
  have hη : (0 : ℝ) < F.η := by exact_mod_cast F.η_pos
  have h0 : g 0 = 0 := by have := hg 0; rw [neg_zero] at this; linarith
  intro a
  cases a with
  | nan => exact ⟨_, rfl, fun h => h.elim⟩
  | inf s => exact ⟨_, rfl, fun h => h.elim⟩
  | zero s =>
    refine ⟨_, rfl, fun _ _ => ?_⟩
    show |((0 : ℚ) : ℝ) - g ((0 : ℚ) : ℝ)| ≤ F.u * |g ((0 : ℚ) : ℝ)| + 3 * F.η
    rw [Rat.cast_zero, h0, sub_zero, abs_zero]; nlinarith
  | fin x hx hr =>
    refine ⟨_, rfl, fun _ h => ?_⟩
    show _ - g (x : ℝ) |> abs |> (· ≤ F.u * |g (x : ℝ)| + 3 * F.η)
    by_cases hx : x < 0
    · rw [if_pos hx] at h ⊢
      have := roundReal_err (Ieee.neg_finite.1 h)
      rw [hg] at this ⊢
      rw [Ieee.neg_value]
      push_cast
      rw [abs_neg, ← abs_neg] at this
      refine le_trans (le_of_eq ?_) this
      congr 1; ring
    · rw [if_neg hx] at h ⊢
      exact roundReal_err h

theorem evenFn_accurate {g : ℝ → ℝ} (hg : ∀ x, g (-x) = g x) (h0 : g 0 = 1) :
    Accurate (F := F) (evenFn g) g F.u (3 * F.η) := by
  have hu : (0 : ℝ) ≤ F.u := by exact_mod_cast F.u_pos.le
  have hη : (0 : ℝ) < F.η := by exact_mod_cast F.η_pos
  intro a
  cases a with
  | nan => exact ⟨_, rfl, fun h => h.elim⟩
  | inf s => exact ⟨_, rfl, fun h => h.elim⟩
  | zero s =>
    refine ⟨_, rfl, fun _ _ => ?_⟩
    show |((1 : ℚ) : ℝ) - g ((0 : ℚ) : ℝ)| ≤ F.u * |g ((0 : ℚ) : ℝ)| + 3 * F.η
    rw [Rat.cast_zero, h0, Rat.cast_one, sub_self, abs_zero, abs_one]; nlinarith
  | fin x hx hr =>
    refine ⟨_, rfl, fun _ h => ?_⟩
    show _ - g (x : ℝ) |> abs |> (· ≤ F.u * |g (x : ℝ)| + 3 * F.η)
    by_cases hx : x < 0
    · rw [if_pos hx] at h ⊢
      have := roundReal_err h
      rwa [hg] at this ⊢
    · rw [if_neg hx] at h ⊢
      exact roundReal_err h

/-- The exponential: one at zero. -/
noncomputable def expFn : Ieee F → Res (Ieee F)
  | .zero _ => .ok one
  | .fin x _ _ => .ok (roundReal F (Real.exp x))
  | _ => .ok .nan

section Example

noncomputable local instance : RExp (Ieee F) := ⟨expFn⟩
noncomputable local instance : RSin (Ieee F) := ⟨oddFn Real.sin⟩
noncomputable local instance : RCos (Ieee F) := ⟨evenFn Real.cos⟩
noncomputable local instance : RSinh (Ieee F) := ⟨oddFn Real.sinh⟩
noncomputable local instance : RCosh (Ieee F) := ⟨evenFn Real.cosh⟩

/-- One library meets all hypotheses. -/
theorem library_example : SymFns F ∧ AtZero F ∧ AccurateFns F F.u (3 * F.η) := by
  have hu : (0 : ℝ) ≤ F.u := by exact_mod_cast F.u_pos.le
  have hη : (0 : ℝ) < F.η := by exact_mod_cast F.η_pos
  refine ⟨⟨fun a => ?_, oddFn_odd _, evenFn_even _, oddFn_odd _, evenFn_even _⟩, ⟨fun _ => rfl, fun _ => rfl, fun _ => rfl,
    fun _ => rfl, fun _ => rfl⟩, ⟨hu, by linarith, fun a => ?_, oddFn_accurate Real.sin_neg,
    evenFn_accurate Real.cos_neg Real.cos_zero, oddFn_accurate Real.sinh_neg, evenFn_accurate Real.cosh_neg Real.cosh_zero⟩⟩
  · cases a <;> exact ⟨_, rfl⟩
  · cases a with
    | nan => exact ⟨_, rfl, fun h => h.elim⟩
    | inf s => exact ⟨_, rfl, fun h => h.elim⟩
    | zero s =>
      refine ⟨_, rfl, fun _ _ => ?_⟩
      show |((1 : ℚ) : ℝ) - Real.exp ((0 : ℚ) : ℝ)| ≤ F.u * |Real.exp ((0 : ℚ) : ℝ)| + 3 * F.η
      rw [Rat.cast_zero, Real.exp_zero, Rat.cast_one, sub_self, abs_zero, abs_one]; nlinarith
    | fin x hx hr => exact ⟨_, rfl, fun _ h => roundReal_err h⟩

end Example

/-- `sqr_norm` overflows for `10^200` (`f64`), underflows for `10^-200`, and rounds to one for `1 + 2^-60 i`. -/
example : (⟨f64 (10 ^ 200), f64 0⟩ : Complex _).sqrNorm = .ok (.inf false) ∧
    (⟨f64 (1 / 10 ^ 200), f64 0⟩ : Complex _).sqrNorm = .ok (.zero false) ∧
    (⟨f64 1, f64 (1 / 2 ^ 60)⟩ : Complex _).sqrNorm = .ok one := by decide +kernel

/-- A cosine of this magnitude makes `tan` useless. -/
example : (⟨f32 (10 ^ 20), f32 1⟩ : Complex _).sqrNorm = .ok (.inf false) := by decide +kernel

end Magnesia
