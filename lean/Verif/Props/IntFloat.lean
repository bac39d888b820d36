import Verif.Proof.IntFloat

/-!
# C66: on integers, floating point arithmetic is integer arithmetic
-/

namespace Magnesia

open RZero ROne

variable {F : Fmt} {w : ℕ}

/-- C66: whatever program over the API is run on whatever machine integers (containers nested to any depth): if it returns
under overflow checks, and the format holds all integers of that width, then the same program run on the same numbers as
floating point numbers returns too, and every entry of the result is finite and equal to the corresponding integer. -/
theorem C66_integers (hw : 1 < w) (hF : F.Holds w) (pr : Profile) (Γ : ℕ → Ty) (hΓ : ∀ i, (Γ i).IsData) (ty : Ty)
    (hty : ty.IsData) (p : Prog Γ ty) (env : (i : ℕ) → (Γ i).type (MInt w true)) (v : ty.type (MInt w true))
    (hv : p.run pr env = .ok v) :
    ∃ y : ty.type (Ieee F), p.run pr (fun i => (Γ i).map (MInt.toFloat F) (hΓ i) (env i)) = .ok y ∧
      ty.map Ieee.num hty y = ty.map (fun z => some z.toRat) hty v := by
  have : Fits F w := ⟨hw, hF⟩
  have h1 := Prog.run_map IntFloat.hom_int (IntFloat.hom_int.toV IntFloat.valueOpsAgree valueOpsAgree_mint)
    (fun _ => ResRel.ok rfl) pr hΓ (fun i => (Γ i).map (IntFloat.given (F := F)) (hΓ i) (env i)) hty p
  simp only [Ty.map_map] at h1
  rw [show (fun i => (Γ i).map (IntFloat.int ∘ IntFloat.given (F := F)) (hΓ i) (env i)) = env from
    funext fun i => Ty.map_id _ _ _, hv] at h1
  cases hr : p.run pr (fun i => (Γ i).map (IntFloat.given (F := F)) (hΓ i) (env i)) with
  | error e => rw [hr] at h1; cases h1
  | ok r =>
    rw [hr] at h1
    injection h1 with h1
    have h2 := Prog.run_rel IntFloat.hom_float (IntFloat.hom_float.toV IntFloat.valueOpsAgree Ieee.valueOpsAgree)
      (fun _ => ResRel.ok rfl) pr (fun i => (Γ i).map (IntFloat.given (F := F)) (hΓ i) (env i)) _
      (fun i => ((Γ i).rel_iff (hΓ i) _ _).2 rfl) p
    rw [hr] at h2
    obtain ⟨y, hy, h3⟩ := h2
    simp only [Ty.map_map] at hy
    refine ⟨y, hy, ?_⟩
    rw [(ty.rel_iff hty _ _).1 h3, h1, Ty.map_map, Ty.map_map]
    congr 1
    funext a
    show a.float.num = _
    rw [Ieee.finite_of_num a.finite, a.value]
    rfl

/-- C66: the same for programs over `Complex<iN>` and `Complex<f64>`. -/
theorem C66_complex (hw : 1 < w) (hF : F.Holds w) (pr : Profile) (Γ : ℕ → Ty) (hΓ : ∀ i, (Γ i).IsData) (ty : Ty)
    (hty : ty.IsData) (p : Prog Γ ty) (env : (i : ℕ) → (Γ i).type (Complex (MInt w true)))
    (v : ty.type (Complex (MInt w true))) (hv : p.run pr env = .ok v) :
    ∃ y : ty.type (Complex (Ieee F)),
      p.run pr (fun i => (Γ i).map (Complex.map (MInt.toFloat F)) (hΓ i) (env i)) = .ok y ∧
      ty.map (Complex.map Ieee.num) hty y = ty.map (Complex.map fun z => some z.toRat) hty v := by
  have : Fits F w := ⟨hw, hF⟩
  have h1 := Prog.run_map IntFloat.hom_int.complex
    (IntFloat.hom_int.complex.toV IntFloat.valueOpsAgree.complex valueOpsAgree_mint.complex)
    IntFloat.hom_int.cconj pr hΓ (fun i => (Γ i).map (Complex.map (IntFloat.given (F := F))) (hΓ i) (env i)) hty p
  simp only [Ty.map_map] at h1
  rw [show (fun i => (Γ i).map (Complex.map IntFloat.int ∘ Complex.map (IntFloat.given (F := F))) (hΓ i) (env i)) = env from
    funext fun i => Ty.map_id _ _ _, hv] at h1
  cases hr : p.run pr (fun i => (Γ i).map (Complex.map (IntFloat.given (F := F))) (hΓ i) (env i)) with
  | error e => rw [hr] at h1; cases h1
  | ok r =>
    rw [hr] at h1
    injection h1 with h1
    have h2 := Prog.run_rel IntFloat.hom_float.complex
      (IntFloat.hom_float.complex.toV IntFloat.valueOpsAgree.complex Ieee.valueOpsAgree.complex)
      IntFloat.hom_float.cconj pr (fun i => (Γ i).map (Complex.map (IntFloat.given (F := F))) (hΓ i) (env i)) _
      (fun i => ((Γ i).rel_iff (hΓ i) _ _).2 rfl) p
    rw [hr] at h2
    obtain ⟨y, hy, h3⟩ := h2
    simp only [Ty.map_map] at hy
    refine ⟨y, hy, ?_⟩
    rw [(ty.rel_iff hty _ _).1 h3, h1, Ty.map_map, Ty.map_map]
    congr 1
    funext a
    show Complex.mk a.re.float.num a.im.float.num = _
    rw [Ieee.finite_of_num a.re.finite, Ieee.finite_of_num a.im.finite, a.re.value, a.im.value]
    rfl

/-- `f64` holds `i8`, `i16`, `i32`; `f32` holds `i8`, `i16`. -/
theorem C66_formats : Fmt.f64.Holds 8 ∧ Fmt.f64.Holds 16 ∧ Fmt.f64.Holds 32 ∧ Fmt.f32.Holds 8 ∧ Fmt.f32.Holds 16 := by
  simp only [Fmt.Holds, Fmt.f64, Fmt.f32]
  norm_num

/-- `x * y - x` -/
def intFloatExample : Prog (fun _ => .ring .scalar) (.ring .scalar) :=
  .subAssign (.mulRefs (.input 0) (.input 1)) (.input 0)

/-- The hypotheses are met by a run over `i8`: `12 * -10 - (12) = -132` overflows, `11 * -10 - 11 = -121` does not, and the
`f32` run returns `-121`. -/
example : Prog.run (T := MInt 8 true) (Γ := fun _ => .ring .scalar) ⟨64, true⟩
      (fun i => show MInt 8 true from if i = 0 then ⟨11⟩ else ⟨-10⟩) intFloatExample =
        .ok (show MInt 8 true from ⟨-121⟩) ∧
    Prog.run (T := MInt 8 true) (Γ := fun _ => .ring .scalar) ⟨64, true⟩
      (fun i => show MInt 8 true from if i = 0 then ⟨12⟩ else ⟨-10⟩) intFloatExample = .error .overflow ∧
    Prog.run (T := Ieee .f32) (Γ := fun _ => .ring .scalar) ⟨64, true⟩
      (fun i => show Ieee .f32 from if i = 0 then .ofInt 11 else .ofInt (-10)) intFloatExample =
        .ok (show Ieee .f32 from .ofInt (-121)) :=
  ⟨rfl, rfl, congrArg Except.ok (by
    show Ieee.sub (Ieee.mul (.ofInt 11) (.ofInt (-10))) (.ofInt 11) = (.ofInt (-121) : Ieee .f32)
    decide +kernel)⟩

/-- The condition on the width is needed: `2^53 + 1` is an `i64` but not an `f64`. -/
example : (MInt.toFloat .f64 (⟨9007199254740993⟩ : MInt 64 true)).num = some 9007199254740992 := by decide +kernel

end Magnesia
