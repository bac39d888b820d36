import Verif.Proof.Track

/-!
# C65: running error analysis of any program
-/

namespace Magnesia

open RZero ROne

variable {F : Fmt}

/-- The given floating point number as an element of exact arithmetic. -/
def Ieee.toExact (x : Ieee F) : Exact ℚ := ⟨x.value⟩

/-- A given floating point number and its tracked value. -/
def Outcome.given (x : Ieee F) : Outcome F :=
  ⟨x, Tracked.ofFloat x, le_refl _, fun _ => by simp [Tracked.ofFloat], fun h => of_decide_eq_true h⟩

/-- C65: for inputs that come with error bounds, running a program on the floating point numbers, on the exact values and on
the tracked values gives the same panic three times, or three results of the same shape, in which every floating point
number is described correctly by the tracked value at the same place (`Outcome.right`), whose `val` is the exact value. -/
theorem C65_programs (pr : Profile) (Γ : ℕ → Ty) (hΓ : ∀ i, (Γ i).IsData) (ty : Ty) (hty : ty.IsData) (p : Prog Γ ty)
    (env : (i : ℕ) → (Γ i).type (Outcome F)) :
    ∃ r : Res (ty.type (Outcome F)),
      p.run pr (fun i => (Γ i).map Outcome.computed (hΓ i) (env i)) = r.map (ty.map Outcome.computed hty) ∧
      p.run pr (fun i => (Γ i).map Outcome.exact (hΓ i) (env i)) = r.map (ty.map Outcome.exact hty) ∧
      p.run pr (fun i => (Γ i).map Outcome.tracked (hΓ i) (env i)) = r.map (ty.map Outcome.tracked hty) :=
  ⟨p.run pr env,
    Prog.run_map Outcome.hom_computed Outcome.homV_computed (fun _ => ResRel.ok rfl) pr hΓ env hty p,
    Prog.run_map Outcome.hom_exact Outcome.homV_exact (fun _ => ResRel.ok rfl) pr hΓ env hty p,
    Prog.run_map Outcome.hom_tracked Outcome.homV_tracked (fun _ => ResRel.ok rfl) pr hΓ env hty p⟩

/-- C65: the same for given floating point inputs, which are taken as exact. -/
theorem C65_given (pr : Profile) (Γ : ℕ → Ty) (hΓ : ∀ i, (Γ i).IsData) (ty : Ty) (hty : ty.IsData) (p : Prog Γ ty)
    (env : (i : ℕ) → (Γ i).type (Ieee F)) :
    ∃ r : Res (ty.type (Outcome F)),
      p.run pr env = r.map (ty.map Outcome.computed hty) ∧
      p.run pr (fun i => (Γ i).map Ieee.toExact (hΓ i) (env i)) = r.map (ty.map Outcome.exact hty) ∧
      p.run pr (fun i => (Γ i).map Tracked.ofFloat (hΓ i) (env i)) = r.map (ty.map Outcome.tracked hty) := by
  obtain ⟨r, h1, h2, h3⟩ := C65_programs pr Γ hΓ ty hty p (fun i => (Γ i).map Outcome.given (hΓ i) (env i))
  simp only [Ty.map_map] at h1 h2 h3
  refine ⟨r, ?_, h2, h3⟩
  rw [← h1]
  congr 1
  funext i
  exact (Ty.map_id _ _ _).symm

/-- C65: a program that computes one number. -/
theorem C65_scalar (pr : Profile) (Γ : ℕ → Ty) (hΓ : ∀ i, (Γ i).IsData) (p : Prog Γ (.ring .scalar))
    (env : (i : ℕ) → (Γ i).type (Ieee F)) (x : Ieee F) (h : p.run pr env = .ok x) :
    ∃ t : Tracked F, p.run pr (fun i => (Γ i).map Tracked.ofFloat (hΓ i) (env i)) = .ok t ∧
      p.run pr (fun i => (Γ i).map Ieee.toExact (hΓ i) (env i)) = .ok (⟨t.val⟩ : Exact ℚ) ∧
      (x.Finite → |x.value - t.val| ≤ t.err) ∧ (t.safe = true → x.Finite) := by
  obtain ⟨r, h1, h2, h3⟩ := C65_given pr Γ hΓ (.ring .scalar) trivial p env
  cases r with
  | error e => rw [h1] at h; cases h
  | ok o =>
    rw [h1] at h
    injection h with h
    have h : o.computed = x := h
    subst h
    exact ⟨o.tracked, h3, h2, o.right.2.1, o.right.2.2⟩

/-- C65: where the tracked error is zero and no overflow was possible, the computed number is the exact one. -/
theorem C65_exact (pr : Profile) (Γ : ℕ → Ty) (hΓ : ∀ i, (Γ i).IsData) (p : Prog Γ (.ring .scalar))
    (env : (i : ℕ) → (Γ i).type (Ieee F)) (t : Tracked F)
    (h : p.run pr (fun i => (Γ i).map Tracked.ofFloat (hΓ i) (env i)) = .ok t) (he : t.err = 0) (hs : t.safe = true) :
    ∃ x : Ieee F, p.run pr env = .ok x ∧ x.Finite ∧
      p.run pr (fun i => (Γ i).map Ieee.toExact (hΓ i) (env i)) = .ok (⟨x.value⟩ : Exact ℚ) := by
  obtain ⟨r, h1, h2, h3⟩ := C65_given pr Γ hΓ (.ring .scalar) trivial p env
  cases r with
  | error e => rw [h3] at h; cases h
  | ok o =>
    rw [h3] at h
    injection h with h
    have h : o.tracked = t := h
    subst h
    have hf := o.right.2.2 hs
    have hv := o.right.2.1 hf
    rw [he] at hv
    refine ⟨o.computed, h1, hf, ?_⟩
    rw [sub_eq_zero.1 (abs_eq_zero.1 (le_antisymm hv (abs_nonneg _))), h2]
    rfl

/-- C65: two programs for the same exact number: their floating point results differ at most by the sum of the tracked
errors. -/
theorem C65_two_ways (pr : Profile) (Γ : ℕ → Ty) (hΓ : ∀ i, (Γ i).IsData) (p q : Prog Γ (.ring .scalar))
    (env : (i : ℕ) → (Γ i).type (Ieee F)) (e : Exact ℚ)
    (hp : p.run pr (fun i => (Γ i).map Ieee.toExact (hΓ i) (env i)) = .ok e)
    (hq : q.run pr (fun i => (Γ i).map Ieee.toExact (hΓ i) (env i)) = .ok e) :
    ∃ (x y : Ieee F) (t t' : Tracked F), p.run pr env = .ok x ∧ q.run pr env = .ok y ∧
      p.run pr (fun i => (Γ i).map Tracked.ofFloat (hΓ i) (env i)) = .ok t ∧
      q.run pr (fun i => (Γ i).map Tracked.ofFloat (hΓ i) (env i)) = .ok t' ∧
      (x.Finite → y.Finite → |x.value - y.value| ≤ t.err + t'.err) ∧
      (t.safe = true → t'.safe = true → x.Finite ∧ y.Finite) := by
  obtain ⟨r, a1, a2, a3⟩ := C65_given pr Γ hΓ (.ring .scalar) trivial p env
  obtain ⟨r', b1, b2, b3⟩ := C65_given pr Γ hΓ (.ring .scalar) trivial q env
  cases r with
  | error _ => rw [a2] at hp; cases hp
  | ok o =>
    cases r' with
    | error _ => rw [b2] at hq; cases hq
    | ok o' =>
      rw [a2] at hp
      rw [b2] at hq
      injection hp with hp
      injection hq with hq
      have h : o.exact = o'.exact := Eq.trans hp hq.symm
      have h : o.tracked.val = o'.tracked.val := congrArg Exact.val h
      refine ⟨o.computed, o'.computed, o.tracked, o'.tracked, a1, b1, a3, b3, fun hx hy => ?_,
        fun hx hy => ⟨o.right.2.2 hx, o'.right.2.2 hy⟩⟩
      have e1 := o.right.2.1 hx
      have e2 := o'.right.2.1 hy
      rw [← h] at e2
      calc |o.computed.value - o'.computed.value|
          = |(o.computed.value - o.tracked.val) - (o'.computed.value - o.tracked.val)| := by ring_nf
        _ ≤ |o.computed.value - o.tracked.val| + |o'.computed.value - o.tracked.val| := abs_sub _ _
        _ ≤ _ := add_le_add e1 e2

/-- C65: the same for programs over `Complex<f64>`. -/
theorem C65_complex (pr : Profile) (Γ : ℕ → Ty) (hΓ : ∀ i, (Γ i).IsData) (ty : Ty) (hty : ty.IsData) (p : Prog Γ ty)
    (env : (i : ℕ) → (Γ i).type (Complex (Ieee F))) :
    ∃ r : Res (ty.type (Complex (Outcome F))),
      p.run pr env = r.map (ty.map (Complex.map Outcome.computed) hty) ∧
      p.run pr (fun i => (Γ i).map (Complex.map Ieee.toExact) (hΓ i) (env i)) =
        r.map (ty.map (Complex.map Outcome.exact) hty) ∧
      p.run pr (fun i => (Γ i).map (Complex.map Tracked.ofFloat) (hΓ i) (env i)) =
        r.map (ty.map (Complex.map Outcome.tracked) hty) := by
  refine ⟨p.run pr (fun i => (Γ i).map (Complex.map Outcome.given) (hΓ i) (env i)), ?_, ?_, ?_⟩
  · rw [← Prog.run_map Outcome.hom_computed.complex
      (Outcome.hom_computed.complex.toV Outcome.valueOpsAgree.complex Ieee.valueOpsAgree.complex)
      Outcome.hom_computed.cconj pr hΓ _ hty p]
    simp only [Ty.map_map]
    congr 1
    funext i
    exact (Ty.map_id _ _ _).symm
  · rw [← Prog.run_map Outcome.hom_exact.complex
      (Outcome.hom_exact.complex.toV Outcome.valueOpsAgree.complex valueOpsAgree_exact.complex)
      Outcome.hom_exact.cconj pr hΓ _ hty p]
    simp only [Ty.map_map]
    rfl
  · rw [← Prog.run_map Outcome.hom_tracked.complex
      (Outcome.hom_tracked.complex.toV Outcome.valueOpsAgree.complex Tracked.valueOpsAgree.complex)
      Outcome.hom_tracked.cconj pr hΓ _ hty p]
    simp only [Ty.map_map]
    rfl

/-- `x * y + x` for `f64` numbers. -/
def trackExample : Prog (fun _ => .ring .scalar) (.ring .scalar) :=
  .addAssign (.mulRefs (.input 0) (.input 1)) (.input 0)

/-- For `x = y = 0.1` (rounded to `f64`) the program rounds twice; the tracked error is positive but tiny, the actual error
is positive too, and no overflow is possible. -/
example : ∃ (x : Ieee .f64) (t : Tracked .f64),
    Prog.run (T := Ieee .f64) (Γ := fun _ => .ring .scalar) ⟨64, true⟩
      (fun _ => (show Ieee .f64 from .round (1 / 10) )) trackExample = .ok x ∧
    Prog.run (T := Tracked .f64) (Γ := fun _ => .ring .scalar) ⟨64, true⟩
      (fun _ => show Tracked .f64 from Tracked.ofFloat (.round (1 / 10))) trackExample = .ok t ∧
    t.safe = true ∧ 0 < |x.value - t.val| ∧ |x.value - t.val| ≤ t.err ∧ t.err < 1 / 10 ^ 16 :=
  ⟨_, _, rfl, rfl, by decide +kernel⟩

/-- For `x = 3`, `y = 5` nothing is rounded: the hypotheses of `C65_exact` hold. -/
example : ∃ t : Tracked .f64,
    Prog.run (T := Tracked .f64) (Γ := fun _ => .ring .scalar) ⟨64, true⟩
      (fun i => show Tracked .f64 from Tracked.ofFloat (if i = 0 then .round 3 else .round 5)) trackExample =
      .ok t ∧ t.err = 0 ∧ t.safe = true ∧ t.val = 18 :=
  ⟨_, rfl, by decide +kernel⟩

/-- For `x = y = 10^200` an overflow is possible, the flag says so, and the computed number is infinite. -/
example : ∃ (x : Ieee .f64) (t : Tracked .f64),
    Prog.run (T := Ieee .f64) (Γ := fun _ => .ring .scalar) ⟨64, true⟩
      (fun _ => (show Ieee .f64 from .round (10 ^ 200) )) trackExample = .ok x ∧
    Prog.run (T := Tracked .f64) (Γ := fun _ => .ring .scalar) ⟨64, true⟩
      (fun _ => show Tracked .f64 from Tracked.ofFloat (.round (10 ^ 200))) trackExample = .ok t ∧
    t.safe = false ∧ Ieee.feq x (.inf false) = true :=
  ⟨_, _, rfl, rfl, by decide +kernel⟩

end Magnesia
