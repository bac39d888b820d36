import Verif.Proof.Dual

/-!
# C79: dual numbers as elements: every program also computes its derivative
-/

namespace Magnesia

open RZero ROne

/-- Let every input scalar be a function of a real parameter `t`, differentiable at `t₀`. Either every run panics, for all `t`
and over dual numbers alike, or there are functions `r`, differentiable at `t₀`, in the shape of the result, such that the
program run at any `t` returns their values at `t`, and run over the dual numbers (value and derivative of each input at `t₀`)
returns their values and derivatives at `t₀`. -/
theorem C79_dual (pr : Profile) (Γ : ℕ → Ty) (hΓ : ∀ i, (Γ i).IsData) (ty : Ty) (hty : ty.IsData) (p : Prog Γ ty) (t₀ : ℝ)
    (x : (i : ℕ) → (Γ i).type {f : ℝ → ℝ // DifferentiableAt ℝ f t₀}) :
    (∃ e, (∀ t : ℝ, p.run pr (fun i => (Γ i).map (fun f => (⟨f.1 t⟩ : Exact ℝ)) (hΓ i) (x i)) = .error e) ∧
      p.run pr (fun i => (Γ i).map (fun f => (⟨f.1 t₀, deriv f.1 t₀⟩ : Dual ℝ)) (hΓ i) (x i)) = .error e) ∨
    ∃ r : ty.type {f : ℝ → ℝ // DifferentiableAt ℝ f t₀},
      (∀ t : ℝ, p.run pr (fun i => (Γ i).map (fun f => (⟨f.1 t⟩ : Exact ℝ)) (hΓ i) (x i)) =
        .ok (ty.map (fun f => ⟨f.1 t⟩) hty r)) ∧
      p.run pr (fun i => (Γ i).map (fun f => (⟨f.1 t₀, deriv f.1 t₀⟩ : Dual ℝ)) (hΓ i) (x i)) =
        .ok (ty.map (fun f => ⟨f.1 t₀, deriv f.1 t₀⟩) hty r) := by
  have h1 := fun t => Prog.run_map (DiffAt.hom_at (t₀ := t₀) t) (DiffAt.homV_at t) (fun _ => ResRel.ok rfl) pr hΓ x hty p
  have h2 := Prog.run_map (DiffAt.hom_dual (t₀ := t₀)) DiffAt.homV_dual (fun _ => ResRel.ok rfl) pr hΓ x hty p
  cases hr : p.run (T := DiffAt t₀) pr x with
  | ok r =>
    rw [hr] at h2
    exact .inr ⟨r, fun t => by have h := h1 t; rw [hr] at h; exact h, h2⟩
  | error e =>
    rw [hr] at h2
    exact .inl ⟨e, fun t => by have h := h1 t; rw [hr] at h; exact h, h2⟩

/-- Over any commutative ring: a polynomial with constant coefficients, evaluated at `x + ε`, gives its value and the value of its
formal derivative at `x`. -/
theorem C79_poly_derivative {K : Type} [CommRing K] [DecidableEq K] (a : List K) (x : K) :
    (Poly.fromCoefficients (a.map fun c => (⟨c, 0⟩ : Dual K))).eval ⟨x, 1⟩ =
      .ok ⟨∑ i : Fin a.length, a[i] * x ^ (i : ℕ), ∑ i : Fin a.length, (i : ℕ) * a[i] * x ^ ((i : ℕ) - 1)⟩ := by
  show (a.map fun c => (⟨c, 0⟩ : Dual K)).reverse.foldlM (fun (y a : Dual K) => do
    let y ← MulRefs.mulRefs y (⟨x, 1⟩ : Dual K)
    (AddAssignRef.addAssign y a).toRes) (zero : Dual K) = _
  induction a with
  | nil => rfl
  | cons c a ih =>
    rw [List.map_cons, List.reverse_cons, List.foldlM_append, ih]
    show Except.ok (⟨_, _⟩ : Dual K) = _
    congr 1
    refine congrArg₂ Dual.mk ?_ ?_
    · refine Eq.trans ?_ (Fin.sum_univ_succ (n := a.length) fun i => (c :: a)[i] * x ^ (i : ℕ)).symm
      show (∑ i : Fin a.length, a[i] * x ^ (i : ℕ)) * x + c = c * x ^ 0 + ∑ i : Fin a.length, a[i] * x ^ ((i : ℕ) + 1)
      simp [Finset.sum_mul, pow_succ, mul_assoc, add_comm]
    · refine Eq.trans ?_ (Fin.sum_univ_succ (n := a.length) fun i => (i : ℕ) * (c :: a)[i] * x ^ ((i : ℕ) - 1)).symm
      show (∑ i : Fin a.length, (i : ℕ) * a[i] * x ^ ((i : ℕ) - 1)) * x + (∑ i : Fin a.length, a[i] * x ^ (i : ℕ)) * 1 + 0 = _
      rw [Finset.sum_mul, mul_one, add_zero, ← Finset.sum_add_distrib]
      simp only [Fin.val_zero, Nat.cast_zero, zero_mul, zero_add]
      refine Finset.sum_congr rfl fun i _ => ?_
      show _ = (((i : ℕ) + 1 : ℕ) : K) * a[i] * x ^ ((i : ℕ) + 1 - 1)
      generalize a[i] = y
      generalize (i : ℕ) = k
      cases k with
      | zero => simp
      | succ k =>
        push_cast
        ring

end Magnesia
