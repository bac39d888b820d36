import Mathlib.Analysis.Calculus.Deriv.Mul
import Mathlib.Analysis.Calculus.Deriv.Add
import Verif.Proof.Generic

/-!
# Functions as elements (helper lemmas for C79)
-/

namespace Magnesia

open RZero ROne

/-- A function that is differentiable at `t₀`. -/
def DiffAt (t₀ : ℝ) := {f : ℝ → ℝ // DifferentiableAt ℝ f t₀}

namespace DiffAt

variable {t₀ : ℝ}

def add (f g : DiffAt t₀) : DiffAt t₀ := ⟨fun t => f.1 t + g.1 t, f.2.add g.2⟩
def sub (f g : DiffAt t₀) : DiffAt t₀ := ⟨fun t => f.1 t - g.1 t, f.2.sub g.2⟩
def mul (f g : DiffAt t₀) : DiffAt t₀ := ⟨fun t => f.1 t * g.1 t, f.2.mul g.2⟩
def neg (f : DiffAt t₀) : DiffAt t₀ := ⟨fun t => -f.1 t, f.2.neg⟩

instance : RZero (DiffAt t₀) := ⟨⟨fun _ => 0, differentiableAt_const 0⟩⟩
instance : ROne (DiffAt t₀) := ⟨⟨fun _ => 1, differentiableAt_const 1⟩⟩
instance : AddAssignRef (DiffAt t₀) := ⟨fun a b => .done (a.add b)⟩
instance : SubAssignRef (DiffAt t₀) := ⟨fun a b => .done (a.sub b)⟩
instance : MulRefs (DiffAt t₀) := ⟨fun a b => .ok (a.mul b)⟩
instance : RNeg (DiffAt t₀) := ⟨fun a => .ok a.neg⟩
instance : RPartialEq (DiffAt t₀) := ⟨fun _ _ => false⟩
instance : RRing (DiffAt t₀) where
instance : RAdd (DiffAt t₀) (DiffAt t₀) (DiffAt t₀) := ⟨fun a b => .ok (a.add b)⟩
instance : RSub (DiffAt t₀) (DiffAt t₀) (DiffAt t₀) := ⟨fun a b => .ok (a.sub b)⟩
instance : RMul (DiffAt t₀) (DiffAt t₀) (DiffAt t₀) := ⟨fun a b => .ok (a.mul b)⟩
instance : RAddAssign (DiffAt t₀) (DiffAt t₀) := ⟨fun a b => .done (a.add b)⟩
instance : RSubAssign (DiffAt t₀) (DiffAt t₀) := ⟨fun a b => .done (a.sub b)⟩
instance : RConj (DiffAt t₀) := ⟨fun a => .ok a⟩

def at_ (t : ℝ) (f : DiffAt t₀) : Exact ℝ := ⟨f.1 t⟩
noncomputable def dual (f : DiffAt t₀) : Dual ℝ := ⟨f.1 t₀, deriv f.1 t₀⟩

theorem hom_at (t : ℝ) : Hom true (at_ t : DiffAt t₀ → Exact ℝ) :=
  ⟨rfl, rfl, fun _ _ => rfl, fun _ _ => rfl, fun _ _ => rfl, fun _ => rfl⟩
theorem homV_at (t : ℝ) : HomV true (at_ t : DiffAt t₀ → Exact ℝ) :=
  ⟨rfl, fun _ _ => rfl, fun _ _ => rfl, fun _ _ => rfl, fun _ _ => rfl, fun _ _ => rfl⟩

theorem dual_zero : dual (zero : DiffAt t₀) = ⟨0, 0⟩ := congrArg (Dual.mk 0) (deriv_const t₀ (0 : ℝ))
theorem dual_one : dual (one : DiffAt t₀) = ⟨1, 0⟩ := congrArg (Dual.mk 1) (deriv_const t₀ (1 : ℝ))
theorem dual_add (a b : DiffAt t₀) : dual (a.add b) = (dual a).add (dual b) := congrArg (Dual.mk _) (deriv_add a.2 b.2)
theorem dual_sub (a b : DiffAt t₀) : dual (a.sub b) = (dual a).sub (dual b) := congrArg (Dual.mk _) (deriv_sub a.2 b.2)
theorem dual_mul (a b : DiffAt t₀) : dual (a.mul b) = (dual a).mul (dual b) := congrArg (Dual.mk _) (deriv_mul a.2 b.2)
theorem dual_neg (a : DiffAt t₀) : dual a.neg = (dual a).neg := congrArg (Dual.mk _) (deriv.neg)

theorem hom_dual : Hom true (dual : DiffAt t₀ → Dual ℝ) :=
  ⟨dual_zero, dual_one, fun a b => congrArg Upd.done (dual_add a b).symm, fun a b => congrArg Upd.done (dual_sub a b).symm,
    fun a b => congrArg Except.ok (dual_mul a b).symm, fun a => congrArg Except.ok (dual_neg a).symm⟩
theorem homV_dual : HomV true (dual : DiffAt t₀ → Dual ℝ) :=
  ⟨dual_zero, fun a b => congrArg Except.ok (dual_add a b).symm, fun a b => congrArg Except.ok (dual_sub a b).symm,
    fun a b => congrArg Except.ok (dual_mul a b).symm, fun a b => congrArg Upd.done (dual_add a b).symm,
    fun a b => congrArg Upd.done (dual_sub a b).symm⟩

end DiffAt

end Magnesia
