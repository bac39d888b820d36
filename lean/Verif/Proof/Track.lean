import Verif.Spec.Track
import Verif.Proof.ProgramRel
import Verif.Proof.FormFloat
import Verif.Proof.Elem

/-!
# Running error analysis (helper lemmas)
-/

namespace Magnesia

open RZero ROne

variable {F : Fmt}

/-- One rounding. `s` is the exact result for the computed operands, `v` for the exact ones. -/
theorem tracks_rounded {x : Ieee F} {s v d η : ℚ} {b : Bool} (hd : 0 ≤ d) (hη : 0 ≤ η)
    (hx : x.Finite → |s - v| ≤ d ∧ x.value = F.roundQ s ∧ |x.value - s| ≤ F.u * |s| + η)
    (hf : b = true → |s - v| ≤ d ∧ (|s| ≤ 2 ^ F.emax → x.Finite)) : Tracks x (Tracked.rounded F v d η b) := by
  have hs : |s - v| ≤ d → |s| ≤ |v| + d := by
    intro h
    have := abs_add_le (s - v) v
    rw [sub_add_cancel] at this
    linarith
  refine ⟨?_, ?_, ?_⟩
  · unfold Tracked.rounded
    dsimp only
    split
    · exact le_refl 0
    · have := mul_nonneg F.u_pos.le (add_nonneg (abs_nonneg v) hd)
      linarith
  · intro h
    obtain ⟨h1, h2, h3⟩ := hx h
    unfold Tracked.rounded
    dsimp only
    split
    · rename_i h0
      rw [h0.1] at h1
      have : s = v := sub_eq_zero.1 (abs_eq_zero.1 (le_antisymm h1 (abs_nonneg _)))
      rw [h2, this, h0.2, sub_self, abs_zero]
    · have h4 := abs_add_le (x.value - s) (s - v)
      rw [sub_add_sub_cancel] at h4
      have h5 := mul_le_mul_of_nonneg_left (hs h1) F.u_pos.le
      linarith
  · intro h
    unfold Tracked.rounded at h
    simp only [Bool.and_eq_true, decide_eq_true_eq] at h
    obtain ⟨h1, h2⟩ := hf h.1
    exact h2 ((hs h1).trans h.2)

theorem Tracks.add {x y : Ieee F} {a b : Tracked F} (h : Tracks x a) (h' : Tracks y b) : Tracks (x.add y) (a.add b) := by
  obtain ⟨h1, h2, h3⟩ := h
  obtain ⟨h1', h2', h3'⟩ := h'
  have key : x.Finite → y.Finite → |x.value + y.value - (a.val + b.val)| ≤ a.err + b.err := by
    intro hx hy
    rw [show x.value + y.value - (a.val + b.val) = (x.value - a.val) + (y.value - b.val) by ring]
    exact (abs_add_le _ _).trans (add_le_add (h2 hx) (h2' hy))
  refine tracks_rounded (s := x.value + y.value) (add_nonneg h1 h1') (le_refl 0) ?_ ?_
  · intro hf
    obtain ⟨hx, hy, hv⟩ := Ieee.add_finite hf
    refine ⟨key hx hy, hv, ?_⟩
    rw [add_zero, hv]
    exact F.roundQ_add_err (Ieee.value_representable _) (Ieee.value_representable _)
  · intro hs
    rw [Bool.and_eq_true] at hs
    exact ⟨key (h3 hs.1) (h3' hs.2), Ieee.add_small (h3 hs.1) (h3' hs.2)⟩

theorem Tracks.neg {x : Ieee F} {a : Tracked F} (h : Tracks x a) : Tracks x.neg a.neg := by
  obtain ⟨h1, h2, h3⟩ := h
  have hf : x.neg.Finite ↔ x.Finite := by cases x <;> rfl
  refine ⟨h1, fun hx => ?_, fun hs => hf.2 (h3 hs)⟩
  rw [Ieee.neg_value]
  show |-x.value - -a.val| ≤ a.err
  rw [show -x.value - -a.val = -(x.value - a.val) by ring, abs_neg]
  exact h2 (hf.1 hx)

theorem Tracks.sub {x y : Ieee F} {a b : Tracked F} (h : Tracks x a) (h' : Tracks y b) : Tracks (x.sub y) (a.sub b) := by
  have := h.add h'.neg
  have e : a.add b.neg = a.sub b := by
    simp only [Tracked.add, Tracked.sub, Tracked.neg, sub_eq_add_neg]
  rw [e] at this
  exact this

theorem Tracks.mul {x y : Ieee F} {a b : Tracked F} (h : Tracks x a) (h' : Tracks y b) : Tracks (x.mul y) (a.mul b) := by
  obtain ⟨h1, h2, h3⟩ := h
  obtain ⟨h1', h2', h3'⟩ := h'
  have key : x.Finite → y.Finite → |x.value * y.value - a.val * b.val| ≤ |a.val| * b.err + a.err * |b.val| + a.err * b.err := by
    intro hx hy
    rw [show x.value * y.value - a.val * b.val =
      a.val * (y.value - b.val) + (x.value - a.val) * b.val + (x.value - a.val) * (y.value - b.val) by ring]
    refine (abs_add_le _ _).trans (add_le_add ((abs_add_le _ _).trans (add_le_add ?_ ?_)) ?_) <;> rw [abs_mul]
    · exact mul_le_mul_of_nonneg_left (h2' hy) (abs_nonneg _)
    · exact mul_le_mul_of_nonneg_right (h2 hx) (abs_nonneg _)
    · exact mul_le_mul (h2 hx) (h2' hy) (abs_nonneg _) h1
  refine tracks_rounded (s := x.value * y.value) (by positivity) F.η_pos.le ?_ ?_
  · intro hf
    obtain ⟨hx, hy, hv⟩ := Ieee.mul_finite hf
    refine ⟨key hx hy, hv, ?_⟩
    rw [hv]
    exact F.roundQ_err_any _
  · intro hs
    rw [Bool.and_eq_true] at hs
    exact ⟨key (h3 hs.1) (h3' hs.2), Ieee.mul_small (h3 hs.1) (h3' hs.2)⟩

theorem tracks_zero : Tracks (zero : Ieee F) zero := ⟨le_refl _, fun _ => by simp [zero, Ieee.value], fun _ => trivial⟩
theorem tracks_one : Tracks (one : Ieee F) one := ⟨le_refl _, fun _ => by simp [one, Ieee.value], fun _ => trivial⟩

namespace Outcome

def add (a b : Outcome F) : Outcome F := ⟨a.computed.add b.computed, a.tracked.add b.tracked, a.right.add b.right⟩
def sub (a b : Outcome F) : Outcome F := ⟨a.computed.sub b.computed, a.tracked.sub b.tracked, a.right.sub b.right⟩
def mul (a b : Outcome F) : Outcome F := ⟨a.computed.mul b.computed, a.tracked.mul b.tracked, a.right.mul b.right⟩

instance : RZero (Outcome F) := ⟨⟨_, _, tracks_zero⟩⟩
instance : ROne (Outcome F) := ⟨⟨_, _, tracks_one⟩⟩
instance : AddAssignRef (Outcome F) := ⟨fun a b => .done (a.add b)⟩
instance : SubAssignRef (Outcome F) := ⟨fun a b => .done (a.sub b)⟩
instance : MulRefs (Outcome F) := ⟨fun a b => .ok (a.mul b)⟩
instance : RNeg (Outcome F) := ⟨fun a => .ok ⟨_, _, a.right.neg⟩⟩
instance : RPartialEq (Outcome F) := ⟨fun a b => decide (a.tracked.val = b.tracked.val)⟩
instance : RRing (Outcome F) where
instance : RAdd (Outcome F) (Outcome F) (Outcome F) := ⟨fun a b => .ok (a.add b)⟩
instance : RSub (Outcome F) (Outcome F) (Outcome F) := ⟨fun a b => .ok (a.sub b)⟩
instance : RMul (Outcome F) (Outcome F) (Outcome F) := ⟨fun a b => .ok (a.mul b)⟩
instance : RAddAssign (Outcome F) (Outcome F) := ⟨fun a b => .done (a.add b)⟩
instance : RSubAssign (Outcome F) (Outcome F) := ⟨fun a b => .done (a.sub b)⟩
instance : RConj (Outcome F) := ⟨fun a => .ok a⟩

theorem hom_computed : Hom true (computed : Outcome F → Ieee F) :=
  ⟨rfl, rfl, fun _ _ => rfl, fun _ _ => rfl, fun _ _ => rfl, fun _ => rfl⟩
theorem homV_computed : HomV true (computed : Outcome F → Ieee F) :=
  ⟨rfl, fun _ _ => rfl, fun _ _ => rfl, fun _ _ => rfl, fun _ _ => rfl, fun _ _ => rfl⟩
theorem hom_tracked : Hom true (tracked : Outcome F → Tracked F) :=
  ⟨rfl, rfl, fun _ _ => rfl, fun _ _ => rfl, fun _ _ => rfl, fun _ => rfl⟩
theorem homV_tracked : HomV true (tracked : Outcome F → Tracked F) :=
  ⟨rfl, fun _ _ => rfl, fun _ _ => rfl, fun _ _ => rfl, fun _ _ => rfl, fun _ _ => rfl⟩
theorem hom_exact : Hom true (exact : Outcome F → Exact ℚ) :=
  ⟨rfl, rfl, fun _ _ => rfl, fun _ _ => rfl, fun _ _ => rfl, fun _ => rfl⟩
theorem homV_exact : HomV true (exact : Outcome F → Exact ℚ) :=
  ⟨rfl, fun _ _ => rfl, fun _ _ => rfl, fun _ _ => rfl, fun _ _ => rfl, fun _ _ => rfl⟩

end Outcome

/-- Running a program commutes with a map between element types that respects all operations. -/
theorem Prog.run_map {T T' : Type} {f : T → T'} [RRing T] [RAdd T T T] [RSub T T T] [RMul T T T] [RAddAssign T T]
    [RSubAssign T T] [RConj T] [RRing T'] [RAdd T' T' T'] [RSub T' T' T'] [RMul T' T' T'] [RAddAssign T' T']
    [RSubAssign T' T'] [RConj T'] (h : Hom true f) (hv : HomV true f)
    (hc : ∀ a : T, ResRel true f (RConj.conj a) (RConj.conj (f a))) (pr : Profile) {Γ : ℕ → Ty} (hΓ : ∀ i, (Γ i).IsData)
    (env : (i : ℕ) → (Γ i).type T) {ty : Ty} (hty : ty.IsData) (p : Prog Γ ty) :
    p.run pr (fun i => (Γ i).map f (hΓ i) (env i)) = (p.run pr env).map (ty.map f hty) := by
  have := Prog.run_rel h hv hc pr env _ (fun i => ((Γ i).rel_iff (hΓ i) _ _).2 rfl) p
  cases hr : p.run pr env with
  | ok v =>
    rw [hr] at this
    obtain ⟨b, hb, hv⟩ := this
    rw [hb, (ty.rel_iff hty _ _).1 hv]
    rfl
  | error e =>
    rw [hr] at this
    exact this rfl

theorem Nest.map_map {T T' T'' : Type} (f : T → T') (g : T' → T'') (t : Nest) (x : t.type T) :
    t.map g (t.map f x) = t.map (g ∘ f) x := by
  induction t with
  | scalar => rfl
  | complex t ih => exact congrArg₂ Complex.mk (ih _) (ih _)
  | poly t ih =>
    refine congrArg Poly.mk (?_ : List.map _ (List.map _ _) = List.map _ _)
    rw [List.map_map]
    exact List.map_congr_left fun a _ => ih a
  | matrix n t ih => exact congrArg SMatrix.mk (funext fun i => funext fun j => ih _)

theorem Ty.map_map {T T' T'' : Type} (f : T → T') (g : T' → T'') (ty : Ty) (h : ty.IsData) (x : ty.type T) :
    ty.map g h (ty.map f h x) = ty.map (g ∘ f) h x := by
  cases ty with
  | ring t => exact Nest.map_map f g t x
  | svec n t => exact congrArg SVector.mk (funext fun i => Nest.map_map f g t _)
  | smat r c t => exact congrArg SMatrix.mk (funext fun i => funext fun j => Nest.map_map f g t _)
  | vexpr => exact h.elim
  | mexpr => exact h.elim
  | dvec => exact congrArg DVector.mk (List.map_map ..)
  | dmat =>
    show DMatrix.mk _ _ _ = DMatrix.mk _ _ _
    congr 1
    exact List.map_map ..

theorem Nest.map_id {T : Type} (t : Nest) (x : t.type T) : t.map (fun a => a) x = x := by
  induction t with
  | scalar => rfl
  | complex t ih => exact congrArg₂ Complex.mk (ih _) (ih _)
  | poly t ih =>
    refine congrArg Poly.mk (?_ : List.map _ _ = _)
    exact (List.map_congr_left fun a _ => ih a).trans (List.map_id' _)
  | matrix n t ih => exact congrArg SMatrix.mk (funext fun i => funext fun j => ih _)

theorem Ty.map_id {T : Type} (ty : Ty) (h : ty.IsData) (x : ty.type T) : ty.map (fun a => a) h x = x := by
  cases ty with
  | ring t => exact Nest.map_id t x
  | svec n t => exact congrArg SVector.mk (funext fun i => Nest.map_id t _)
  | smat r c t => exact congrArg SMatrix.mk (funext fun i => funext fun j => Nest.map_id t _)
  | vexpr => exact h.elim
  | mexpr => exact h.elim
  | dvec => exact congrArg DVector.mk (List.map_id' _)
  | dmat =>
    show DMatrix.mk _ _ _ = _
    simp only [List.map_id']
    rfl

theorem Outcome.valueOpsAgree : ValueOpsAgree (Outcome F) where
  add _ _ := rfl
  sub _ _ := rfl
  mul _ _ := rfl
  addAssign _ _ := rfl
  subAssign _ _ := rfl

theorem Tracked.valueOpsAgree : ValueOpsAgree (Tracked F) where
  add _ _ := rfl
  sub _ _ := rfl
  mul _ _ := rfl
  addAssign _ _ := rfl
  subAssign _ _ := rfl

theorem Ieee.valueOpsAgree : ValueOpsAgree (Ieee F) where
  add _ _ := rfl
  sub _ _ := rfl
  mul _ _ := rfl
  addAssign _ _ := rfl
  subAssign _ _ := rfl

end Magnesia
