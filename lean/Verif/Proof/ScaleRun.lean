import Verif.Proof.Scale
import Verif.Proof.ProgramRel
import Verif.Proof.Track

/-!
# Programs in two systems of units (helper lemmas)
-/

namespace Magnesia

open RZero ROne MulRefs

variable {F : Fmt} {k : ℤ}

namespace Gauged

theorem consistent_zero : (zero : Gauged F).Consistent k := fun _ => rfl
theorem consistent_one : (one : Gauged F).Consistent k := by
  show (1 : ℚ) = 1 * 2 ^ (k * 0)
  simp

theorem consistent_join {x y : Gauged F} (hx : x.Consistent k) (hy : y.Consistent k) {d : Option ℤ} (h : addUnit x.unit y.unit = .ok d) :
    match d with
    | some d => x.a.val.Scaled (k * d) x.b.val ∧ y.a.val.Scaled (k * d) y.b.val
    | none => ∀ j, x.a.val.Scaled j x.b.val ∧ y.a.val.Scaled j y.b.val := by
  obtain ⟨xa, xb, ux⟩ := x
  obtain ⟨ya, yb, uy⟩ := y
  cases ux with
  | none =>
    cases uy with
    | none => cases h; exact fun j => ⟨hx j, hy j⟩
    | some e => cases h; exact ⟨hx _, hy⟩
  | some d' =>
    cases uy with
    | none => cases h; exact ⟨hx, hy _⟩
    | some e =>
      simp only [addUnit] at h
      split at h
      · next h1 => cases h; subst h1; exact ⟨hx, hy⟩
      · cases h

theorem consistent_add {x y z : Gauged F} (hx : x.Consistent k) (hy : y.Consistent k) (h : x.add y = .ok z) : z.Consistent k := by
  unfold add at h
  obtain ⟨a, ha, h⟩ := bind_ok h
  obtain ⟨b, hb, h⟩ := bind_ok h
  obtain ⟨d, hd, h⟩ := bind_ok h
  cases pure_ok h
  have := consistent_join hx hy hd
  cases d with
  | none => exact fun j => Trap.scaled_add (this j).1 (this j).2 ha hb
  | some d => exact Trap.scaled_add this.1 this.2 ha hb

theorem consistent_sub {x y z : Gauged F} (hx : x.Consistent k) (hy : y.Consistent k) (h : x.sub y = .ok z) : z.Consistent k := by
  unfold sub at h
  obtain ⟨a, ha, h⟩ := bind_ok h
  obtain ⟨b, hb, h⟩ := bind_ok h
  obtain ⟨d, hd, h⟩ := bind_ok h
  cases pure_ok h
  have := consistent_join hx hy hd
  cases d with
  | none => exact fun j => Trap.scaled_sub (this j).1 (this j).2 ha hb
  | some d => exact Trap.scaled_sub this.1 this.2 ha hb

theorem consistent_neg {x z : Gauged F} (hx : x.Consistent k) (h : x.neg = .ok z) : z.Consistent k := by
  unfold neg at h
  obtain ⟨a, ha, h⟩ := bind_ok h
  obtain ⟨b, hb, h⟩ := bind_ok h
  cases pure_ok h
  obtain ⟨xa, xb, ux⟩ := x
  cases ux with
  | none => exact fun j => Trap.scaled_neg (hx j) ha hb
  | some d => exact Trap.scaled_neg hx ha hb

theorem consistent_mul {x y z : Gauged F} (hx : x.Consistent k) (hy : y.Consistent k) (h : x.mul y = .ok z) : z.Consistent k := by
  unfold mul at h
  obtain ⟨a, ha, h⟩ := bind_ok h
  obtain ⟨b, hb, h⟩ := bind_ok h
  cases pure_ok h
  obtain ⟨xa, xb, ux⟩ := x
  obtain ⟨ya, yb, uy⟩ := y
  cases ux with
  | none =>
    cases uy with
    | none => exact fun j => by simpa using Trap.scaled_mul (hx j) (hy 0) ha hb
    | some e => exact fun j => by simpa using Trap.scaled_mul (hx (j - k * e)) hy ha hb
  | some d =>
    cases uy with
    | none => exact fun j => by simpa using Trap.scaled_mul hx (hy (j - k * d)) ha hb
    | some e =>
      show a.val.Scaled (k * (d + e)) b.val
      rw [mul_add]
      exact Trap.scaled_mul hx hy ha hb

end Gauged

/-- Consistent numbers. -/
def Gauge (F : Fmt) (k : ℤ) := {x : Gauged F // x.Consistent k}

namespace Gauge

def val (x : Gauge F k) : Gauged F := x.1

def attach : (x : Res (Gauged F)) → (∀ z, x = .ok z → z.Consistent k) → Res (Gauge F k)
  | .ok z, h => .ok ⟨z, h z rfl⟩
  | .error e, _ => .error e

theorem attach_val (x : Res (Gauged F)) (h : ∀ z, x = .ok z → z.Consistent k) : ResRel true val (attach x h) x := by
  cases x with
  | ok z => exact ResRel.ok rfl
  | error e => exact ResRel.error _ _

def add (x y : Gauge F k) : Res (Gauge F k) := attach (x.1.add y.1) fun _ => Gauged.consistent_add x.2 y.2
def sub (x y : Gauge F k) : Res (Gauge F k) := attach (x.1.sub y.1) fun _ => Gauged.consistent_sub x.2 y.2
def mul (x y : Gauge F k) : Res (Gauge F k) := attach (x.1.mul y.1) fun _ => Gauged.consistent_mul x.2 y.2
def neg (x : Gauge F k) : Res (Gauge F k) := attach x.1.neg fun _ => Gauged.consistent_neg x.2

instance : RZero (Gauge F k) := ⟨⟨zero, Gauged.consistent_zero⟩⟩
instance : ROne (Gauge F k) := ⟨⟨one, Gauged.consistent_one⟩⟩
instance : AddAssignRef (Gauge F k) := ⟨fun a b => Upd.ofRes a (add a b)⟩
instance : SubAssignRef (Gauge F k) := ⟨fun a b => Upd.ofRes a (sub a b)⟩
instance : MulRefs (Gauge F k) := ⟨mul⟩
instance : RNeg (Gauge F k) := ⟨neg⟩
instance : RPartialEq (Gauge F k) := ⟨fun _ _ => false⟩
instance : RRing (Gauge F k) where
instance : RAdd (Gauge F k) (Gauge F k) (Gauge F k) := ⟨add⟩
instance : RSub (Gauge F k) (Gauge F k) (Gauge F k) := ⟨sub⟩
instance : RMul (Gauge F k) (Gauge F k) (Gauge F k) := ⟨mul⟩
instance : RAddAssign (Gauge F k) (Gauge F k) := ⟨fun a b => Upd.ofRes a (add a b)⟩
instance : RSubAssign (Gauge F k) (Gauge F k) := ⟨fun a b => Upd.ofRes a (sub a b)⟩
instance : RConj (Gauge F k) := ⟨fun a => .ok a⟩

theorem ofRes_val {a : Gauge F k} {x : Res (Gauge F k)} {y : Res (Gauged F)} (h : ResRel true val x y) :
    UpdRel true val (Upd.ofRes a x) (Upd.ofRes a.1 y) := by
  cases x with
  | ok z => rw [show y = .ok z.1 from h]; exact rfl
  | error e => rw [show y = .error e from h rfl]; exact fun _ => rfl

theorem hom_val : Hom true (val : Gauge F k → Gauged F) :=
  ⟨rfl, rfl, fun _ _ => ofRes_val (attach_val _ _), fun _ _ => ofRes_val (attach_val _ _), fun _ _ => attach_val _ _,
    fun _ => attach_val _ _⟩
theorem homV_val : HomV true (val : Gauge F k → Gauged F) :=
  ⟨rfl, fun _ _ => attach_val _ _, fun _ _ => attach_val _ _, fun _ _ => attach_val _ _, fun _ _ => ofRes_val (attach_val _ _),
    fun _ _ => ofRes_val (attach_val _ _)⟩

end Gauge

namespace Gauged

/-- The number in the first, or in the second system of units. -/
def pick (c : Bool) (x : Gauged F) : Ieee F := if c then x.b.val else x.a.val

theorem rel_ok {c : Bool} {x : Res (Gauged F)} {r : Ieee F} (h : ∀ z, x = .ok z → z.pick c = r) : ResRel false (pick c) x (.ok r) := by
  cases x with
  | ok z => exact ResRel.ok (h z rfl).symm
  | error e => exact fun h => absurd h Bool.false_ne_true

theorem rel_upd {c : Bool} {a : Gauged F} {x : Res (Gauged F)} {r : Ieee F} (h : ∀ z, x = .ok z → z.pick c = r) :
    UpdRel false (pick c) (Upd.ofRes a x) (.done r) := by
  cases x with
  | ok z => show Upd.mk r none = _; rw [← h z rfl]; rfl
  | error e => exact fun h => absurd h Bool.false_ne_true

theorem add_pick (c : Bool) {x y z : Gauged F} (h : x.add y = .ok z) : z.pick c = (x.pick c).add (y.pick c) := by
  unfold add at h
  obtain ⟨a, ha, h⟩ := bind_ok h
  obtain ⟨b, hb, h⟩ := bind_ok h
  obtain ⟨d, hd, h⟩ := bind_ok h
  cases pure_ok h
  cases c
  · exact Trap.add_val ha
  · exact Trap.add_val hb

theorem sub_pick (c : Bool) {x y z : Gauged F} (h : x.sub y = .ok z) : z.pick c = (x.pick c).sub (y.pick c) := by
  unfold sub at h
  obtain ⟨a, ha, h⟩ := bind_ok h
  obtain ⟨b, hb, h⟩ := bind_ok h
  obtain ⟨d, hd, h⟩ := bind_ok h
  cases pure_ok h
  cases c
  · exact Trap.sub_val ha
  · exact Trap.sub_val hb

theorem mul_pick (c : Bool) {x y z : Gauged F} (h : x.mul y = .ok z) : z.pick c = (x.pick c).mul (y.pick c) := by
  unfold mul at h
  obtain ⟨a, ha, h⟩ := bind_ok h
  obtain ⟨b, hb, h⟩ := bind_ok h
  cases pure_ok h
  cases c
  · exact Trap.mul_val ha
  · exact Trap.mul_val hb

theorem neg_pick (c : Bool) {x z : Gauged F} (h : x.neg = .ok z) : z.pick c = (x.pick c).neg := by
  unfold neg at h
  obtain ⟨a, ha, h⟩ := bind_ok h
  obtain ⟨b, hb, h⟩ := bind_ok h
  cases pure_ok h
  cases c
  · exact Trap.neg_val ha
  · exact Trap.neg_val hb

theorem hom_pick (c : Bool) : Hom false (pick c : Gauged F → Ieee F) :=
  ⟨by cases c <;> rfl, by cases c <;> rfl, fun _ _ => rel_upd fun _ => add_pick c, fun _ _ => rel_upd fun _ => sub_pick c,
    fun _ _ => rel_ok fun _ => mul_pick c, fun _ => rel_ok fun _ => neg_pick c⟩
theorem homV_pick (c : Bool) : HomV false (pick c : Gauged F → Ieee F) :=
  ⟨by cases c <;> rfl, fun _ _ => rel_ok fun _ => add_pick c, fun _ _ => rel_ok fun _ => sub_pick c,
    fun _ _ => rel_ok fun _ => mul_pick c, fun _ _ => rel_upd fun _ => add_pick c, fun _ _ => rel_upd fun _ => sub_pick c⟩

theorem run_pick (c : Bool) (pr : Profile) {Γ : ℕ → Ty} (hΓ : ∀ i, (Γ i).IsData) {ty : Ty} (hty : ty.IsData) (p : Prog Γ ty)
    (x : (i : ℕ) → (Γ i).type (Gauged F)) (r : ty.type (Gauged F)) (h : p.run pr x = .ok r) :
    p.run pr (fun i => (Γ i).map (pick c) (hΓ i) (x i)) = .ok (ty.map (pick c) hty r) := by
  have := Prog.run_rel (hom_pick c) (homV_pick c) (fun _ => ResRel.ok rfl) pr x _ (fun i => ((Γ i).rel_iff (hΓ i) _ _).2 rfl) p
  rw [h] at this
  obtain ⟨b, hb, hr⟩ := this
  rw [hb, (ty.rel_iff hty _ _).1 hr]

end Gauged

end Magnesia
