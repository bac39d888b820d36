import Verif.Spec.Mirror
import Verif.Proof.ProgramRel
import Verif.Proof.Track
import Verif.Proof.IeeeLaws

/-!
# Programs on mirror images (helper lemmas)
-/

namespace Magnesia

open RZero ROne MulRefs

namespace Graded

variable {T G : Type} [RRing T] [RAdd T T T] [RSub T T T] [RMul T T T] [RAddAssign T T] [RSubAssign T T] [RConj T]
  [AddCommGroup G] [DecidableEq G]

/-- The operation respects transformations. -/
def Op₂ (act : G → T → T) (same : T → T → Prop) (k : G → G → G) (f : T → T → Res T) (c : G → G → Prop) : Prop :=
  ∀ d e x y x' y' r r', c d e → same x' (act d x) → same y' (act e y) → f x y = .ok r → f x' y' = .ok r' → same r' (act (k d e) r)

/-- All operations respect transformations. -/
structure Symm (act : G → T → T) (same : T → T → Prop) : Prop where
  zero : ∀ d, same zero (act d zero)
  one : same one (act 0 one)
  addAssignRef : Op₂ act same (fun d _ => d) (fun a b => (AddAssignRef.addAssign a b).toRes) Eq
  subAssignRef : Op₂ act same (fun d _ => d) (fun a b => (SubAssignRef.subAssign a b).toRes) Eq
  mulRefs : Op₂ act same (· + ·) MulRefs.mulRefs (fun _ _ => True)
  neg : ∀ d x x' r r', same x' (act d x) → RNeg.neg x = .ok r → RNeg.neg x' = .ok r' → same r' (act d r)
  add : Op₂ act same (fun d _ => d) RAdd.add Eq
  sub : Op₂ act same (fun d _ => d) RSub.sub Eq
  mul : Op₂ act same (· + ·) RMul.mul (fun _ _ => True)
  addAssign : Op₂ act same (fun d _ => d) (fun a b => (RAddAssign.addAssign a b).toRes) Eq
  subAssign : Op₂ act same (fun d _ => d) (fun a b => (RSubAssign.subAssign a b).toRes) Eq
  conj : ∀ d x x' r r', same x' (act d x) → RConj.conj x = .ok r → RConj.conj x' = .ok r' → same r' (act (-d) r)

variable {act : G → T → T} {same : T → T → Prop}

omit [RRing T] [RAdd T T T] [RSub T T T] [RMul T T T] [RAddAssign T T] [RSubAssign T T] [RConj T] [AddCommGroup G] [DecidableEq G] in
theorem both_ok {x y : Res T} {g : Res (Option G)} {z : Graded T G} (h : both x y g = .ok z) :
    x = .ok z.a ∧ y = .ok z.b ∧ g = .ok z.grade := by
  unfold both at h
  obtain ⟨a, ha, h⟩ := bind_ok h
  obtain ⟨b, hb, h⟩ := bind_ok h
  obtain ⟨d, hd, h⟩ := bind_ok h
  cases pure_ok h
  exact ⟨ha, hb, hd⟩

omit [RRing T] [RAdd T T T] [RSub T T T] [RMul T T T] [RAddAssign T T] [RSubAssign T T] [RConj T] [AddCommGroup G] in
theorem consistent_plus {f : T → T → Res T} (hf : Op₂ act same (fun d _ => d) f Eq) {x y z : Graded T G} (hx : x.Consistent act same)
    (hy : y.Consistent act same) (h : both (f x.a y.a) (f x.b y.b) (addGrade x.grade y.grade) = .ok z) : z.Consistent act same := by
  obtain ⟨h1, h2, h3⟩ := both_ok h
  obtain ⟨xa, xb, ux⟩ := x
  obtain ⟨ya, yb, uy⟩ := y
  obtain ⟨za, zb, uz⟩ := z
  cases ux with
  | none =>
    cases uy with
    | none => cases h3; exact fun d => hf d d _ _ _ _ _ _ rfl (hx d) (hy d) h1 h2
    | some e => cases h3; exact hf e e _ _ _ _ _ _ rfl (hx e) hy h1 h2
  | some d =>
    cases uy with
    | none => cases h3; exact hf d d _ _ _ _ _ _ rfl hx (hy d) h1 h2
    | some e =>
      simp only [addGrade] at h3
      split at h3
      · next h4 => cases h3; exact hf d e _ _ _ _ _ _ h4 hx hy h1 h2
      · cases h3

omit [RRing T] [RAdd T T T] [RSub T T T] [RMul T T T] [RAddAssign T T] [RSubAssign T T] [RConj T] [DecidableEq G] in
theorem consistent_times {f : T → T → Res T} (hf : Op₂ act same (· + ·) f (fun _ _ => True)) {x y z : Graded T G} (hx : x.Consistent act same)
    (hy : y.Consistent act same) (h : both (f x.a y.a) (f x.b y.b) (.ok (mulGrade x.grade y.grade)) = .ok z) : z.Consistent act same := by
  obtain ⟨h1, h2, h3⟩ := both_ok h
  obtain ⟨xa, xb, ux⟩ := x
  obtain ⟨ya, yb, uy⟩ := y
  obtain ⟨za, zb, uz⟩ := z
  cases ux with
  | none =>
    cases uy with
    | none => cases h3; exact fun d => by simpa using hf d 0 _ _ _ _ _ _ trivial (hx d) (hy 0) h1 h2
    | some e => cases h3; exact fun d => by simpa using hf (d - e) e _ _ _ _ _ _ trivial (hx _) hy h1 h2
  | some d =>
    cases uy with
    | none => cases h3; exact fun e => by simpa using hf d (e - d) _ _ _ _ _ _ trivial hx (hy _) h1 h2
    | some e => cases h3; exact hf d e _ _ _ _ _ _ trivial hx hy h1 h2

end Graded

/-- Consistent pairs. -/
def Mirrored {T G : Type} (act : G → T → T) (same : T → T → Prop) := {x : Graded T G // x.Consistent act same}

namespace Mirrored

open Graded

variable {T G : Type} {act : G → T → T} {same : T → T → Prop}

def val (x : Mirrored act same) : Graded T G := x.1

def attach : (x : Res (Graded T G)) → (∀ z, x = .ok z → z.Consistent act same) → Res (Mirrored act same)
  | .ok z, h => .ok ⟨z, h z rfl⟩
  | .error e, _ => .error e

theorem attach_val (x : Res (Graded T G)) (h : ∀ z, x = .ok z → z.Consistent act same) : ResRel true val (attach x h) x := by
  cases x with
  | ok z => exact ResRel.ok rfl
  | error e => exact ResRel.error _ _

theorem ofRes_val {a : Mirrored act same} {x : Res (Mirrored act same)} {y : Res (Graded T G)} (h : ResRel true val x y) :
    UpdRel true val (Upd.ofRes a x) (Upd.ofRes a.1 y) := by
  cases x with
  | ok z => rw [show y = .ok z.1 from h]; exact rfl
  | error e => rw [show y = .error e from h rfl]; exact fun _ => rfl

variable [RRing T] [RAdd T T T] [RSub T T T] [RMul T T T] [RAddAssign T T] [RSubAssign T T] [RConj T]
  [AddCommGroup G] [DecidableEq G]

omit [DecidableEq G] in
theorem consistent_neg (hs : Symm act same) {x z : Graded T G} (hx : x.Consistent act same) (h : RNeg.neg x = .ok z) :
    z.Consistent act same := by
  obtain ⟨h1, h2, h3⟩ := both_ok h
  obtain ⟨xa, xb, ux⟩ := x
  obtain ⟨za, zb, uz⟩ := z
  cases ux with
  | none => cases h3; exact fun d => hs.neg d _ _ _ _ (hx d) h1 h2
  | some d => cases h3; exact hs.neg d _ _ _ _ hx h1 h2

omit [DecidableEq G] in
theorem consistent_conj (hs : Symm act same) {x z : Graded T G} (hx : x.Consistent act same) (h : RConj.conj x = .ok z) :
    z.Consistent act same := by
  obtain ⟨h1, h2, h3⟩ := both_ok h
  obtain ⟨xa, xb, ux⟩ := x
  obtain ⟨za, zb, uz⟩ := z
  cases ux with
  | none => cases h3; exact fun d => by simpa using hs.conj (-d) _ _ _ _ (hx _) h1 h2
  | some d => cases h3; exact hs.conj d _ _ _ _ hx h1 h2

/-- Every program leads from consistent pairs to consistent pairs. -/
theorem run_consistent (hs : Symm act same) (pr : Profile) {Γ : ℕ → Ty} (hΓ : ∀ i, (Γ i).IsData) {ty : Ty} (hty : ty.IsData) (p : Prog Γ ty)
    (x : (i : ℕ) → (Γ i).type {x : Graded T G // x.Consistent act same}) (r : ty.type (Graded T G))
    (h : p.run pr (fun i => (Γ i).map Subtype.val (hΓ i) (x i)) = .ok r) :
    ∃ r' : ty.type {x : Graded T G // x.Consistent act same}, r = ty.map Subtype.val hty r' := by
  let _ : RZero (Mirrored act same) := ⟨⟨zero, hs.zero⟩⟩
  let _ : ROne (Mirrored act same) := ⟨⟨one, hs.one⟩⟩
  let _ : AddAssignRef (Mirrored act same) := ⟨fun a b => Upd.ofRes a (attach _ fun _ h => consistent_plus hs.addAssignRef a.2 b.2 h)⟩
  let _ : SubAssignRef (Mirrored act same) := ⟨fun a b => Upd.ofRes a (attach _ fun _ h => consistent_plus hs.subAssignRef a.2 b.2 h)⟩
  let _ : MulRefs (Mirrored act same) := ⟨fun a b => attach _ fun _ h => consistent_times hs.mulRefs a.2 b.2 h⟩
  let _ : RNeg (Mirrored act same) := ⟨fun a => attach _ fun _ h => consistent_neg hs a.2 h⟩
  let _ : RPartialEq (Mirrored act same) := ⟨fun _ _ => false⟩
  let _ : RRing (Mirrored act same) := {}
  let _ : RAdd (Mirrored act same) (Mirrored act same) (Mirrored act same) :=
    ⟨fun a b => attach _ fun _ h => consistent_plus hs.add a.2 b.2 h⟩
  let _ : RSub (Mirrored act same) (Mirrored act same) (Mirrored act same) :=
    ⟨fun a b => attach _ fun _ h => consistent_plus hs.sub a.2 b.2 h⟩
  let _ : RMul (Mirrored act same) (Mirrored act same) (Mirrored act same) :=
    ⟨fun a b => attach _ fun _ h => consistent_times hs.mul a.2 b.2 h⟩
  let _ : RAddAssign (Mirrored act same) (Mirrored act same) :=
    ⟨fun a b => Upd.ofRes a (attach _ fun _ h => consistent_plus hs.addAssign a.2 b.2 h)⟩
  let _ : RSubAssign (Mirrored act same) (Mirrored act same) :=
    ⟨fun a b => Upd.ofRes a (attach _ fun _ h => consistent_plus hs.subAssign a.2 b.2 h)⟩
  let _ : RConj (Mirrored act same) := ⟨fun a => attach _ fun _ h => consistent_conj hs a.2 h⟩
  have h1 : Hom true (val : Mirrored act same → Graded T G) :=
    ⟨rfl, rfl, fun _ _ => ofRes_val (attach_val _ _), fun _ _ => ofRes_val (attach_val _ _), fun _ _ => attach_val _ _,
      fun _ => attach_val _ _⟩
  have h2 : HomV true (val : Mirrored act same → Graded T G) :=
    ⟨rfl, fun _ _ => attach_val _ _, fun _ _ => attach_val _ _, fun _ _ => attach_val _ _, fun _ _ => ofRes_val (attach_val _ _),
      fun _ _ => ofRes_val (attach_val _ _)⟩
  have := Prog.run_map h1 h2 (fun _ => attach_val _ _) pr hΓ x hty p
  have h' : p.run pr (fun i => (Γ i).map (val : Mirrored act same → Graded T G) (hΓ i) (x i)) = .ok r := h
  rw [h'] at this
  cases hr : p.run (T := Mirrored act same) pr x with
  | ok r' => rw [hr] at this; exact ⟨r', Except.ok.inj this⟩
  | error e => rw [hr] at this; cases this

end Mirrored

namespace Graded

variable {T G : Type} [RRing T] [RAdd T T T] [RSub T T T] [RMul T T T] [RAddAssign T T] [RSubAssign T T] [RConj T]
  [AddCommGroup G] [DecidableEq G]

/-- One of the two numbers. -/
def pick (c : Bool) (x : Graded T G) : T := if c then x.b else x.a

omit [RRing T] [RAdd T T T] [RSub T T T] [RMul T T T] [RAddAssign T T] [RSubAssign T T] [RConj T] [AddCommGroup G] [DecidableEq G] in
theorem both_pick (c : Bool) {x y : Res T} {g : Res (Option G)} : ResRel false (pick c) (both x y g) (if c then y else x) := by
  cases h : both x y g with
  | error e => exact fun h => absurd h Bool.false_ne_true
  | ok z =>
    obtain ⟨h1, h2, h3⟩ := both_ok h
    cases c
    · exact h1
    · exact h2

omit [RRing T] [RAdd T T T] [RSub T T T] [RMul T T T] [RAddAssign T T] [RSubAssign T T] [RConj T] [AddCommGroup G] [DecidableEq G] in
theorem upd_pick (c : Bool) {a : Graded T G} {x y : Upd T} {g : Res (Option G)} :
    UpdRel false (pick c) (Upd.ofRes a (both x.toRes y.toRes g)) (if c then y else x) := by
  cases h : both x.toRes y.toRes g with
  | error e => exact fun h => absurd h Bool.false_ne_true
  | ok z =>
    obtain ⟨h1, h2, h3⟩ := both_ok h
    have key : ∀ {u : Upd T} {v : T}, u.toRes = .ok v → u = ⟨v, none⟩ := by
      rintro ⟨v', _ | e⟩ v h
      · cases h; rfl
      · cases h
    cases c
    · exact key h1
    · exact key h2

theorem run_pick (c : Bool) (pr : Profile) {Γ : ℕ → Ty} (hΓ : ∀ i, (Γ i).IsData) {ty : Ty} (hty : ty.IsData) (p : Prog Γ ty)
    (x : (i : ℕ) → (Γ i).type (Graded T G)) (r : ty.type (Graded T G)) (h : p.run pr x = .ok r) :
    p.run pr (fun i => (Γ i).map (pick c) (hΓ i) (x i)) = .ok (ty.map (pick c) hty r) := by
  have h1 : Hom false (pick c : Graded T G → T) := by
    refine ⟨by cases c <;> rfl, by cases c <;> rfl, fun x y => ?_, fun x y => ?_, fun x y => ?_, fun x => ?_⟩ <;>
      [have := upd_pick c (a := x) (x := AddAssignRef.addAssign x.a y.a) (y := AddAssignRef.addAssign x.b y.b) (g := addGrade x.grade y.grade);
       have := upd_pick c (a := x) (x := SubAssignRef.subAssign x.a y.a) (y := SubAssignRef.subAssign x.b y.b) (g := addGrade x.grade y.grade);
       have := both_pick c (x := mulRefs x.a y.a) (y := mulRefs x.b y.b) (g := .ok (mulGrade x.grade y.grade));
       have := both_pick c (x := RNeg.neg x.a) (y := RNeg.neg x.b) (g := .ok x.grade)] <;> cases c <;> exact this
  have h2 : HomV false (pick c : Graded T G → T) := by
    refine ⟨by cases c <;> rfl, fun x y => ?_, fun x y => ?_, fun x y => ?_, fun x y => ?_, fun x y => ?_⟩ <;>
      [have := both_pick c (x := RAdd.add x.a y.a) (y := RAdd.add x.b y.b) (g := addGrade x.grade y.grade);
       have := both_pick c (x := RSub.sub x.a y.a) (y := RSub.sub x.b y.b) (g := addGrade x.grade y.grade);
       have := both_pick c (x := RMul.mul x.a y.a) (y := RMul.mul x.b y.b) (g := .ok (mulGrade x.grade y.grade));
       have := upd_pick c (a := x) (x := RAddAssign.addAssign x.a y.a) (y := RAddAssign.addAssign x.b y.b) (g := addGrade x.grade y.grade);
       have := upd_pick c (a := x) (x := RSubAssign.subAssign x.a y.a) (y := RSubAssign.subAssign x.b y.b) (g := addGrade x.grade y.grade)] <;>
      cases c <;> exact this
  have h3 : ∀ x : Graded T G, ResRel false (pick c) (RConj.conj x) (RConj.conj (pick c x)) := by
    intro x
    have := both_pick c (x := RConj.conj x.a) (y := RConj.conj x.b) (g := .ok (x.grade.map fun d => -d))
    cases c <;> exact this
  have := Prog.run_rel h1 h2 h3 pr x _ (fun i => ((Γ i).rel_iff (hΓ i) _ _).2 rfl) p
  rw [h] at this
  obtain ⟨b, hb, hr⟩ := this
  rw [hb, (ty.rel_iff hty _ _).1 hr]

end Graded

/-! ## Floating point numbers -/

namespace Ieee

variable {F : Fmt}

theorem flip_same {d : ZMod 2} {a b : Ieee F} (h : Same a b) : Same (flip d a) (flip d b) := by
  unfold flip; split <;> [exact h; exact h.neg]

theorem flip_add (d : ZMod 2) (a b : Ieee F) : Same (add (flip d a) (flip d b)) (flip d (add a b)) := by
  unfold flip; split <;> [exact .refl _; exact neg_add a b]

theorem flip_neg (d : ZMod 2) (a : Ieee F) : (flip d a).neg = flip d a.neg := by
  unfold flip; split <;> rfl

theorem flip_sub (d : ZMod 2) (a b : Ieee F) : Same (sub (flip d a) (flip d b)) (flip d (sub a b)) := by
  show Same (add _ (flip d b).neg) _
  rw [flip_neg]; exact flip_add d a b.neg

theorem flip_mul (d e : ZMod 2) (a b : Ieee F) : mul (flip d a) (flip e b) = flip (d + e) (mul a b) := by
  fin_cases d <;> fin_cases e
  · rfl
  · exact mul_neg a b
  · exact neg_mul a b
  · show mul a.neg b.neg = mul a b
    rw [neg_mul, mul_neg, neg_neg]

theorem flip_zero (d : ZMod 2) : Same (zero false : Ieee F) (flip d (zero false)) := by
  unfold flip; split <;> [exact .refl _; exact .inr ⟨_, _, rfl, rfl⟩]

theorem symm : Graded.Symm (G := ZMod 2) (flip (F := F)) Same where
  zero := flip_zero
  one := .refl _
  addAssignRef := by rintro d _ x y x' y' r r' rfl hx hy h h'; cases h; cases h'; exact (hx.add hy).trans (flip_add d x y)
  subAssignRef := by rintro d _ x y x' y' r r' rfl hx hy h h'; cases h; cases h'; exact (hx.sub hy).trans (flip_sub d x y)
  mulRefs := by
    rintro d e x y x' y' r r' _ hx hy h h'; cases h; cases h'
    have := hx.mul hy
    rwa [flip_mul] at this
  neg := by rintro d x x' r r' hx h h'; cases h; cases h'; rw [← flip_neg]; exact hx.neg
  add := by rintro d _ x y x' y' r r' rfl hx hy h h'; cases h; cases h'; exact (hx.add hy).trans (flip_add d x y)
  sub := by rintro d _ x y x' y' r r' rfl hx hy h h'; cases h; cases h'; exact (hx.sub hy).trans (flip_sub d x y)
  mul := by
    rintro d e x y x' y' r r' _ hx hy h h'; cases h; cases h'
    have := hx.mul hy
    rwa [flip_mul] at this
  addAssign := by rintro d _ x y x' y' r r' rfl hx hy h h'; cases h; cases h'; exact (hx.add hy).trans (flip_add d x y)
  subAssign := by rintro d _ x y x' y' r r' rfl hx hy h h'; cases h; cases h'; exact (hx.sub hy).trans (flip_sub d x y)
  conj := by
    rintro d x x' r r' hx h h'; cases h; cases h'
    rw [show -d = d from (by decide : ∀ d : ZMod 2, -d = d) d]; exact hx

end Ieee

namespace Complex

open Ieee

variable {F : Fmt}

/-- The operations on complex numbers as plain functions. -/
def addC (z w : Complex (Ieee F)) : Complex (Ieee F) := ⟨z.re.add w.re, z.im.add w.im⟩
def subC (z w : Complex (Ieee F)) : Complex (Ieee F) := ⟨z.re.sub w.re, z.im.sub w.im⟩
def mulC (z w : Complex (Ieee F)) : Complex (Ieee F) :=
  ⟨(z.re.mul w.re).sub (z.im.mul w.im), (z.re.mul w.im).add (z.im.mul w.re)⟩
def negC (z : Complex (Ieee F)) : Complex (Ieee F) := ⟨z.re.neg, z.im.neg⟩

theorem SameC.refl (z : Complex (Ieee F)) : SameC z z := ⟨.refl _, .refl _⟩
theorem SameC.trans {z w v : Complex (Ieee F)} (h : SameC z w) (h' : SameC w v) : SameC z v := ⟨h.1.trans h'.1, h.2.trans h'.2⟩
theorem SameC.addC {z w z' w' : Complex (Ieee F)} (h : SameC z z') (h' : SameC w w') : SameC (addC z w) (addC z' w') :=
  ⟨h.1.add h'.1, h.2.add h'.2⟩
theorem SameC.subC {z w z' w' : Complex (Ieee F)} (h : SameC z z') (h' : SameC w w') : SameC (subC z w) (subC z' w') :=
  ⟨h.1.sub h'.1, h.2.sub h'.2⟩
theorem SameC.mulC {z w z' w' : Complex (Ieee F)} (h : SameC z z') (h' : SameC w w') : SameC (mulC z w) (mulC z' w') :=
  ⟨(h.1.mul h'.1).sub (h.2.mul h'.2), (h.1.mul h'.2).add (h.2.mul h'.1)⟩
theorem SameC.negC {z z' : Complex (Ieee F)} (h : SameC z z') : SameC (negC z) (negC z') := ⟨h.1.neg, h.2.neg⟩
theorem SameC.bar {z z' : Complex (Ieee F)} (h : SameC z z') : SameC (bar z) (bar z') := ⟨h.1, h.2.neg⟩

theorem SameC.turn {d : ZMod 4} {z z' : Complex (Ieee F)} (h : SameC z z') : SameC (Complex.turn d z) (Complex.turn d z') := by
  unfold Complex.turn
  split
  · exact h
  · split
    · exact ⟨h.2.neg, h.1⟩
    · split
      · exact ⟨h.1.neg, h.2.neg⟩
      · exact ⟨h.2, h.1.neg⟩

theorem turn_neg (d : ZMod 4) (z : Complex (Ieee F)) : negC (turn d z) = turn d (negC z) := by
  fin_cases d <;> rfl

theorem turn_add (d : ZMod 4) (z w : Complex (Ieee F)) : SameC (addC (turn d z) (turn d w)) (turn d (addC z w)) := by
  fin_cases d
  · exact .refl _
  · exact ⟨neg_add _ _, .refl _⟩
  · exact ⟨neg_add _ _, neg_add _ _⟩
  · exact ⟨.refl _, neg_add _ _⟩

theorem bar_add (z w : Complex (Ieee F)) : SameC (addC (bar z) (bar w)) (bar (addC z w)) := ⟨.refl _, neg_add _ _⟩
theorem bar_mul (z w : Complex (Ieee F)) : SameC (mulC (bar z) (bar w)) (bar (mulC z w)) := by
  refine ⟨?_, ?_⟩
  · show Same (Ieee.sub _ (Ieee.mul z.im.neg w.im.neg)) _
    rw [Ieee.neg_mul, Ieee.mul_neg, Ieee.neg_neg]
    exact .refl _
  · show Same (Ieee.add (Ieee.mul z.re w.im.neg) (Ieee.mul z.im.neg w.re)) _
    rw [Ieee.neg_mul, Ieee.mul_neg]
    exact neg_add _ _

/-- A single quarter turn of a factor. -/
theorem turn1_mul (z w : Complex (Ieee F)) : SameC (mulC (turn 1 z) w) (turn 1 (mulC z w)) := by
  refine ⟨?_, ?_⟩
  · show Same (Ieee.sub (Ieee.mul z.im.neg w.re) (Ieee.mul z.re w.im)) (Ieee.neg (Ieee.add (Ieee.mul z.re w.im) (Ieee.mul z.im w.re)))
    rw [Ieee.neg_mul, Ieee.add_comm (Ieee.mul z.re w.im)]
    exact neg_add _ _
  · show Same (Ieee.add (Ieee.mul z.im.neg w.im) (Ieee.mul z.re w.re)) (Ieee.sub (Ieee.mul z.re w.re) (Ieee.mul z.im w.im))
    rw [Ieee.neg_mul, Ieee.add_comm]
    exact .refl _

theorem mulC_comm (z w : Complex (Ieee F)) : mulC z w = mulC w z := by
  unfold mulC
  rw [Ieee.mul_comm z.re, Ieee.mul_comm z.im w.im, Ieee.mul_comm z.re w.im, Ieee.mul_comm z.im w.re, Ieee.add_comm]

theorem turn_succ (d : ZMod 4) (z : Complex (Ieee F)) : turn (d + 1) z = turn 1 (turn d z) := by
  fin_cases d
  · rfl
  · rfl
  · show Complex.mk z.im z.re.neg = ⟨z.im.neg.neg, z.re.neg⟩
    rw [Ieee.neg_neg]
  · show z = ⟨z.re.neg.neg, z.im⟩
    rw [Ieee.neg_neg]

theorem turn_mul_left (d : ZMod 4) (z w : Complex (Ieee F)) : SameC (mulC (turn d z) w) (turn d (mulC z w)) := by
  have key : ∀ n : ℕ, SameC (mulC (turn (n : ZMod 4) z) w) (turn (n : ZMod 4) (mulC z w)) := by
    intro n
    induction n with
    | zero => exact .refl _
    | succ n ih =>
      rw [Nat.cast_succ, turn_succ, turn_succ]
      exact (turn1_mul _ _).trans ih.turn
  have := key d.val
  rwa [ZMod.natCast_val, ZMod.cast_id] at this

theorem turn_add_turn (d e : ZMod 4) (z : Complex (Ieee F)) : turn d (turn e z) = turn (d + e) z := by
  have key : ∀ n : ℕ, turn (n : ZMod 4) (turn e z) = turn (n + e) z := by
    intro n
    induction n with
    | zero => rw [Nat.cast_zero, _root_.zero_add]; rfl
    | succ n ih => rw [Nat.cast_succ, turn_succ, ih, ← turn_succ]; congr 1; ring
  have := key d.val
  rwa [ZMod.natCast_val, ZMod.cast_id] at this

theorem turn_mul (d e : ZMod 4) (z w : Complex (Ieee F)) : SameC (mulC (turn d z) (turn e w)) (turn (d + e) (mulC z w)) := by
  refine (turn_mul_left d z _).trans ?_
  rw [← turn_add_turn, mulC_comm, mulC_comm z]
  exact (turn_mul_left e w z).turn

theorem turn_bar (d : ZMod 4) (z : Complex (Ieee F)) : bar (turn d z) = turn (-d) (bar z) := by
  fin_cases d
  · rfl
  · show Complex.mk z.im.neg z.re.neg = turn 3 (bar z)
    rfl
  · rfl
  · show Complex.mk z.im z.re.neg.neg = turn 1 (bar z)
    show _ = Complex.mk z.im.neg.neg z.re
    rw [Ieee.neg_neg, Ieee.neg_neg]

variable {m : Bool}

theorem image_add (d : ZMod 4) (z w : Complex (Ieee F)) : SameC (addC (image m d z) (image m d w)) (image m d (addC z w)) := by
  refine (turn_add d _ _).trans (SameC.turn ?_)
  cases m
  · exact .refl _
  · exact bar_add z w

theorem image_neg (d : ZMod 4) (z : Complex (Ieee F)) : negC (image m d z) = image m d (negC z) := by
  unfold image
  rw [turn_neg]
  cases m <;> rfl

theorem subC_eq (z w : Complex (Ieee F)) : subC z w = addC z (negC w) := rfl

theorem image_sub (d : ZMod 4) (z w : Complex (Ieee F)) : SameC (subC (image m d z) (image m d w)) (image m d (subC z w)) := by
  rw [subC_eq, subC_eq, image_neg]; exact image_add d z _

theorem image_mul (d e : ZMod 4) (z w : Complex (Ieee F)) : SameC (mulC (image m d z) (image m e w)) (image m (d + e) (mulC z w)) := by
  refine (turn_mul d e _ _).trans (SameC.turn ?_)
  cases m
  · exact .refl _
  · exact bar_mul z w

theorem image_bar (d : ZMod 4) (z : Complex (Ieee F)) : bar (image m d z) = image m (-d) (bar z) := by
  unfold image
  rw [turn_bar]
  cases m <;> rfl

theorem image_zero (d : ZMod 4) : SameC (zero : Complex (Ieee F)) (image m d zero) := by
  have : ∀ s : Bool, Same (zero : Ieee F) (Ieee.zero s) := fun s => .inr ⟨_, _, rfl, rfl⟩
  fin_cases d <;> cases m <;> exact ⟨this _, this _⟩

theorem image_one : SameC (one : Complex (Ieee F)) (image m 0 one) := by
  cases m
  · exact .refl _
  · exact ⟨.refl _, .inr ⟨_, _, rfl, rfl⟩⟩

theorem symm : Graded.Symm (G := ZMod 4) (image (F := F) m) SameC where
  zero := image_zero
  one := image_one
  addAssignRef := by rintro d _ x y x' y' r r' rfl hx hy h h'; cases h; cases h'; exact (hx.addC hy).trans (image_add d x y)
  subAssignRef := by rintro d _ x y x' y' r r' rfl hx hy h h'; cases h; cases h'; exact (hx.subC hy).trans (image_sub d x y)
  mulRefs := by rintro d e x y x' y' r r' _ hx hy h h'; cases h; cases h'; exact (hx.mulC hy).trans (image_mul d e x y)
  neg := by rintro d x x' r r' hx h h'; cases h; cases h'; have := hx.negC; rwa [image_neg] at this
  add := by rintro d _ x y x' y' r r' rfl hx hy h h'; cases h; cases h'; exact (hx.addC hy).trans (image_add d x y)
  sub := by rintro d _ x y x' y' r r' rfl hx hy h h'; cases h; cases h'; exact (hx.subC hy).trans (image_sub d x y)
  mul := by rintro d e x y x' y' r r' _ hx hy h h'; cases h; cases h'; exact (hx.mulC hy).trans (image_mul d e x y)
  addAssign := by rintro d _ x y x' y' r r' rfl hx hy h h'; cases h; cases h'; exact (hx.addC hy).trans (image_add d x y)
  subAssign := by rintro d _ x y x' y' r r' rfl hx hy h h'; cases h; cases h'; exact (hx.subC hy).trans (image_sub d x y)
  conj := by
    rintro d x x' r r' hx h h'
    cases h; cases h'
    have := hx.bar
    rwa [image_bar] at this

end Complex

end Magnesia
