import Verif.Spec.Program
import Verif.Spec.IeeeSame
import Mathlib.Data.ZMod.Basic

/-!
# Specification of property C90: mirror images and quarter turns
-/

namespace Magnesia

/-- A number computed twice, from given inputs (`a`) and from transformed inputs (`b`), with the transformation that takes the first
to the second (none: a zero, which every transformation leaves alone). Adding numbers that are transformed differently panics. -/
structure Graded (T G : Type) where
  a : T
  b : T
  grade : Option G

namespace Graded

variable {T G : Type}

/-- The transformation of a sum: that of the summands, which must agree. -/
def addGrade [DecidableEq G] : Option G → Option G → Res (Option G)
  | none, e => .ok e
  | d, none => .ok d
  | some d, some e => if d = e then .ok (some d) else .error .user

/-- The transformation of a product: one after the other. -/
def mulGrade [Add G] : Option G → Option G → Option G
  | some d, some e => some (d + e)
  | _, _ => none

/-- Both computations, with the transformation of the result. -/
def both (x y : Res T) (g : Res (Option G)) : Res (Graded T G) := do pure ⟨← x, ← y, ← g⟩

section
variable [RRing T] [RAdd T T T] [RSub T T T] [RMul T T T] [RAddAssign T T] [RSubAssign T T] [RConj T] [AddCommGroup G] [DecidableEq G]

instance : RZero (Graded T G) := ⟨⟨RZero.zero, RZero.zero, none⟩⟩
instance : ROne (Graded T G) := ⟨⟨ROne.one, ROne.one, some 0⟩⟩
instance : AddAssignRef (Graded T G) := ⟨fun x y => Upd.ofRes x
  (both (AddAssignRef.addAssign x.a y.a).toRes (AddAssignRef.addAssign x.b y.b).toRes (addGrade x.grade y.grade))⟩
instance : SubAssignRef (Graded T G) := ⟨fun x y => Upd.ofRes x
  (both (SubAssignRef.subAssign x.a y.a).toRes (SubAssignRef.subAssign x.b y.b).toRes (addGrade x.grade y.grade))⟩
instance : MulRefs (Graded T G) := ⟨fun x y => both (MulRefs.mulRefs x.a y.a) (MulRefs.mulRefs x.b y.b) (.ok (mulGrade x.grade y.grade))⟩
instance : RNeg (Graded T G) := ⟨fun x => both (RNeg.neg x.a) (RNeg.neg x.b) (.ok x.grade)⟩
instance : RPartialEq (Graded T G) := ⟨fun x y => RPartialEq.eq x.a y.a⟩
instance : RRing (Graded T G) where
instance : RAdd (Graded T G) (Graded T G) (Graded T G) :=
  ⟨fun x y => both (RAdd.add x.a y.a) (RAdd.add x.b y.b) (addGrade x.grade y.grade)⟩
instance : RSub (Graded T G) (Graded T G) (Graded T G) :=
  ⟨fun x y => both (RSub.sub x.a y.a) (RSub.sub x.b y.b) (addGrade x.grade y.grade)⟩
instance : RMul (Graded T G) (Graded T G) (Graded T G) :=
  ⟨fun x y => both (RMul.mul x.a y.a) (RMul.mul x.b y.b) (.ok (mulGrade x.grade y.grade))⟩
instance : RAddAssign (Graded T G) (Graded T G) := ⟨fun x y => Upd.ofRes x
  (both (RAddAssign.addAssign x.a y.a).toRes (RAddAssign.addAssign x.b y.b).toRes (addGrade x.grade y.grade))⟩
instance : RSubAssign (Graded T G) (Graded T G) := ⟨fun x y => Upd.ofRes x
  (both (RSubAssign.subAssign x.a y.a).toRes (RSubAssign.subAssign x.b y.b).toRes (addGrade x.grade y.grade))⟩
/-- Conjugation reverses the transformation. -/
instance : RConj (Graded T G) := ⟨fun x => both (RConj.conj x.a) (RConj.conj x.b) (.ok (x.grade.map fun d => -d))⟩

end

/-- The second number is the transformed first number (`act d` transforms, `same` is the equality). -/
def Consistent (act : G → T → T) (same : T → T → Prop) (x : Graded T G) : Prop :=
  match x.grade with
  | some d => same x.b (act d x.a)
  | none => ∀ d, same x.b (act d x.a)

end Graded

variable {F : Fmt}

/-- Change the sign, or not. -/
def Ieee.flip (d : ZMod 2) (a : Ieee F) : Ieee F := if d = 0 then a else a.neg

/-- A turn by `d` right angles: multiplication by `i^d`, done by exchanging parts and changing signs. -/
def Complex.turn (d : ZMod 4) (z : Complex (Ieee F)) : Complex (Ieee F) :=
  if d = 0 then z else if d = 1 then ⟨z.im.neg, z.re⟩ else if d = 2 then ⟨z.re.neg, z.im.neg⟩ else ⟨z.im, z.re.neg⟩

/-- The complex conjugate. -/
def Complex.bar (z : Complex (Ieee F)) : Complex (Ieee F) := ⟨z.re, z.im.neg⟩

/-- The number itself or its mirror image at the real axis, as `m` says, turned by `d` right angles. -/
def Complex.image (m : Bool) (d : ZMod 4) (z : Complex (Ieee F)) : Complex (Ieee F) := Complex.turn d (if m then z.bar else z)

/-- The real number `x` as a complex number. Nothing is claimed if `x` is infinite or NaN. -/
def Complex.Embeds (x : Ieee F) (z : Complex (Ieee F)) : Prop := x.Finite → z.re.Same x ∧ ∃ s, z.im = .zero s

end Magnesia
