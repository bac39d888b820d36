import Verif.Spec.ElemEff
import Mathlib.Order.Defs.PartialOrder

/-!
# Elements that are handles: representations of values in a mutable world, and tapes
-/

namespace Magnesia

variable {W T S α β : Type}

/-- How handles of type `T` represent values of type `S`, depending on the state of the world. The world grows along `≤`; a handle keeps
its value when the world grows. -/
structure Represents (W T S : Type) [Preorder W] where
  rel : W → T → S → Prop
  mono : ∀ {w w' x a}, w ≤ w' → rel w x a → rel w' x a

namespace Represents

variable [Preorder W]

/-- Started in the world `w`, the computation `x` does what `r` does: the world grows, and both return, with a handle that represents the
value, or both panic with the same message. -/
def Sim (R : Represents W α β) (x : Proc W α) (r : Res β) (w : W) : Prop :=
  w ≤ (x w).2 ∧ match (x w).1, r with
    | .ok y, .ok b => R.rel (x w).2 y b
    | .error e, .error e' => e = e'
    | _, _ => False

/-- The same for mutations: whether or not they panic, what is left behind represents what is left behind. -/
def SimU (R : Represents W α β) (u : EUpd W α) (r : Upd β) (w : W) : Prop :=
  w ≤ (u w).2 ∧ R.rel (u w).2 (u w).1.val r.val ∧ (u w).1.panic = r.panic

/-- Polynomials of handles: coefficient by coefficient. -/
def poly (R : Represents W T S) : Represents W (Poly T) (Poly S) :=
  ⟨fun w p q => List.Forall₂ (R.rel w) p.a q.a, fun h hp => hp.imp fun _ _ => R.mono h⟩

/-- Complex numbers of handles. -/
def complex (R : Represents W T S) : Represents W (Complex T) (Complex S) :=
  ⟨fun w z z' => R.rel w z.re z'.re ∧ R.rel w z.im z'.im, fun h hp => ⟨R.mono h hp.1, R.mono h hp.2⟩⟩

/-- Static vectors of handles. -/
def svector (R : Represents W T S) (n : ℕ) : Represents W (SVector T n) (SVector S n) :=
  ⟨fun w u v => ∀ i, R.rel w (u.val i) (v.val i), fun h hp i => R.mono h (hp i)⟩

/-- Static matrices of handles. -/
def smatrix (R : Represents W T S) (r c : ℕ) : Represents W (SMatrix T r c) (SMatrix S r c) :=
  ⟨fun w a b => ∀ i j, R.rel w (a.val i j) (b.val i j), fun h hp i j => R.mono h (hp i j)⟩

/-- Dynamic vectors of handles. -/
def dvector (R : Represents W T S) : Represents W (DVector T) (DVector S) :=
  ⟨fun w u v => List.Forall₂ (R.rel w) u.data v.data, fun h hp => hp.imp fun _ _ => R.mono h⟩

/-- Dynamic matrices of handles: of the same shape. -/
def dmatrix (R : Represents W T S) : Represents W (DMatrix T) (DMatrix S) :=
  ⟨fun w a b => List.Forall₂ (R.rel w) a.data b.data ∧ a.numRows = b.numRows ∧ a.numCols = b.numCols,
    fun h hp => ⟨hp.1.imp fun _ _ => R.mono h, hp.2⟩⟩

end Represents

/-- The operators on handles do to the represented values what the operators of `S` do. -/
structure EOps.Simulates [Preorder W] [RZero S] [ROne S] [AddAssignRef S] [SubAssignRef S] [MulRefs S] [RNeg S] [RConj S] [RAdd S S S]
    [RSub S S S] [RMul S S S] [RAddAssign S S] [RSubAssign S S] (o : EOps W T) (R : Represents W T S) : Prop where
  zero : ∀ w, R.Sim o.zero (.ok RZero.zero) w
  one : ∀ w, R.Sim o.one (.ok ROne.one) w
  clone : ∀ w x a, R.rel w x a → R.Sim (o.clone x) (.ok a) w
  addAssign : ∀ w x y a b, R.rel w x a → R.rel w y b → R.SimU (o.addAssign x y) (AddAssignRef.addAssign a b) w
  subAssign : ∀ w x y a b, R.rel w x a → R.rel w y b → R.SimU (o.subAssign x y) (SubAssignRef.subAssign a b) w
  mulRefs : ∀ w x y a b, R.rel w x a → R.rel w y b → R.Sim (o.mulRefs x y) (MulRefs.mulRefs a b) w
  neg : ∀ w x a, R.rel w x a → R.Sim (o.neg x) (RNeg.neg a) w
  conj : ∀ w x a, R.rel w x a → R.Sim (o.conj x) (RConj.conj a) w
  add : ∀ w x y a b, R.rel w x a → R.rel w y b → R.Sim (o.add x y) (RAdd.add a b) w
  sub : ∀ w x y a b, R.rel w x a → R.rel w y b → R.Sim (o.sub x y) (RSub.sub a b) w
  mul : ∀ w x y a b, R.rel w x a → R.rel w y b → R.Sim (o.mul x y) (RMul.mul a b) w
  addAssignV : ∀ w x y a b, R.rel w x a → R.rel w y b → R.SimU (o.addAssignV x y) (RAddAssign.addAssign a b) w
  subAssignV : ∀ w x y a b, R.rel w x a → R.rel w y b → R.SimU (o.subAssignV x y) (RSubAssign.subAssign a b) w

/-! ## Tapes -/

/-- An entry of a tape: an input, or an operation applied to earlier entries (operations with fewer arguments ignore the others). -/
inductive Node
  | input (k : ℕ)
  | call (op : OpName) (x y : ℕ)
deriving DecidableEq, Repr

/-- A tape is written at its end only. -/
structure Tape where
  nodes : List Node
deriving DecidableEq, Repr

instance : Preorder Tape where
  le s t := s.nodes <+: t.nodes
  le_refl s := List.prefix_refl s.nodes
  le_trans _ _ _ h h' := h.trans h'

/-- Write an entry; the handle is its position. -/
def Tape.push (n : Node) : Proc Tape ℕ := fun t => (.ok t.nodes.length, ⟨t.nodes ++ [n]⟩)

/-- `*self = <new entry>`. -/
def Tape.pushAssign (n : Node) : EUpd Tape ℕ := fun t => (.done t.nodes.length, ⟨t.nodes ++ [n]⟩)

/-- An element type that computes nothing: it writes down what is to be computed. -/
def Tape.ops : EOps Tape ℕ where
  zero := Tape.push (.call .zero 0 0)
  one := Tape.push (.call .one 0 0)
  clone x := pure x
  addAssign x y := Tape.pushAssign (.call .addAssign x y)
  subAssign x y := Tape.pushAssign (.call .subAssign x y)
  mulRefs x y := Tape.push (.call .mulRefs x y)
  neg x := Tape.push (.call .neg x 0)
  conj x := Tape.push (.call .conj x 0)
  add x y := Tape.push (.call .add x y)
  sub x y := Tape.push (.call .sub x y)
  mul x y := Tape.push (.call .mul x y)
  addAssignV x y := Tape.pushAssign (.call .addAssignV x y)
  subAssignV x y := Tape.pushAssign (.call .subAssignV x y)

/-- The operators of an element type without effects by name. -/
def OpName.apply [RZero S] [ROne S] [AddAssignRef S] [SubAssignRef S] [MulRefs S] [RNeg S] [RConj S] [RAdd S S S] [RSub S S S]
    [RMul S S S] [RAddAssign S S] [RSubAssign S S] (a b : S) : OpName → Res S
  | .zero => .ok RZero.zero
  | .one => .ok ROne.one
  | .clone => .ok a
  | .addAssign => (AddAssignRef.addAssign a b).toRes
  | .subAssign => (SubAssignRef.subAssign a b).toRes
  | .mulRefs => MulRefs.mulRefs a b
  | .neg => RNeg.neg a
  | .conj => RConj.conj a
  | .add => RAdd.add a b
  | .sub => RSub.sub a b
  | .mul => RMul.mul a b
  | .addAssignV => (RAddAssign.addAssign a b).toRes
  | .subAssignV => (RSubAssign.subAssign a b).toRes

section replay

variable [RZero S] [ROne S] [AddAssignRef S] [SubAssignRef S] [MulRefs S] [RNeg S] [RConj S] [RAdd S S S] [RSub S S S]
  [RMul S S S] [RAddAssign S S] [RSubAssign S S]

/-- The value of a position of a list of values; positions not in the list count as zero. -/
def valueAt (l : List S) (i : ℕ) : S := l[i]?.getD RZero.zero

/-- Replay a tape: the values of all entries in order, the inputs having the given values. -/
def replay (inputs : ℕ → S) : List Node → List S → Res (List S)
  | [], done => .ok done
  | .input k :: rest, done => replay inputs rest (done ++ [inputs k])
  | .call op x y :: rest, done => do
    let v ← OpName.apply (valueAt done x) (valueAt done y) op
    replay inputs rest (done ++ [v])

/-- The operators of `S` never panic. -/
def OpsNeverPanic (S : Type) [RZero S] [ROne S] [AddAssignRef S] [SubAssignRef S] [MulRefs S] [RNeg S] [RConj S] [RAdd S S S] [RSub S S S]
    [RMul S S S] [RAddAssign S S] [RSubAssign S S] : Prop := ∀ (op : OpName) (a b : S), ∃ c, op.apply a b = .ok c

theorem replay_append (inputs : ℕ → S) : ∀ (s t : List Node) (d : List S),
    replay inputs (s ++ t) d = (replay inputs s d >>= fun l => replay inputs t l)
  | [], _, _ => rfl
  | .input _ :: s, t, _ => replay_append inputs s t _
  | .call op x y :: s, t, d => by
    show (OpName.apply (valueAt d x) (valueAt d y) op >>= fun v => replay inputs (s ++ t) (d ++ [v])) =
      ((OpName.apply (valueAt d x) (valueAt d y) op >>= fun v => replay inputs s (d ++ [v])) >>= _)
    cases OpName.apply (valueAt d x) (valueAt d y) op with
    | error e => rfl
    | ok v => exact replay_append inputs s t _

theorem replay_extends (inputs : ℕ → S) (hS : OpsNeverPanic S) : ∀ (t : List Node) (d : List S), ∃ l, replay inputs t d = .ok (d ++ l) ∧
    l.length = t.length
  | [], d => ⟨[], by rw [List.append_nil]; rfl, rfl⟩
  | .input k :: t, d => by
    obtain ⟨l, h1, h2⟩ := replay_extends inputs hS t (d ++ [inputs k])
    exact ⟨inputs k :: l, by rw [replay, h1, List.append_assoc]; rfl, by rw [List.length_cons, List.length_cons, h2]⟩
  | .call op x y :: t, d => by
    obtain ⟨v, hv⟩ := hS op (valueAt d x) (valueAt d y)
    obtain ⟨l, h1, h2⟩ := replay_extends inputs hS t (d ++ [v])
    refine ⟨v :: l, ?_, by rw [List.length_cons, List.length_cons, h2]⟩
    rw [replay, hv]
    show replay inputs t (d ++ [v]) = _
    rw [h1, List.append_assoc]; rfl

/-- The handle `i` stands for the value of entry `i` in the replay. -/
def Tape.represents (hS : OpsNeverPanic S) (inputs : ℕ → S) : Represents Tape ℕ S where
  rel t i a := ∃ l, replay inputs t.nodes [] = .ok l ∧ l[i]? = some a
  mono := by
    rintro s t i a ⟨r, hr⟩ ⟨l, hl, hi⟩
    obtain ⟨m, hm, -⟩ := replay_extends inputs hS r l
    refine ⟨l ++ m, ?_, ?_⟩
    · rw [← hr, replay_append, hl]; exact hm
    · rw [List.getElem?_append_left (List.getElem?_eq_some_iff.1 hi).1]; exact hi

/-- A tape with `n` inputs and nothing else; the handle of input `k` is `k`. -/
def Tape.ofInputs (n : ℕ) : Tape := ⟨(List.range n).map Node.input⟩

end replay

end Magnesia
