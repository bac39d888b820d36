import Verif.Model.ElemEff

/-!
# Element types whose operators have effects: specification
-/

namespace Magnesia



variable {W T E α σ : Type}

/-- A computation whose outcome (value or panic) is `r` in every world, whatever it does to the world. -/
def Tells (x : Proc W α) (r : Res α) : Prop := ∀ w, (x w).1 = r

/-- The same for a mutation: the state left behind and the panic, if any. -/
def TellsU (u : EUpd W σ) (r : Upd σ) : Prop := ∀ w, (u w).1 = r

/-- An instrumented element type: its operators have any effects, but return (or panic with) what the operators without effects do. -/
structure EOps.Computes [RZero T] [ROne T] [AddAssignRef T] [SubAssignRef T] [MulRefs T] [RNeg T] [RConj T] [RAdd T T T] [RSub T T T]
    [RMul T T T] [RAddAssign T T] [RSubAssign T T] (o : EOps W T) : Prop where
  zero : Tells o.zero (.ok RZero.zero)
  one : Tells o.one (.ok ROne.one)
  clone : ∀ x, Tells (o.clone x) (.ok x)
  addAssign : ∀ x y, TellsU (o.addAssign x y) (AddAssignRef.addAssign x y)
  subAssign : ∀ x y, TellsU (o.subAssign x y) (SubAssignRef.subAssign x y)
  mulRefs : ∀ x y, Tells (o.mulRefs x y) (MulRefs.mulRefs x y)
  neg : ∀ x, Tells (o.neg x) (RNeg.neg x)
  conj : ∀ x, Tells (o.conj x) (RConj.conj x)
  add : ∀ x y, Tells (o.add x y) (RAdd.add x y)
  sub : ∀ x y, Tells (o.sub x y) (RSub.sub x y)
  mul : ∀ x y, Tells (o.mul x y) (RMul.mul x y)
  addAssignV : ∀ x y, TellsU (o.addAssignV x y) (RAddAssign.addAssign x y)
  subAssignV : ∀ x y, TellsU (o.subAssignV x y) (RSubAssign.subAssign x y)

/-- What each operator appends to a log kept in the world. -/
structure OpCosts (E : Type) where
  zero : List E
  one : List E
  clone : List E
  addAssign : List E
  subAssign : List E
  mulRefs : List E
  neg : List E
  conj : List E
  add : List E
  sub : List E
  mul : List E
  addAssignV : List E
  subAssignV : List E

/-- A computation appends `l` to the log if it returns, and a prefix of `l` if it panics. -/
def Charges (log : W → List E) (x : Proc W α) (l : List E) : Prop := ∀ w,
  ((∃ y, (x w).1 = .ok y) → log (x w).2 = log w ++ l) ∧ ∃ l', l' <+: l ∧ log (x w).2 = log w ++ l'

/-- The same for a mutation. -/
def ChargesU (log : W → List E) (u : EUpd W σ) (l : List E) : Prop := ∀ w,
  ((u w).1.panic = none → log (u w).2 = log w ++ l) ∧ ∃ l', l' <+: l ∧ log (u w).2 = log w ++ l'

/-- The operators append what `c` says. -/
structure EOps.Metered (o : EOps W T) (log : W → List E) (c : OpCosts E) : Prop where
  zero : Charges log o.zero c.zero
  one : Charges log o.one c.one
  clone : ∀ x, Charges log (o.clone x) c.clone
  addAssign : ∀ x y, ChargesU log (o.addAssign x y) c.addAssign
  subAssign : ∀ x y, ChargesU log (o.subAssign x y) c.subAssign
  mulRefs : ∀ x y, Charges log (o.mulRefs x y) c.mulRefs
  neg : ∀ x, Charges log (o.neg x) c.neg
  conj : ∀ x, Charges log (o.conj x) c.conj
  add : ∀ x y, Charges log (o.add x y) c.add
  sub : ∀ x y, Charges log (o.sub x y) c.sub
  mul : ∀ x y, Charges log (o.mul x y) c.mul
  addAssignV : ∀ x y, ChargesU log (o.addAssignV x y) c.addAssignV
  subAssignV : ∀ x y, ChargesU log (o.subAssignV x y) c.subAssignV

/-- `l` repeated `k` times. -/
def rep (k : ℕ) (l : List E) : List E := (List.replicate k l).flatten

namespace OpCosts

variable (c : OpCosts E)

/-- Operators of `Complex<T>`: a product takes four products, one `-=` and one `+=` of the parts; everything else acts on the real part
and then on the imaginary part (`conj` on the latter only). -/
def complex : OpCosts E where
  zero := c.zero ++ c.zero
  one := c.one ++ c.zero
  clone := c.clone ++ c.clone
  addAssign := c.addAssign ++ c.addAssign
  subAssign := c.subAssign ++ c.subAssign
  mulRefs := c.mulRefs ++ c.mulRefs ++ c.mulRefs ++ c.mulRefs ++ c.subAssign ++ c.addAssign
  neg := c.neg ++ c.neg
  conj := c.neg
  add := c.add ++ c.add
  sub := c.sub ++ c.sub
  mul := c.mulRefs ++ c.mulRefs ++ c.mulRefs ++ c.mulRefs ++ c.subAssign ++ c.addAssign
  addAssignV := c.addAssignV ++ c.addAssignV
  subAssignV := c.subAssignV ++ c.subAssignV

/-- One entry of a matrix product with inner dimension `k`, or a dot product of `k` entries. -/
def dot (k : ℕ) : List E := c.zero ++ rep k (c.mulRefs ++ c.addAssign)

/-- Operators of `n × n` matrices: `n²` times the operator of the entries, except for the product and `one()`. -/
def smatrix (n : ℕ) : OpCosts E where
  zero := rep (n * n) c.zero
  one := (List.finRange n).flatMap fun i => (List.finRange n).flatMap fun j => if i = j then c.one else c.zero
  clone := rep (n * n) c.clone
  addAssign := rep (n * n) c.addAssign
  subAssign := rep (n * n) c.subAssign
  mulRefs := rep (n * n) (c.dot n)
  neg := rep (n * n) c.neg
  conj := rep (n * n) c.conj
  add := rep (n * n) c.addAssign
  sub := rep (n * n) c.subAssign
  mul := rep (n * n) (c.dot n)
  addAssignV := rep (n * n) c.addAssign
  subAssignV := rep (n * n) c.subAssign

end OpCosts

/-- Names of the operators of an element type. -/
inductive OpName
  | zero | one | clone | addAssign | subAssign | mulRefs | neg | conj | add | sub | mul | addAssignV | subAssignV
deriving DecidableEq, Repr

/-- Append a name to the log, then do `x`. -/
def Proc.logged (e : OpName) (x : Res α) : Proc (List OpName) α := fun w => (x, w ++ [e])

/-- Append a name to the log, then do `u`. -/
def EUpd.logged (e : OpName) (u : Upd σ) : EUpd (List OpName) σ := fun w => (u, w ++ [e])

/-- Any element type without effects, with operators that write their names to a log. -/
def EOps.logged (T : Type) [RZero T] [ROne T] [AddAssignRef T] [SubAssignRef T] [MulRefs T] [RNeg T] [RConj T] [RAdd T T T] [RSub T T T]
    [RMul T T T] [RAddAssign T T] [RSubAssign T T] : EOps (List OpName) T where
  zero := Proc.logged .zero (.ok RZero.zero)
  one := Proc.logged .one (.ok ROne.one)
  clone x := Proc.logged .clone (.ok x)
  addAssign x y := EUpd.logged .addAssign (AddAssignRef.addAssign x y)
  subAssign x y := EUpd.logged .subAssign (SubAssignRef.subAssign x y)
  mulRefs x y := Proc.logged .mulRefs (MulRefs.mulRefs x y)
  neg x := Proc.logged .neg (RNeg.neg x)
  conj x := Proc.logged .conj (RConj.conj x)
  add x y := Proc.logged .add (RAdd.add x y)
  sub x y := Proc.logged .sub (RSub.sub x y)
  mul x y := Proc.logged .mul (RMul.mul x y)
  addAssignV x y := EUpd.logged .addAssignV (RAddAssign.addAssign x y)
  subAssignV x y := EUpd.logged .subAssignV (RSubAssign.subAssign x y)

/-- Each operator writes its name. -/
def OpName.costs : OpCosts OpName :=
  ⟨[.zero], [.one], [.clone], [.addAssign], [.subAssign], [.mulRefs], [.neg], [.conj], [.add], [.sub], [.mul], [.addAssignV], [.subAssignV]⟩

end Magnesia
