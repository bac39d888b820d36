import Mathlib.Data.Fin.Tuple.Basic
import Mathlib.Data.List.FinRange

/-!
# Panics, mutation and loops

The vocabulary in which the Rust code is transcribed. Nothing in here models a particular function of the crate.
-/

namespace Magnesia

/-- The ways a modelled function can fail to return normally. All but `fuel` are Rust panics.
`fuel` is not a Rust panic: it marks a rejection-sampling loop that has not finished within the
number of draws the model was given (see `Verif/Model/DE.lean`). -/
inductive Panic
  /-- slice/array/`Vec` index out of bounds -/
  | indexOutOfBounds
  /-- failed `assert!` / `assert_eq!` -/
  | assertFailed
  /-- arithmetic overflow in a build with overflow checks -/
  | overflow
  /-- integer division by zero -/
  | divByZero
  /-- `rand`: "cannot sample empty range" -/
  | emptyRange
  /-- a panic raised by user supplied code (closure, comparator, element type) -/
  | user
  /-- model only: an operation on real numbers that has no real value (IEEE: NaN or an infinity) -/
  | undefinedReal
  /-- model only: loop did not finish within the given fuel -/
  | fuel
deriving DecidableEq, Repr

/-- Result of a computation that may panic. -/
abbrev Res (α : Type) := Except Panic α

/-- Outcome of a function taking `&mut self`: the state `self` is left in, and the panic (if any).
A panicking `&mut self` function leaves `self` in some state which the caller can observe after
`catch_unwind`. -/
structure Upd (σ : Type) where
  val : σ
  panic : Option Panic
deriving DecidableEq, Repr

namespace Upd

/-- Normal completion with new state `v`. -/
@[simp] def done {σ : Type} (v : σ) : Upd σ := ⟨v, none⟩

/-- Forget the state left behind by a panic (used where the mutated object is an owned local variable that is
dropped by the unwinding). -/
def toRes {σ : Type} (u : Upd σ) : Res σ :=
  match u.panic with
  | none => .ok u.val
  | some e => .error e

/-- `*self = <expression>`: if the expression panics, `self` is unchanged. -/
def ofRes {σ : Type} (old : σ) : Res σ → Upd σ
  | .ok v => ⟨v, none⟩
  | .error e => ⟨old, some e⟩

/-- Sequencing `a; b` of two mutations. -/
def andThen {σ : Type} (u : Upd σ) (f : σ → Upd σ) : Upd σ :=
  match u.panic with
  | none => f u.val
  | some _ => u

/-- Evaluate an operand `x` and pass it to a mutation; if the operand panics, the state `old` is unchanged. -/
def withRes {α σ : Type} (x : Res α) (old : σ) (k : α → Upd σ) : Upd σ :=
  match x with
  | .ok v => k v
  | .error e => ⟨old, some e⟩

/-- Embed the mutation of a component into the mutation of the whole. -/
def into {σ τ : Type} (u : Upd σ) (f : σ → τ) : Upd τ := ⟨f u.val, u.panic⟩

end Upd

/-- `for i in l { body(i, &mut s) }` -/
def forEach {ι σ : Type} : List ι → (ι → σ → Upd σ) → σ → Upd σ
  | [], _, s => .done s
  | i :: l, f, s => (f i s).andThen (forEach l f)

/-- `v[i]` for a slice or `Vec`. -/
def getIdx {T : Type} (l : List T) (i : Nat) : Res T :=
  match l[i]? with
  | some x => .ok x
  | none => .error .indexOutOfBounds

/-- `f(&mut v[i])` for a slice or `Vec`. -/
def updAt {T : Type} (l : List T) (i : Nat) (f : T → Upd T) : Upd (List T) :=
  match l[i]? with
  | some x => (f x).into (fun y => l.set i y)
  | none => ⟨l, some .indexOutOfBounds⟩

/-- `a[i]` for an array `[T; n]` and a run-time index. -/
def arrGet {T : Type} {n : Nat} (v : Fin n → T) (i : Nat) : Res T :=
  if h : i < n then .ok (v ⟨i, h⟩) else .error .indexOutOfBounds

/-- `f(&mut a[i])` for an array `[T; n]` and an index known to be in range (iterators). -/
def arrUpd {T : Type} {n : Nat} (v : Fin n → T) (i : Fin n) (f : T → Upd T) : Upd (Fin n → T) :=
  (f (v i)).into (fun y => Function.update v i y)

/-- `std::array::from_fn(f)`: calls `f 0`, `f 1`, ... in this order, in any effect monad. -/
def fromFnM {m : Type → Type} [Monad m] {T : Type} : (n : Nat) → (Fin n → m T) → m (Fin n → T)
  | 0, _ => pure Fin.elim0
  | n + 1, f => do
    let x ← f 0
    let xs ← fromFnM n (fun i => f i.succ)
    pure (Fin.cons x xs)

/-- `[(); n].map(|_| body)`: `n` calls of a closure, in order; the closure owns mutable captured state. -/
def arrMap {m : Type → Type} [Monad m] {T : Type} (n : Nat) (body : m T) : m (Fin n → T) :=
  fromFnM n (fun _ => body)

end Magnesia
