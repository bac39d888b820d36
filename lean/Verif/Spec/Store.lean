import Verif.Spec.Dyn
import Mathlib.Data.Prod.Lex

/-!
# Vocabulary for mutable storage: histories of mutations, last writes, interrupted updates
-/

namespace Magnesia

variable {T ι C : Type}

/-- A mutating operation of the public API of `DMatrix`. -/
inductive MStep (T : Type) : Type 1
  /-- `m[[row, col]] = x` -/
  | set (row col : ℕ) (x : T)
  /-- `m += rhs` for any matrix expression `rhs` -/
  | addAssign {U : Type} [RAddAssign T U] (rhs : MExpr U)
  /-- `m -= rhs` for any matrix expression `rhs` -/
  | subAssign {U : Type} [RSubAssign T U] (rhs : MExpr U)

/-- Performing a mutation. -/
def MStep.run (p : Profile) : MStep T → DMatrix T → Upd (DMatrix T)
  | .set row col x, m => m.indexSet p row col x
  | @MStep.addAssign _ _ _ rhs, m => m.addAssign p rhs
  | @MStep.subAssign _ _ _ rhs, m => m.subAssign p rhs

/-- A history of mutations; the caller catches panics and goes on with whatever the failing mutation left behind. -/
def DMatrix.history (p : Profile) (m : DMatrix T) (h : List (MStep T)) : DMatrix T :=
  h.foldl (fun m s => (s.run p m).val) m

/-- A mutating operation of the public API of `DVector`. -/
inductive VStep (T : Type) : Type 1
  /-- `v[i] = x` -/
  | set (i : ℕ) (x : T)
  /-- `v += rhs` for any vector expression `rhs` -/
  | addAssign {U : Type} [RAddAssign T U] (rhs : VExpr U)
  /-- `v -= rhs` for any vector expression `rhs` -/
  | subAssign {U : Type} [RSubAssign T U] (rhs : VExpr U)

/-- Performing a mutation. -/
def VStep.run : VStep T → DVector T → Upd (DVector T)
  | .set i x, v => v.indexSet i x
  | @VStep.addAssign _ _ _ rhs, v => v.addAssign rhs
  | @VStep.subAssign _ _ _ rhs, v => v.subAssign rhs

/-- A history of mutations (panics are caught). -/
def DVector.history (v : DVector T) (h : List (VStep T)) : DVector T := h.foldl (fun v s => (s.run v).val) v

/-- The value last written to position `k` by the writes `ws` (oldest first), or `old` if there was no such write. -/
def lastWrite [DecidableEq ι] (ws : List (ι × T)) (k : ι) (old : T) : T :=
  ((ws.reverse.find? (fun w => w.1 = k)).map Prod.snd).getD old

/-- What an interrupted element-wise update leaves behind. `step i x` is the update of the element at position `i` with
old value `x`. The update was interrupted by the panic `e` raised by the step at some position `k`; elements before `k`
hold their new values, `k` holds what its own step left there, elements after `k` are untouched. -/
def InterruptedBy [LT ι] (step : ι → C → Upd C) (old new : ι → C) (e : Panic) : Prop :=
  ∃ k, (∀ i < k, (step i (old i)).panic = none ∧ new i = (step i (old i)).val) ∧
    (step k (old k)).panic = some e ∧ new k = (step k (old k)).val ∧ ∀ i, k < i → new i = old i

/-- The cells of a matrix, in row-major order. -/
abbrev cells {r c : ℕ} (f : Fin r → Fin c → T) : Fin r ×ₗ Fin c → T := fun ij => f (ofLex ij).1 (ofLex ij).2

end Magnesia
