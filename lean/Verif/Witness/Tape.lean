import Verif.Props.Tape
import Verif.Spec.Denote
import Verif.Model.Ieee

/-!
# Concrete cases meeting the hypotheses of C92
-/

namespace Magnesia.Witness

/-- An arena of `i32`s; handles are positions. -/
structure Arena where
  cells : List I32
deriving DecidableEq, Repr

instance : Preorder Arena where
  le s t := s.cells <+: t.cells
  le_refl s := List.prefix_refl s.cells
  le_trans _ _ _ h h' := h.trans h'

namespace Arena

/-- Read a cell (handles are never dangling). -/
def get (a : Arena) (i : ℕ) : I32 := a.cells[i]?.getD RZero.zero

/-- Store a value in a new cell. -/
def store (r : Res I32) (a : Arena) : Res ℕ × Arena :=
  match r with
  | .ok x => (.ok a.cells.length, ⟨a.cells ++ [x]⟩)
  | .error e => (.error e, a)

/-- The same for `op=`: the handle is left alone by a panic (`i32` operators change nothing if they panic). -/
def assign (i : ℕ) (u : Upd I32) (a : Arena) : Upd ℕ × Arena :=
  match u.panic with
  | none => (.done a.cells.length, ⟨a.cells ++ [u.val]⟩)
  | some e => (⟨i, some e⟩, a)

/-- `i32`s in an arena: the operators panic on overflow. -/
def ops : EOps Arena ℕ where
  zero := store (.ok RZero.zero)
  one := store (.ok ROne.one)
  clone i := fun a => store (.ok (a.get i)) a
  addAssign i j := fun a => assign i (AddAssignRef.addAssign (a.get i) (a.get j)) a
  subAssign i j := fun a => assign i (SubAssignRef.subAssign (a.get i) (a.get j)) a
  mulRefs i j := fun a => store (MulRefs.mulRefs (a.get i) (a.get j)) a
  neg i := fun a => store (RNeg.neg (a.get i)) a
  conj i := fun a => store (RConj.conj (a.get i)) a
  add i j := fun a => store (RAdd.add (a.get i) (a.get j)) a
  sub i j := fun a => store (RSub.sub (a.get i) (a.get j)) a
  mul i j := fun a => store (RMul.mul (a.get i) (a.get j)) a
  addAssignV i j := fun a => assign i (RAddAssign.addAssign (a.get i) (a.get j)) a
  subAssignV i j := fun a => assign i (RSubAssign.subAssign (a.get i) (a.get j)) a

/-- A handle stands for the content of its cell. -/
def rel : Represents Arena ℕ I32 where
  rel a i x := a.cells[i]? = some x
  mono := by
    rintro s t i x ⟨r, hr⟩ h
    rw [← hr, List.getElem?_append_left (List.getElem?_eq_some_iff.1 h).1]; exact h

theorem get_of {a : Arena} {i : ℕ} {x : I32} (h : rel.rel a i x) : a.get i = x := by
  show a.cells[i]?.getD _ = x
  rw [show a.cells[i]? = some x from h]; rfl

theorem le_store (a : Arena) (x : I32) : a ≤ ⟨a.cells ++ [x]⟩ := List.prefix_append _ _

theorem rel_store (a : Arena) (x : I32) : rel.rel ⟨a.cells ++ [x]⟩ a.cells.length x := by
  show (a.cells ++ [x])[a.cells.length]? = some x
  rw [List.getElem?_append_right (le_refl _), Nat.sub_self]; rfl

theorem sim_store (a : Arena) {f : Arena → Res I32} {r : Res I32} (h : f a = r) : rel.Sim (fun a => store (f a) a) r a := by
  subst h
  unfold Represents.Sim
  cases h : f a with
  | ok x => simp only [h, store]; exact ⟨le_store a x, rel_store a x⟩
  | error e => simp only [h, store]; exact ⟨le_refl a, trivial⟩

theorem sim_assign (a : Arena) {i : ℕ} {x : I32} (hi : rel.rel a i x) {f : Arena → Upd I32} {u : Upd I32} (h : f a = u)
    (hu : u.panic ≠ none → u.val = x) : rel.SimU (fun a => assign i (f a) a) u a := by
  subst h
  rcases h : f a with ⟨y, _ | e⟩ <;> rw [h] at hu
  · unfold Represents.SimU
    simp only [h, assign]; exact ⟨le_store a y, rel_store a y, rfl⟩
  · obtain rfl : y = x := hu (by simp)
    unfold Represents.SimU
    simp only [h, assign]; exact ⟨le_refl a, hi, trivial⟩

theorem kept (x : I32) (r : Res I32) : (Upd.ofRes x r).panic ≠ none → (Upd.ofRes x r).val = x := by
  cases r with
  | ok y => exact fun h => (h rfl).elim
  | error e => exact fun _ => rfl

theorem ops_simulates : ops.Simulates rel where
  zero a := sim_store a (f := fun _ => .ok RZero.zero) rfl
  one a := sim_store a (f := fun _ => .ok ROne.one) rfl
  clone a i x h := sim_store a (f := fun a => .ok (a.get i)) (by rw [get_of h])
  addAssign a i j x y h h' := sim_assign a h (by rw [get_of h, get_of h']) (kept _ _)
  subAssign a i j x y h h' := sim_assign a h (by rw [get_of h, get_of h']) (kept _ _)
  mulRefs a i j x y h h' := sim_store a (by rw [get_of h, get_of h'])
  neg a i x h := sim_store a (by rw [get_of h])
  conj a i x h := sim_store a (f := fun a => RConj.conj (a.get i)) (by rw [get_of h])
  add a i j x y h h' := sim_store a (by rw [get_of h, get_of h'])
  sub a i j x y h h' := sim_store a (by rw [get_of h, get_of h'])
  mul a i j x y h h' := sim_store a (by rw [get_of h, get_of h'])
  addAssignV a i j x y h h' := sim_assign a h (by rw [get_of h, get_of h']) (kept _ _)
  subAssignV a i j x y h h' := sim_assign a h (by rw [get_of h, get_of h']) (kept _ _)

end Arena

/-- The arena holds `1, 2, 3` and `5`. -/
def arena : Arena := ⟨[.lit 1, .lit 2, .lit 3, .lit 5]⟩

theorem arena_poly : Arena.rel.poly.rel arena ⟨[0, 1, 2]⟩ ⟨[.lit 1, .lit 2, .lit 3]⟩ := .cons rfl (.cons rfl (.cons rfl .nil))

/-- `1 + 2x + 3x²` at `x = 5`. -/
example := C92_polynomial Arena.ops_simulates arena_poly arena_poly (show Arena.rel.rel arena 3 (.lit 5) from rfl)
/-- The result is in cell 10, and it is 86. -/
example : (Arena.ops.polyEval ⟨[0, 1, 2]⟩ 3 arena).1 = .ok 10 ∧ (Arena.ops.polyEval ⟨[0, 1, 2]⟩ 3 arena).2.get 10 = .lit 86 := by
  decide +kernel
example := C92_complex Arena.ops_simulates
example := C92_complex (C92_complex Arena.ops_simulates).1
example := C92_svector Arena.ops_simulates (n := 2) (w := arena) (u := ⟨![0, 1]⟩) (v := ⟨![2, 3]⟩) (u' := ⟨![.lit 1, .lit 2]⟩)
  (v' := ⟨![.lit 3, .lit 5]⟩) (fun i => by fin_cases i <;> rfl) (fun i => by fin_cases i <;> rfl)
  (show Arena.rel.rel arena 3 (.lit 5) from rfl)
example := C92_smatrix (C92_complex Arena.ops_simulates).1
example := C92_dynamic Arena.ops_simulates

/-- IEEE arithmetic never panics. -/
theorem opsNeverPanic_ieee (F : Fmt) : OpsNeverPanic (Ieee F) := fun op a b => by cases op <;> exact ⟨_, rfl⟩

example := C92_tape (opsNeverPanic_ieee Fmt.f64) fun _ => RZero.zero
example := C92_tape (opsNeverPanic_exact ℚ) fun k => ⟨k⟩
/-- The tape of the evaluation of a polynomial of two coefficients. -/
example : Tape.ops.polyEval ⟨[0, 1]⟩ 2 (Tape.ofInputs 3) = (.ok 7, ⟨[.input 0, .input 1, .input 2, .call .zero 0 0, .call .mulRefs 3 2,
    .call .addAssign 4 1, .call .mulRefs 5 2, .call .addAssign 6 0]⟩) := by decide +kernel

end Magnesia.Witness
