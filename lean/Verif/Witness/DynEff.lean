import Verif.Props.C84

/-! # Concrete cases for C84: closures that count their calls, and one that panics -/

namespace Magnesia.Witness

open ETree

/-- Returns how often it (or another closure) has been called before. -/
def tick : Proc ℕ (Exact ℤ) := fun s => (.ok ⟨s⟩, s + 1)

/-- Panics at the third call. -/
def boom : Proc ℕ (Exact ℤ) := fun s => (if s = 2 then .error .user else .ok ⟨s⟩, s + 1)

def anyProfile : Profile := ⟨64, true⟩

/-- `make_matrix_expr(2, 3, a).t() + make_matrix_expr(3, 2, b).eval()` -/
def tickTree : ETree ℕ String .mat (Exact ℤ) :=
  addM (t (makeM "a" 2 3 (fun _ _ => tick))) (evalM (makeM "b" 3 2 (fun _ _ => tick)))

/-- `b` is called six times by the inner `eval()`, row after row; then `a`, column after column. -/
example : (tickTree.runM anyProfile (0, [])).2 = (12,
    [("b", [0, 0]), ("b", [0, 1]), ("b", [1, 0]), ("b", [1, 1]), ("b", [2, 0]), ("b", [2, 1]),
     ("a", [0, 0]), ("a", [1, 0]), ("a", [0, 1]), ("a", [1, 1]), ("a", [0, 2]), ("a", [1, 2])]) := by decide +kernel

example : (tickTree.runM anyProfile (0, [])).1 = .ok ⟨[⟨6⟩, ⟨8⟩, ⟨10⟩, ⟨12⟩, ⟨14⟩, ⟨16⟩], 3, 2⟩ := by decide +kernel

example := C84_eval_mat anyProfile tickTree 0 []
example (idx : List ℕ) (h : idx ≠ []) := C84_once_mat anyProfile tickTree (by decide) 0 "a" idx h

/-- A closure for `map` that reads the state. -/
def addState (x : Exact ℤ) : Proc ℕ (Exact ℤ) := fun s => (.ok ⟨x.val + s⟩, s)

/-- `make_vector_expr(3, a).map(m) + make_vector_expr(3, b)` -/
def lazyTree : ETree ℕ String .vec (Exact ℤ) :=
  addV (mapV "m" (makeV "a" 3 (fun _ => tick)) addState) (makeV "b" 3 (fun _ => tick))

example : (lazyTree.runV anyProfile (0, [])).2.2 =
    [("a", [0]), ("m", []), ("b", [0]), ("a", [1]), ("m", []), ("b", [1]), ("a", [2]), ("m", []), ("b", [2])] := by decide +kernel

example := C84_lazy anyProfile lazyTree ⟨trivial, trivial⟩ 7 []
example (idx : List ℕ) (h : idx ≠ []) := C84_once_vec anyProfile lazyTree (by decide) 0 "a" idx h
example := C84_entry_vec (s := 7) (log := []) anyProfile lazyTree rfl 2 7 []

/-- A mismatch of lengths: nothing is called. -/
example := C84_lazy anyProfile (addV lazyTree (makeV "c" 4 (fun _ => tick)) : ETree ℕ String .vec (Exact ℤ))
  ⟨⟨trivial, trivial⟩, trivial⟩ 7 []

/-- A panic at the third call: three calls are logged. -/
example : (((makeV "a" 5 (fun _ => boom)).runV anyProfile (0, []) : Res (DVector (Exact ℤ)) × Obs ℕ String)).2 =
    (3, [("a", [0]), ("a", [1]), ("a", [2])]) := by decide +kernel

/-- `m.diag()` asks for the diagonal only. -/
example : ((diagOf (makeM "a" 2 3 (fun _ _ => tick)) : ETree ℕ String .vec (Exact ℤ)).runV anyProfile (0, [])).2.2 =
    [("a", [0, 0]), ("a", [1, 1])] := by decide +kernel

example := C84_entry_mat (s := 7) (log := []) anyProfile (t (makeM "a" 2 3 (fun _ _ => tick)) : ETree ℕ String .mat (Exact ℤ)) rfl 2 1 7 []

/-- `v += e` with a longer `e`: two calls only. -/
example : ((DVector.mk [(⟨10⟩ : Exact ℤ), ⟨20⟩]).eAddAssign (W := Obs ℕ String)
    (eMakeVectorExpr 5 (fun i => observed ("a", [i]) tick)) (0, [])) = (.done ⟨[⟨10⟩, ⟨21⟩]⟩, (2, [("a", [0]), ("a", [1])])) := by
  decide +kernel

example := C84_addAssign_vec (s := 0) (log := []) anyProfile (DVector.mk [(⟨10⟩ : Exact ℤ), ⟨20⟩])
  (makeV "a" 5 (fun _ => boom) : ETree ℕ String .vec (Exact ℤ)) rfl
example := C84_subAssign_vec (s := 0) (log := []) anyProfile (DVector.mk [(⟨10⟩ : Exact ℤ), ⟨20⟩])
  (makeV "a" 5 (fun _ => boom) : ETree ℕ String .vec (Exact ℤ)) rfl
example := C84_addAssign_mat (s := 0) (log := []) anyProfile (DMatrix.mk [(⟨10⟩ : Exact ℤ), ⟨20⟩] 2 1)
  (makeM "a" 5 5 (fun _ _ => boom) : ETree ℕ String .mat (Exact ℤ)) rfl
example := C84_subAssign_mat (s := 0) (log := []) anyProfile (DMatrix.mk [(⟨10⟩ : Exact ℤ), ⟨20⟩] 2 1)
  (makeM "a" 5 5 (fun _ _ => boom) : ETree ℕ String .mat (Exact ℤ)) rfl

/-- `[1, 2].map(f)` with a closure that returns the square and counts. -/
def steadyTree : Tree .vec (Exact ℤ) := .mapV (.slice [(⟨1⟩ : Exact ℤ), ⟨2⟩]) (fun x : Exact ℤ => .ok ⟨x.val * x.val⟩)
def steadyTreeM : Tree .mat (Exact ℤ) := .diagM steadyTree

example := C84_steady_addAssign_vec anyProfile (fun l (s : ℕ) => s + l.length) "f" (DVector.mk [(⟨10⟩ : Exact ℤ), ⟨20⟩]) steadyTree rfl (w := (0, [])) rfl
example := C84_steady_subAssign_vec anyProfile (fun l (s : ℕ) => s + l.length) "f" (DVector.mk [(⟨10⟩ : Exact ℤ), ⟨20⟩]) steadyTree rfl (w := (0, [])) rfl
example := C84_steady_addAssign_mat anyProfile (fun l (s : ℕ) => s + l.length) "f" (DMatrix.mk [(⟨10⟩ : Exact ℤ), ⟨20⟩] 1 2) steadyTreeM rfl (w := (0, [])) rfl
example := C84_steady_subAssign_mat anyProfile (fun l (s : ℕ) => s + l.length) "f" (DMatrix.mk [(⟨10⟩ : Exact ℤ), ⟨20⟩] 1 2) steadyTreeM rfl (w := (0, [])) rfl

end Magnesia.Witness
