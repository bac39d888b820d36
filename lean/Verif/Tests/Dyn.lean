import Verif.Tests.Basic

/-!
# Tests of src/linalg/dvector.rs and src/linalg/dmatrix.rs
-/

namespace Magnesia.Tests

/-! ## dvector.rs -/

/-- dvector.rs:99-104, and the documentation test in lines 66-71 -/
example : (makeVectorExpr 5 (fun index => .ok (index * index))).eval ≟ (arr [0, 1, 4, 9, 16]).eval := by decide +kernel
/-- dvector.rs:134-139 -/
example : ((arr [1, 5, 3, 2, 4] : VExpr I32).wrap.map (fun x => RMul.mul x x) : VExpr I32).eval ≟
    (arr [1, 25, 9, 4, 16]).eval := by decide +kernel
/-- dvector.rs:181-190 -/
example : (do
    let a ← (arr [1, 2, 3, 4, 5, 6] : VExpr I32).eval
    let b ← (arr [7, 8, 9, 10, 11, 12] : VExpr I32).eval
    (← a.asExpr.wrap.zip b.asExpr).eval) ≟
    (arr [(1, 7), (2, 8), (3, 9), (4, 10), (5, 11), (6, 12)]).eval := by decide +kernel
/-- dvector.rs:206-213 -/
example : (do
    let a := (arr [1, 2, 3, 4, 5, 6] : VExpr I32).wrap
    let b := (arr [2, 2, 2, 3, 3, 3] : VExpr I32).wrap
    let c : VExpr I32 ← a.add b
    c.eval) ≟ (arr [3, 4, 5, 7, 8, 9]).wrap.eval := by decide +kernel
/-- dvector.rs:248-255 -/
example : (do
    let a := (arr [1, 2, 3, 4, 5, 6] : VExpr I32).wrap
    let b := (arr [2, 2, 2, 3, 3, 3] : VExpr I32).wrap
    let c : VExpr I32 ← a.sub b
    c.eval) ≟ (arr [-1, 0, 1, 1, 2, 3]).wrap.eval := by decide +kernel
/-- dvector.rs:312-318 -/
example : (do
    let u := (arr [1, 2, 3, 4, 5] : VExpr I32).wrap
    let v := (arr [0, 1, 2, 3, 4] : VExpr I32).wrap
    let uv : VExpr I32 ← u.mulElemwise v
    uv.eval) ≟ (arr [0, 2, 6, 12, 20]).eval := by decide +kernel
/-- dvector.rs:356-362 -/
example : (do
    let uv := (arr [0, 2, 6, 12, 20] : VExpr I32).wrap
    let u := (arr [1, 2, 3, 4, 5] : VExpr I32).wrap
    let v : VExpr I32 ← uv.divElemwise u
    v.eval) ≟ (arr [0, 1, 2, 3, 4]).eval := by decide +kernel
/-- dvector.rs:374-390 -/
example : (arr [.new 1 2, .new 3 4, .new 5 6] : VExpr (Complex I32)).wrap.conj.eval ≟
    (arr [.new 1 (-2), .new 3 (-4), .new 5 (-6)]).eval := by decide +kernel
/-- dvector.rs:425-430 -/
example : (arr [1, 2, 5] : VExpr I32).wrap.diag.eval ≟ (arr2 ![![1, 0, 0], ![0, 2, 0], ![0, 0, 5]]).eval := by
  decide +kernel
/-- dvector.rs:468-474 -/
example : (do (← (arr [1, 2, 4] : VExpr I32).eval).asExpr.entry 0) ≟ .ok 1 ∧
    (do (← (arr [1, 2, 4] : VExpr I32).eval).asExpr.entry 1) ≟ .ok 2 ∧
    (do (← (arr [1, 2, 4] : VExpr I32).eval).asExpr.entry 2) ≟ .ok 4 := by decide +kernel
/-- dvector.rs:476-480 -/
example : (do pure (← (arr [1, 2, 4] : VExpr I32).eval).asExpr.len) ≟ .ok 3 := by decide +kernel
/-- dvector.rs:482-488 -/
example : (do (← (arr [1, 2, 4] : VExpr I32).eval).asExpr.eval) ≟ (arr [1, 2, 4]).eval := by decide +kernel
/-- dvector.rs:500-503 -/
example : (DVector.zeros 5 : VExpr I32).eval ≟ (arr [0, 0, 0, 0, 0]).eval := by decide +kernel
/-- dvector.rs:515-518 -/
example : (DVector.ones 5 : VExpr I32).eval ≟ (arr [1, 1, 1, 1, 1]).eval := by decide +kernel
/-- dvector.rs:530-536 -/
example : (DVector.same 5 42 : VExpr I32).eval ≟ (arr [42, 42, 42, 42, 42]).eval := by decide +kernel
/-- dvector.rs:546-554 -/
example : (do
    let a ← (arr [1, 2, 3, 7, 8] : VExpr I32).eval
    pure (⟨[← a.index 0, ← a.index 1, ← a.index 2, ← a.index 3, ← a.index 4]⟩ : DVector I32)) ≟ .ok ⟨[1, 2, 3, 7, 8]⟩ := by
  decide +kernel
/-- dvector.rs:562-573 -/
example : (do
    let a ← (arr [0, 0, 0, 0, 0] : VExpr I32).eval
    let a ← (a.indexSet 0 1).toRes
    let a ← (a.indexSet 1 2).toRes
    let a ← (a.indexSet 2 3).toRes
    let a ← (a.indexSet 3 7).toRes
    (a.indexSet 4 8).toRes) ≟ (arr [1, 2, 3, 7, 8]).eval ∧
    (do
    let a ← (arr [1, 2, 3, 7, 8] : VExpr I32).eval
    (a.indexSet 2 42).toRes) ≟ (arr [1, 2, 42, 7, 8]).eval := by decide +kernel
/-- dvector.rs:587-592 and 625-630 -/
example : (do
    let a ← (arr [1, 2, 3] : VExpr I32).eval
    let b : VExpr I32 ← a.add (arr [2, 2, 2] : VExpr I32).wrap
    b.eval) ≟ (arr [3, 4, 5]).eval := by decide +kernel
/-- dvector.rs:606-611 and 644-649 -/
example : (do
    let a ← (arr [1, 2, 3, 4, 5] : VExpr I32).eval
    (a.addAssign (arr [2, 2, 2, 2, 2] : VExpr I32).wrap).toRes) ≟ (arr [3, 4, 5, 6, 7]).eval := by decide +kernel
/-- dvector.rs:662-668 -/
example : (do
    let u ← (arr [1, 2, 3] : VExpr I32).eval
    let v ← (arr [2, 3, 4] : VExpr I32).eval
    u.dot v) ≟ .ok (MInt.lit (1 * 2 + 2 * 3 + 3 * 4)) := by decide +kernel
/-- dvector.rs:685-691 -/
example : (do
    let u ← (arr [1, 2, 3] : VExpr I32).eval
    let v ← (arr [2, 3, 4] : VExpr I32).eval
    u.dotRef v) ≟ .ok (MInt.lit (1 * 2 + 2 * 3 + 3 * 4)) := by decide +kernel
/-- dvector.rs:698-704 -/
example : (do
    let a ← (arr [1, 2, 3] : VExpr I32).eval
    let b : VExpr I32 ← a.mulElemwise (arr [0, 1, 2] : VExpr I32).wrap
    b.eval) ≟ (arr [0, 2, 6]).eval := by decide +kernel
/-- dvector.rs:722-728 -/
example : (do
    let a ← (arr [1, 4, 15] : VExpr I32).eval
    let b : VExpr I32 ← a.divElemwise (arr [1, 2, 3] : VExpr I32).wrap
    b.eval) ≟ (arr [1, 2, 5]).eval := by decide +kernel
/-- dvector.rs:752-766 -/
example : (do (← (arr [.new 1 2, .new 3 4, .new 5 6] : VExpr (Complex I32)).eval).conj.eval) ≟
    (arr [.new 1 (-2), .new 3 (-4), .new 5 (-6)]).eval := by decide +kernel
/-- dvector.rs:775-785 -/
example : (do (← (arr [1, 2, 5] : VExpr I32).eval).diag.eval) ≟ (arr2 ![![1, 0, 0], ![0, 2, 0], ![0, 0, 5]]).eval := by
  decide +kernel

/-! ## dmatrix.rs -/

/-- dmatrix.rs:136-141 -/
example : (makeMatrixExpr 2 3 (fun x y => .ok (x + y))).eval ≟ (arr2 ![![0, 1, 2], ![1, 2, 3]]).eval := by decide +kernel
/-- dmatrix.rs:173-178 -/
example : ((arr2 ![![1, 2, 3], ![4, 5, 6]] : MExpr I32).wrap.map (fun a => do RAdd.add (← RMul.mul (2 : I32) a : I32) (1 : I32)) :
    MExpr I32).eval ≟ (arr2 ![![3, 5, 7], ![9, 11, 13]]).eval := by decide +kernel
/-- dmatrix.rs:221-230 -/
example : (do
    let a ← (arr2 ![![1, 2, 3], ![4, 5, 6]] : MExpr I32).eval
    let b ← (arr2 ![![7, 8, 9], ![10, 11, 12]] : MExpr I32).eval
    (← (a.asExpr x64).wrap.zip (b.asExpr x64)).eval) ≟
    (arr2 ![![(1, 7), (2, 8), (3, 9)], ![(4, 10), (5, 11), (6, 12)]]).eval := by decide +kernel
/-- dmatrix.rs:247-254 -/
example : (do
    let a := (arr2 ![![1, 2, 3], ![4, 5, 6]] : MExpr I32).wrap
    let b := (arr2 ![![2, 2, 2], ![3, 3, 3]] : MExpr I32).wrap
    let c : MExpr I32 ← a.add b
    c.eval) ≟ (arr2 ![![3, 4, 5], ![7, 8, 9]]).wrap.eval := by decide +kernel
/-- dmatrix.rs:294-301 -/
example : (do
    let a := (arr2 ![![1, 2, 3], ![4, 5, 6]] : MExpr I32).wrap
    let b := (arr2 ![![2, 2, 2], ![3, 3, 3]] : MExpr I32).wrap
    let c : MExpr I32 ← a.sub b
    c.eval) ≟ (arr2 ![![-1, 0, 1], ![1, 2, 3]]).wrap.eval := by decide +kernel
/-- dmatrix.rs:362-369 -/
example : (do
    let a := (arr2 ![![1, 2, 3], ![4, 5, 6]] : MExpr I32).wrap
    let b := (arr2 ![![0, 1, 2], ![3, 4, 5]] : MExpr I32).wrap
    let c : MExpr I32 ← a.mulElemwise b
    c.eval) ≟ (arr2 ![![0, 2, 6], ![12, 20, 30]]).eval := by decide +kernel
/-- dmatrix.rs:407-414 -/
example : (do
    let a := (arr2 ![![0, 2, 6], ![12, 20, 30]] : MExpr I32).wrap
    let b := (arr2 ![![1, 2, 3], ![4, 5, 6]] : MExpr I32).wrap
    let c : MExpr I32 ← a.divElemwise b
    c.eval) ≟ (arr2 ![![0, 1, 2], ![3, 4, 5]]).eval := by decide +kernel
/-- dmatrix.rs:432-437 -/
example : (arr2 ![![1, 2, 3], ![4, 5, 6]] : MExpr I32).wrap.t.eval ≟ (arr2 ![![1, 4], ![2, 5], ![3, 6]]).wrap.eval := by
  decide +kernel
/-- dmatrix.rs:458-474 and 910-927 -/
example : (arr2 ![![.new 0 1, .new 2 3, .new 4 5], ![.new 6 7, .new 8 9, .new 10 11]] : MExpr (Complex I32)).wrap.h.eval ≟
    (arr2 ![![.new 0 (-1), .new 6 (-7)], ![.new 2 (-3), .new 8 (-9)], ![.new 4 (-5), .new 10 (-11)]]).wrap.eval := by
  decide +kernel
/-- dmatrix.rs:509-513 -/
example : (arr2 ![![1, 2, 3], ![4, 5, 6]] : MExpr I32).wrap.diag.eval ≟ (arr [1, 5]).eval := by decide +kernel
/-- dmatrix.rs:581-589 -/
example : (DMatrix.eye 1 : MExpr I32).eval ≟ (arr2 ![![1]]).eval ∧
    (DMatrix.eye 2 : MExpr I32).eval ≟ (arr2 ![![1, 0], ![0, 1]]).eval ∧
    (DMatrix.eye 3 : MExpr I32).eval ≟ (arr2 ![![1, 0, 0], ![0, 1, 0], ![0, 0, 1]]).eval := by decide +kernel
/-- dmatrix.rs:604-610 -/
example : (DMatrix.zeros 2 3 : MExpr I32).eval ≟ (arr2 ![![0, 0, 0], ![0, 0, 0]]).eval := by decide +kernel
/-- dmatrix.rs:622-628 -/
example : (DMatrix.ones 2 3 : MExpr I32).eval ≟ (arr2 ![![1, 1, 1], ![1, 1, 1]]).eval := by decide +kernel
/-- dmatrix.rs:644-650 -/
example : (DMatrix.same 2 3 42 : MExpr I32).eval ≟ (arr2 ![![42, 42, 42], ![42, 42, 42]]).eval := by decide +kernel
/-- dmatrix.rs:660-667 -/
example : (do
    let a ← (arr2 ![![1, 2], ![3, 4]] : MExpr I32).eval
    pure (⟨[← a.index x64 0 0, ← a.index x64 0 1, ← a.index x64 1 0, ← a.index x64 1 1]⟩ : DVector I32)) ≟
    .ok ⟨[1, 2, 3, 4]⟩ := by decide +kernel
/-- dmatrix.rs:675-686 -/
example : (do
    let a ← (arr2 ![![0, 0], ![0, 0]] : MExpr I32).eval
    let a ← (a.indexSet x64 0 0 1).toRes
    let a ← (a.indexSet x64 0 1 2).toRes
    let a ← (a.indexSet x64 1 0 3).toRes
    let a ← (a.indexSet x64 1 1 4).toRes
    pure (⟨[← a.index x64 0 0, ← a.index x64 0 1, ← a.index x64 1 0, ← a.index x64 1 1]⟩ : DVector I32)) ≟
    .ok ⟨[1, 2, 3, 4]⟩ := by decide +kernel
/-- dmatrix.rs:701-708 -/
example : (do
    let a ← (arr2 ![![1, 2], ![3, 4], ![5, 6]] : MExpr I32).eval
    let b ← (arr2 ![![3, 3], ![3, 3], ![3, 3]] : MExpr I32).eval
    let c : MExpr I32 ← a.add x64 (b.asExpr x64)
    c.eval) ≟ (arr2 ![![4, 5], ![6, 7], ![8, 9]]).eval := by decide +kernel
/-- dmatrix.rs:725-730 -/
example : (do
    let a ← (arr2 ![![1, 2], ![3, 4]] : MExpr I32).eval
    (a.addAssign x64 (arr2 ![![2, 2], ![2, 2]] : MExpr I32)).toRes) ≟ (arr2 ![![3, 4], ![5, 6]]).eval := by decide +kernel
/-- dmatrix.rs:744-751 -/
example : (do
    let a ← (arr2 ![![1, 2], ![3, 4], ![5, 6]] : MExpr I32).eval
    let b ← (arr2 ![![3, 3], ![3, 3], ![3, 3]] : MExpr I32).eval
    let c : MExpr I32 ← a.sub x64 (b.asExpr x64)
    c.eval) ≟ (arr2 ![![-2, -1], ![0, 1], ![2, 3]]).eval := by decide +kernel
/-- dmatrix.rs:768-773 -/
example : (do
    let a ← (arr2 ![![1, 2], ![3, 4]] : MExpr I32).eval
    (a.subAssign x64 (arr2 ![![2, 2], ![2, 2]] : MExpr I32)).toRes) ≟ (arr2 ![![-1, 0], ![1, 2]]).eval := by decide +kernel
/-- dmatrix.rs:824-831 -/
example : (do
    let a ← (arr2 ![![-1, 0, 1], ![2, 3, 4]] : MExpr I32).eval
    let b ← (arr2 ![![0, 1], ![2, 3], ![4, 5]] : MExpr I32).eval
    let c : MExpr I32 ← a.mul x64 b
    c.eval) ≟ (arr2 ![![4, 4], ![22, 31]]).eval := by decide +kernel
/-- dmatrix.rs:838-844 -/
example : (do
    let a ← (arr2 ![![1, 2, 3], ![4, 5, 6]] : MExpr I32).eval
    let b : MExpr I32 ← a.mulElemwise x64 (arr2 ![![0, 1, 2], ![3, 4, 5]] : MExpr I32)
    b.eval) ≟ (arr2 ![![0, 2, 6], ![12, 20, 30]]).eval := by decide +kernel
/-- dmatrix.rs:862-868 -/
example : (do
    let a ← (arr2 ![![1, 4, 9], ![16, 25, 36]] : MExpr I32).eval
    let b : MExpr I32 ← a.divElemwise x64 (arr2 ![![1, 2, 3], ![4, 5, 6]] : MExpr I32)
    b.eval) ≟ (arr2 ![![1, 2, 3], ![4, 5, 6]]).eval := by decide +kernel
/-- dmatrix.rs:892-897 -/
example : (do ((← (arr2 ![![1, 2, 3], ![4, 5, 6]] : MExpr I32).eval).t x64).eval) ≟ (arr2 ![![1, 4], ![2, 5], ![3, 6]]).eval := by
  decide +kernel
/-- dmatrix.rs:937-943 -/
example : (do ((← (arr2 ![![1, 2, 3], ![4, 5, 6]] : MExpr I32).eval).diag x64).eval) ≟ (arr [1, 5]).eval := by decide +kernel

end Magnesia.Tests
