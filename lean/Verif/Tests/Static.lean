import Verif.Tests.Basic

/-!
# Tests of src/linalg/svector.rs and src/linalg/smatrix.rs
-/

namespace Magnesia.Tests

open RZero ROne

/-- `SVector::from`, `SMatrix::from` on `i32` arrays -/
abbrev vec {n : ℕ} (a : Fin n → I32) : SVector I32 n := .fromArray a
abbrev mat {r c : ℕ} (a : Fin r → Fin c → I32) : SMatrix I32 r c := .fromArray a

/-! ## svector.rs -/

/-- svector.rs:12-17 -/
example : .ok (zero : SVector I32 3) ≟ .ok (vec ![0, 0, 0]) := by decide +kernel
/-- svector.rs:45-51 -/
example : (vec ![1, 2]).add (vec ![3, 4]) ≟ .ok (vec ![4, 6]) := by decide +kernel
/-- svector.rs:67-73 -/
example : (vec ![1, 2]).addRef (vec ![3, 4]) ≟ .ok (vec ![4, 6]) := by decide +kernel
/-- svector.rs:87-93 -/
example : ((vec ![1, 2]).addAssignV (vec ![3, 4])).toRes ≟ .ok (vec ![4, 6]) := by decide +kernel
/-- svector.rs:106-112 -/
example : ((vec ![1, 2]).addAssignRef (vec ![3, 4])).toRes ≟ .ok (vec ![4, 6]) := by decide +kernel
/-- svector.rs:129-135 -/
example : (vec ![4, 6]).sub (vec ![3, 4]) ≟ .ok (vec ![1, 2]) := by decide +kernel
/-- svector.rs:151-157 -/
example : (vec ![4, 6]).subRef (vec ![3, 4]) ≟ .ok (vec ![1, 2]) := by decide +kernel
/-- svector.rs:171-177 -/
example : ((vec ![4, 6]).subAssignV (vec ![3, 4])).toRes ≟ .ok (vec ![1, 2]) := by decide +kernel
/-- svector.rs:190-196 -/
example : ((vec ![4, 6]).subAssignRef (vec ![3, 4])).toRes ≟ .ok (vec ![1, 2]) := by decide +kernel
/-- svector.rs:213-219 -/
example : (vec ![1, 2]).dot (vec ![3, 4]) ≟ .ok (MInt.lit (1 * 3 + 2 * 4)) := by decide +kernel
/-- svector.rs:234-240 -/
example : (vec ![1, 2]).dotRef (vec ![3, 4]) ≟ .ok (MInt.lit (1 * 3 + 2 * 4)) := by decide +kernel
/-- svector.rs:261-266 -/
example : (vec ![1, 2]).mulScalar 2 ≟ .ok (vec ![2, 4]) := by decide +kernel
/-- svector.rs:281-286 -/
example : (vec ![1, 2]).mulScalarRef 2 ≟ .ok (vec ![2, 4]) := by decide +kernel
/-- svector.rs:300-305 -/
example : ((vec ![1, 2]).mulAssign 2).toRes ≟ .ok (vec ![2, 4]) := by decide +kernel
/-- svector.rs:318-323 -/
example : ((vec ![1, 2]).mulAssignRef 2).toRes ≟ .ok (vec ![2, 4]) := by decide +kernel
/-- svector.rs:367-372 -/
example : (.fromArray ![42.0, 43.0] : SVector (Ieee .f32) 2).index 0 ≟ .ok 42.0 ∧
    (.fromArray ![42.0, 43.0] : SVector (Ieee .f32) 2).index 1 ≟ .ok 43.0 := by decide +kernel
/-- svector.rs:380-386 -/
example : (do
    let v : SVector (Ieee .f32) 2 := .fromArray ![0.0, 0.0]
    let v ← (v.indexSet 0 42.0).toRes
    (v.indexSet 1 43.0).toRes) ≟ .ok (.fromArray ![42.0, 43.0]) := by decide +kernel

/-! ## smatrix.rs -/

/-- smatrix.rs:8-14 and 88-94 -/
example : (mat ![![0, 1, 2], ![3, 4, 5]]).add (mat ![![1, 1, 1], ![1, 1, 1]]) ≟ .ok (mat ![![1, 2, 3], ![4, 5, 6]]) := by
  decide +kernel
/-- smatrix.rs:25-30 -/
example : .ok (zero : SMatrix I32 3 2) ≟ .ok (mat ![![0, 0], ![0, 0], ![0, 0]]) := by decide +kernel
/-- smatrix.rs:43-48 -/
example : .ok (one : SMatrix I32 3 2) ≟ .ok (mat ![![1, 0], ![0, 1], ![0, 0]]) := by decide +kernel
/-- smatrix.rs:110-116 -/
example : (mat ![![0, 1, 2], ![3, 4, 5]]).addRef (mat ![![1, 1, 1], ![1, 1, 1]]) ≟ .ok (mat ![![1, 2, 3], ![4, 5, 6]]) := by
  decide +kernel
/-- smatrix.rs:131-137 -/
example : ((mat ![![0, 1, 2], ![3, 4, 5]]).addAssignV (mat ![![1, 1, 1], ![1, 1, 1]])).toRes ≟
    .ok (mat ![![1, 2, 3], ![4, 5, 6]]) := by decide +kernel
/-- smatrix.rs:151-157 -/
example : ((mat ![![0, 1, 2], ![3, 4, 5]]).addAssignRef (mat ![![1, 1, 1], ![1, 1, 1]])).toRes ≟
    .ok (mat ![![1, 2, 3], ![4, 5, 6]]) := by decide +kernel
/-- smatrix.rs:176-182 -/
example : (mat ![![1, 2, 3], ![4, 5, 6]]).sub (mat ![![1, 1, 1], ![1, 1, 1]]) ≟ .ok (mat ![![0, 1, 2], ![3, 4, 5]]) := by
  decide +kernel
/-- smatrix.rs:198-204 -/
example : (mat ![![1, 2, 3], ![4, 5, 6]]).subRef (mat ![![1, 1, 1], ![1, 1, 1]]) ≟ .ok (mat ![![0, 1, 2], ![3, 4, 5]]) := by
  decide +kernel
/-- smatrix.rs:219-225 -/
example : ((mat ![![1, 2, 3], ![4, 5, 6]]).subAssignV (mat ![![1, 1, 1], ![1, 1, 1]])).toRes ≟
    .ok (mat ![![0, 1, 2], ![3, 4, 5]]) := by decide +kernel
/-- smatrix.rs:239-245 -/
example : ((mat ![![1, 2, 3], ![4, 5, 6]]).subAssignRef (mat ![![1, 1, 1], ![1, 1, 1]])).toRes ≟
    .ok (mat ![![0, 1, 2], ![3, 4, 5]]) := by decide +kernel
/-- smatrix.rs:265-271 -/
example : (mat ![![0, 1, 2], ![3, 4, 5]]).mulRef (mat ![![0, 1], ![2, 3], ![4, 5]]) ≟ .ok (mat ![![10, 13], ![28, 40]]) := by
  decide +kernel
/-- smatrix.rs:300-306 -/
example : (mat ![![0, 1, 2], ![3, 4, 5]]).mul (mat ![![0, 1], ![2, 3], ![4, 5]]) ≟ .ok (mat ![![10, 13], ![28, 40]]) := by
  decide +kernel
/-- smatrix.rs:319-325 -/
example : ((mat ![![0, 1], ![2, 3], ![4, 5]]).mulAssignRef (mat ![![4, 5], ![6, 7]])).toRes ≟
    .ok (mat ![![6, 7], ![26, 31], ![46, 55]]) := by decide +kernel
/-- smatrix.rs:340-346 -/
example : ((mat ![![0, 1], ![2, 3], ![4, 5]]).mulAssign (mat ![![4, 5], ![6, 7]])).toRes ≟
    .ok (mat ![![6, 7], ![26, 31], ![46, 55]]) := by decide +kernel
/-- smatrix.rs:363-370 -/
example : (mat ![![1, 2], ![3, 4]]).mulVec (vec ![1, 2]) ≟ .ok (vec ![.lit (1 * 1 + 2 * 2), .lit (1 * 3 + 2 * 4)]) := by
  decide +kernel
/-- smatrix.rs:390-393 -/
example : (mat ![![1, 2, 3], ![4, 5, 6]]).neg ≟ .ok (mat ![![-1, -2, -3], ![-4, -5, -6]]) := by decide +kernel
/-- smatrix.rs:407-412 -/
example : (.fromArray ![![1, 2], ![3, 4]] : SMatrix I8 2 2).conj ≟ .ok (.fromArray ![![1, 2], ![3, 4]]) := by decide +kernel
/-- smatrix.rs:414-426 -/
example : (.fromArray ![![.new 1 1, .new 2 2], ![.new 3 3, .new 4 4]] : SMatrix (Complex I8) 2 2).conj ≟
    .ok (.fromArray ![![.new 1 (-1), .new 2 (-2)], ![.new 3 (-3), .new 4 (-4)]]) := by decide +kernel

end Magnesia.Tests
