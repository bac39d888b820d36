import Verif.Model.Ieee

/-!
# Model of src/optimize/test_functions.rs over IEEE-754 numbers

`f32::exp`, `f32::exp_m1` and `f32::cos` depend on the platform; they are parameters. `f32::sqrt` is the correctly rounded
square root.
-/

namespace Magnesia

/-- The functions of `std` called by `ackley` that are not correctly rounded (src/optimize/test_functions.rs:8-9). -/
structure AckleyLib where
  exp : Ieee .f32 → Ieee .f32
  expM1 : Ieee .f32 → Ieee .f32
  cos : Ieee .f32 → Ieee .f32

namespace AckleyLib

/-- A literal of type `f32`: rounded to nearest. -/
abbrev lit (q : ℚ) : Ieee .f32 := Ieee.round q

/-- `std::f32::consts::E` (src/optimize/test_functions.rs:1): `2.71828182845904523536028747135266250_f32`. -/
def E : Ieee .f32 := lit (271828182845904523536028747135266250 / 10 ^ 35)

/-- `std::f32::consts::PI` (src/optimize/test_functions.rs:1): `3.14159265358979323846264338327950288_f32`. -/
def PI : Ieee .f32 := lit (314159265358979323846264338327950288 / 10 ^ 35)

/-- src/optimize/test_functions.rs:7-10 `ackley`; operators associate to the left, and `-20.0`, `-0.2` are literals
(negating a literal is exact). -/
def ackley (L : AckleyLib) (x y : Ieee .f32) : Ieee .f32 :=
  ((lit (-20)).mul (L.expM1 ((lit (-2 / 10)).mul ((lit (5 / 10)).mul ((x.mul x).add (y.mul y))).sqrt))).sub
    ((L.exp ((lit (5 / 10)).mul
      ((L.cos (((lit 2).mul PI).mul x)).add (L.cos (((lit 2).mul PI).mul y))))).sub E)

end AckleyLib

end Magnesia
