import Verif.Model.Ieee
import Verif.Model.Complex
import Verif.Model.Polynomial
import Verif.Model.SMatrix
import Mathlib.Data.Fin.VecNotation

/-!
# Vocabulary of C97
-/

namespace Magnesia

/-- The constant polynomial. -/
def constPoly {T : Type} (c : T) : Poly T := Poly.fromCoefficients [c]

/-- The matrix with `x` on the diagonal. -/
def scalarMatrix {T : Type} [RZero T] (n : ℕ) (x : T) : SMatrix T n n := ⟨fun i j => if i = j then x else RZero.zero⟩

/-- A matrix of square blocks as one matrix: row `i` is row `i % n` of the blocks in row `i / n`. -/
def flatten {T : Type} {k l n : ℕ} (a : SMatrix (SMatrix T n n) k l) : SMatrix T (k * n) (l * n) :=
  ⟨fun i j => (a.val i.divNat j.divNat).val i.modNat j.modNat⟩

/-- The real 2 × 2 matrix of a complex number. -/
def cxMatrix {F : Fmt} (z : Complex (Ieee F)) : SMatrix (Ieee F) 2 2 := ⟨![![z.re, z.im.neg], ![z.im, z.re]]⟩

end Magnesia
