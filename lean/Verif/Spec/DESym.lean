import Verif.Spec.DEProb

/-!
# Specification of property C76: the same problem, written differently
-/

namespace Magnesia

variable {T T' P : Type} {N : ℕ}

/-- Coordinate `c` of the new point is the re-coded coordinate `σ c` of the old one. -/
def recode (σ : Equiv.Perm (Fin N)) (φ : Fin N → T → T') (x : Pt T N) : Pt T' N := fun c => φ c (x (σ c))

/-- `E'` is the problem `E` with coordinates permuted by `σ` and re-coded by `φ`: initial coordinates are distributed
accordingly, mutation commutes with the re-coding, and re-coded points compare like the original ones. -/
structure Recoded (E : Textbook T P N) (E' : Textbook T' P N) (σ : Equiv.Perm (Fin N)) (φ : Fin N → T → T') : Prop where
  initial : ∀ c, E'.D c = (E.D (σ c)).map (φ c)
  random : E'.U = E.U
  cp : E'.cp = E.cp
  mutation : ∀ c x y z, φ c (E.mutation x y z) = E'.mutation (φ c x) (φ c y) (φ c z)
  better : ∀ x y, E'.better (recode σ φ x) (recode σ φ y) = E.better x y

end Magnesia
