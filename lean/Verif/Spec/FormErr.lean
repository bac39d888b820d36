import Verif.Spec.Form
import Verif.Spec.CxRound
import Mathlib.Analysis.Normed.Field.Basic

/-!
# Error bounds for formulas of linear algebra over floating point numbers

For a formula (`Spec/Form.lean`) whose entries are floating point numbers, three quantities that determine the error
bound of property C63, each by recursion on the formula:

* `Form.mag`: the magnitudes. The formula with every entry replaced by its absolute value and every difference by a sum:
  the sum of the absolute values of the terms one gets by expanding the formula.
* `Form.factor u v`: how much a term can be off, relatively. Every sum contributes `1 + u`, every product `1 + v`; a
  matrix product with inner dimension `m` consists of `m` products and `m - 1` sums.
* `Form.under η`: what products that underflow (by at most `η` each) can contribute.
-/

namespace Magnesia

variable {T K : Type} [NormedField K]

/-- The numerical value of a floating point number (0 for NaN and infinities) as a real number. -/
def Ieee.real {F : Fmt} (a : Ieee F) : ℝ := a.value

namespace Form

/-- The sum of the absolute values of the terms. -/
def mag (φ : T → K) : {k : Kind} → {r c : ℕ} → Form T k r c → Matrix (Fin r) (Fin c) ℝ
  | _, _, _, vec f => .of fun i _ => ‖φ (f i)‖
  | _, _, _, mat f => .of fun i j => ‖φ (f i j)‖
  | _, _, _, zerosV _ => 0
  | _, _, _, onesV _ => .of fun _ _ => 1
  | _, _, _, zerosM _ _ => 0
  | _, _, _, onesM _ _ => .of fun _ _ => 1
  | _, _, _, eye _ => 1
  | _, _, _, add a b => a.mag φ + b.mag φ
  | _, _, _, sub a b => a.mag φ + b.mag φ
  | _, _, _, elem a b => (a.mag φ).hadamard (b.mag φ)
  | _, _, _, eval a => a.mag φ
  | _, _, _, conj v => v.mag φ
  | _, _, _, diagOf m => .of fun i _ => m.mag φ (i.castLE (min_le_left _ _)) (i.castLE (min_le_right _ _))
  | _, _, _, diag v => .diagonal fun i => v.mag φ i 0
  | _, _, _, t m => (m.mag φ).transpose
  | _, _, _, h m => (m.mag φ).transpose
  | _, _, _, prod a b => a.mag φ * b.mag φ

/-- The relative error of a term, plus one. -/
noncomputable def factor (u v : ℝ) : {k : Kind} → {r c : ℕ} → Form T k r c → ℝ
  | _, _, _, add a b => max (a.factor u v) (b.factor u v) * (1 + u)
  | _, _, _, sub a b => max (a.factor u v) (b.factor u v) * (1 + u)
  | _, _, _, elem a b => a.factor u v * b.factor u v * (1 + v)
  | _, _, _, eval a => a.factor u v
  | _, _, _, conj v' => v'.factor u v
  | _, _, _, diagOf m => m.factor u v
  | _, _, _, diag v' => v'.factor u v
  | _, _, _, t m => m.factor u v
  | _, _, _, h m => m.factor u v
  | _, _, _, @prod _ _ m _ a b => a.factor u v * b.factor u v * (1 + v) * (1 + u) ^ (m - 1)
  | _, _, _, _ => 1

/-- The contribution of underflow. -/
def under (η : ℝ) (φ : T → K) : {k : Kind} → {r c : ℕ} → Form T k r c → Matrix (Fin r) (Fin c) ℝ
  | _, _, _, add a b => a.under η φ + b.under η φ
  | _, _, _, sub a b => a.under η φ + b.under η φ
  | _, _, _, elem a b => (a.under η φ).hadamard (b.under η φ) + (a.mag φ).hadamard (b.under η φ) +
      (a.under η φ).hadamard (b.mag φ) + .of fun _ _ => η
  | _, _, _, eval a => a.under η φ
  | _, _, _, conj v => v.under η φ
  | _, _, _, diagOf m => .of fun i _ => m.under η φ (i.castLE (min_le_left _ _)) (i.castLE (min_le_right _ _))
  | _, _, _, diag v => .diagonal fun i => v.under η φ i 0
  | _, _, _, t m => (m.under η φ).transpose
  | _, _, _, h m => (m.under η φ).transpose
  | _, _, _, @prod _ _ m _ a b => a.under η φ * b.under η φ + a.mag φ * b.under η φ + a.under η φ * b.mag φ +
      .of fun _ _ => m * η
  | _, _, _, _ => 0

/-- The entries of the given vectors and matrices that entry `i, j` of the formula depends on have the property. -/
def Uses (fin : T → Prop) : {k : Kind} → {r c : ℕ} → Form T k r c → Fin r → Fin c → Prop
  | _, _, _, vec f, i, _ => fin (f i)
  | _, _, _, mat f, i, j => fin (f i j)
  | _, _, _, add a b, i, j => a.Uses fin i j ∧ b.Uses fin i j
  | _, _, _, sub a b, i, j => a.Uses fin i j ∧ b.Uses fin i j
  | _, _, _, elem a b, i, j => a.Uses fin i j ∧ b.Uses fin i j
  | _, _, _, eval a, i, j => a.Uses fin i j
  | _, _, _, conj v, i, j => v.Uses fin i j
  | _, _, _, diagOf m, i, _ => m.Uses fin (i.castLE (min_le_left _ _)) (i.castLE (min_le_right _ _))
  | _, _, _, diag v, i, j => i = j → v.Uses fin i 0
  | _, _, _, t m, i, j => m.Uses fin j i
  | _, _, _, h m, i, j => m.Uses fin j i
  | _, _, _, prod a b, i, j => ∀ k, a.Uses fin i k ∧ b.Uses fin k j
  | _, _, _, _, _, _ => True

/-- The error bound: relative errors and underflow. -/
noncomputable def err (u v η : ℝ) (φ : T → K) {k : Kind} {r c : ℕ} (e : Form T k r c) (i : Fin r) (j : Fin c) : ℝ :=
  (e.factor u v - 1) * e.mag φ i j + e.factor u v * e.under η φ i j

/-- The given vectors and matrices are finite, and the results of all arithmetic operations are estimated to be at most
`B` in absolute value. -/
def Within (fin : T → Prop) (B u v η : ℝ) (φ : T → K) : {k : Kind} → {r c : ℕ} → Form T k r c → Prop
  | _, _, _, vec f => ∀ i, fin (f i)
  | _, _, _, mat f => ∀ i j, fin (f i j)
  | _, _, _, add a b => a.Within fin B u v η φ ∧ b.Within fin B u v η φ ∧
      ∀ i j, (add a b).factor u v * ((add a b).mag φ i j + (add a b).under η φ i j) ≤ B
  | _, _, _, sub a b => a.Within fin B u v η φ ∧ b.Within fin B u v η φ ∧
      ∀ i j, (sub a b).factor u v * ((sub a b).mag φ i j + (sub a b).under η φ i j) ≤ B
  | _, _, _, elem a b => a.Within fin B u v η φ ∧ b.Within fin B u v η φ ∧
      ∀ i j, (elem a b).factor u v * ((elem a b).mag φ i j + (elem a b).under η φ i j) ≤ B
  | _, _, _, eval a => a.Within fin B u v η φ
  | _, _, _, conj v' => v'.Within fin B u v η φ
  | _, _, _, diagOf m => m.Within fin B u v η φ
  | _, _, _, diag v' => v'.Within fin B u v η φ
  | _, _, _, t m => m.Within fin B u v η φ
  | _, _, _, h m => m.Within fin B u v η φ
  | _, _, _, prod a b => a.Within fin B u v η φ ∧ b.Within fin B u v η φ ∧
      ∀ i j, (prod a b).factor u v * ((prod a b).mag φ i j + (prod a b).under η φ i j) ≤ B
  | _, _, _, _ => True

end Form

end Magnesia
