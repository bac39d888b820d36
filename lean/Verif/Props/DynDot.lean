import Verif.Props.DynAssign
import Mathlib.Algebra.Order.BigOperators.Ring.Finset

/-!
# Property C36: the inner product of dynamic vectors
-/

namespace Magnesia

open RZero ROne

variable {T R : Type} {n m : ℕ} [RZero T] [RAdd T T T] [RMul T T T] [RConj T]

/-- What is assumed of the element type: zero, `+`, `*` and conjugation implement those of the ring `R` with the
conjugation `σ` through `φ`, as far as they return. -/
structure ConjImplements {T R : Type} [RZero T] [RAdd T T T] [RMul T T T] [RConj T] [Ring R] (φ : T → R)
    (σ : R → R) : Prop where
  zero : φ RZero.zero = 0
  add : ∀ a b c : T, RAdd.add a b = .ok c → φ c = φ a + φ b
  mul : ∀ a b c : T, RMul.mul a b = .ok c → φ c = φ a * φ b
  conj : ∀ a c : T, RConj.conj a = .ok c → φ c = σ (φ a)

omit [RZero T] [RAdd T T T] [RMul T T T] [RConj T] in
theorem zip_ofFn (f : Fin n → T) (g : Fin m → T) : List.zip (List.ofFn f) (List.ofFn g) =
    List.ofFn (fun i : Fin (min n m) => (f (i.castLE (min_le_left _ _)), g (i.castLE (min_le_right _ _)))) := by
  apply List.ext_getElem
  · simp
  · intro i h1 h2
    simp [List.getElem_zip]

theorem dotFold [Ring R] {φ : T → R} {σ : R → R} (h : ConjImplements φ σ) : ∀ (l : List (T × T)) (a x : T),
    l.foldlM (fun acc (lr : T × T) => do
      let prod ← RMul.mul (← RConj.conj lr.1) lr.2
      (RAdd.add acc prod : Res T)) a = .ok x →
    φ x = φ a + (l.map fun lr => σ (φ lr.1) * φ lr.2).sum := by
  intro l
  induction l with
  | nil => intro a x e; cases pure_ok e; simp
  | cons y l ih =>
    intro a x e
    rw [List.foldlM_cons] at e
    obtain ⟨s, e1, e⟩ := bind_ok e
    obtain ⟨cj, e2, e1⟩ := bind_ok e1
    obtain ⟨pr, e3, e1⟩ := bind_ok e1
    rw [ih s x e, h.add _ _ _ e1, h.mul _ _ _ e3, h.conj _ _ e2, List.map_cons, List.sum_cons, add_assoc]

/-- C36: `&u * &v`, if it returns, is the sum of `conj(u[i]) * v[i]` over the common indices: the excess entries of the
longer vector are ignored. -/
theorem C36_value [Ring R] {φ : T → R} {σ : R → R} (h : ConjImplements φ σ) (f : Fin n → T) (g : Fin m → T) (x : T)
    (e : (DVector.ofFn f).dotRef (DVector.ofFn g) = .ok x) :
    φ x = ∑ i : Fin (min n m), σ (φ (f (i.castLE (min_le_left _ _)))) * φ (g (i.castLE (min_le_right _ _))) := by
  unfold DVector.dotRef at e
  rw [show (DVector.ofFn f).data.zip (DVector.ofFn g).data = _ from zip_ofFn f g] at e
  rw [dotFold h _ _ _ e, h.zero, zero_add, List.map_ofFn, List.sum_ofFn]
  rfl

/-- C36: for vectors of the same length, `u * v = Σ conj(u[i]) * v[i]`. -/
theorem C36_value_same_length [Ring R] {φ : T → R} {σ : R → R} (h : ConjImplements φ σ) (f g : Fin n → T) (x : T)
    (e : (DVector.ofFn f).dotRef (DVector.ofFn g) = .ok x) : φ x = ∑ i, σ (φ (f i)) * φ (g i) := by
  rw [C36_value h f g x e]
  refine Fintype.sum_equiv (finCongr (min_self n)) _ _ fun i => ?_
  rfl

/-- C36: no panic, whatever the lengths, if the element operations do not panic. -/
theorem C36_never_panics (hadd : ∀ a b : T, Returns (RAdd.add a b : Res T)) (hmul : ∀ a b : T, Returns (RMul.mul a b : Res T))
    (hconj : ∀ a : T, Returns (RConj.conj a)) (u v : DVector T) : Returns (u.dotRef v) := by
  unfold DVector.dotRef
  generalize (zero : T) = a
  induction u.data.zip v.data generalizing a with
  | nil => exact ⟨a, rfl⟩
  | cons y l ih =>
    rw [List.foldlM_cons]
    exact ((hconj _).bind fun _ _ => (hmul _ _).bind fun _ _ => hadd _ _).bind fun s _ => ih s

/-- C36: different lengths: exactly the computation on the vectors truncated to the shorter length. -/
theorem C36_truncates (u v : DVector T) : u.dotRef v =
    (DVector.mk (u.data.take v.data.length)).dotRef ⟨v.data.take u.data.length⟩ := by
  unfold DVector.dotRef
  congr 1
  rw [List.zip_eq_zip_take_min]
  have h1 : u.data.take (min u.data.length v.data.length) = u.data.take v.data.length := by
    rcases le_total u.data.length v.data.length with h | h
    · rw [min_eq_left h, List.take_of_length_le (le_refl _), List.take_of_length_le h]
    · rw [min_eq_right h]
  have h2 : v.data.take (min u.data.length v.data.length) = v.data.take u.data.length := by
    rcases le_total u.data.length v.data.length with h | h
    · rw [min_eq_left h]
    · rw [min_eq_right h, List.take_of_length_le (le_refl _), List.take_of_length_le h]
  rw [h1, h2]

/-- C36: the by-value and by-reference operators agree. -/
theorem C36_value_eq_ref (u v : DVector T) : u.dot v = u.dotRef v := rfl

theorem eval_add_ok [Ring R] {φ : T → R} {σ : R → R} (h : ConjImplements φ σ) (f g : Fin n → T) (s : DVector T)
    (e : (do (← ((DVector.ofFn f).add (DVector.ofFn g).asExpr : Res (VExpr T))).eval) = .ok s) :
    ∃ t : Fin n → T, s = DVector.ofFn t ∧ ∀ i, φ (t i) = φ (f i) + φ (g i) := by
  obtain ⟨o, e1, e⟩ := bind_ok e
  obtain ⟨_, _, e1⟩ := bind_ok e1
  cases pure_ok e1
  have h2 : (DVector.ofFn f).asExpr.len = n := by simp [DVector.asExpr, DVector.ofFn]
  have e' : VExpr.defaultEval n (fun i => do RAdd.add (← getIdx (List.ofFn f) i) (← getIdx (List.ofFn g) i)) = .ok s := by
    rw [← e]; exact congrArg (fun k => VExpr.defaultEval k _) h2.symm
  obtain ⟨t, ht, rfl⟩ := vdefaultEval_iff.1 e'
  refine ⟨t, rfl, fun i => ?_⟩
  have := ht i
  rw [getIdx_ofFn, getIdx_ofFn] at this
  exact h.add _ _ _ this

/-- C36: additive in both arguments (`σ` additive): `u * (v + w) = u * v + u * w` and `(u + v) * w = u * w + v * w`. -/
theorem C36_additive [Ring R] {φ : T → R} {σ : R →+ R} (h : ConjImplements φ σ) (f g k : Fin n → T) (s : DVector T)
    (x y z : T) :
    ((do (← ((DVector.ofFn g).add (DVector.ofFn k).asExpr : Res (VExpr T))).eval) = .ok s →
      (DVector.ofFn f).dotRef s = .ok x → (DVector.ofFn f).dotRef (DVector.ofFn g) = .ok y →
      (DVector.ofFn f).dotRef (DVector.ofFn k) = .ok z → φ x = φ y + φ z) ∧
    ((do (← ((DVector.ofFn f).add (DVector.ofFn g).asExpr : Res (VExpr T))).eval) = .ok s →
      s.dotRef (DVector.ofFn k) = .ok x → (DVector.ofFn f).dotRef (DVector.ofFn k) = .ok y →
      (DVector.ofFn g).dotRef (DVector.ofFn k) = .ok z → φ x = φ y + φ z) := by
  constructor <;> intro e1 e2 e3 e4 <;> obtain ⟨t, rfl, ht⟩ := eval_add_ok h _ _ _ e1 <;>
    rw [C36_value_same_length h _ _ _ e2, C36_value_same_length h _ _ _ e3, C36_value_same_length h _ _ _ e4,
      ← Finset.sum_add_distrib] <;> refine Finset.sum_congr rfl fun i _ => ?_ <;> rw [ht]
  · rw [mul_add]
  · rw [map_add, add_mul]

/-- C36: scaling the right argument scales the product, scaling the left one scales it by the conjugate. -/
theorem C36_homogeneous [CommRing R] {φ : T → R} {σ : R →+* R} (h : ConjImplements φ σ) (a : R) (f g f' g' : Fin n → T)
    (x y z : T) (hf : ∀ i, φ (f' i) = a * φ (f i)) (hg : ∀ i, φ (g' i) = a * φ (g i))
    (ex : (DVector.ofFn f).dotRef (DVector.ofFn g) = .ok x) (ey : (DVector.ofFn f).dotRef (DVector.ofFn g') = .ok y)
    (ez : (DVector.ofFn f').dotRef (DVector.ofFn g) = .ok z) : φ y = a * φ x ∧ φ z = σ a * φ x := by
  rw [C36_value_same_length h _ _ _ ex, C36_value_same_length h _ _ _ ey, C36_value_same_length h _ _ _ ez,
    Finset.mul_sum, Finset.mul_sum]
  constructor <;> refine Finset.sum_congr rfl fun i _ => ?_
  · rw [hg]; ring
  · rw [hf, map_mul]; ring

/-- C36: conjugate-symmetric for commutative scalars. -/
theorem C36_conj_symmetric [CommRing R] {φ : T → R} {σ : R →+* R} (hσ : ∀ a, σ (σ a) = a) (h : ConjImplements φ σ)
    (f g : Fin n → T) (x y : T) (e1 : (DVector.ofFn f).dotRef (DVector.ofFn g) = .ok x)
    (e2 : (DVector.ofFn g).dotRef (DVector.ofFn f) = .ok y) : φ y = σ (φ x) := by
  rw [C36_value_same_length h _ _ _ e1, C36_value_same_length h _ _ _ e2, map_sum]
  refine Finset.sum_congr rfl fun i _ => ?_
  rw [map_mul, hσ, mul_comm]

/-- C36: over real scalars (conjugation is the identity) of an ordered ring, `u * u` is non-negative, and zero only for
the zero vector. -/
theorem C36_real_positive [CommRing R] [LinearOrder R] [IsStrictOrderedRing R] {φ : T → R} (h : ConjImplements φ id)
    (f : Fin n → T) (x : T) (e : (DVector.ofFn f).dotRef (DVector.ofFn f) = .ok x) :
    0 ≤ φ x ∧ (φ x = 0 ↔ ∀ i, φ (f i) = 0) := by
  rw [C36_value_same_length h _ _ _ e]
  simp only [id]
  refine ⟨Finset.sum_nonneg fun i _ => mul_self_nonneg _, ?_⟩
  rw [Finset.sum_eq_zero_iff_of_nonneg fun i _ => mul_self_nonneg _]
  simp

/-- The conjugation of `R[i]`. -/
def Cx.star {R : Type} [Ring R] (z : Cx R) : Cx R := ⟨z.re, -z.im⟩

/-- C36: over complex scalars with real part in an ordered ring, `u * u` is real and non-negative, and zero only for
the zero vector. -/
theorem C36_complex_positive [CommRing R] [LinearOrder R] [IsStrictOrderedRing R] {φ : T → Cx R}
    (h : ConjImplements φ Cx.star) (f : Fin n → T) (x : T) (e : (DVector.ofFn f).dotRef (DVector.ofFn f) = .ok x) :
    (φ x).im = 0 ∧ 0 ≤ (φ x).re ∧ (φ x = 0 ↔ ∀ i, φ (f i) = 0) := by
  have hre : ∀ (s : Finset (Fin n)) (g : Fin n → Cx R), (∑ i ∈ s, g i).re = ∑ i ∈ s, (g i).re := fun s g =>
    map_sum (⟨⟨Cx.re, rfl⟩, fun _ _ => rfl⟩ : Cx R →+ R) g s
  have him : ∀ (s : Finset (Fin n)) (g : Fin n → Cx R), (∑ i ∈ s, g i).im = ∑ i ∈ s, (g i).im := fun s g =>
    map_sum (⟨⟨Cx.im, rfl⟩, fun _ _ => rfl⟩ : Cx R →+ R) g s
  have hv := C36_value_same_length h _ _ _ e
  have h1 : (φ x).im = 0 := by
    rw [hv, him]
    refine Finset.sum_eq_zero fun i _ => ?_
    simp only [Cx.mul_im, Cx.star]; ring
  have h2 : (φ x).re = ∑ i, ((φ (f i)).re * (φ (f i)).re + (φ (f i)).im * (φ (f i)).im) := by
    rw [hv, hre]
    refine Finset.sum_congr rfl fun i _ => ?_
    simp only [Cx.mul_re, Cx.star]; ring
  have hnn : ∀ i, 0 ≤ (φ (f i)).re * (φ (f i)).re + (φ (f i)).im * (φ (f i)).im := fun i =>
    add_nonneg (mul_self_nonneg _) (mul_self_nonneg _)
  refine ⟨h1, by rw [h2]; exact Finset.sum_nonneg fun i _ => hnn i, ?_⟩
  rw [Cx.ext_iff, h1, h2]
  simp only [Cx.zero_re, Cx.zero_im, and_true]
  rw [Finset.sum_eq_zero_iff_of_nonneg fun i _ => hnn i]
  constructor
  · intro h3 i
    have h4 := h3 i (Finset.mem_univ i)
    have h5 := (add_eq_zero_iff_of_nonneg (mul_self_nonneg _) (mul_self_nonneg _)).1 h4
    exact Cx.ext (mul_self_eq_zero.1 h5.1) (mul_self_eq_zero.1 h5.2)
  · intro h3 i _
    rw [h3 i]; simp

/-- The hypotheses hold for exact arithmetic and for checked machine integers … -/
theorem C36_exact_conj {R : Type} [Ring R] : ConjImplements (Exact.val : Exact R → R) id where
  zero := rfl
  add a b c h := by cases h; rfl
  mul a b c h := by cases h; rfl
  conj a c h := by cases h; rfl

theorem C36_checked_conj {w : ℕ} : ConjImplements (MInt.toInt : MInt w true → ℤ) id where
  zero := implementsV_checked.zero
  add := implementsV_checked.add
  mul := implementsV_checked.mul
  conj a c h := by cases h; rfl

/-- … and for complex numbers over them. -/
theorem C36_complex_conj {S R : Type} [RRing S] [RAdd S S S] [Ring R] {φ : S → R} (h : Implements φ)
    (hadd : ∀ a b c : S, RAdd.add a b = .ok c → φ c = φ a + φ b) :
    ConjImplements (Complex.toCx φ) Cx.star where
  zero := h.complex.zero
  add a b c e := by
    obtain ⟨p1, e1, e⟩ := bind_ok e
    obtain ⟨p2, e2, e⟩ := bind_ok e
    cases pure_ok e
    exact Cx.ext (hadd _ _ _ e1) (hadd _ _ _ e2)
  mul a b c e := h.cmul e
  conj a c e := h.cconj e

/-- `[1+2i, 3] * [1, i]` is `1 + i`. -/
example : (DVector.mk [(⟨⟨1⟩, ⟨2⟩⟩ : Complex (Exact ℤ)), ⟨⟨3⟩, ⟨0⟩⟩]).dotRef ⟨[⟨⟨1⟩, ⟨0⟩⟩, ⟨⟨0⟩, ⟨1⟩⟩]⟩ =
    .ok ⟨⟨1⟩, ⟨1⟩⟩ := rfl

/-- Different lengths: `[1, 2, 3] * [10]` is `10`. -/
example : (DVector.mk [(⟨1⟩ : Exact ℤ), ⟨2⟩, ⟨3⟩]).dotRef ⟨[⟨10⟩]⟩ = .ok ⟨10⟩ := rfl

end Magnesia
