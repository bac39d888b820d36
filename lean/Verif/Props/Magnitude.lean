import Verif.Props.IntFloat
import Verif.Props.Rounding
import Verif.Proof.MagnitudeOps
import Verif.Props.Polynomial
import Verif.Props.SLinalg
import Verif.Props.DynDot
import Verif.Props.DynLinalg

/-!
# C82: when overflow-checked integers cannot overflow
-/

namespace Magnesia

open RZero ROne MulRefs

variable {w M : ℕ}

/-- C82: whatever program over the API is run on whatever machine integers (containers nested to any depth) with whatever bounds
on their magnitudes: if the same program run on the bounds never exceeds `M`, which the integers can hold, then the program on the
integers returns under overflow checks, and the bounds it computed bound the entries of its result. -/
theorem C82_programs (hw : 1 < w) (hM : M < 2 ^ (w - 1)) (pr : Profile) (Γ : ℕ → Ty) (hΓ : ∀ i, (Γ i).IsData) (ty : Ty)
    (hty : ty.IsData) (p : Prog Γ ty) (env : (i : ℕ) → (Γ i).type (Bounded w M)) (v : ty.type (Mag M))
    (hv : p.run pr (fun i => (Γ i).map Bounded.mag (hΓ i) (env i)) = .ok v) :
    ∃ r : ty.type (Bounded w M), p.run pr (fun i => (Γ i).map Bounded.num (hΓ i) (env i)) = .ok (ty.map Bounded.num hty r) ∧
      v = ty.map Bounded.mag hty r := by
  have : Within w M := ⟨hw, hM⟩
  have h1 := Prog.run_map Bounded.hom_mag (Bounded.hom_mag.toV Bounded.valueOpsAgree Bounded.valueOpsAgree_mag)
    (fun _ => ResRel.ok rfl) pr hΓ env hty p
  rw [hv] at h1
  cases hr : p.run pr env with
  | error e => rw [hr] at h1; cases h1
  | ok r =>
    rw [hr] at h1
    injection h1 with h1
    have h2 := Prog.run_rel Bounded.hom_num (Bounded.hom_num.toV Bounded.valueOpsAgree valueOpsAgree_mint)
      (fun _ => ResRel.ok rfl) pr env _ (fun i => ((Γ i).rel_iff (hΓ i) _ _).2 rfl) p
    rw [hr] at h2
    obtain ⟨y, hy, h3⟩ := h2
    exact ⟨r, by rw [hy, (ty.rel_iff hty _ _).1 h3], h1⟩

/-- C82: the same for programs over `Complex<iN>`, with bounds on the real and imaginary parts. -/
theorem C82_complex (hw : 1 < w) (hM : M < 2 ^ (w - 1)) (pr : Profile) (Γ : ℕ → Ty) (hΓ : ∀ i, (Γ i).IsData) (ty : Ty)
    (hty : ty.IsData) (p : Prog Γ ty) (env : (i : ℕ) → (Γ i).type (Complex (Bounded w M))) (v : ty.type (Complex (Mag M)))
    (hv : p.run pr (fun i => (Γ i).map (Complex.map Bounded.mag) (hΓ i) (env i)) = .ok v) :
    ∃ r : ty.type (Complex (Bounded w M)),
      p.run pr (fun i => (Γ i).map (Complex.map Bounded.num) (hΓ i) (env i)) = .ok (ty.map (Complex.map Bounded.num) hty r) ∧
      v = ty.map (Complex.map Bounded.mag) hty r := by
  have : Within w M := ⟨hw, hM⟩
  have h1 := Prog.run_map Bounded.hom_mag.complex
    (Bounded.hom_mag.complex.toV Bounded.valueOpsAgree.complex Bounded.valueOpsAgree_mag.complex)
    Bounded.hom_mag.cconj pr hΓ env hty p
  rw [hv] at h1
  cases hr : p.run pr env with
  | error e => rw [hr] at h1; cases h1
  | ok r =>
    rw [hr] at h1
    injection h1 with h1
    have h2 := Prog.run_rel Bounded.hom_num.complex
      (Bounded.hom_num.complex.toV Bounded.valueOpsAgree.complex valueOpsAgree_mint.complex)
      Bounded.hom_num.cconj pr env _ (fun i => ((Γ i).rel_iff (hΓ i) _ _).2 rfl) p
    rw [hr] at h2
    obtain ⟨y, hy, h3⟩ := h2
    exact ⟨r, by rw [hy, (ty.rel_iff hty _ _).1 h3], h1⟩

/-- C82: then, if the format holds all integers of that width, the same program run on the same numbers as floating point numbers
rounds nothing: it returns, and every entry of its result is finite and equal to the corresponding integer. -/
theorem C82_float {F : Fmt} (hw : 1 < w) (hF : F.Holds w) (hM : M < 2 ^ (w - 1)) (pr : Profile) (Γ : ℕ → Ty)
    (hΓ : ∀ i, (Γ i).IsData) (ty : Ty) (hty : ty.IsData) (p : Prog Γ ty) (env : (i : ℕ) → (Γ i).type (Bounded w M))
    (v : ty.type (Mag M)) (hv : p.run pr (fun i => (Γ i).map Bounded.mag (hΓ i) (env i)) = .ok v) :
    ∃ (r : ty.type (Bounded w M)) (y : ty.type (Ieee F)),
      p.run pr (fun i => (Γ i).map (MInt.toFloat F ∘ Bounded.num) (hΓ i) (env i)) = .ok y ∧
      p.run pr (fun i => (Γ i).map Bounded.num (hΓ i) (env i)) = .ok (ty.map Bounded.num hty r) ∧
      ty.map Ieee.num hty y = ty.map (fun b => some b.num.toRat) hty r ∧ v = ty.map Bounded.mag hty r := by
  obtain ⟨r, h1, h2⟩ := C82_programs hw hM pr Γ hΓ ty hty p env v hv
  obtain ⟨y, h3, h4⟩ := C66_integers hw hF pr Γ hΓ ty hty p _ _ h1
  simp only [Ty.map_map] at h3 h4
  exact ⟨r, y, h3, h1, h4, h2⟩

/-! ## Single operations -/

/-- C82: an operation on numbers returns iff the exact result can be held, and then it is the result. -/
theorem C82_numbers (hw : 1 < w) (a b c : MInt w true) :
    (ringAdd a b = .ok c ↔ c.toInt = a.toInt + b.toInt) ∧ (ringSub a b = .ok c ↔ c.toInt = a.toInt - b.toInt) ∧
    (mulRefs a b = .ok c ↔ c.toInt = a.toInt * b.toInt) ∧ (RNeg.neg a = .ok c ↔ c.toInt = -a.toInt) ∧
    (Returns (ringAdd a b) ↔ InRange w (a.toInt + b.toInt)) ∧ (Returns (ringSub a b) ↔ InRange w (a.toInt - b.toInt)) ∧
    (Returns (mulRefs a b : Res (MInt w true)) ↔ InRange w (a.toInt * b.toInt)) ∧
    (Returns (RNeg.neg a : Res (MInt w true)) ↔ InRange w (-a.toInt)) := by
  have e1 : ringAdd a b = MInt.add a b := toRes_ofRes _ _
  have e2 : ringSub a b = MInt.sub a b := toRes_ofRes _ _
  obtain ⟨h1, h2, h3, h4⟩ := MInt.ops_iff hw a b c
  obtain ⟨h5, h6, h7, h8⟩ := MInt.returns_iff hw a b
  rw [e1, e2]
  exact ⟨h1, h2, h3, h4, h5, h6, h7, h8⟩

/-- C82: `u * v` on `SVector`s returns if the sum of the magnitudes of its terms is less than `2^(w-1)`. -/
theorem C82_dot (hw : 1 < w) {n : ℕ} (u v : SVector (MInt w true) n)
    (h : ∑ i, |(u.val i).toInt| * |(v.val i).toInt| < 2 ^ (w - 1)) :
    ∃ x, u.dot v = .ok x ∧ x.toInt = ∑ i, (u.val i).toInt * (v.val i).toInt := by
  have hz : (zero : MInt w true).toInt = 0 := implementsV_checked.zero
  obtain ⟨x, hx⟩ := dotLoop_of u.val v.val (List.finRange n) zero (by
    rw [hz, abs_zero, zero_add, ← Fin.sum_univ_def]; exact h)
  exact ⟨x, hx, C22_dot_value (implements_checked hw) u v x hx⟩

/-- C82: if no term is negative, it returns iff the exact value can be held. -/
theorem C82_dot_iff (hw : 1 < w) {n : ℕ} (u v : SVector (MInt w true) n)
    (h : ∀ i, 0 ≤ (u.val i).toInt ∧ 0 ≤ (v.val i).toInt) :
    Returns (u.dot v) ↔ InRange w (∑ i, (u.val i).toInt * (v.val i).toInt) := by
  constructor
  · rintro ⟨x, hx⟩
    rw [← C22_dot_value (implements_checked hw) u v x hx]
    exact MInt.range hw x
  · intro hr
    obtain ⟨x, hx, _⟩ := C82_dot hw u v (by
      simp only [abs_of_nonneg (h _).1, abs_of_nonneg (h _).2]; exact hr.2)
    exact ⟨x, hx⟩

/-- C82: a product of `SMatrix`es returns if for every entry the sum of the magnitudes of its terms is less than `2^(w-1)`. -/
theorem C82_smatrix_mul (hw : 1 < w) {l m n : ℕ} (a : SMatrix (MInt w true) l m) (b : SMatrix (MInt w true) m n)
    (h : ∀ i j, ∑ k, |(a.val i k).toInt| * |(b.val k j).toInt| < 2 ^ (w - 1)) :
    ∃ c, a.mul b = .ok c ∧ ∀ i j, (c.val i j).toInt = ∑ k, (a.val i k).toInt * (b.val k j).toInt := by
  choose y hy he using fun i j => C82_dot hw (SVector.mk (a.val i)) (SVector.mk fun k => b.val k j) (h i j)
  exact ⟨⟨y⟩, (smatrix_mul_entries a b ⟨y⟩).2 hy, he⟩

/-- C82: if no entry is negative, it returns iff the entries of the exact product can be held. -/
theorem C82_smatrix_mul_iff (hw : 1 < w) {l m n : ℕ} (a : SMatrix (MInt w true) l m) (b : SMatrix (MInt w true) m n)
    (ha : ∀ i k, 0 ≤ (a.val i k).toInt) (hb : ∀ k j, 0 ≤ (b.val k j).toInt) :
    Returns (a.mul b) ↔ ∀ i j, InRange w (∑ k, (a.val i k).toInt * (b.val k j).toInt) := by
  constructor
  · rintro ⟨c, hc⟩ i j
    rw [← C23_mul_value (implements_checked hw) a b c hc i j]
    exact MInt.range hw _
  · intro hr
    obtain ⟨c, hc, _⟩ := C82_smatrix_mul hw a b fun i j => by
      simp only [abs_of_nonneg (ha _ _), abs_of_nonneg (hb _ _)]; exact (hr i j).2
    exact ⟨c, hc⟩

/-- C82: so does a product of an `SMatrix` and an `SVector`. -/
theorem C82_mul_vec (hw : 1 < w) {m n : ℕ} (a : SMatrix (MInt w true) m n) (v : SVector (MInt w true) n)
    (h : ∀ i, ∑ k, |(a.val i k).toInt| * |(v.val k).toInt| < 2 ^ (w - 1)) :
    ∃ y, a.mulVec v = .ok y ∧ ∀ i, (y.val i).toInt = ∑ k, (a.val i k).toInt * (v.val k).toInt := by
  choose y hy he using fun i => C82_dot hw (SVector.mk (a.val i)) v (h i)
  refine ⟨⟨y⟩, ?_, he⟩
  rw [SMatrix.mulVec_eq]
  have e := fromFnM_ok_iff.2 hy
  unfold SVector.dot SVector.dotRef at e
  rw [e]
  rfl

/-- C82: if no entry is negative, it returns iff the entries of the exact product can be held. -/
theorem C82_mul_vec_iff (hw : 1 < w) {m n : ℕ} (a : SMatrix (MInt w true) m n) (v : SVector (MInt w true) n)
    (ha : ∀ i k, 0 ≤ (a.val i k).toInt) (hv : ∀ k, 0 ≤ (v.val k).toInt) :
    Returns (a.mulVec v) ↔ ∀ i, InRange w (∑ k, (a.val i k).toInt * (v.val k).toInt) := by
  constructor
  · rintro ⟨y, hy⟩ i
    rw [← C22_dot_value (implements_checked hw) ⟨a.val i⟩ v (y.val i) ((C25_mul_vec_rows a v y).1 hy i)]
    exact MInt.range hw _
  · intro hr
    obtain ⟨y, hy, _⟩ := C82_mul_vec hw a v fun i => by
      simp only [abs_of_nonneg (ha _ _), abs_of_nonneg (hv _)]; exact (hr i).2
    exact ⟨y, hy⟩

/-- C82: `u * v` on `DVector`s. -/
theorem C82_dvector_dot {n : ℕ} (f g : Fin n → MInt w true) (h : ∑ i, |(f i).toInt| * |(g i).toInt| < 2 ^ (w - 1)) :
    ∃ x, (DVector.ofFn f).dotRef (DVector.ofFn g) = .ok x ∧ x.toInt = ∑ i, (f i).toInt * (g i).toInt := by
  have hz : (zero : MInt w true).toInt = 0 := implementsV_checked.zero
  have ez : List.zip (DVector.ofFn f).data (DVector.ofFn g).data = (List.finRange n).map fun i => (f i, g i) := by
    simp [DVector.ofFn, List.ofFn_eq_map, List.zip_map']
  obtain ⟨x, hx⟩ := zipLoop_of (List.zip (DVector.ofFn f).data (DVector.ofFn g).data) zero (by
    rw [hz, abs_zero, zero_add, ez, List.map_map]
    rw [Fin.sum_univ_def] at h
    exact h)
  exact ⟨x, hx, C36_value_same_length C36_checked_conj f g x hx⟩

/-- C82: if no element is negative, it returns iff the exact value can be held. -/
theorem C82_dvector_dot_iff (hw : 1 < w) {n : ℕ} (f g : Fin n → MInt w true) (h : ∀ i, 0 ≤ (f i).toInt ∧ 0 ≤ (g i).toInt) :
    Returns ((DVector.ofFn f).dotRef (DVector.ofFn g)) ↔ InRange w (∑ i, (f i).toInt * (g i).toInt) := by
  constructor
  · rintro ⟨x, hx⟩
    have := C36_value_same_length C36_checked_conj f g x hx
    simp only [id] at this
    rw [← this]
    exact MInt.range hw x
  · intro hr
    obtain ⟨x, hx, _⟩ := C82_dvector_dot f g (by
      simp only [abs_of_nonneg (h _).1, abs_of_nonneg (h _).2]; exact hr.2)
    exact ⟨x, hx⟩

/-- C82: a product of `DMatrix`es (inner dimension at least 1). -/
theorem C82_dmatrix_mul {p : Profile} {l m n : ℕ} (hf : p.Fits l (m + 1)) (hg : p.Fits (m + 1) n)
    (f : Fin l → Fin (m + 1) → MInt w true) (g : Fin (m + 1) → Fin n → MInt w true)
    (h : ∀ i j, ∑ k, |(f i k).toInt| * |(g k j).toInt| < 2 ^ (w - 1)) :
    ∃ y, (do (← (DMatrix.ofFn f).mul p (DMatrix.ofFn g)).eval) = .ok (DMatrix.ofFn y) ∧
      ∀ i j, (y i j).toInt = ∑ k, (f i k).toInt * (g k j).toInt := by
  have key : ∀ i j, ∃ y, Tree.sumTerms (prodTerms f g i j) (m + 1) = .ok y ∧
      y.toInt = ∑ k, (f i k).toInt * (g k j).toInt := by
    intro i j
    have hs := h i j
    simp only [← abs_mul] at hs
    have e1 := Fin.sum_univ_eq_sum_range
      (fun k => if hk : k < m + 1 then |(f i ⟨k, hk⟩).toInt * (g ⟨k, hk⟩ j).toInt| else 0) (m + 1)
    have e2 := Fin.sum_univ_eq_sum_range
      (fun k => if hk : k < m + 1 then (f i ⟨k, hk⟩).toInt * (g ⟨k, hk⟩ j).toInt else 0) (m + 1)
    simp only [Fin.is_lt, dif_pos, Fin.eta] at e1 e2
    rw [e2]
    refine sumTerms_of (fun k hk => ?_) ?_
    · have hb : |(f i ⟨k, hk⟩).toInt * (g ⟨k, hk⟩ j).toInt| < 2 ^ (w - 1) :=
        (Finset.single_le_sum (f := fun k => |(f i k).toInt * (g k j).toInt|) (fun _ _ => abs_nonneg _)
          (Finset.mem_univ (⟨k, hk⟩ : Fin (m + 1)))).trans_lt hs
      obtain ⟨y, e, hy⟩ := MInt.mul_of hb
      exact ⟨y, by simp only [prodTerms, dif_pos hk]; exact e, by rw [dif_pos hk]; exact hy⟩
    · rw [e1] at hs
      refine lt_of_eq_of_lt (Finset.sum_congr rfl fun k _ => ?_) hs
      split <;> simp
  choose y hy he using key
  exact ⟨y, (mul_eval_iff hf hg f g _).2 ⟨y, hy, rfl⟩, he⟩

/-- C82: if no entry is negative, it returns iff the entries of the exact product can be held. -/
theorem C82_dmatrix_mul_iff (hw : 1 < w) {p : Profile} {l m n : ℕ} (hf : p.Fits l (m + 1)) (hg : p.Fits (m + 1) n)
    (f : Fin l → Fin (m + 1) → MInt w true) (g : Fin (m + 1) → Fin n → MInt w true) (h : ∀ i k, 0 ≤ (f i k).toInt)
    (h' : ∀ k j, 0 ≤ (g k j).toInt) :
    Returns (do (← (DMatrix.ofFn f).mul p (DMatrix.ofFn g)).eval : Res (DMatrix (MInt w true))) ↔
      ∀ i j, InRange w (∑ k, (f i k).toInt * (g k j).toInt) := by
  constructor
  · rintro ⟨x, hx⟩ i j
    obtain ⟨y, _, hy⟩ := C33_denotes implementsV_checked hf hg f g x hx
    have := congrFun (congrFun hy i) j
    rw [Matrix.mul_apply] at this
    simp only [Matrix.of_apply] at this
    rw [← this]
    exact MInt.range hw _
  · intro hr
    obtain ⟨y, hy, _⟩ := C82_dmatrix_mul hf hg f g fun i j => by
      simp only [abs_of_nonneg (h _ _), abs_of_nonneg (h' _ _)]; exact (hr i j).2
    exact ⟨_, hy⟩

/-- C82: `eval` returns if the sum of the magnitudes of the terms of the polynomial is less than `2^(w-1)`. -/
theorem C82_eval (hw : 1 < w) (a : List (MInt w true)) (x : MInt w true)
    (h : ∑ i : Fin a.length, |a[i].toInt| * |x.toInt| ^ (i : ℕ) < 2 ^ (w - 1)) :
    ∃ y, (Poly.fromCoefficients a).eval x = .ok y ∧ y.toInt = ∑ i : Fin a.length, a[i].toInt * x.toInt ^ (i : ℕ) := by
  have hz : (zero : MInt w true).toInt = 0 := implementsV_checked.zero
  suffices hs : Returns ((Poly.fromCoefficients a).eval x) by
    obtain ⟨y, hy⟩ := hs
    exact ⟨y, hy, C01_eval_power_sum (implements_checked hw) a x y hy⟩
  by_cases hx : x.toInt = 0
  · exact hornerLoop_zero hw x hx _ _
  · refine hornerLoop_of x (Int.one_le_abs hx) a.reverse zero ?_
    rw [hz, abs_zero, List.map_reverse, horner_abs]
    have e : (∑ i : Fin (a.map MInt.toInt).length, |(a.map MInt.toInt)[i]| * |x.toInt| ^ (i : ℕ)) =
        ∑ i : Fin a.length, |a[i].toInt| * |x.toInt| ^ (i : ℕ) := by
      refine Fintype.sum_equiv (finCongr (by simp)) _ _ fun i => ?_
      simp
    rw [e]
    exact h

/-- C82: if neither a coefficient nor `x` is negative, it returns iff the exact value can be held. -/
theorem C82_eval_iff (hw : 1 < w) (a : List (MInt w true)) (x : MInt w true) (ha : ∀ i : Fin a.length, 0 ≤ a[i].toInt)
    (hx : 0 ≤ x.toInt) :
    Returns ((Poly.fromCoefficients a).eval x) ↔ InRange w (∑ i : Fin a.length, a[i].toInt * x.toInt ^ (i : ℕ)) := by
  constructor
  · rintro ⟨y, hy⟩
    rw [← C01_eval_power_sum (implements_checked hw) a x y hy]
    exact MInt.range hw _
  · intro hr
    obtain ⟨y, hy, _⟩ := C82_eval hw a x (by
      simp only [abs_of_nonneg (ha _), abs_of_nonneg hx]; exact hr.2)
    exact ⟨y, hy⟩

/-- C82: a product of polynomials returns if for every coefficient the sum of the magnitudes of its terms is less than
`2^(w-1)`. -/
theorem C82_poly_mul (hw : 1 < w) (p q : Poly (MInt w true))
    (h : ∀ k, ∑ ij ∈ Finset.antidiagonal k, |p.coef MInt.toInt ij.1| * |q.coef MInt.toInt ij.2| < 2 ^ (w - 1)) :
    ∃ r, p.mulRef q = .ok r ∧
      ∀ k, r.coef MInt.toInt k = ∑ ij ∈ Finset.antidiagonal k, p.coef MInt.toInt ij.1 * q.coef MInt.toInt ij.2 := by
  obtain ⟨r, hr⟩ := mulRef_of p q h
  exact ⟨r, hr, (C04_mul (implements_checked hw) p q r hr).2⟩

/-- C82: if no coefficient is negative, it returns iff the coefficients of the exact product can be held. -/
theorem C82_poly_mul_iff (hw : 1 < w) (p q : Poly (MInt w true)) (hp : ∀ k, 0 ≤ p.coef MInt.toInt k)
    (hq : ∀ k, 0 ≤ q.coef MInt.toInt k) :
    Returns (p.mulRef q) ↔
      ∀ k, InRange w (∑ ij ∈ Finset.antidiagonal k, p.coef MInt.toInt ij.1 * q.coef MInt.toInt ij.2) := by
  constructor
  · rintro ⟨r, hr⟩ k
    rw [← (C04_mul (implements_checked hw) p q r hr).2 k, MInt.exists_of hw]
    unfold Poly.coef
    cases r.a[k]? with
    | none => exact ⟨zero, implementsV_checked.zero⟩
    | some x => exact ⟨x, rfl⟩
  · intro hr
    obtain ⟨r, hr, _⟩ := C82_poly_mul hw p q fun k => by
      simp only [abs_of_nonneg (hp _), abs_of_nonneg (hq _)]; exact (hr k).2
    exact ⟨r, hr⟩

/-- C82: a complex product returns iff the four products and the two results can be held; `sqr_norm` returns iff its value can be
held. -/
theorem C82_complex_mul (hw : 1 < w) (y z : Complex (MInt w true)) :
    (Returns (y.mul z) ↔
      InRange w (y.re.toInt * z.re.toInt) ∧ InRange w (y.re.toInt * z.im.toInt) ∧ InRange w (y.im.toInt * z.re.toInt) ∧
      InRange w (y.im.toInt * z.im.toInt) ∧ InRange w (y.re.toInt * z.re.toInt - y.im.toInt * z.im.toInt) ∧
      InRange w (y.re.toInt * z.im.toInt + y.im.toInt * z.re.toInt)) ∧
    (Returns z.sqrNorm ↔ InRange w (z.re.toInt ^ 2 + z.im.toInt ^ 2)) := by
  constructor
  · constructor
    · rintro ⟨c, hc⟩
      obtain ⟨p1, h1, hc⟩ := bind_ok hc
      obtain ⟨p2, h2, hc⟩ := bind_ok hc
      obtain ⟨p3, h3, hc⟩ := bind_ok hc
      obtain ⟨p4, h4, hc⟩ := bind_ok hc
      obtain ⟨p5, h5, hc⟩ := bind_ok hc
      obtain ⟨p6, h6, hc⟩ := bind_ok hc
      change (Upd.ofRes _ _).toRes = _ at h5 h6
      rw [toRes_ofRes] at h5 h6
      rw [← MInt.mul_ok h1, ← MInt.mul_ok h2, ← MInt.mul_ok h3, ← MInt.mul_ok h4, ← MInt.sub_ok h5, ← MInt.add_ok h6]
      exact ⟨MInt.range hw _, MInt.range hw _, MInt.range hw _, MInt.range hw _, MInt.range hw _, MInt.range hw _⟩
    · rintro ⟨h1, h2, h3, h4, h5, h6⟩
      obtain ⟨p1, e1⟩ := (MInt.returns_iff hw _ _).2.2.1.2 h1
      obtain ⟨p2, e2⟩ := (MInt.returns_iff hw _ _).2.2.1.2 h2
      obtain ⟨p3, e3⟩ := (MInt.returns_iff hw _ _).2.2.1.2 h3
      obtain ⟨p4, e4⟩ := (MInt.returns_iff hw _ _).2.2.1.2 h4
      rw [← MInt.mul_ok e1, ← MInt.mul_ok e4] at h5
      rw [← MInt.mul_ok e2, ← MInt.mul_ok e3] at h6
      obtain ⟨p5, e5⟩ := (MInt.returns_iff hw _ _).2.1.2 h5
      obtain ⟨p6, e6⟩ := (MInt.returns_iff hw _ _).1.2 h6
      refine ⟨⟨p5, p6⟩, ?_⟩
      show (do
        let p1 ← MInt.mul y.re z.re
        let p2 ← MInt.mul y.re z.im
        let p3 ← MInt.mul y.im z.re
        let p4 ← MInt.mul y.im z.im
        let p1 ← (Upd.ofRes p1 (MInt.sub p1 p4)).toRes
        let p2 ← (Upd.ofRes p2 (MInt.add p2 p3)).toRes
        pure (Complex.mk p1 p2)) = _
      simp only [e1, e2, e3, e4, bind, Except.bind, toRes_ofRes, e5, e6]
      rfl
  · constructor
    · rintro ⟨c, hc⟩
      obtain ⟨p1, h1, hc⟩ := bind_ok hc
      obtain ⟨p2, h2, h3⟩ := bind_ok hc
      change (Upd.ofRes _ _).toRes = _ at h3
      rw [toRes_ofRes] at h3
      rw [sq, sq, ← MInt.mul_ok h1, ← MInt.mul_ok h2, ← MInt.add_ok h3]
      exact MInt.range hw _
    · intro h
      obtain ⟨h1, h2⟩ := h
      have s1 := sq_nonneg z.re.toInt
      have s2 := sq_nonneg z.im.toInt
      have hB : (0 : ℤ) < 2 ^ (w - 1) := by positivity
      obtain ⟨p1, e1⟩ := (MInt.returns_iff hw z.re z.re).2.2.1.2 (by rw [← sq]; constructor <;> linarith)
      obtain ⟨p2, e2⟩ := (MInt.returns_iff hw z.im z.im).2.2.1.2 (by rw [← sq]; constructor <;> linarith)
      obtain ⟨p3, e3⟩ := (MInt.returns_iff hw p1 p2).1.2 (by
        rw [MInt.mul_ok e1, MInt.mul_ok e2, ← sq, ← sq]; exact ⟨h1, h2⟩)
      refine ⟨p3, ?_⟩
      show (do
        let p1 ← MInt.mul z.re z.re
        let p2 ← MInt.mul z.im z.im
        (Upd.ofRes p1 (MInt.add p1 p2)).toRes) = _
      simp only [e1, e2, bind, Except.bind, toRes_ofRes, e3]

end Magnesia
