import Verif.Spec.Checks
import Verif.Props.SLinalg
import Verif.Props.Polynomial
import Verif.Props.DynLinalg
import Verif.Props.Eq
import Verif.Props.Nesting

/-!
# Property C100: randomized checks of products
-/

namespace Magnesia

open RZero ROne

variable {T R : Type}

/-! ## Counting -/

/-- At most half of the vectors of zeros and ones are mapped to zero by a matrix that is not zero, over every ring. -/
theorem card_bits_le [Ring R] [DecidableEq R] {l n : ℕ} (D : Matrix (Fin l) (Fin n) R) (hD : D ≠ 0) (A : (Fin n → Bool) → Prop) [DecidablePred A]
    (hA : ∀ s, A s → D.mulVec (fun j => if s j then 1 else 0) = 0) : 2 * (Finset.univ.filter A).card ≤ 2 ^ n := by
  obtain ⟨i, j, hij⟩ : ∃ i j, D i j ≠ 0 := by
    by_contra h
    push Not at h
    exact hD (Matrix.ext h)
  have hflip : ∀ s, A s → ¬ A (Function.update s j (!s j)) := by
    intro s h1 h2
    have e1 := congrFun (hA _ h1) i
    have e2 := congrFun (hA _ h2) i
    simp only [Matrix.mulVec, dotProduct, Pi.zero_apply] at e1 e2
    rw [← Finset.add_sum_erase _ _ (Finset.mem_univ j)] at e1 e2
    have e : ∑ k ∈ Finset.univ.erase j, D i k * (if Function.update s j (!s j) k = true then (1 : R) else 0) =
        ∑ k ∈ Finset.univ.erase j, D i k * (if s k = true then (1 : R) else 0) := Finset.sum_congr rfl fun k hk => by
      have : k ≠ j := (Finset.mem_erase.1 hk).1
      rw [Function.update_of_ne this]
    rw [e, Function.update_self] at e2
    cases hs : s j <;> simp only [hs] at e1 e2 <;> simp at e1 e2 <;> exact hij (by
      first
        | (rw [e1] at e2; simpa using e2)
        | (rw [e2] at e1; simpa using e1))
  have hle : (Finset.univ.filter A).card ≤ (Finset.univ.filter fun s => ¬ A s).card := by
    refine Finset.card_le_card_of_injOn (fun s => Function.update s j (!s j)) (fun s hs => ?_) (fun s _ t _ hst => ?_)
    · simp only [Finset.coe_filter, Finset.mem_univ, true_and, Set.mem_ofPred_eq] at hs ⊢
      exact hflip s hs
    · funext k
      have := congrFun hst k
      by_cases hk : k = j
      · subst hk; simpa using this
      · simpa [Function.update_of_ne hk] using this
  have htot := Finset.card_filter_add_card_filter_not (s := (Finset.univ : Finset (Fin n → Bool))) A
  rw [Finset.card_univ, Fintype.card_fun, Fintype.card_bool, Fintype.card_fin] at htot
  omega

/-- Independent repetitions. -/
theorem card_repeated {S : Type} [Fintype S] (A : S → Prop) [DecidablePred A] (k : ℕ) (N : ℕ) (h : 2 * (Finset.univ.filter A).card ≤ N) :
    2 ^ k * (Finset.univ.filter fun s : Fin k → S => ∀ i, A (s i)).card ≤ N ^ k := by
  classical
  have e : (Finset.univ.filter fun s : Fin k → S => ∀ i, A (s i)) = Fintype.piFinset fun _ => Finset.univ.filter A := by
    ext s; simp [Fintype.mem_piFinset]
  rw [e, Fintype.card_piFinset, Finset.prod_const, Finset.card_univ, Fintype.card_fin, ← mul_pow]
  exact Nat.pow_le_pow_left h k

/-! ## Matrices of fixed size -/

section static
variable [RRing T] [Ring R] {φ : T → R} {l m n : ℕ}

theorem mulVec_denotes (h : Implements φ) (a : SMatrix T m n) (v : SVector T n) (w : SVector T m) (hw : a.mulVec v = .ok w) :
    (fun i => φ (w.val i)) = (a.toMatrix φ).mulVec fun j => φ (v.val j) :=
  funext fun i => C25_mul_vec_value h a v w hw i

theorem freivalds_iff (h : Implements φ) (hq : ∀ x y : T, RPartialEq.eq x y = true ↔ φ x = φ y) (a : SMatrix T l m) (b : SMatrix T m n)
    (c : SMatrix T l n) (v : SVector T n) (r : Bool) (hr : freivalds a b c v = .ok r) :
    r = true ↔ (c.toMatrix φ - a.toMatrix φ * b.toMatrix φ).mulVec (fun j => φ (v.val j)) = 0 := by
  obtain ⟨bv, h1, h2⟩ := bind_ok hr
  obtain ⟨abv, h3, h4⟩ := bind_ok h2
  obtain ⟨cv, h5, h6⟩ := bind_ok h4
  have h6 : RPartialEq.eq abv cv = r := Except.ok.inj h6
  rw [← h6, C51_svector_eq, Matrix.sub_mulVec, ← Matrix.mulVec_mulVec, ← mulVec_denotes h b v bv h1, ← mulVec_denotes h a bv abv h3,
    ← mulVec_denotes h c v cv h5, sub_eq_zero, eq_comm, funext_iff]
  exact forall_congr' fun i => hq _ _

/-- C100: the check never rejects the right product. -/
theorem C100_right_product (h : Implements φ) (hq : ∀ x y : T, RPartialEq.eq x y = true ↔ φ x = φ y) (a : SMatrix T l m) (b : SMatrix T m n)
    (c : SMatrix T l n) (hc : a.mul b = .ok c) (v : SVector T n) (r : Bool) (hr : freivalds a b c v = .ok r) : r = true := by
  rw [freivalds_iff h hq a b c v r hr, C23_mul_denotes h a b c hc, sub_self, Matrix.zero_mulVec]

/-- C100: a matrix that is not the product passes for at most half of the vectors of zeros and ones: over every ring, for instance with
wrapping integers. -/
theorem C100_wrong_product (h : Implements φ) (hq : ∀ x y : T, RPartialEq.eq x y = true ↔ φ x = φ y) (a : SMatrix T l m) (b : SMatrix T m n)
    (c : SMatrix T l n) (hc : ∃ i k, φ (c.val i k) ≠ ∑ j, φ (a.val i j) * φ (b.val j k)) :
    2 * (Finset.univ.filter fun s : Fin n → Bool => freivalds a b c (bitVector s) = .ok true).card ≤ 2 ^ n := by
  classical
  refine card_bits_le (c.toMatrix φ - a.toMatrix φ * b.toMatrix φ) (fun e => ?_) _ fun s hs => ?_
  · obtain ⟨i, k, hik⟩ := hc
    refine hik ?_
    have := congrFun (congrFun (sub_eq_zero.1 e) i) k
    rwa [Matrix.mul_apply] at this
  · have := (freivalds_iff h hq a b c _ true hs).1 rfl
    convert this using 2
    funext j
    show _ = φ (if s j = true then one else zero)
    split_ifs
    · exact h.one.symm
    · exact h.zero.symm

/-- C100: it passes `k` times in a row with probability at most `2^-k`. -/
theorem C100_repeated (h : Implements φ) (hq : ∀ x y : T, RPartialEq.eq x y = true ↔ φ x = φ y) (a : SMatrix T l m) (b : SMatrix T m n)
    (c : SMatrix T l n) (hc : ∃ i k, φ (c.val i k) ≠ ∑ j, φ (a.val i j) * φ (b.val j k)) (k : ℕ) :
    2 ^ k * (Finset.univ.filter fun s : Fin k → Fin n → Bool => ∀ i, freivalds a b c (bitVector (s i)) = .ok true).card ≤ (2 ^ n) ^ k :=
  card_repeated _ k _ (C100_wrong_product h hq a b c hc)

end static

/-! ## Matrices of dynamic size -/

section dynamic
variable [RRing T] [RAdd T T T] [RSub T T T] [RMul T T T] [RAddAssign T T] [RSubAssign T T] [Ring R] {φ : T → R} {l m n : ℕ} {p : Profile}

theorem freivaldsDyn_iff (h : ImplementsV φ) (hq : ∀ x y : T, RPartialEq.eq x y = true ↔ φ x = φ y) (hlm : p.Fits l m) (hmn : p.Fits m n)
    (hln : p.Fits l n) (hm : p.Fits m 1) (hn : p.Fits n 1) (a : Fin l → Fin m → T) (b : Fin m → Fin n → T) (c : Fin l → Fin n → T)
    (v : Fin n → Fin 1 → T) (r : Bool) (hr : freivaldsDyn p (DMatrix.ofFn a) (DMatrix.ofFn b) (DMatrix.ofFn c) (DMatrix.ofFn v) = .ok r) :
    r = true ↔ (Matrix.of (fun i j => φ (c i j)) - Matrix.of (fun i j => φ (a i j)) * Matrix.of (fun i j => φ (b i j))).mulVec (fun j => φ (v j 0)) = 0 := by
  have hr : (do
    let bv ← (do (← (DMatrix.ofFn b).mul p (DMatrix.ofFn v)).eval)
    let abv ← (do (← (DMatrix.ofFn a).mul p bv).eval)
    let cv ← (do (← (DMatrix.ofFn c).mul p (DMatrix.ofFn v)).eval)
    return RPartialEq.eq abv cv) = (.ok r : Res Bool) := by
    rw [← hr]; simp only [freivaldsDyn, bind_assoc]
  obtain ⟨bv, h1, h2⟩ := bind_ok hr
  obtain ⟨y, rfl, e1⟩ := C33_denotes h hmn hn b v bv h1
  obtain ⟨abv, h3, h4⟩ := bind_ok h2
  obtain ⟨z, rfl, e2⟩ := C33_denotes h hlm hm a y abv h3
  obtain ⟨cv, h5, h6⟩ := bind_ok h4
  obtain ⟨w, rfl, e3⟩ := C33_denotes h hln hn c v cv h5
  have h6 : RPartialEq.eq (DMatrix.ofFn z) (DMatrix.ofFn w) = r := Except.ok.inj h6
  have hcol : ∀ {k k' : ℕ} (M : Matrix (Fin k) (Fin k') R) (N : Matrix (Fin k') (Fin 1) R), M.mulVec (fun j => N j 0) = fun i => (M * N) i 0 :=
    fun M N => funext fun i => by rw [Matrix.mul_apply]; rfl
  have hv := hcol (Matrix.of (fun i j => φ (c i j)) - Matrix.of (fun i j => φ (a i j)) * Matrix.of (fun i j => φ (b i j))) (Matrix.of fun i j => φ (v i j))
  rw [Matrix.sub_mul, Matrix.mul_assoc, ← e1, ← e2, ← e3] at hv
  change Matrix.mulVec _ (fun j => φ (v j 0)) = _ at hv
  rw [← h6, C51_dmatrix_eq, hv, funext_iff]
  constructor
  · rintro ⟨_, _, hzw⟩ i
    show φ (w i 0) - φ (z i 0) = 0
    rw [(hq _ _).1 (hzw i 0)]
    exact sub_self _
  · intro hzw
    refine ⟨rfl, rfl, fun i j => (hq _ _).2 ?_⟩
    have : φ (w i 0) - φ (z i 0) = 0 := hzw i
    rw [Subsingleton.elim j 0]
    exact (sub_eq_zero.1 this).symm

/-- C100: the same for matrices of dynamic size. -/
theorem C100_dynamic (h : ImplementsV φ) (h1 : φ one = 1) (hq : ∀ x y : T, RPartialEq.eq x y = true ↔ φ x = φ y) (hlm : p.Fits l m) (hmn : p.Fits m n)
    (hln : p.Fits l n) (hm : p.Fits m 1) (hn : p.Fits n 1) (a : Fin l → Fin m → T) (b : Fin m → Fin n → T) (c : Fin l → Fin n → T) :
    ((do (← (DMatrix.ofFn a).mul p (DMatrix.ofFn b)).eval) = .ok (DMatrix.ofFn c) → ∀ (s : Fin n → Bool) (r : Bool),
      freivaldsDyn p (DMatrix.ofFn a) (DMatrix.ofFn b) (DMatrix.ofFn c) (bitColumn s) = .ok r → r = true) ∧
    ((∃ i k, φ (c i k) ≠ ∑ j, φ (a i j) * φ (b j k)) →
      2 * (Finset.univ.filter fun s : Fin n → Bool =>
        freivaldsDyn p (DMatrix.ofFn a) (DMatrix.ofFn b) (DMatrix.ofFn c) (bitColumn s) = .ok true).card ≤ 2 ^ n) := by
  classical
  constructor
  · intro hc s r hr
    rw [freivaldsDyn_iff h hq hlm hmn hln hm hn a b c _ r hr]
    obtain ⟨y, e, hy⟩ := C33_denotes h hlm hmn a b _ hc
    have := (ofFn_injective e : c = y)
    subst this
    rw [hy, sub_self, Matrix.zero_mulVec]
  · rintro ⟨i, k, hik⟩
    refine card_bits_le (Matrix.of (fun i j => φ (c i j)) - Matrix.of (fun i j => φ (a i j)) * Matrix.of (fun i j => φ (b i j))) (fun e => ?_) _ fun s hs => ?_
    · refine hik ?_
      have := congrFun (congrFun (sub_eq_zero.1 e) i) k
      rwa [Matrix.mul_apply] at this
    · have := (freivaldsDyn_iff h hq hlm hmn hln hm hn a b c _ true hs).1 rfl
      convert this using 2
      funext j
      split_ifs
      · exact h1.symm
      · exact h.zero.symm

end dynamic

/-! ## Polynomials -/

/-- C100: polynomials over a ring without zero divisors: the check at a point never rejects the right product, and if `r` is not the product,
it passes for fewer points than the product or `r` has coefficients. -/
theorem C100_polynomial [RRing T] [CommRing R] [IsDomain R] {φ : T → R} (h : Implements φ) (hq : ∀ x y : T, RPartialEq.eq x y = true ↔ φ x = φ y)
    (p q r : Poly T) :
    (p.mul q = .ok r → ∀ x b, pointCheck p q r x = .ok b → b = true) ∧
    ((∃ k, r.coef φ k ≠ ∑ ij ∈ Finset.antidiagonal k, p.coef φ ij.1 * q.coef φ ij.2) →
      ∀ S : Finset T, Set.InjOn φ S → (S.filter fun x => pointCheck p q r x = .ok true).card <
        max (p.a.length + q.a.length - 1) r.a.length) := by
  classical
  have key : ∀ x b, pointCheck p q r x = .ok b → (b = true ↔
      Polynomial.eval (φ x) (p.toPolynomial φ * q.toPolynomial φ - r.toPolynomial φ) = 0) := by
    intro x b hb
    obtain ⟨y, h1, hb⟩ := bind_ok hb
    obtain ⟨z, h2, hb⟩ := bind_ok hb
    obtain ⟨w, h3, hb⟩ := bind_ok hb
    obtain ⟨yz, h4, hb⟩ := bind_ok hb
    have hb : RPartialEq.eq yz w = b := Except.ok.inj hb
    rw [← hb, hq, h.mul _ _ _ h4, h.peval h1, h.peval h2, h.peval h3, Polynomial.eval_sub, Polynomial.eval_mul, sub_eq_zero]
  refine ⟨fun hr x b hb => ?_, fun ⟨k, hk⟩ S hS => ?_⟩
  · rw [key x b hb, (h.pmul hr).2, sub_self, Polynomial.eval_zero]
  · set P := p.toPolynomial φ * q.toPolynomial φ - r.toPolynomial φ with hP
    have hP0 : P ≠ 0 := fun e => hk (by
      have := congrArg (fun P => Polynomial.coeff P k) (sub_eq_zero.1 (hP ▸ e))
      simp only [Polynomial.coeff_mul, coeff_toPolynomial] at this
      exact this.symm)
    have h1 : (S.filter fun x => pointCheck p q r x = .ok true).card ≤ P.natDegree := by
      rw [← Finset.card_image_of_injOn (f := φ) (hS.mono (by intro x hx; exact (Finset.mem_filter.1 hx).1))]
      refine (Finset.card_le_card (t := P.roots.toFinset) ?_).trans ((Multiset.toFinset_card_le _).trans (Polynomial.card_roots' P))
      intro t ht
      obtain ⟨x, hx, rfl⟩ := Finset.mem_image.1 ht
      rw [Multiset.mem_toFinset, Polynomial.mem_roots hP0]
      exact (key x true (Finset.mem_filter.1 hx).2).1 rfl
    have hdeg : P.degree < (max (p.a.length + q.a.length - 1) r.a.length : ℕ) := by
      refine (Polynomial.degree_lt_iff_coeff_zero _ _).2 fun k hk => ?_
      rw [hP, Polynomial.coeff_sub, Polynomial.coeff_mul, coeff_toPolynomial, Poly.coef, List.getElem?_eq_none (by omega)]
      rw [Finset.sum_eq_zero]
      · exact sub_zero 0
      · rintro ⟨i, j⟩ hij
        have hij := Finset.mem_antidiagonal.1 hij
        simp only [coeff_toPolynomial, Poly.coef] at hij ⊢
        rcases lt_or_ge i p.a.length with hi | hi
        · rw [List.getElem?_eq_none (l := q.a) (by omega)]; exact mul_zero _
        · rw [List.getElem?_eq_none (l := p.a) hi]; exact zero_mul _
    exact h1.trans_lt ((Polynomial.natDegree_lt_iff_degree_lt hP0).2 hdeg)

end Magnesia
