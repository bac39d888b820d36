import Verif.Spec.Denote
import Verif.Proof.Panics
import Mathlib.Data.Matrix.Mul

/-!
# Containers implement the corresponding mathematical ring (helper lemmas)
-/

set_option linter.unusedSectionVars false

namespace Magnesia

open RZero ROne MulRefs

variable {T R : Type} [RRing T] [Ring R] {φ : T → R}

theorem toRes_ok {σ : Type} {u : Upd σ} {v : σ} (h : u.toRes = .ok v) : u.panic = none ∧ u.val = v := by
  unfold Upd.toRes at h
  cases hp : u.panic with
  | none => simp [hp] at h; exact ⟨rfl, h⟩
  | some e => simp [hp] at h

theorem toRes_done {σ : Type} {u : Upd σ} (h : u.panic = none) : u.toRes = .ok u.val := by
  simp [Upd.toRes, h]

theorem bind_ok {α β : Type} {x : Res α} {k : α → Res β} {b : β} (h : (x >>= k) = .ok b) :
    ∃ a, x = .ok a ∧ k a = .ok b := by
  cases x with
  | ok a => exact ⟨a, rfl, h⟩
  | error e => cases h

theorem pure_ok {α : Type} {a b : α} (h : (pure a : Res α) = .ok b) : a = b := by
  cases h; rfl

namespace Implements

theorem addR (h : Implements φ) {a b c : T} (e : (AddAssignRef.addAssign a b).toRes = .ok c) : φ c = φ a + φ b := by
  obtain ⟨h1, rfl⟩ := toRes_ok e
  exact h.add a b h1

theorem subR (h : Implements φ) {a b c : T} (e : (SubAssignRef.subAssign a b).toRes = .ok c) : φ c = φ a - φ b := by
  obtain ⟨h1, rfl⟩ := toRes_ok e
  exact h.sub a b h1

theorem cmul (h : Implements φ) {a b c : Complex T} (e : Complex.mulRef a b = .ok c) :
    c.toCx φ = a.toCx φ * b.toCx φ := by
  unfold Complex.mulRef at e
  obtain ⟨p1, e1, e⟩ := bind_ok e
  obtain ⟨p2, e2, e⟩ := bind_ok e
  obtain ⟨p3, e3, e⟩ := bind_ok e
  obtain ⟨p4, e4, e⟩ := bind_ok e
  obtain ⟨p5, e5, e⟩ := bind_ok e
  obtain ⟨p6, e6, e⟩ := bind_ok e
  cases pure_ok e
  ext
  · simp [Complex.toCx, h.subR e5, h.mul _ _ _ e1, h.mul _ _ _ e4]
  · simp [Complex.toCx, h.addR e6, h.mul _ _ _ e2, h.mul _ _ _ e3]

theorem andThen_panic {σ : Type} {u : Upd σ} {k : σ → Upd σ} (h : (u.andThen k).panic = none) :
    u.panic = none ∧ (k u.val).panic = none ∧ u.andThen k = k u.val := by
  unfold Upd.andThen at *
  cases hp : u.panic with
  | none => rw [hp] at h; exact ⟨rfl, h, rfl⟩
  | some e => rw [hp] at h; simp [hp] at h

theorem cadd (h : Implements φ) (a b : Complex T) (e : (Complex.addAssignRef a b).panic = none) :
    (Complex.addAssignRef a b).val.toCx φ = a.toCx φ + b.toCx φ := by
  unfold Complex.addAssignRef at *
  obtain ⟨h1, h2, h3⟩ := andThen_panic e
  rw [h3]
  ext
  · exact h.add _ _ h1
  · exact h.add _ _ h2

theorem csub (h : Implements φ) (a b : Complex T) (e : (Complex.subAssignRef a b).panic = none) :
    (Complex.subAssignRef a b).val.toCx φ = a.toCx φ - b.toCx φ := by
  unfold Complex.subAssignRef at *
  obtain ⟨h1, h2, h3⟩ := andThen_panic e
  rw [h3]
  ext
  · exact h.sub _ _ h1
  · exact h.sub _ _ h2

theorem cneg (h : Implements φ) {a c : Complex T} (e : Complex.neg a = .ok c) : c.toCx φ = -a.toCx φ := by
  unfold Complex.neg at e
  obtain ⟨p1, e1, e⟩ := bind_ok e
  obtain ⟨p2, e2, e⟩ := bind_ok e
  cases pure_ok e
  ext
  · exact h.neg _ _ e1
  · exact h.neg _ _ e2

theorem complex (h : Implements φ) : Implements (Complex.toCx φ) where
  zero := by ext; exacts [h.zero, h.zero]
  one := by ext; exacts [h.one, h.zero]
  add := h.cadd
  sub := h.csub
  mul _ _ _ := h.cmul
  neg _ _ := h.cneg

/-! ### Polynomials -/

variable {p q r : Poly T}

private theorem coef_mk (p : Poly T) (k : ℕ) :
    (p.map (fun x => Exact.mk (φ x))).coef Exact.val k = p.coef φ k := coef_map _ _ _ _

private theorem len_mk (p : Poly T) : (p.map (fun x => Exact.mk (φ x))).a.length = p.a.length := by simp [Poly.map]

theorem padd (h : Implements φ) (e : p.add q = .ok r) : r.a.length = max p.a.length q.a.length ∧
    ∀ k, r.coef φ k = p.coef φ k + q.coef φ k := by
  classical
  have e' := (h.hom.padd p q).of_ok e
  obtain ⟨r', h1, h2, h3⟩ := exact_add (p.map (fun x => Exact.mk (φ x))) (q.map (fun x => Exact.mk (φ x)))
  rw [h1] at e'
  cases e'
  simp only [coef_mk, len_mk] at h2 h3
  exact ⟨h2, h3⟩

theorem updRel_ok {σ τ : Type} {s : Keep} {f : σ → τ} {u : Upd σ} {u' : Upd τ} (h : UpdRel s f u u')
    (hp : u.panic = none) : u' = ⟨f u.val, none⟩ := by
  simpa only [UpdRel, hp] using h

theorem paddAssignV (h : Implements φ) (e : (p.addAssignV q).panic = none) :
    (p.addAssignV q).val.a.length = max p.a.length q.a.length ∧
      ∀ k, (p.addAssignV q).val.coef φ k = p.coef φ k + q.coef φ k := by
  classical
  have e' := updRel_ok (h.hom.paddAssignV p q) e
  obtain ⟨_, h2, h3⟩ := exact_addAssignV (p.map (fun x => Exact.mk (φ x))) (q.map (fun x => Exact.mk (φ x)))
  rw [e'] at h2 h3
  simp only [coef_mk, len_mk] at h2 h3
  exact ⟨h2, h3⟩

theorem paddAssignRef (h : Implements φ) (e : (p.addAssignRef q).panic = none) :
    (p.addAssignRef q).val.a.length = max p.a.length q.a.length ∧
      ∀ k, (p.addAssignRef q).val.coef φ k = p.coef φ k + q.coef φ k := by
  classical
  have e' := updRel_ok (h.hom.paddAssignRef p q) e
  obtain ⟨_, h2, h3⟩ := exact_addAssignRef (p.map (fun x => Exact.mk (φ x))) (q.map (fun x => Exact.mk (φ x)))
  rw [e'] at h2 h3
  simp only [coef_mk, len_mk] at h2 h3
  exact ⟨h2, h3⟩

theorem psub (h : Implements φ) (e : p.sub q = .ok r) : r.a.length = max p.a.length q.a.length ∧
    ∀ k, r.coef φ k = p.coef φ k - q.coef φ k := by
  classical
  have e' := (h.hom.psub p q).of_ok e
  obtain ⟨r', h1, h2, h3⟩ := exact_sub (p.map (fun x => Exact.mk (φ x))) (q.map (fun x => Exact.mk (φ x)))
  rw [h1] at e'
  cases e'
  simp only [coef_mk, len_mk] at h2 h3
  exact ⟨h2, h3⟩

theorem psubAssignV (h : Implements φ) (e : (p.subAssignV q).panic = none) :
    (p.subAssignV q).val.a.length = max p.a.length q.a.length ∧
      ∀ k, (p.subAssignV q).val.coef φ k = p.coef φ k - q.coef φ k := by
  classical
  have e' := updRel_ok (h.hom.psubAssignV p q) e
  obtain ⟨_, h2, h3⟩ := exact_subAssignV (p.map (fun x => Exact.mk (φ x))) (q.map (fun x => Exact.mk (φ x)))
  rw [e'] at h2 h3
  simp only [coef_mk, len_mk] at h2 h3
  exact ⟨h2, h3⟩

theorem psubAssignRef (h : Implements φ) (e : (p.subAssignRef q).panic = none) :
    (p.subAssignRef q).val.a.length = max p.a.length q.a.length ∧
      ∀ k, (p.subAssignRef q).val.coef φ k = p.coef φ k - q.coef φ k := by
  classical
  have e' := updRel_ok (h.hom.psubAssignRef p q) e
  obtain ⟨_, h2, h3⟩ := exact_subAssignRef (p.map (fun x => Exact.mk (φ x))) (q.map (fun x => Exact.mk (φ x)))
  rw [e'] at h2 h3
  simp only [coef_mk, len_mk] at h2 h3
  exact ⟨h2, h3⟩

theorem pneg (h : Implements φ) (e : p.neg = .ok r) : r.a.length = p.a.length ∧
    ∀ k, r.coef φ k = -p.coef φ k := by
  classical
  have e' := (h.hom.pneg p).of_ok e
  obtain ⟨r', h1, h2, h3⟩ := exact_neg (p.map (fun x => Exact.mk (φ x)))
  rw [h1] at e'
  cases e'
  simp only [coef_mk, len_mk] at h2 h3
  exact ⟨h2, h3⟩

theorem pmul (h : Implements φ) (e : p.mulRef q = .ok r) :
    r.a.length = (if p.a.length = 0 ∨ q.a.length = 0 then 0 else p.a.length + q.a.length - 1) ∧
      r.toPolynomial φ = p.toPolynomial φ * q.toPolynomial φ := by
  classical
  have e' := (h.hom.pmul p q).of_ok e
  obtain ⟨r', h1, h2, h3⟩ := exact_mul (p.map (fun x => Exact.mk (φ x))) (q.map (fun x => Exact.mk (φ x)))
  rw [h1] at e'
  cases e'
  simp only [toPolynomial_map, len_mk] at h2 h3
  exact ⟨h2, h3⟩

theorem peval (h : Implements φ) {x y : T} (e : p.eval x = .ok y) : φ y = (p.toPolynomial φ).eval (φ x) := by
  classical
  have e' := (h.hom.peval p x).of_ok e
  rw [exact_eval, toPolynomial_map] at e'
  have := congrArg Exact.val (Except.ok.inj e')
  exact this.symm

theorem poly (h : Implements φ) : Implements (Poly.toPolynomial φ) where
  zero := by simp [Poly.toPolynomial, RZero.zero]
  one := by
    ext k
    rw [coeff_toPolynomial, Polynomial.coeff_one]
    cases k with
    | zero => simpa [Poly.coef, ROne.one] using h.one
    | succ k => simp [Poly.coef, ROne.one]
  add a b e := by
    ext k
    rw [Polynomial.coeff_add]
    simp only [coeff_toPolynomial]
    exact (h.paddAssignRef e).2 k
  sub a b e := by
    ext k
    rw [Polynomial.coeff_sub]
    simp only [coeff_toPolynomial]
    exact (h.psubAssignRef e).2 k
  mul a b c e := (h.pmul e).2
  neg a c e := by
    ext k
    rw [Polynomial.coeff_neg]
    simp only [coeff_toPolynomial]
    exact (h.pneg e).2 k

end Implements

/-! ### Vectors and matrices -/

section Vec
variable {n r c L M N : ℕ}

theorem arrLoop_done {C : Type} (g : Fin n → C → Upd C) (v : Fin n → C)
    (h : (forEach (List.finRange n) (fun i v => arrUpd v i (g i)) v).panic = none) (i : Fin n) :
    (g i (v i)).panic = none ∧ (forEach (List.finRange n) (fun i v => arrUpd v i (g i)) v).val i = (g i (v i)).val := by
  have hc : CellLoop (fun (v : Fin n → C) i => v i) (List.finRange n) (fun i v => arrUpd v i (g i)) g
      (fun _ => True) := by
    refine ⟨fun _ _ _ _ => trivial, fun _ _ _ _ => rfl, fun i _ s _ => ?_, fun i _ s _ j hj => ?_⟩
    · simp [arrUpd, Upd.into]
    · simp [arrUpd, Upd.into, Function.update_of_ne hj]
  exact (hc.done (List.nodup_finRange n) v trivial h).1 i (List.mem_finRange i)

theorem arrLoop_crash {C : Type} (g : Fin n → C → Upd C) (v : Fin n → C) {e : Panic}
    (h : (forEach (List.finRange n) (fun i v => arrUpd v i (g i)) v).panic = some e) :
    ∃ k : Fin n, (g k (v k)).panic = some e ∧
      (forEach (List.finRange n) (fun i v => arrUpd v i (g i)) v).val k = (g k (v k)).val ∧
      (∀ i < k, (g i (v i)).panic = none ∧
        (forEach (List.finRange n) (fun i v => arrUpd v i (g i)) v).val i = (g i (v i)).val) ∧
      ∀ i, k < i → (forEach (List.finRange n) (fun i v => arrUpd v i (g i)) v).val i = v i := by
  have hc : CellLoop (fun (v : Fin n → C) i => v i) (List.finRange n) (fun i v => arrUpd v i (g i)) g
      (fun _ => True) := by
    refine ⟨fun _ _ _ _ => trivial, fun _ _ _ _ => rfl, fun i _ s _ => ?_, fun i _ s _ j hj => ?_⟩
    · simp [arrUpd, Upd.into]
    · simp [arrUpd, Upd.into, Function.update_of_ne hj]
  obtain ⟨pre, k, post, hl, h1, h2, h3, h4⟩ := hc.crash (List.nodup_finRange n) v trivial h
  have hsort : (pre ++ k :: post).Pairwise (· < ·) := by
    rw [← hl]; exact List.pairwise_lt_finRange n
  rw [List.pairwise_append] at hsort
  obtain ⟨_, hs2, hs3⟩ := hsort
  rw [List.pairwise_cons] at hs2
  have hmem : ∀ i : Fin n, i ∈ pre ∨ i = k ∨ i ∈ post := by
    intro i
    have := List.mem_finRange i
    rw [hl] at this
    simpa using this
  refine ⟨k, h2, h3, fun i hi => h1 i ?_, fun i hi => h4 i (fun hp => ?_) (ne_of_gt hi)⟩
  · rcases hmem i with h | rfl | h
    · exact h
    · exact absurd hi (lt_irrefl _)
    · exact absurd (lt_trans hi (hs2.1 i h)) (lt_irrefl _)
  · exact absurd (lt_trans hi (hs3 i hp k (by simp))) (lt_irrefl _)

namespace Implements

theorem vadd (h : Implements φ) (u v : SVector T n) (e : (u.addAssignRef v).panic = none) (i : Fin n) :
    φ ((u.addAssignRef v).val.val i) = φ (u.val i) + φ (v.val i) := by
  obtain ⟨h1, h2⟩ := arrLoop_done (fun i s => AddAssignRef.addAssign s (v.val i)) u.val e i
  exact (congrArg φ h2).trans (h.add _ _ h1)

theorem vsub (h : Implements φ) (u v : SVector T n) (e : (u.subAssignRef v).panic = none) (i : Fin n) :
    φ ((u.subAssignRef v).val.val i) = φ (u.val i) - φ (v.val i) := by
  obtain ⟨h1, h2⟩ := arrLoop_done (fun i s => SubAssignRef.subAssign s (v.val i)) u.val e i
  exact (congrArg φ h2).trans (h.sub _ _ h1)

theorem vmul (h : Implements φ) (u : SVector T n) (x : T) (e : (u.mulAssignRef x).panic = none) (i : Fin n) :
    φ ((u.mulAssignRef x).val.val i) = φ (u.val i) * φ x := by
  obtain ⟨h1, h2⟩ := arrLoop_done (fun _ s => Upd.ofRes s (mulRefs s x)) u.val e i
  exact (congrArg φ h2).trans (h.mul _ _ _ (ofRes_panic h1))

theorem madd (h : Implements φ) (a b : SMatrix T r c) (e : (a.addAssignRef b).panic = none) (i : Fin r) (j : Fin c) :
    φ ((a.addAssignRef b).val.val i j) = φ (a.val i j) + φ (b.val i j) := by
  obtain ⟨h1, h2⟩ := arrLoop_done (fun i lo => forEach (List.finRange c) (fun j lo =>
    arrUpd lo j (fun li => AddAssignRef.addAssign li (b.val i j))) lo) a.val e i
  obtain ⟨h3, h4⟩ := arrLoop_done (fun j li => AddAssignRef.addAssign li (b.val i j)) (a.val i) h1 j
  exact (congrArg (fun row => φ (row j)) h2).trans ((congrArg φ h4).trans (h.add _ _ h3))

theorem msub (h : Implements φ) (a b : SMatrix T r c) (e : (a.subAssignRef b).panic = none) (i : Fin r) (j : Fin c) :
    φ ((a.subAssignRef b).val.val i j) = φ (a.val i j) - φ (b.val i j) := by
  obtain ⟨h1, h2⟩ := arrLoop_done (fun i lo => forEach (List.finRange c) (fun j lo =>
    arrUpd lo j (fun li => SubAssignRef.subAssign li (b.val i j))) lo) a.val e i
  obtain ⟨h3, h4⟩ := arrLoop_done (fun j li => SubAssignRef.subAssign li (b.val i j)) (a.val i) h1 j
  exact (congrArg (fun row => φ (row j)) h2).trans ((congrArg φ h4).trans (h.sub _ _ h3))

theorem mneg (h : Implements φ) {a m : SMatrix T r c} (e : a.neg = .ok m) (i : Fin r) (j : Fin c) :
    φ (m.val i j) = -φ (a.val i j) := by
  unfold SMatrix.neg at e
  obtain ⟨v, e1, e⟩ := bind_ok e
  cases pure_ok e
  exact h.neg _ _ (fromFnM_ok_iff.1 (fromFnM_ok_iff.1 e1 i) j)

theorem dotSum (h : Implements φ) {ι : Type} (f g : ι → T) (l : List ι) : ∀ (x y : T),
    l.foldlM (fun sum i => do
      let prod ← mulRefs (f i) (g i)
      (AddAssignRef.addAssign sum prod).toRes) x = .ok y →
    φ y = φ x + (l.map fun i => φ (f i) * φ (g i)).sum := by
  induction l with
  | nil => intro x y e; cases pure_ok e; simp
  | cons i l ih =>
    intro x y e
    rw [List.foldlM_cons] at e
    obtain ⟨z, e1, e⟩ := bind_ok e
    obtain ⟨pr, e2, e1⟩ := bind_ok e1
    rw [ih z y e, h.addR e1, h.mul _ _ _ e2]
    simp [add_assoc]

theorem vdot (h : Implements φ) {u v : SVector T n} {x : T} (e : u.dotRef v = .ok x) :
    φ x = ∑ i, φ (u.val i) * φ (v.val i) := by
  rw [h.dotSum u.val v.val (List.finRange n) _ _ e, h.zero, zero_add, ← Fin.sum_univ_def]

theorem mmulVec (h : Implements φ) {a : SMatrix T M N} {v : SVector T N} {w : SVector T M} (e : a.mulVec v = .ok w)
    (i : Fin M) : φ (w.val i) = ∑ j, φ (a.val i j) * φ (v.val j) := by
  rw [SMatrix.mulVec_eq] at e
  obtain ⟨w', e1, e⟩ := bind_ok e
  cases pure_ok e
  rw [h.dotSum (a.val i) v.val (List.finRange N) _ _ (fromFnM_ok_iff.1 e1 i), h.zero, zero_add, ← Fin.sum_univ_def]

theorem foldlM_range_fin {α : Type} {n : ℕ} (k : α → ℕ → Res α) (k' : α → Fin n → Res α)
    (hk : ∀ a (i : Fin n), k a i = k' a i) (a : α) : (List.range n).foldlM k a = (List.finRange n).foldlM k' a := by
  rw [← List.map_coe_finRange_eq_range, List.foldlM_map]
  congr 1
  funext a i
  exact hk a i

theorem mmul (h : Implements φ) {a : SMatrix T L M} {b : SMatrix T M N} {m : SMatrix T L N} (e : a.mulRef b = .ok m)
    (l : Fin L) (n : Fin N) : φ (m.val l n) = ∑ k, φ (a.val l k) * φ (b.val k n) := by
  rw [SMatrix.mulRef_eq] at e
  obtain ⟨w', e1, e⟩ := bind_ok e
  cases pure_ok e
  have e2 := fromFnM_ok_iff.1 (fromFnM_ok_iff.1 e1 l) n
  rw [foldlM_range_fin (n := M) _ (fun sum (m : Fin M) => do
      let prod ← mulRefs (a.val l m) (b.val m n)
      (AddAssignRef.addAssign sum prod).toRes)] at e2
  · rw [h.dotSum (a.val l) (fun k => b.val k n) (List.finRange M) _ _ e2, h.zero, zero_add, ← Fin.sum_univ_def]
  · intro s k
    simp [SMatrix.at2, arrGet, bind, Except.bind]

theorem matrix (h : Implements φ) :
    Implements (SMatrix.toMatrix φ : SMatrix T N N → Matrix (Fin N) (Fin N) R) where
  zero := by
    ext i j
    simp [SMatrix.toMatrix, SMatrix.zero_val, h.zero]
  one := by
    ext i j
    simp only [SMatrix.toMatrix, SMatrix.one_val, Matrix.of_apply, Matrix.one_apply]
    by_cases hij : i = j
    · simp [hij, h.one]
    · rw [if_neg (fun e => hij (Fin.ext e)), if_neg hij, h.zero]
  add a b e := by ext i j; exact h.madd a b e i j
  sub a b e := by ext i j; exact h.msub a b e i j
  mul a b m e := by
    ext i j
    rw [Matrix.mul_apply]
    exact h.mmul e i j
  neg a m e := by ext i j; exact h.mneg e i j

end Implements

end Vec

end Magnesia
