import Verif.Proof.Generic

/-!
# C78: exchanging the element type
-/

namespace Magnesia

open RZero ROne

variable {T T' : Type} [RRing T] [RAdd T T T] [RSub T T T] [RMul T T T] [RAddAssign T T] [RSubAssign T T] [RConj T]
    [RRing T'] [RAdd T' T' T'] [RSub T' T' T'] [RMul T' T' T'] [RAddAssign T' T'] [RSubAssign T' T'] [RConj T']

/-- Whatever relation the operations of two element types respect, every program respects it: run on related inputs (pairs
`z`), the two runs panic alike, or both return, and the results are related scalar by scalar. -/
theorem C78_generic {R : T → T' → Prop} (h : Respects R) (pr : Profile) (Γ : ℕ → Ty) (hΓ : ∀ i, (Γ i).IsData) (ty : Ty)
    (hty : ty.IsData) (p : Prog Γ ty) (z : (i : ℕ) → (Γ i).type {p : T × T' // R p.1 p.2}) :
    SameEnd (fun y y' => ∃ r : ty.type {p : T × T' // R p.1 p.2}, y = ty.map (fun a => a.1.1) hty r ∧ y' = ty.map (fun a => a.1.2) hty r)
      (p.run pr fun i => (Γ i).map (fun a => a.1.1) (hΓ i) (z i)) (p.run pr fun i => (Γ i).map (fun a => a.1.2) (hΓ i) (z i)) := by
  obtain ⟨h1, h2⟩ := Related.run_both (h := h) pr hΓ hty p z
  have e1 : (p.run pr fun i => (Γ i).map (fun a : {p : T × T' // R p.1 p.2} => a.1.1) (hΓ i) (z i)) = _ := h1
  have e2 : (p.run pr fun i => (Γ i).map (fun a : {p : T × T' // R p.1 p.2} => a.1.2) (hΓ i) (z i)) = _ := h2
  rw [e1, e2]
  cases p.run (T := Related h) pr z with
  | ok r => exact ⟨r, rfl, rfl⟩
  | error e => exact rfl

/-- Terms and their values. -/
theorem respects_value (hn : NeverPanics T) (ha : ValueOpsAgree T) (hc : ∀ a : T, ∃ c, RConj.conj a = .ok c) (v : ℕ → T) :
    Respects fun (t : Term) (y : T) => t.value v = .ok y := by
  have hadd : ∀ (a b : Term) (a' b' : T), a.value v = .ok a' → b.value v = .ok b' →
      SameUpd (fun (t : Term) (y : T) => t.value v = .ok y) (.done (a.add b)) (AddAssignRef.addAssign a' b') := by
    intro a b a' b' h1 h2
    refine ⟨(hn.add a' b').symm, ?_⟩
    show (do (AddAssignRef.addAssign (← a.value v) (← b.value v)).toRes : Res T) = _
    rw [h1, h2]
    show (AddAssignRef.addAssign a' b').toRes = _
    unfold Upd.toRes
    rw [hn.add a' b']
  have hsub : ∀ (a b : Term) (a' b' : T), a.value v = .ok a' → b.value v = .ok b' →
      SameUpd (fun (t : Term) (y : T) => t.value v = .ok y) (.done (a.sub b)) (SubAssignRef.subAssign a' b') := by
    intro a b a' b' h1 h2
    refine ⟨(hn.sub a' b').symm, ?_⟩
    show (do (SubAssignRef.subAssign (← a.value v) (← b.value v)).toRes : Res T) = _
    rw [h1, h2]
    show (SubAssignRef.subAssign a' b').toRes = _
    unfold Upd.toRes
    rw [hn.sub a' b']
  have hmul : ∀ (a b : Term) (a' b' : T), a.value v = .ok a' → b.value v = .ok b' →
      SameEnd (fun (t : Term) (y : T) => t.value v = .ok y) (.ok (a.mul b)) (MulRefs.mulRefs a' b') := by
    intro a b a' b' h1 h2
    obtain ⟨c, hc⟩ := hn.mul a' b'
    rw [hc]
    show (do MulRefs.mulRefs (← a.value v) (← b.value v) : Res T) = _
    rw [h1, h2]
    exact hc
  refine ⟨rfl, rfl, hadd, hsub, hmul, ?_, ?_, ?_, ?_, ?_, ?_, ?_⟩
  · intro a a' h1
    obtain ⟨c, hc⟩ := hn.neg a'
    rw [hc]
    show (do RNeg.neg (← a.value v) : Res T) = _
    rw [h1]
    exact hc
  · intro a b a' b' h1 h2
    rw [ha.add]
    obtain ⟨e1, e2⟩ := hadd a b a' b' h1 h2
    unfold Upd.toRes
    rw [← e1]
    exact e2
  · intro a b a' b' h1 h2
    rw [ha.sub]
    obtain ⟨e1, e2⟩ := hsub a b a' b' h1 h2
    unfold Upd.toRes
    rw [← e1]
    exact e2
  · intro a b a' b' h1 h2
    rw [ha.mul]
    exact hmul a b a' b' h1 h2
  · intro a b a' b' h1 h2
    rw [ha.addAssign]
    exact hadd a b a' b' h1 h2
  · intro a b a' b' h1 h2
    rw [ha.subAssign]
    exact hsub a b a' b' h1 h2
  · intro a a' h1
    obtain ⟨c, hc'⟩ := hc a'
    rw [hc']
    show (do RConj.conj (← a.value v) : Res T) = _
    rw [h1]
    exact hc'

/-- Which operations are executed, and in which order, depends only on the program and the shapes of its inputs: each scalar
of the result is the value of a term that is the same for all inputs of these shapes and for all element types whose operations
do not panic (`x` says which variable stands for which input scalar). Panics (shapes, indices) do not depend on the data
either. -/
theorem C78_oblivious (hn : NeverPanics T) (ha : ValueOpsAgree T) (hc : ∀ a : T, ∃ c, RConj.conj a = .ok c) (pr : Profile)
    (Γ : ℕ → Ty) (hΓ : ∀ i, (Γ i).IsData) (ty : Ty) (hty : ty.IsData) (p : Prog Γ ty) (x : (i : ℕ) → (Γ i).type ℕ) (v : ℕ → T) :
    SameEnd (fun t y => ty.map (Term.value v) hty t = ty.map Except.ok hty y)
      (p.run pr fun i => (Γ i).map Term.var (hΓ i) (x i)) (p.run pr fun i => (Γ i).map v (hΓ i) (x i)) := by
  have h := C78_generic (respects_value hn ha hc v) pr Γ hΓ ty hty p
    fun i => (Γ i).map (fun k => ⟨(Term.var k, v k), rfl⟩) (hΓ i) (x i)
  simp only [Ty.map_map] at h
  change SameEnd _ (p.run pr fun i => (Γ i).map Term.var (hΓ i) (x i)) (p.run pr fun i => (Γ i).map v (hΓ i) (x i)) at h
  revert h
  cases (p.run pr fun i => (Γ i).map Term.var (hΓ i) (x i)) <;> cases (p.run pr fun i => (Γ i).map v (hΓ i) (x i))
  · exact id
  · exact id
  · exact id
  · rintro ⟨r, rfl, rfl⟩
    show ty.map _ hty _ = ty.map _ hty _
    rw [Ty.map_map, Ty.map_map]
    congr 1
    funext a
    exact a.2

/-- Whether a program panics does not depend on the element type (if its operations do not panic), nor on the data. -/
theorem C78_panics (hn : NeverPanics T) (ha : ValueOpsAgree T) (hc : ∀ a : T, ∃ c, RConj.conj a = .ok c)
    (hn' : NeverPanics T') (ha' : ValueOpsAgree T') (hc' : ∀ a : T', ∃ c, RConj.conj a = .ok c) (pr : Profile)
    (Γ : ℕ → Ty) (hΓ : ∀ i, (Γ i).IsData) (ty : Ty) (hty : ty.IsData) (p : Prog Γ ty) (x : (i : ℕ) → (Γ i).type ℕ) (v : ℕ → T)
    (v' : ℕ → T') :
    SameEnd (fun _ _ => True) (p.run pr fun i => (Γ i).map v (hΓ i) (x i)) (p.run pr fun i => (Γ i).map v' (hΓ i) (x i)) := by
  have h1 := C78_oblivious hn ha hc pr Γ hΓ ty hty p x v
  have h2 := C78_oblivious hn' ha' hc' pr Γ hΓ ty hty p x v'
  revert h1 h2
  cases (p.run pr fun i => (Γ i).map Term.var (hΓ i) (x i)) <;> cases (p.run pr fun i => (Γ i).map v (hΓ i) (x i)) <;>
    cases (p.run pr fun i => (Γ i).map v' (hΓ i) (x i)) <;> intro h1 h2 <;>
    first | trivial | exact h1.elim | exact h2.elim | exact h1.symm.trans h2

section intervals

variable {K : Type} [Field K] [LinearOrder K] [IsStrictOrderedRing K]

/-- Interval arithmetic encloses. -/
theorem respects_encloses : Respects (Itv.Encloses (K := K)) := by
  have hadd : ∀ (a b : Itv K) (x y : Exact K), a.Encloses x → b.Encloses y → (a.add b).Encloses ⟨x.val + y.val⟩ :=
    fun a b x y h1 h2 => ⟨add_le_add h1.1 h2.1, add_le_add h1.2 h2.2⟩
  have hsub : ∀ (a b : Itv K) (x y : Exact K), a.Encloses x → b.Encloses y → (a.sub b).Encloses ⟨x.val - y.val⟩ :=
    fun a b x y h1 h2 => ⟨sub_le_sub h1.1 h2.2, sub_le_sub h1.2 h2.1⟩
  have hneg : ∀ (a : Itv K) (x : Exact K), a.Encloses x → a.neg.Encloses ⟨-x.val⟩ :=
    fun a x h => ⟨neg_le_neg h.2, neg_le_neg h.1⟩
  have hmul : ∀ (a b : Itv K) (x y : Exact K), a.Encloses x → b.Encloses y → (a.mul b).Encloses ⟨x.val * y.val⟩ := by
    intro a b x y h1 h2
    have hx : ∀ c : K, min (a.lo * c) (a.hi * c) ≤ x.val * c ∧ x.val * c ≤ max (a.lo * c) (a.hi * c) := by
      intro c
      rcases le_total 0 c with hc | hc
      · exact ⟨min_le_of_left_le (mul_le_mul_of_nonneg_right h1.1 hc), le_max_of_le_right (mul_le_mul_of_nonneg_right h1.2 hc)⟩
      · exact ⟨min_le_of_right_le (mul_le_mul_of_nonpos_right h1.2 hc), le_max_of_le_left (mul_le_mul_of_nonpos_right h1.1 hc)⟩
    have hy : ∀ c : K, min (c * b.lo) (c * b.hi) ≤ c * y.val ∧ c * y.val ≤ max (c * b.lo) (c * b.hi) := by
      intro c
      rcases le_total 0 c with hc | hc
      · exact ⟨min_le_of_left_le (mul_le_mul_of_nonneg_left h2.1 hc), le_max_of_le_right (mul_le_mul_of_nonneg_left h2.2 hc)⟩
      · exact ⟨min_le_of_right_le (mul_le_mul_of_nonpos_left h2.2 hc), le_max_of_le_left (mul_le_mul_of_nonpos_left h2.1 hc)⟩
    constructor
    · exact (min_le_min (hy a.lo).1 (hy a.hi).1).trans (hx y.val).1
    · exact (hx y.val).2.trans (max_le_max (hy a.lo).2 (hy a.hi).2)
  exact ⟨⟨le_rfl, le_rfl⟩, ⟨le_rfl, le_rfl⟩, fun a b x y h1 h2 => ⟨rfl, hadd a b x y h1 h2⟩,
    fun a b x y h1 h2 => ⟨rfl, hsub a b x y h1 h2⟩, hmul, hneg, hadd, hsub, hmul, fun a b x y h1 h2 => ⟨rfl, hadd a b x y h1 h2⟩,
    fun a b x y h1 h2 => ⟨rfl, hsub a b x y h1 h2⟩, fun a x h => h⟩

/-- Run with intervals in place of numbers, every program returns enclosures of all results that numbers in the given intervals
could have. -/
theorem C78_intervals (pr : Profile) (Γ : ℕ → Ty) (hΓ : ∀ i, (Γ i).IsData) (ty : Ty) (hty : ty.IsData) (p : Prog Γ ty)
    (z : (i : ℕ) → (Γ i).type {p : Itv K × Exact K // p.1.Encloses p.2}) :
    SameEnd (fun y y' => ∃ r : ty.type {p : Itv K × Exact K // p.1.Encloses p.2},
        y = ty.map (fun a => a.1.1) hty r ∧ y' = ty.map (fun a => a.1.2) hty r)
      (p.run pr fun i => (Γ i).map (fun a => a.1.1) (hΓ i) (z i)) (p.run pr fun i => (Γ i).map (fun a => a.1.2) (hΓ i) (z i)) :=
  C78_generic respects_encloses pr Γ hΓ ty hty p z

end intervals

end Magnesia
