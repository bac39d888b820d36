import Verif.Proof.Mirror
import Verif.Props.Generic
import Verif.Proof.Scale

/-!
# C90: mirror images, quarter turns, and real numbers among the complex ones
-/

namespace Magnesia

open RZero ROne

variable {F : Fmt}

/-- A transformation of the element type that all operations respect, or almost, and no operation panics. -/
private theorem respects_of {T T' : Type} [RRing T] [RAdd T T T] [RSub T T T] [RMul T T T] [RAddAssign T T] [RSubAssign T T] [RConj T]
    [RRing T'] [RAdd T' T' T'] [RSub T' T' T'] [RMul T' T' T'] [RAddAssign T' T'] [RSubAssign T' T'] [RConj T']
    {R : T → T' → Prop} {add sub mul : T → T → T} {add' sub' mul' : T' → T' → T'} {neg conj : T → T} {neg' conj' : T' → T'}
    (h0 : R zero zero) (h1 : R one one)
    (e1 : ∀ a b : T, AddAssignRef.addAssign a b = .done (add a b)) (e2 : ∀ a b : T, SubAssignRef.subAssign a b = .done (sub a b))
    (e3 : ∀ a b : T, MulRefs.mulRefs a b = .ok (mul a b)) (e4 : ∀ a : T, RNeg.neg a = .ok (neg a))
    (e5 : ∀ a b : T, RAdd.add a b = .ok (add a b)) (e6 : ∀ a b : T, RSub.sub a b = .ok (sub a b))
    (e7 : ∀ a b : T, RMul.mul a b = .ok (mul a b)) (e8 : ∀ a b : T, RAddAssign.addAssign a b = .done (add a b))
    (e9 : ∀ a b : T, RSubAssign.subAssign a b = .done (sub a b)) (e10 : ∀ a : T, RConj.conj a = .ok (conj a))
    (f1 : ∀ a b : T', AddAssignRef.addAssign a b = .done (add' a b)) (f2 : ∀ a b : T', SubAssignRef.subAssign a b = .done (sub' a b))
    (f3 : ∀ a b : T', MulRefs.mulRefs a b = .ok (mul' a b)) (f4 : ∀ a : T', RNeg.neg a = .ok (neg' a))
    (f5 : ∀ a b : T', RAdd.add a b = .ok (add' a b)) (f6 : ∀ a b : T', RSub.sub a b = .ok (sub' a b))
    (f7 : ∀ a b : T', RMul.mul a b = .ok (mul' a b)) (f8 : ∀ a b : T', RAddAssign.addAssign a b = .done (add' a b))
    (f9 : ∀ a b : T', RSubAssign.subAssign a b = .done (sub' a b)) (f10 : ∀ a : T', RConj.conj a = .ok (conj' a))
    (hadd : ∀ a b a' b', R a a' → R b b' → R (add a b) (add' a' b')) (hsub : ∀ a b a' b', R a a' → R b b' → R (sub a b) (sub' a' b'))
    (hmul : ∀ a b a' b', R a a' → R b b' → R (mul a b) (mul' a' b')) (hneg : ∀ a a', R a a' → R (neg a) (neg' a'))
    (hconj : ∀ a a', R a a' → R (conj a) (conj' a')) : Respects R where
  zero := h0
  one := h1
  addAssignRef a b a' b' h h' := by rw [e1, f1]; exact ⟨rfl, hadd _ _ _ _ h h'⟩
  subAssignRef a b a' b' h h' := by rw [e2, f2]; exact ⟨rfl, hsub _ _ _ _ h h'⟩
  mulRefs a b a' b' h h' := by rw [e3, f3]; exact hmul _ _ _ _ h h'
  neg a a' h := by rw [e4, f4]; exact hneg _ _ h
  add a b a' b' h h' := by rw [e5, f5]; exact hadd _ _ _ _ h h'
  sub a b a' b' h h' := by rw [e6, f6]; exact hsub _ _ _ _ h h'
  mul a b a' b' h h' := by rw [e7, f7]; exact hmul _ _ _ _ h h'
  addAssign a b a' b' h h' := by rw [e8, f8]; exact ⟨rfl, hadd _ _ _ _ h h'⟩
  subAssign a b a' b' h h' := by rw [e9, f9]; exact ⟨rfl, hsub _ _ _ _ h h'⟩
  conj a a' h := by rw [e10, f10]; exact hconj _ _ h

private theorem respects_same : Respects (Ieee.Same (F := F)) :=
  respects_of (add := Ieee.add) (sub := Ieee.sub) (mul := Ieee.mul) (neg := Ieee.neg) (conj := id) (add' := Ieee.add) (sub' := Ieee.sub)
    (mul' := Ieee.mul) (neg' := Ieee.neg) (conj' := id) (.refl _) (.refl _)
    (fun _ _ => rfl) (fun _ _ => rfl) (fun _ _ => rfl) (fun _ => rfl) (fun _ _ => rfl) (fun _ _ => rfl) (fun _ _ => rfl) (fun _ _ => rfl)
    (fun _ _ => rfl) (fun _ => rfl)
    (fun _ _ => rfl) (fun _ _ => rfl) (fun _ _ => rfl) (fun _ => rfl) (fun _ _ => rfl) (fun _ _ => rfl) (fun _ _ => rfl) (fun _ _ => rfl)
    (fun _ _ => rfl) (fun _ => rfl)
    (fun _ _ _ _ h h' => h.add h') (fun _ _ _ _ h h' => h.sub h') (fun _ _ _ _ h h' => h.mul h') (fun _ _ h => h.neg) (fun _ _ h => h)

/-- The signs of zeros in the inputs of a program influence nothing but signs of zeros in the results (overflows, infinities and NaNs
included). -/
theorem C90_zeros (pr : Profile) (Γ : ℕ → Ty) (hΓ : ∀ i, (Γ i).IsData) (ty : Ty) (hty : ty.IsData) (p : Prog Γ ty)
    (z : (i : ℕ) → (Γ i).type {p : Ieee F × Ieee F // p.1.Same p.2}) :
    SameEnd (fun y y' => ∃ r : ty.type {p : Ieee F × Ieee F // p.1.Same p.2},
        y = ty.map (fun a => a.1.1) hty r ∧ y' = ty.map (fun a => a.1.2) hty r)
      (p.run pr fun i => (Γ i).map (fun a => a.1.1) (hΓ i) (z i)) (p.run pr fun i => (Γ i).map (fun a => a.1.2) (hΓ i) (z i)) :=
  C78_generic respects_same pr Γ hΓ ty hty p z

/-- Signs: run any program on numbers and on the same numbers with some signs changed (`grade` 1: changed, 0: unchanged). If only
numbers of the same grade are ever added, the results of the two ordinary runs are the same numbers up to sign, and the grade of each
result says whether its sign has changed. Nothing is assumed about overflow or rounding. -/
theorem C90_signs (pr : Profile) (Γ : ℕ → Ty) (hΓ : ∀ i, (Γ i).IsData) (ty : Ty) (hty : ty.IsData) (p : Prog Γ ty)
    (x : (i : ℕ) → (Γ i).type {x : Graded (Ieee F) (ZMod 2) // x.Consistent Ieee.flip Ieee.Same}) (r : ty.type (Graded (Ieee F) (ZMod 2)))
    (h : p.run pr (fun i => (Γ i).map Subtype.val (hΓ i) (x i)) = .ok r) :
    p.run pr (fun i => (Γ i).map (fun y => y.1.a) (hΓ i) (x i)) = .ok (ty.map (fun y => y.a) hty r) ∧
    p.run pr (fun i => (Γ i).map (fun y => y.1.b) (hΓ i) (x i)) = .ok (ty.map (fun y => y.b) hty r) ∧
    ∃ r' : ty.type {x : Graded (Ieee F) (ZMod 2) // x.Consistent Ieee.flip Ieee.Same}, r = ty.map Subtype.val hty r' := by
  refine ⟨?_, ?_, Mirrored.run_consistent Ieee.symm pr hΓ hty p x r h⟩
  · have := Graded.run_pick false pr hΓ hty p _ r h
    simp only [Ty.map_map] at this
    exact this
  · have := Graded.run_pick true pr hΓ hty p _ r h
    simp only [Ty.map_map] at this
    exact this

/-- Quarter turns and mirror images of complex numbers: run any program on complex numbers and on the same numbers (`m`: mirrored at
the real axis) turned by some multiples of a right angle. If only numbers turned alike are ever added, the results of the two ordinary
runs are the same numbers up to such turns, and the grade of each result says how far it is turned. -/
theorem C90_turns (m : Bool) (pr : Profile) (Γ : ℕ → Ty) (hΓ : ∀ i, (Γ i).IsData) (ty : Ty) (hty : ty.IsData) (p : Prog Γ ty)
    (x : (i : ℕ) → (Γ i).type {x : Graded (Complex (Ieee F)) (ZMod 4) // x.Consistent (Complex.image m) Complex.SameC})
    (r : ty.type (Graded (Complex (Ieee F)) (ZMod 4))) (h : p.run pr (fun i => (Γ i).map Subtype.val (hΓ i) (x i)) = .ok r) :
    p.run pr (fun i => (Γ i).map (fun y => y.1.a) (hΓ i) (x i)) = .ok (ty.map (fun y => y.a) hty r) ∧
    p.run pr (fun i => (Γ i).map (fun y => y.1.b) (hΓ i) (x i)) = .ok (ty.map (fun y => y.b) hty r) ∧
    ∃ r' : ty.type {x : Graded (Complex (Ieee F)) (ZMod 4) // x.Consistent (Complex.image m) Complex.SameC},
      r = ty.map Subtype.val hty r' := by
  refine ⟨?_, ?_, Mirrored.run_consistent Complex.symm pr hΓ hty p x r h⟩
  · have := Graded.run_pick false pr hΓ hty p _ r h
    simp only [Ty.map_map] at this
    exact this
  · have := Graded.run_pick true pr hΓ hty p _ r h
    simp only [Ty.map_map] at this
    exact this

open Magnesia.Complex in
private theorem respects_bar : Respects (fun z w : Complex (Ieee F) => Complex.SameC w z.bar) :=
  respects_of (add := addC) (sub := subC) (mul := mulC) (neg := negC) (conj := bar) (add' := addC) (sub' := subC)
    (mul' := mulC) (neg' := negC) (conj' := bar) (image_zero (m := true) 0) (image_one (m := true))
    (fun _ _ => rfl) (fun _ _ => rfl) (fun _ _ => rfl) (fun _ => rfl) (fun _ _ => rfl) (fun _ _ => rfl) (fun _ _ => rfl) (fun _ _ => rfl)
    (fun _ _ => rfl) (fun _ => rfl)
    (fun _ _ => rfl) (fun _ _ => rfl) (fun _ _ => rfl) (fun _ => rfl) (fun _ _ => rfl) (fun _ _ => rfl) (fun _ _ => rfl) (fun _ _ => rfl)
    (fun _ _ => rfl) (fun _ => rfl)
    (fun _ _ _ _ h h' => (h.addC h').trans (bar_add _ _)) (fun _ _ _ _ h h' => (h.subC h').trans (image_sub (m := true) 0 _ _))
    (fun _ _ _ _ h h' => (h.mulC h').trans (bar_mul _ _)) (fun _ _ h => h.negC) (fun _ _ h => h.bar)

/-- Conjugate the inputs of any program over complex floating point numbers: the results are the conjugated results, exactly (up to
signs of zeros), whatever overflows. -/
theorem C90_conj (pr : Profile) (Γ : ℕ → Ty) (hΓ : ∀ i, (Γ i).IsData) (ty : Ty) (hty : ty.IsData) (p : Prog Γ ty)
    (z : (i : ℕ) → (Γ i).type {p : Complex (Ieee F) × Complex (Ieee F) // Complex.SameC p.2 p.1.bar}) :
    SameEnd (fun y y' => ∃ r : ty.type {p : Complex (Ieee F) × Complex (Ieee F) // Complex.SameC p.2 p.1.bar},
        y = ty.map (fun a => a.1.1) hty r ∧ y' = ty.map (fun a => a.1.2) hty r)
      (p.run pr fun i => (Γ i).map (fun a => a.1.1) (hΓ i) (z i)) (p.run pr fun i => (Γ i).map (fun a => a.1.2) (hΓ i) (z i)) :=
  C78_generic respects_bar pr Γ hΓ ty hty p z

private theorem same_finite {a b : Ieee F} (h : a.Same b) (hb : b.Finite) : a.Finite := by
  rcases h with rfl | ⟨s, t, rfl, rfl⟩
  · exact hb
  · trivial

private theorem mul_zero_of_finite {a : Ieee F} (ha : a.Finite) (s : Bool) : ∃ t, a.mul (.zero s) = .zero t := by
  cases a <;> first | exact ha.elim | exact ⟨_, rfl⟩

private theorem zero_add_zero (s t : Bool) : ∃ u, (Ieee.zero s : Ieee F).add (.zero t) = .zero u := by
  cases s <;> cases t <;> exact ⟨_, rfl⟩

open Magnesia.Complex in
private theorem respects_embeds : Respects (Complex.Embeds (F := F)) := by
  refine respects_of (add := Ieee.add) (sub := Ieee.sub) (mul := Ieee.mul) (neg := Ieee.neg) (conj := id) (add' := addC) (sub' := subC)
    (mul' := mulC) (neg' := negC) (conj' := bar) (fun _ => ⟨.refl _, _, rfl⟩) (fun _ => ⟨.refl _, _, rfl⟩)
    (fun _ _ => rfl) (fun _ _ => rfl) (fun _ _ => rfl) (fun _ => rfl) (fun _ _ => rfl) (fun _ _ => rfl) (fun _ _ => rfl) (fun _ _ => rfl)
    (fun _ _ => rfl) (fun _ => rfl)
    (fun _ _ => rfl) (fun _ _ => rfl) (fun _ _ => rfl) (fun _ => rfl) (fun _ _ => rfl) (fun _ _ => rfl) (fun _ _ => rfl) (fun _ _ => rfl)
    (fun _ _ => rfl) (fun _ => rfl) ?_ ?_ ?_ ?_ ?_
  · intro a b z w hz hw hf
    obtain ⟨h1, h2, _⟩ := Ieee.add_finite hf
    obtain ⟨hz, s, es⟩ := hz h1
    obtain ⟨hw, t, et⟩ := hw h2
    obtain ⟨u, hu⟩ := zero_add_zero (F := F) s t
    exact ⟨hz.add hw, u, by show z.im.add w.im = _; rw [es, et, hu]⟩
  · intro a b z w hz hw hf
    obtain ⟨h1, h2, _⟩ := Ieee.sub_finite hf
    obtain ⟨hz, s, es⟩ := hz h1
    obtain ⟨hw, t, et⟩ := hw h2
    obtain ⟨u, hu⟩ := zero_add_zero (F := F) s (!t)
    exact ⟨hz.sub hw, u, by show z.im.add w.im.neg = _; rw [es, et]; exact hu⟩
  · intro a b z w hz hw hf
    obtain ⟨h1, h2, _⟩ := Ieee.mul_finite hf
    obtain ⟨hz, s, es⟩ := hz h1
    obtain ⟨hw, t, et⟩ := hw h2
    refine ⟨?_, ?_⟩
    · show Ieee.Same ((z.re.mul w.re).sub (z.im.mul w.im)) _
      rw [es, et]
      exact (Ieee.add_zero _ _).trans (hz.mul hw)
    · show ∃ u, (z.re.mul w.im).add (z.im.mul w.re) = _
      obtain ⟨t', ht⟩ := mul_zero_of_finite (same_finite hz h1) t
      obtain ⟨s', hs⟩ := mul_zero_of_finite (same_finite hw h2) s
      rw [es, et, ht, Ieee.mul_comm, hs]
      exact zero_add_zero t' s'
  · intro a z hz hf
    obtain ⟨hz, s, es⟩ := hz (by cases a <;> first | exact hf.elim | trivial)
    exact ⟨hz.neg, !s, by show z.im.neg = _; rw [es]; rfl⟩
  · intro a z hz hf
    obtain ⟨hz, s, es⟩ := hz hf
    exact ⟨hz, !s, by show z.im.neg = _; rw [es]; rfl⟩

/-- Real numbers among the complex ones: run any program on real floating point numbers, and on the same numbers as complex numbers with
imaginary part zero. Wherever the real results are finite, the complex results are the same numbers, bit for bit up to signs of zeros,
with imaginary part zero. -/
theorem C90_real (pr : Profile) (Γ : ℕ → Ty) (hΓ : ∀ i, (Γ i).IsData) (ty : Ty) (hty : ty.IsData) (p : Prog Γ ty)
    (z : (i : ℕ) → (Γ i).type {p : Ieee F × Complex (Ieee F) // Complex.Embeds p.1 p.2}) :
    SameEnd (fun y y' => ∃ r : ty.type {p : Ieee F × Complex (Ieee F) // Complex.Embeds p.1 p.2},
        y = ty.map (fun a => a.1.1) hty r ∧ y' = ty.map (fun a => a.1.2) hty r)
      (p.run pr fun i => (Γ i).map (fun a => a.1.1) (hΓ i) (z i)) (p.run pr fun i => (Γ i).map (fun a => a.1.2) (hΓ i) (z i)) :=
  C78_generic respects_embeds pr Γ hΓ ty hty p z

section corollaries
variable {T G : Type} [RRing T] [RAdd T T T] [RSub T T T] [RMul T T T] [RAddAssign T T] [RSubAssign T T] [RConj T] [AddCommGroup G]
  {act : G → T → T} {same : T → T → Prop}

private theorem dot_symm (hs : Graded.Symm act same) {ι : Type} {d e : G} (f g f' g' : ι → T) : ∀ (l : List ι),
    (∀ i ∈ l, same (f' i) (act d (f i))) → (∀ i ∈ l, same (g' i) (act e (g i))) → ∀ s s' y y' : T, same s' (act (d + e) s) →
    l.foldlM (fun sum i => do
      let prod ← MulRefs.mulRefs (f i) (g i)
      (AddAssignRef.addAssign sum prod).toRes) s = .ok y →
    l.foldlM (fun sum i => do
      let prod ← MulRefs.mulRefs (f' i) (g' i)
      (AddAssignRef.addAssign sum prod).toRes) s' = .ok y' → same y' (act (d + e) y) := by
  intro l
  induction l with
  | nil => intro _ _ s s' y y' h0 h h'; cases h; cases h'; exact h0
  | cons i l ih =>
    intro h1 h2 s s' y y' h0 h h'
    rw [List.foldlM_cons] at h h'
    obtain ⟨t, ht, h⟩ := bind_ok h
    obtain ⟨t', ht', h'⟩ := bind_ok h'
    obtain ⟨q, hq, ht⟩ := bind_ok ht
    obtain ⟨q', hq', ht'⟩ := bind_ok ht'
    refine ih (fun i hi => h1 i (by simp [hi])) (fun i hi => h2 i (by simp [hi])) t t' y y' ?_ h h'
    exact hs.addAssignRef _ _ _ _ _ _ _ _ rfl h0 (hs.mulRefs d e _ _ _ _ _ _ trivial (h1 i (by simp)) (h2 i (by simp)) hq hq') ht ht'

private theorem eval_symm (hs : Graded.Symm act same) {d : G} {x x' : T} (hx : same x' (act d x)) : ∀ (a a' : List T) (e : G),
    List.Forall₂ (fun (c : T × ℕ) (c' : T) => same c' (act (e - c.2 • d) c.1)) a.zipIdx a' →
    ∀ y y', (Poly.fromCoefficients a).eval x = .ok y → (Poly.fromCoefficients a').eval x' = .ok y' → same y' (act e y) := by
  have step : ∀ (c x : T) (a : List T), (Poly.fromCoefficients (c :: a)).eval x =
      (Poly.fromCoefficients a).eval x >>= fun y => MulRefs.mulRefs y x >>= fun y => (AddAssignRef.addAssign y c).toRes := by
    intro c x a
    show (c :: a).reverse.foldlM _ _ = a.reverse.foldlM _ _ >>= _
    rw [List.reverse_cons, List.foldlM_append]
    congr 1
    funext y
    simp [List.foldlM]
  have key : ∀ (a a' : List T) (k : ℕ) (e : G), List.Forall₂ (fun (c : T × ℕ) (c' : T) => same c' (act (e - c.2 • d) c.1)) (a.zipIdx k) a' →
      ∀ y y', (Poly.fromCoefficients a).eval x = .ok y → (Poly.fromCoefficients a').eval x' = .ok y' → same y' (act (e - k • d) y) := by
    intro a
    induction a with
    | nil =>
      intro a' k e h y y' h1 h2
      cases h
      cases h1; cases h2
      exact hs.zero _
    | cons c a ih =>
      intro a' k e h y y' h1 h2
      rw [List.zipIdx_cons] at h
      cases h with
      | cons hc h =>
        rw [step] at h1 h2
        obtain ⟨t, ht, h1⟩ := bind_ok h1
        obtain ⟨t', ht', h2⟩ := bind_ok h2
        obtain ⟨q, hq, h1⟩ := bind_ok h1
        obtain ⟨q', hq', h2⟩ := bind_ok h2
        have h3 := hs.mulRefs _ _ _ _ _ _ _ _ trivial (ih _ (k + 1) e h t t' ht ht') hx hq hq'
        have e0 : e - (k + 1) • d + d = e - k • d := by rw [succ_nsmul]; abel
        have h4 := hs.addAssignRef _ _ _ _ _ _ _ _ e0 h3 hc h1 h2
        change same y' (act (e - (k + 1) • d + d) y) at h4
        rwa [e0] at h4
  intro a a' e h y y' h1 h2
  have := key a a' 0 e h y y' h1 h2
  rwa [zero_nsmul, sub_zero] at this

end corollaries

/-- Dot products: changing the signs of all entries of one vector changes the sign of the result, and so on. -/
theorem C90_dot {n : ℕ} (d e : ZMod 2) (u v u' v' : SVector (Ieee F) n) (hu : ∀ i, (u'.val i).Same ((u.val i).flip d))
    (hv : ∀ i, (v'.val i).Same ((v.val i).flip e)) (y y' : Ieee F) (hy : u.dot v = .ok y) (hy' : u'.dot v' = .ok y') :
    y'.Same (y.flip (d + e)) :=
  dot_symm Ieee.symm u.val v.val u'.val v'.val _ (fun i _ => hu i) (fun i _ => hv i) zero zero y y' (Ieee.symm.zero _) hy hy'

/-- Matrix products: changing the signs of some rows of the first factor and of some columns of the second changes the signs of these
rows and columns of the result. -/
theorem C90_smatrix_mul {l m n : ℕ} (d : Fin l → ZMod 2) (e : Fin n → ZMod 2) (a a' : SMatrix (Ieee F) l m) (b b' : SMatrix (Ieee F) m n)
    (ha : ∀ i s, (a'.val i s).Same ((a.val i s).flip (d i))) (hb : ∀ s t, (b'.val s t).Same ((b.val s t).flip (e t)))
    (c c' : SMatrix (Ieee F) l n) (hc : a.mul b = .ok c) (hc' : a'.mul b' = .ok c') (i : Fin l) (t : Fin n) :
    (c'.val i t).Same ((c.val i t).flip (d i + e t)) :=
  C90_dot (d i) (e t) _ _ _ _ (ha i) (fun s => hb s t) _ _ ((smatrix_mul_entries a b c).1 hc i t) ((smatrix_mul_entries a' b' c').1 hc' i t)

/-- Polynomials: evaluate at `±x` (`d`) a polynomial whose coefficient number `k` has its sign changed `k` times if `x` has, and all of
them if `e` says so: the value is the same up to the sign that `e` says. (So `p` at `-x` is exactly the value at `x` of the polynomial
with alternately changed signs; even polynomials are even functions and odd ones are odd.) -/
theorem C90_eval (d e : ZMod 2) (a a' : List (Ieee F)) (x x' : Ieee F) (hx : x'.Same (x.flip d))
    (ha : List.Forall₂ (fun (c : Ieee F × ℕ) (c' : Ieee F) => c'.Same (c.1.flip (e - c.2 • d))) a.zipIdx a') (y y' : Ieee F)
    (hy : (Poly.fromCoefficients a).eval x = .ok y) (hy' : (Poly.fromCoefficients a').eval x' = .ok y') : y'.Same (y.flip e) :=
  eval_symm Ieee.symm hx a a' e ha y y' hy hy'

/-- Dot products of complex vectors: quarter turns of the vectors turn the result. -/
theorem C90_complex_dot {n : ℕ} (m : Bool) (d e : ZMod 4) (u v u' v' : SVector (Complex (Ieee F)) n)
    (hu : ∀ i, Complex.SameC (u'.val i) (Complex.image m d (u.val i))) (hv : ∀ i, Complex.SameC (v'.val i) (Complex.image m e (v.val i)))
    (y y' : Complex (Ieee F)) (hy : u.dot v = .ok y) (hy' : u'.dot v' = .ok y') : Complex.SameC y' (Complex.image m (d + e) y) :=
  dot_symm Complex.symm u.val v.val u'.val v'.val _ (fun i _ => hu i) (fun i _ => hv i) zero zero y y' (Complex.symm.zero _) hy hy'

/-- Polynomials with complex coefficients at a turned (or mirrored) place. -/
theorem C90_complex_eval (m : Bool) (d e : ZMod 4) (a a' : List (Complex (Ieee F))) (x x' : Complex (Ieee F))
    (hx : Complex.SameC x' (Complex.image m d x))
    (ha : List.Forall₂ (fun (c : Complex (Ieee F) × ℕ) (c' : Complex (Ieee F)) => Complex.SameC c' (Complex.image m (e - c.2 • d) c.1))
      a.zipIdx a') (y y' : Complex (Ieee F))
    (hy : (Poly.fromCoefficients a).eval x = .ok y) (hy' : (Poly.fromCoefficients a').eval x' = .ok y') :
    Complex.SameC y' (Complex.image m e y) :=
  eval_symm Complex.symm hx a a' e ha y y' hy hy'

end Magnesia
