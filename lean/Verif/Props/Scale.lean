import Verif.Proof.ScaleRun
import Verif.Props.Ieee
import Verif.Props.SLinalg
import Verif.Props.DynLinalg

/-!
# C80: changing units by powers of two
-/

namespace Magnesia

open RZero ROne MulRefs

variable {F : Fmt}

/-- Dimensional analysis: run any program on numbers in two systems of units whose basic units differ by the factor `2^k` (a number
of unit exponent `d` is `2^(k*d)` times larger in the second system). If the units are consistent and nothing overflows or
underflows in either system, the results of the two ordinary runs are exactly the same quantities: they differ by the factor
`2^(k*d)`, `d` the unit exponent of the result. -/
theorem C80_units (k : ℤ) (pr : Profile) (Γ : ℕ → Ty) (hΓ : ∀ i, (Γ i).IsData) (ty : Ty) (hty : ty.IsData) (p : Prog Γ ty)
    (x : (i : ℕ) → (Γ i).type {x : Gauged F // x.Consistent k}) (r : ty.type (Gauged F))
    (h : p.run pr (fun i => (Γ i).map Subtype.val (hΓ i) (x i)) = .ok r) :
    p.run pr (fun i => (Γ i).map (fun y => y.1.a.val) (hΓ i) (x i)) = .ok (ty.map (fun y => y.a.val) hty r) ∧
    p.run pr (fun i => (Γ i).map (fun y => y.1.b.val) (hΓ i) (x i)) = .ok (ty.map (fun y => y.b.val) hty r) ∧
    ∃ r' : ty.type {x : Gauged F // x.Consistent k}, r = ty.map Subtype.val hty r' := by
  refine ⟨?_, ?_, ?_⟩
  · have := Gauged.run_pick false pr hΓ hty p _ r h
    simp only [Ty.map_map] at this
    exact this
  · have := Gauged.run_pick true pr hΓ hty p _ r h
    simp only [Ty.map_map] at this
    exact this
  · have := Prog.run_map Gauge.hom_val Gauge.homV_val (fun _ => ResRel.ok rfl) pr hΓ x hty p
    have h' : p.run pr (fun i => (Γ i).map Gauge.val (hΓ i) (x i)) = .ok r := h
    rw [h'] at this
    cases hr : p.run (T := Gauge F k) pr x with
    | ok r' =>
      rw [hr] at this
      exact ⟨r', Except.ok.inj this⟩
    | error e =>
      rw [hr] at this
      cases this

/-- Every product of corresponding factors is zero or at least the smallest normal number. -/
private theorem dot_scaled {ι : Type} {j k : ℤ} (f g f' g' : ι → Ieee F) : ∀ (l : List ι), (∀ i ∈ l, (f i).Scaled j (f' i)) →
    (∀ i ∈ l, (g i).Scaled k (g' i)) → (∀ i ∈ l, (f i).value * (g i).value = 0 ∨ 2 ^ F.emin ≤ |(f i).value * (g i).value|) →
    (∀ i ∈ l, (f' i).value * (g' i).value = 0 ∨ 2 ^ F.emin ≤ |(f' i).value * (g' i).value|) → ∀ (s s' y y' : Ieee F),
    s.Scaled (j + k) s' →
    l.foldlM (fun sum i => do
      let prod ← mulRefs (f i) (g i)
      (AddAssignRef.addAssign sum prod).toRes) s = .ok y →
    l.foldlM (fun sum i => do
      let prod ← mulRefs (f' i) (g' i)
      (AddAssignRef.addAssign sum prod).toRes) s' = .ok y' → y.Finite → y'.Finite → y.Scaled (j + k) y' := by
  intro l
  induction l with
  | nil => intro _ _ _ _ s s' y y' hs h h' _ _; cases h; cases h'; exact hs
  | cons i l ih =>
    intro h1 h2 h3 h4 s s' y y' hs h h' hf hf'
    rw [List.foldlM_cons, dot_step] at h h'
    have e1 := (dot_finite f g l _ y h hf).1
    have e2 := (dot_finite f' g' l _ y' h' hf').1
    refine ih (fun i hi => h1 i (by simp [hi])) (fun i hi => h2 i (by simp [hi])) (fun i hi => h3 i (by simp [hi]))
      (fun i hi => h4 i (by simp [hi])) _ _ y y' ?_ h h' hf hf'
    exact Ieee.scaled_add hs (Ieee.scaled_mul (h1 i (by simp)) (h2 i (by simp)) (Ieee.add_finite e1).2.1 (Ieee.add_finite e2).2.1
      (h3 i (by simp)) (h4 i (by simp))) e1 e2

/-- Dot products: multiply the first vector by `2^j` and the second by `2^k`; if no product is subnormal and both results are finite,
the result is multiplied by `2^(j+k)` exactly. -/
theorem C80_dot {j k : ℤ} {n : ℕ} (u v u' v' : SVector (Ieee F) n) (hu : ∀ i, (u.val i).Scaled j (u'.val i))
    (hv : ∀ i, (v.val i).Scaled k (v'.val i)) (hn : ∀ i, (u.val i).value * (v.val i).value = 0 ∨ 2 ^ F.emin ≤ |(u.val i).value * (v.val i).value|)
    (hn' : ∀ i, (u'.val i).value * (v'.val i).value = 0 ∨ 2 ^ F.emin ≤ |(u'.val i).value * (v'.val i).value|) (y y' : Ieee F)
    (hy : u.dot v = .ok y) (hy' : u'.dot v' = .ok y') (hf : y.Finite) (hf' : y'.Finite) : y.Scaled (j + k) y' :=
  dot_scaled u.val v.val u'.val v'.val _ (fun i _ => hu i) (fun i _ => hv i) (fun i _ => hn i) (fun i _ => hn' i) zero zero y y' rfl
    hy hy' hf hf'

/-- Matrix products. -/
theorem C80_smatrix_mul {j k : ℤ} {l m n : ℕ} (a a' : SMatrix (Ieee F) l m) (b b' : SMatrix (Ieee F) m n)
    (ha : ∀ i s, (a.val i s).Scaled j (a'.val i s)) (hb : ∀ s t, (b.val s t).Scaled k (b'.val s t))
    (hn : ∀ i s t, (a.val i s).value * (b.val s t).value = 0 ∨ 2 ^ F.emin ≤ |(a.val i s).value * (b.val s t).value|)
    (hn' : ∀ i s t, (a'.val i s).value * (b'.val s t).value = 0 ∨ 2 ^ F.emin ≤ |(a'.val i s).value * (b'.val s t).value|)
    (c c' : SMatrix (Ieee F) l n) (hc : a.mul b = .ok c) (hc' : a'.mul b' = .ok c') (i : Fin l) (t : Fin n)
    (hf : (c.val i t).Finite) (hf' : (c'.val i t).Finite) : (c.val i t).Scaled (j + k) (c'.val i t) :=
  C80_dot _ _ _ _ (ha i) (fun s => hb s t) (fun s => hn i s t) (fun s => hn' i s t) _ _ ((smatrix_mul_entries a b c).1 hc i t)
    ((smatrix_mul_entries a' b' c').1 hc' i t) hf hf'

/-- Dot products of real `DVector`s. -/
theorem C80_dvector_dot {j k : ℤ} {n : ℕ} (u v u' v' : Fin n → Ieee F) (hu : ∀ i, (u i).Scaled j (u' i))
    (hv : ∀ i, (v i).Scaled k (v' i)) (hn : ∀ i, (u i).value * (v i).value = 0 ∨ 2 ^ F.emin ≤ |(u i).value * (v i).value|)
    (hn' : ∀ i, (u' i).value * (v' i).value = 0 ∨ 2 ^ F.emin ≤ |(u' i).value * (v' i).value|) (y y' : Ieee F)
    (hy : (DVector.ofFn u).dot (DVector.ofFn v) = .ok y) (hy' : (DVector.ofFn u').dot (DVector.ofFn v') = .ok y') (hf : y.Finite)
    (hf' : y'.Finite) : y.Scaled (j + k) y' := by
  have e : ∀ f g : Fin n → Ieee F, (DVector.ofFn f).dot (DVector.ofFn g) = (SVector.mk f).dot ⟨g⟩ := by
    intro f g
    show (List.zip (List.ofFn f) (List.ofFn g)).foldlM _ _ = _
    rw [List.ofFn_eq_map, List.ofFn_eq_map, List.zip_map', List.foldlM_map]
    rfl
  rw [e] at hy hy'
  exact C80_dot _ _ _ _ hu hv hn hn' y y' hy hy' hf hf'

private theorem sumTerms_scaled {d : ℤ} {t t' : ℕ → Res (Ieee F)} {a a' : ℕ → Ieee F} : ∀ {n : ℕ} {x x' : Ieee F},
    (∀ i < n + 1, t i = .ok (a i) ∧ t' i = .ok (a' i) ∧ ((a i).Finite → (a' i).Finite → (a i).Scaled d (a' i))) →
    Tree.sumTerms t (n + 1) = .ok x → Tree.sumTerms t' (n + 1) = .ok x' → x.Finite → x'.Finite → x.Scaled d x' := by
  intro n
  induction n with
  | zero =>
    intro x x' h hx hx' hf hf'
    obtain ⟨e1, e2, e3⟩ := h 0 (by omega)
    obtain rfl : a 0 = x := Except.ok.inj (e1.symm.trans hx)
    obtain rfl : a' 0 = x' := Except.ok.inj (e2.symm.trans hx')
    exact e3 hf hf'
  | succ n ih =>
    intro x x' h hx hx' hf hf'
    obtain ⟨e1, e2, e3⟩ := h (n + 1) (by omega)
    have hx : (do
        let s ← Tree.sumTerms t (n + 1)
        let y ← t (n + 1)
        (RAddAssign.addAssign s y).toRes) = Except.ok x := hx
    have hx' : (do
        let s ← Tree.sumTerms t' (n + 1)
        let y ← t' (n + 1)
        (RAddAssign.addAssign s y).toRes) = Except.ok x' := hx'
    rw [e1] at hx
    rw [e2] at hx'
    obtain ⟨s, hs, hx⟩ := bind_ok hx
    obtain ⟨s', hs', hx'⟩ := bind_ok hx'
    obtain rfl : s.add (a (n + 1)) = x := Except.ok.inj hx
    obtain rfl : s'.add (a' (n + 1)) = x' := Except.ok.inj hx'
    obtain ⟨f1, f2, _⟩ := Ieee.add_finite hf
    obtain ⟨f1', f2', _⟩ := Ieee.add_finite hf'
    exact Ieee.scaled_add (ih (fun i hi => h i (by omega)) hs hs' f1 f1') (e3 f2 f2') hf hf'

/-- Matrix products of `DMatrix`es (inner dimension at least 1). -/
theorem C80_dmatrix_mul {p : Profile} {j k : ℤ} {l m n : ℕ} (hp : p.Fits l (m + 1)) (hq : p.Fits (m + 1) n)
    (a a' : Fin l → Fin (m + 1) → Ieee F) (b b' : Fin (m + 1) → Fin n → Ieee F)
    (ha : ∀ i s, (a i s).Scaled j (a' i s)) (hb : ∀ s t, (b s t).Scaled k (b' s t))
    (hn : ∀ i s t, (a i s).value * (b s t).value = 0 ∨ 2 ^ F.emin ≤ |(a i s).value * (b s t).value|)
    (hn' : ∀ i s t, (a' i s).value * (b' s t).value = 0 ∨ 2 ^ F.emin ≤ |(a' i s).value * (b' s t).value|)
    (c c' : Fin l → Fin n → Ieee F) (hc : (do (← (DMatrix.ofFn a).mul p (DMatrix.ofFn b)).eval) = .ok (DMatrix.ofFn c))
    (hc' : (do (← (DMatrix.ofFn a').mul p (DMatrix.ofFn b')).eval) = .ok (DMatrix.ofFn c')) (i : Fin l) (t : Fin n)
    (hf : (c i t).Finite) (hf' : (c' i t).Finite) : (c i t).Scaled (j + k) (c' i t) := by
  obtain ⟨y, hy, e⟩ := (mul_eval_iff hp hq a b _).1 hc
  obtain ⟨y', hy', e'⟩ := (mul_eval_iff hp hq a' b' _).1 hc'
  obtain rfl : c = y := funext fun i => funext fun j => congrFun (congrFun (ofFn_injective e) i) j
  obtain rfl : c' = y' := funext fun i => funext fun j => congrFun (congrFun (ofFn_injective e') i) j
  refine sumTerms_scaled (a := fun s => if h : s < m + 1 then (a i ⟨s, h⟩).mul (b ⟨s, h⟩ t) else zero)
    (a' := fun s => if h : s < m + 1 then (a' i ⟨s, h⟩).mul (b' ⟨s, h⟩ t) else zero) (fun s hs => ?_) (hy i t) (hy' i t) hf hf'
  simp only [prodTerms, dif_pos hs]
  exact ⟨rfl, rfl, fun f f' => Ieee.scaled_mul (ha _ _) (hb _ _) f f' (hn _ _ _) (hn' _ _ _)⟩

/-- Sums and differences of vectors need no condition but that the results are finite. -/
theorem C80_add_sub {k : ℤ} {n : ℕ} (u v u' v' : SVector (Ieee F) n) (hu : ∀ i, (u.val i).Scaled k (u'.val i))
    (hv : ∀ i, (v.val i).Scaled k (v'.val i)) (w w' : SVector (Ieee F) n) (i : Fin n) (hf : (w.val i).Finite) (hf' : (w'.val i).Finite) :
    (u.add v = .ok w → u'.add v' = .ok w' → (w.val i).Scaled k (w'.val i)) ∧
    (u.sub v = .ok w → u'.sub v' = .ok w' → (w.val i).Scaled k (w'.val i)) := by
  constructor
  · intro h h'
    have h1 := (C22_add_entries u v w).1 h i
    have h2 := (C22_add_entries u' v' w').1 h' i
    rw [← Except.ok.inj h1] at hf ⊢
    rw [← Except.ok.inj h2] at hf' ⊢
    exact Ieee.scaled_add (hu i) (hv i) hf hf'
  · intro h h'
    have h1 := (C22_sub_entries u v w).1 h i
    have h2 := (C22_sub_entries u' v' w').1 h' i
    rw [← Except.ok.inj h1] at hf ⊢
    rw [← Except.ok.inj h2] at hf' ⊢
    exact Ieee.scaled_sub (hu i) (hv i) hf hf'

section complex

variable {j k : ℤ} {z z' w w' : Complex (Trap F true)}

/-- If both computations succeed, their results are related. -/
private def Both {α β : Type} (R : α → β → Prop) (x : Res α) (y : Res β) : Prop := ∀ a b, x = .ok a → y = .ok b → R a b

private theorem Both.bind {α β α' β' : Type} {R : α → β → Prop} {S : α' → β' → Prop} {x : Res α} {y : Res β} {f : α → Res α'}
    {g : β → Res β'} (h : Both R x y) (hf : ∀ a b, R a b → Both S (f a) (g b)) : Both S (x >>= f) (y >>= g) := by
  intro c d hc hd
  obtain ⟨a, ha, hc⟩ := bind_ok hc
  obtain ⟨b, hb, hd⟩ := bind_ok hd
  exact hf a b (h a b ha hb) c d hc hd

private theorem Both.pure {α β : Type} {R : α → β → Prop} {a : α} {b : β} (h : R a b) :
    Both R (Pure.pure a : Res α) (Pure.pure b : Res β) := by
  rintro _ _ ⟨⟩ ⟨⟩
  exact h

/-- `b` is `2^k` times `a`. -/
private abbrev Sc (k : ℤ) (a b : Trap F true) : Prop := a.val.Scaled k b.val

variable {a a' b b' : Trap F true}

private theorem both_add (ha : Sc k a a') (hb : Sc k b b') : Both (Sc k) (RAdd.add a b : Res (Trap F true)) (RAdd.add a' b' : Res (Trap F true)) :=
  fun _ _ h h' => Trap.scaled_add ha hb h h'

private theorem both_sub (ha : Sc k a a') (hb : Sc k b b') : Both (Sc k) (RSub.sub a b : Res (Trap F true)) (RSub.sub a' b' : Res (Trap F true)) :=
  fun _ _ h h' => Trap.scaled_sub ha hb h h'

private theorem both_addAssign (ha : Sc k a a') (hb : Sc k b b') :
    Both (Sc k) (AddAssignRef.addAssign a b).toRes (AddAssignRef.addAssign a' b').toRes := by
  intro _ _ h h'
  exact Trap.scaled_add ha hb ((toRes_ofRes _ _).symm.trans h) ((toRes_ofRes _ _).symm.trans h')

private theorem both_subAssign (ha : Sc k a a') (hb : Sc k b b') :
    Both (Sc k) (SubAssignRef.subAssign a b).toRes (SubAssignRef.subAssign a' b').toRes := by
  intro _ _ h h'
  exact Trap.scaled_sub ha hb ((toRes_ofRes _ _).symm.trans h) ((toRes_ofRes _ _).symm.trans h')

private theorem both_mul {l : ℤ} (hl : j + k = l) (ha : Sc j a a') (hb : Sc k b b') : Both (Sc l) (mulRefs a b) (mulRefs a' b') :=
  fun _ _ h h' => hl ▸ Trap.scaled_mul ha hb h h'

private theorem both_div {l : ℤ} (hl : j - k = l) (ha : Sc j a a') (hb : Sc k b b') :
    Both (Sc l) (RDiv.div a b : Res (Trap F true)) (RDiv.div a' b' : Res (Trap F true)) :=
  fun _ _ h h' => hl ▸ Trap.scaled_div ha hb h h'

private theorem both_divRefs {l : ℤ} (hl : j - k = l) (ha : Sc j a a') (hb : Sc k b b') : Both (Sc l) (DivRefs.divRefs a b) (DivRefs.divRefs a' b') :=
  fun _ _ h h' => hl ▸ Trap.scaled_div ha hb h h'

private theorem both_sqrt {l : ℤ} (hl : l = 2 * k) (ha : Sc l a a') : Both (Sc k) (RSqrt.sqrt a) (RSqrt.sqrt a') := by
  subst hl
  exact fun _ _ h h' => Trap.scaled_sqrt ha h h'

private theorem both_neg (ha : Sc k a a') : Both (Sc k) (RNeg.neg a) (RNeg.neg a') := fun _ _ h h' => Trap.scaled_neg ha h h'

private theorem both_abs (ha : Sc k a a') : Both (Sc k) (RAbs.abs a : Res (Trap F true)) (RAbs.abs a' : Res (Trap F true)) := by
  intro c c' h h'
  show c.val.Scaled k c'.val
  rw [(Trap.retF_ok h).2, (Trap.retF_ok h').2]
  exact Ieee.scaled_abs ha

private theorem sc_one : Sc 0 (one : Trap F true) one := by
  show (1 : ℚ) = 1 * 2 ^ (0 : ℤ)
  norm_num

private theorem sc_zero : Sc k (zero : Trap F true) zero := rfl

private theorem sc_le (ha : Sc k a a') (hb : Sc k b b') : RPartialOrd.le a b = RPartialOrd.le a' b' := Ieee.scaled_fle ha hb

private theorem sc_lt (ha : Sc k a a') (hb : Sc k b b') : RPartialOrd.lt a b = RPartialOrd.lt a' b' := Ieee.scaled_flt ha hb

private theorem both_sqrNorm (hr : Sc k z.re z'.re) (hi : Sc k z.im z'.im) : Both (Sc (k + k)) z.sqrNorm z'.sqrNorm :=
  .bind (both_mul rfl hr hr) fun _ _ h1 => .bind (both_mul rfl hi hi) fun _ _ h2 => both_addAssign h1 h2

private theorem both_cabs (hr : Sc k z.re z'.re) (hi : Sc k z.im z'.im) : Both (Sc k) z.abs z'.abs :=
  .bind (both_sqrNorm hr hi) fun _ _ h => both_sqrt (by omega) h

/-- Complex products and quotients, if no intermediate result overflows or underflows in either run. -/
theorem C80_complex_mul_div (hr : z.re.val.Scaled j z'.re.val) (hi : z.im.val.Scaled j z'.im.val) (hr' : w.re.val.Scaled k w'.re.val)
    (hi' : w.im.val.Scaled k w'.im.val) (c c' : Complex (Trap F true)) :
    (z.mul w = .ok c → z'.mul w' = .ok c' → c.re.val.Scaled (j + k) c'.re.val ∧ c.im.val.Scaled (j + k) c'.im.val) ∧
    (z.div w = .ok c → z'.div w' = .ok c' → c.re.val.Scaled (j - k) c'.re.val ∧ c.im.val.Scaled (j - k) c'.im.val) := by
  refine ⟨?_, ?_⟩
  · have : Both (fun c c' : Complex (Trap F true) => Sc (j + k) c.re c'.re ∧ Sc (j + k) c.im c'.im) (z.mul w) (z'.mul w') :=
      .bind (both_mul rfl hr hr') fun _ _ h1 => .bind (both_mul rfl hr hi') fun _ _ h2 => .bind (both_mul rfl hi hr') fun _ _ h3 =>
      .bind (both_mul rfl hi hi') fun _ _ h4 => .bind (both_subAssign h1 h4) fun _ _ h5 => .bind (both_addAssign h2 h3) fun _ _ h6 =>
      .pure ⟨h5, h6⟩
    exact this c c'
  · have : Both (fun c c' : Complex (Trap F true) => Sc (j - k) c.re c'.re ∧ Sc (j - k) c.im c'.im) (z.div w) (z'.div w') :=
      .bind (both_sqrNorm hr' hi') fun _ _ h => .bind (both_divRefs rfl sc_one h) fun _ _ h0 =>
      .bind (both_mul rfl hr hr') fun _ _ h1 => .bind (both_mul rfl hi hr') fun _ _ h2 => .bind (both_mul rfl hr hi') fun _ _ h3 =>
      .bind (both_mul rfl hi hi') fun _ _ h4 => .bind (both_addAssign h1 h4) fun _ _ h5 => .bind (both_subAssign h2 h3) fun _ _ h6 =>
      .bind (both_mul (by omega) h5 h0) fun _ _ h7 => .bind (both_mul (by omega) h6 h0) fun _ _ h8 => .pure ⟨h7, h8⟩
    exact this c c'

/-- The absolute value. -/
theorem C80_complex_abs (hr : z.re.val.Scaled k z'.re.val) (hi : z.im.val.Scaled k z'.im.val) (r r' : Trap F true)
    (h : z.abs = .ok r) (h' : z'.abs = .ok r') : r.val.Scaled k r'.val := both_cabs hr hi r r' h h'

/-- The square root: a factor `4^k` becomes `2^k`, with the same branches taken. -/
theorem C80_complex_sqrt (hr : z.re.val.Scaled (2 * k) z'.re.val) (hi : z.im.val.Scaled (2 * k) z'.im.val)
    (s s' : Complex (Trap F true)) (h : z.sqrt = .ok s) (h' : z'.sqrt = .ok s') :
    s.re.val.Scaled k s'.re.val ∧ s.im.val.Scaled k s'.im.val := by
  have key : Both (fun c c' : Complex (Trap F true) => Sc k c.re c'.re ∧ Sc k c.im c'.im) z.sqrt z'.sqrt := by
    refine .bind (both_add sc_one sc_one) fun two two' h2 => .bind (both_div (l := 0) (by omega) sc_one h2) fun half half' hh =>
      .bind (both_cabs hr hi) fun m m' hm => .bind (both_abs hr) fun ar ar' har => .bind (both_abs hi) fun ai ai' hai =>
      .bind (both_mul (l := 2 * k) (by omega) hai h2) fun ti ti' hti =>
      .bind (R := fun (p p' : Trap F true × Trap F true) => Sc k p.1 p'.1 ∧ Sc k p.2 p'.2) ?_ fun p p' hp =>
      .bind (R := Sc k) ?_ fun im im' him => .pure ⟨hp.1, him⟩
    · rw [sc_le har hti]
      split
      · exact .bind (both_add hm hr) fun _ _ h => .bind (both_mul (l := 2 * k) (by omega) h hh) fun _ _ h =>
          .bind (both_sqrt rfl h) fun _ _ hr' => .bind (both_sub hm hr) fun _ _ h =>
          .bind (both_mul (l := 2 * k) (by omega) h hh) fun _ _ h => .bind (both_sqrt rfl h) fun _ _ hi' => .pure ⟨hr', hi'⟩
      · refine .bind (both_abs hr) fun _ _ h => .bind (both_add hm h) fun _ _ h =>
          .bind (both_mul (l := 2 * k) (by omega) h h2) fun _ _ h => .bind (both_sqrt rfl h) fun _ _ hd =>
          .bind (both_abs hi) fun _ _ h => .bind (both_div (l := k) (by omega) h hd) fun _ _ hα =>
          .bind (both_abs hr) fun _ _ h => .bind (both_add hm h) fun _ _ h =>
          .bind (both_mul (l := 2 * k) (by omega) h hh) fun _ _ h => .bind (both_sqrt rfl h) fun _ _ hβ => ?_
        rw [sc_le sc_zero hr]
        split
        · exact .pure ⟨hβ, hα⟩
        · exact .pure ⟨hα, hβ⟩
    · rw [sc_lt hi sc_zero]
      split
      · exact both_neg hp.2
      · exact .pure hp.2
  exact key s s' h h'

end complex

end Magnesia
