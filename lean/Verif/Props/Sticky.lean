import Verif.Props.Bits
import Verif.Props.IeeeSpecial
import Verif.Spec.CxRound
import Verif.Props.CxRound
import Verif.Props.PForm

/-!
# Property C96: infinities and NaN never disappear
-/

namespace Magnesia

open RZero ROne MulRefs

variable {F : Fmt}

namespace Ieee

theorem add_nan_iff {a b : Ieee F} : a.add b = nan ↔ a = nan ∨ b = nan ∨ ∃ s, a = inf s ∧ b = inf (!s) := by
  have hr : ∀ x, (round x : Ieee F) ≠ nan := fun x => by unfold round; split_ifs <;> simp
  cases a <;> cases b <;> simp [add]
  · rename_i s t
    cases s <;> cases t <;> simp
  · split_ifs
    · simp
    · exact hr _

theorem inf_add_cases {a : Ieee F} (s : Bool) : (inf s : Ieee F).add a = inf s ∨ (inf s : Ieee F).add a = nan := by
  cases a <;> simp [add]
  rename_i t
  cases s <;> cases t <;> simp

end Ieee

theorem finRange_succ_last' (n : ℕ) : List.finRange (n + 1) = (List.finRange n).map Fin.castSucc ++ [Fin.last n] := by
  have h := List.ofFn_succ' (fun i : Fin (n + 1) => i)
  rw [List.concat_eq_append] at h
  rw [← List.ofFn_id, ← List.ofFn_id, List.map_ofFn]
  exact h

/-- The last step of a dot product. -/
theorem dot_last {n : ℕ} (v w : SVector (Ieee F) (n + 1)) : ∃ s, (SVector.mk fun i : Fin n => v.val i.castSucc).dot
    (SVector.mk fun i => w.val i.castSucc) = .ok s ∧ v.dot w = .ok (s.add ((v.val (Fin.last n)).mul (w.val (Fin.last n)))) := by
  refine ⟨_, dot_run _ _ _ _, ?_⟩
  show List.foldlM _ _ _ = _
  rw [dot_run v.val w.val, finRange_succ_last', List.foldl_append, List.foldl_map]
  rfl

/-- C96: if a dot product is finite, so are all entries of the vectors, all products of entries and all dot products of first
entries: nothing exceptional happened on the way. -/
theorem C96_dot_finite {n : ℕ} (v w : SVector (Ieee F) n) (x : Ieee F) (h : v.dot w = .ok x) (hx : x.Finite) :
    (∀ i, (v.val i).Finite ∧ (w.val i).Finite ∧ ((v.val i).mul (w.val i)).Finite) ∧
    ∀ k (hk : k ≤ n), ∃ s, (v.first k hk).dot (w.first k hk) = .ok s ∧ s.Finite := by
  induction n generalizing x with
  | zero => exact ⟨fun i => i.elim0, fun k hk => by obtain rfl := Nat.le_zero.1 hk; exact ⟨x, h, hx⟩⟩
  | succ n ih =>
    obtain ⟨s, h1, h2⟩ := dot_last v w
    cases h.symm.trans h2
    obtain ⟨hs, hm, _⟩ := Ieee.add_finite hx
    obtain ⟨hv, hw, _⟩ := Ieee.mul_finite hm
    obtain ⟨i1, i2⟩ := ih _ _ s h1 hs
    refine ⟨Fin.lastCases ⟨hv, hw, hm⟩ i1, fun k hk => ?_⟩
    rcases Nat.lt_succ_iff_lt_or_eq.1 (Nat.lt_succ_of_le hk) with hk' | rfl
    · exact i2 k (Nat.le_of_lt_succ hk')
    · exact ⟨_, h, hx⟩

/-- C96: once the running sum is infinite it stays this infinity or becomes NaN; once it is NaN it stays NaN. -/
theorem C96_dot_sticky {n : ℕ} (v w : SVector (Ieee F) n) (k : ℕ) (hk : k ≤ n) : ∃ s x,
    (v.first k hk).dot (w.first k hk) = .ok s ∧ v.dot w = .ok x ∧ (s = .nan → x = .nan) ∧
    ∀ b, s = .inf b → x = .inf b ∨ x = .nan := by
  induction n with
  | zero => obtain rfl := Nat.le_zero.1 hk; obtain ⟨x, hx⟩ := C48_ieee_dot_returns v w; exact ⟨x, x, hx, hx, id, fun b h => .inl h⟩
  | succ n ih =>
    rcases Nat.lt_succ_iff_lt_or_eq.1 (Nat.lt_succ_of_le hk) with hk' | rfl
    · obtain ⟨t, h1, h2⟩ := dot_last v w
      obtain ⟨s, x, i1, i2, i3, i4⟩ := ih (SVector.mk fun i => v.val i.castSucc) (SVector.mk fun i => w.val i.castSucc)
        (Nat.le_of_lt_succ hk')
      cases h1.symm.trans i2
      refine ⟨s, _, i1, h2, fun h => by rw [i3 h]; exact Ieee.nan_add _, fun b h => ?_⟩
      rcases i4 b h with h | h
      · rw [h]; exact Ieee.inf_add_cases b
      · rw [h]; exact .inr (Ieee.nan_add _)
    · obtain ⟨x, hx⟩ := C48_ieee_dot_returns v w
      exact ⟨x, x, hx, hx, id, fun b h => .inl h⟩

/-- C96: when exactly a dot product is NaN: a product of entries is NaN (an entry is NaN, or a zero meets an infinity), or the
dot product of the entries before some position is an infinity and the product at this position the opposite infinity. -/
theorem C96_dot_nan {n : ℕ} (v w : SVector (Ieee F) n) : v.dot w = .ok .nan ↔ ∃ i : Fin n,
    (v.val i).mul (w.val i) = .nan ∨ ∃ b, (v.first i i.2.le).dot (w.first i i.2.le) = .ok (.inf b) ∧
      (v.val i).mul (w.val i) = .inf (!b) := by
  induction n with
  | zero => exact ⟨fun h => (by cases h), (by rintro ⟨i, _⟩; exact i.elim0)⟩
  | succ n ih =>
    obtain ⟨s, h1, h2⟩ := dot_last v w
    rw [h2, Except.ok.injEq, Ieee.add_nan_iff]
    have ih := ih (SVector.mk fun i => v.val i.castSucc) (SVector.mk fun i => w.val i.castSucc)
    rw [h1, Except.ok.injEq] at ih
    have h1' : (v.first (Fin.last n) (Fin.last n).2.le).dot (w.first (Fin.last n) (Fin.last n).2.le) = .ok s := h1
    rw [ih, Fin.exists_fin_succ', h1']
    refine or_congr Iff.rfl (or_congr Iff.rfl (exists_congr fun b => ?_))
    rw [Except.ok.injEq]

/-- C96: an infinite dot product: no product of entries is NaN or the opposite infinity. -/
theorem C96_dot_infinite {n : ℕ} (v w : SVector (Ieee F) n) (b : Bool) (h : v.dot w = .ok (.inf b)) (i : Fin n) :
    (v.val i).mul (w.val i) ≠ .nan ∧ (v.val i).mul (w.val i) ≠ .inf (!b) := by
  induction n with
  | zero => exact i.elim0
  | succ n ih =>
    obtain ⟨s, h1, h2⟩ := dot_last v w
    have h := Except.ok.inj (h2.symm.trans h)
    have hs : s ≠ .nan := by rintro rfl; rw [Ieee.nan_add] at h; cases h
    have hs' : s ≠ .inf (!b) := by
      rintro rfl
      rcases Ieee.inf_add_cases (!b) (a := (v.val (Fin.last n)).mul (w.val (Fin.last n))) with h' | h' <;> rw [h'] at h <;> cases b <;> cases h
    refine Fin.lastCases ⟨?_, ?_⟩ (fun i => ?_) i
    · intro h'; rw [h', Ieee.add_nan] at h; cases h
    · intro h'
      rw [h', Ieee.add_comm] at h
      rcases Ieee.inf_add_cases (!b) (a := s) with h' | h' <;> rw [h'] at h <;> cases b <;> cases h
    · by_cases hf : s.Finite
      · have := ((C96_dot_finite _ _ _ h1 hf).1 i).2.2
        constructor <;> intro h' <;> rw [show (v.val i.castSucc).mul (w.val i.castSucc) = _ from h'] at this <;> exact this
      · cases s with
        | nan => exact (hs rfl).elim
        | inf c =>
          have : c = b := by
            cases c <;> cases b <;> first | rfl | exact (hs' rfl).elim
          subst this
          exact ih _ _ h1 i
        | zero c => exact (hf trivial).elim
        | fin => exact (hf trivial).elim

/-- C96: a NaN entry makes the dot product NaN. -/
theorem C96_dot_nan_entry {n : ℕ} (v w : SVector (Ieee F) n) (i : Fin n) (h : v.val i = .nan ∨ w.val i = .nan) :
    v.dot w = .ok .nan :=
  (C96_dot_nan v w).2 ⟨i, .inl (by rcases h with h | h <;> rw [h] <;> simp)⟩

/-! ## Matrices -/

/-- C96: a finite entry of a matrix product: the row and the column it comes from are finite. -/
theorem C96_smatrix_finite {l m n : ℕ} (a : SMatrix (Ieee F) l m) (b : SMatrix (Ieee F) m n) (c : SMatrix (Ieee F) l n)
    (h : a.mul b = .ok c) (i : Fin l) (j : Fin n) (hc : (c.val i j).Finite) (k : Fin m) :
    (a.val i k).Finite ∧ (b.val k j).Finite :=
  have := (C96_dot_finite _ _ _ ((smatrix_mul_entries a b c).1 h i j) hc).1 k
  ⟨this.1, this.2.1⟩

/-- C96: a NaN in the left factor makes its whole row of the product NaN, one in the right factor its whole column. -/
theorem C96_smatrix_nan {l m n : ℕ} (a : SMatrix (Ieee F) l m) (b : SMatrix (Ieee F) m n) (c : SMatrix (Ieee F) l n)
    (h : a.mul b = .ok c) (k : Fin m) :
    (∀ i, a.val i k = .nan → ∀ j, c.val i j = .nan) ∧ ∀ j, b.val k j = .nan → ∀ i, c.val i j = .nan :=
  ⟨fun i hk j => Except.ok.inj (((smatrix_mul_entries a b c).1 h i j).symm.trans (C96_dot_nan_entry _ _ k (.inl hk))),
    fun j hk i => Except.ok.inj (((smatrix_mul_entries a b c).1 h i j).symm.trans (C96_dot_nan_entry _ _ k (.inr hk)))⟩

/-- C96: matrix times vector: a finite entry comes from a finite row and a finite vector. -/
theorem C96_mul_vec {m n : ℕ} (a : SMatrix (Ieee F) m n) (v : SVector (Ieee F) n) (w : SVector (Ieee F) m)
    (h : a.mulVec v = .ok w) (i : Fin m) (hw : (w.val i).Finite) (k : Fin n) : (a.val i k).Finite ∧ (v.val k).Finite := by
  have h' : a.mul (SMatrix.mk fun k (_ : Fin 1) => v.val k) = .ok ⟨fun i _ => w.val i⟩ := (C95_columns _ _ _).2 fun _ => h
  exact C96_smatrix_finite _ _ _ h' i 0 hw k

theorem plusZero_finite {a : Ieee F} : a.plusZero.Finite ↔ a.Finite := by
  unfold Ieee.plusZero; split_ifs with h
  · subst h; exact Iff.rfl
  · exact Iff.rfl

theorem plusZero_nan {a : Ieee F} : a.plusZero = .nan ↔ a = .nan := by
  unfold Ieee.plusZero; split_ifs with h
  · subst h; simp
  · exact Iff.rfl

/-- C96: the same for dynamic matrices. -/
theorem C96_dmatrix {p : Profile} {l m n : ℕ} (hf : p.Fits l (m + 1)) (hg : p.Fits (m + 1) n)
    (f : Fin l → Fin (m + 1) → Ieee F) (g : Fin (m + 1) → Fin n → Ieee F) (y : Fin l → Fin n → Ieee F)
    (h : (do (← (DMatrix.ofFn f).mul p (DMatrix.ofFn g)).eval) = .ok (DMatrix.ofFn y)) :
    (∀ i j, (y i j).Finite → ∀ k, (f i k).Finite ∧ (g k j).Finite) ∧
    (∀ i k, f i k = .nan → ∀ j, y i j = .nan) ∧ ∀ k j, g k j = .nan → ∀ i, y i j = .nan := by
  obtain ⟨z, h1, h2, _⟩ := C95_static_dynamic hf hg f g
  obtain rfl := ofFn_injective (Except.ok.inj (h.symm.trans h1))
  refine ⟨fun i j hy => C96_smatrix_finite _ _ _ h2 i j (plusZero_finite.2 hy), fun i k hk j => ?_, fun k j hk i => ?_⟩
  · exact plusZero_nan.1 ((C96_smatrix_nan _ _ _ h2 k).1 i hk j)
  · exact plusZero_nan.1 ((C96_smatrix_nan _ _ _ h2 k).2 j hk i)

/-! ## Polynomials -/

theorem eval_cons (c : Ieee F) (a : List (Ieee F)) (x : Ieee F) : ∃ s, (Poly.fromCoefficients a).eval x = .ok s ∧
    (Poly.fromCoefficients (c :: a)).eval x = .ok ((s.mul x).add c) := by
  have run : ∀ (l : List (Ieee F)) (s : Ieee F), l.foldlM (fun y a => do
      let y ← mulRefs y x
      (AddAssignRef.addAssign y a).toRes) s = (.ok (l.foldl (fun y a => (y.mul x).add a) s) : Res (Ieee F)) := by
    intro l
    induction l with
    | nil => intro s; rfl
    | cons c l ih => intro s; rw [List.foldlM_cons]; exact ih _
  refine ⟨_, run a.reverse _, ?_⟩
  show (c :: a).reverse.foldlM _ _ = _
  rw [run, List.reverse_cons, List.foldl_append]
  rfl

/-- C96: if the value of a polynomial is finite, so are the argument, all coefficients and the values of all the polynomials
that remain when the lowest coefficients are removed. -/
theorem C96_eval_finite (a : List (Ieee F)) (x y : Ieee F) (h : (Poly.fromCoefficients a).eval x = .ok y) (hy : y.Finite) :
    (a ≠ [] → x.Finite) ∧ (∀ c ∈ a, c.Finite) ∧
    ∀ k, ∃ s, (Poly.fromCoefficients (a.drop k)).eval x = .ok s ∧ s.Finite := by
  induction a generalizing y with
  | nil => exact ⟨fun h => (h rfl).elim, by simp, fun k => ⟨y, by rw [List.drop_nil]; exact h, hy⟩⟩
  | cons c a ih =>
    obtain ⟨s, h1, h2⟩ := eval_cons c a x
    cases h.symm.trans h2
    obtain ⟨hm, hc, _⟩ := Ieee.add_finite hy
    obtain ⟨hs, hx, _⟩ := Ieee.mul_finite hm
    obtain ⟨_, i2, i3⟩ := ih s h1 hs
    refine ⟨fun _ => hx, List.forall_mem_cons.2 ⟨hc, i2⟩, fun k => ?_⟩
    cases k with
    | zero => exact ⟨_, h, hy⟩
    | succ k => exact i3 k

/-- C96: a polynomial at NaN. -/
theorem C96_eval_nan (c : Ieee F) (a : List (Ieee F)) : (Poly.fromCoefficients (c :: a)).eval .nan = .ok .nan := by
  obtain ⟨s, _, h⟩ := eval_cons c a .nan
  rw [h]; simp

/-- C96: a coefficient of a product is finite only if all the coefficients it is made of are. -/
theorem C96_polynomial_finite (p q r : Poly (Ieee F)) (h : p.mul q = .ok r) (i j : ℕ) (x y z : Ieee F) (hx : p.a[i]? = some x)
    (hy : q.a[j]? = some y) (hz : r.a[i + j]? = some z) (hf : z.Finite) : x.Finite ∧ y.Finite := by
  have := C95_polynomial_dot p q r h (i + j) z hz
  obtain ⟨hi, rfl⟩ := List.getElem?_eq_some_iff.1 hx
  obtain ⟨hj, rfl⟩ := List.getElem?_eq_some_iff.1 hy
  have h := (C96_dot_finite _ _ _ this hf).1 ⟨i - (i + j + 1 - q.a.length), by omega⟩
  have e1 : i + j + 1 - q.a.length + (i - (i + j + 1 - q.a.length)) = i := by omega
  have e2 : i + j - (i + j + 1 - q.a.length) - (i - (i + j + 1 - q.a.length)) = j := by omega
  simp only [e1, e2] at h
  exact ⟨h.1, h.2.1⟩

/-- C96: a NaN coefficient of a factor makes as many coefficients of the product NaN as the other factor has, starting at its
own position. -/
theorem C96_polynomial_nan (p q r : Poly (Ieee F)) (h : p.mul q = .ok r) (i j : ℕ) (hi : p.a[i]? = some .nan)
    (hj : j < q.a.length) : r.a[i + j]? = some .nan := by
  have hl := (C71_product_coefficient p q r h).1
  obtain ⟨hi, e⟩ := List.getElem?_eq_some_iff.1 hi
  have h1 : p.a ≠ [] := by rintro h; simp [h] at hi
  have h2 : q.a ≠ [] := by rintro h; simp [h] at hj
  rw [if_neg (by tauto)] at hl
  have hk : i + j < r.a.length := by omega
  rw [List.getElem?_eq_getElem hk, Option.some.injEq]
  have := C95_polynomial_dot p q r h (i + j) _ (List.getElem?_eq_getElem hk)
  refine Except.ok.inj (this.symm.trans (C96_dot_nan_entry _ _ ⟨i - (i + j + 1 - q.a.length), by omega⟩ (.inl ?_)))
  have e1 : i + j + 1 - q.a.length + (i - (i + j + 1 - q.a.length)) = i := by omega
  simp only [e1, e]

/-! ## Complex numbers -/

/-- C96: complex addition, subtraction, multiplication and division: a part that is finite comes from finite parts, for a
product or a quotient from all four. -/
theorem C96_complex_finite (z w : Complex (Ieee F)) :
    (∀ s, z.add w = .ok s → (s.re.Finite → z.re.Finite ∧ w.re.Finite) ∧ (s.im.Finite → z.im.Finite ∧ w.im.Finite)) ∧
    (∀ s, z.sub w = .ok s → (s.re.Finite → z.re.Finite ∧ w.re.Finite) ∧ (s.im.Finite → z.im.Finite ∧ w.im.Finite)) ∧
    (∀ s, z.mul w = .ok s → s.re.Finite ∨ s.im.Finite → CFinite z ∧ CFinite w) ∧
    (∀ s, z.div w = .ok s → s.re.Finite ∨ s.im.Finite → CFinite z ∧ CFinite w) := by
  refine ⟨?_, ?_, ?_, ?_⟩
  · rintro s ⟨⟩
    exact ⟨fun h => ⟨(Ieee.add_finite h).1, (Ieee.add_finite h).2.1⟩, fun h => ⟨(Ieee.add_finite h).1, (Ieee.add_finite h).2.1⟩⟩
  · rintro s ⟨⟩
    exact ⟨fun h => ⟨(Ieee.sub_finite h).1, (Ieee.sub_finite h).2.1⟩, fun h => ⟨(Ieee.sub_finite h).1, (Ieee.sub_finite h).2.1⟩⟩
  · intro s hs
    cases (ieee_cmul z w).symm.trans hs
    rintro (h | h)
    · obtain ⟨h1, h2, _⟩ := Ieee.sub_finite h
      exact ⟨⟨(Ieee.mul_finite h1).1, (Ieee.mul_finite h2).1⟩, (Ieee.mul_finite h1).2.1, (Ieee.mul_finite h2).2.1⟩
    · obtain ⟨h1, h2, _⟩ := Ieee.add_finite h
      exact ⟨⟨(Ieee.mul_finite h1).1, (Ieee.mul_finite h2).1⟩, (Ieee.mul_finite h2).2.1, (Ieee.mul_finite h1).2.1⟩
  · intro s hs
    cases (ieee_cdiv z w).symm.trans hs
    rintro (h | h)
    · obtain ⟨h1, h2, _⟩ := Ieee.add_finite (Ieee.mul_finite h).1
      exact ⟨⟨(Ieee.mul_finite h1).1, (Ieee.mul_finite h2).1⟩, (Ieee.mul_finite h1).2.1, (Ieee.mul_finite h2).2.1⟩
    · obtain ⟨h1, h2, _⟩ := Ieee.sub_finite (Ieee.mul_finite h).1
      exact ⟨⟨(Ieee.mul_finite h2).1, (Ieee.mul_finite h1).1⟩, (Ieee.mul_finite h1).2.1, (Ieee.mul_finite h2).2.1⟩

theorem sqrt_finite {a : Ieee F} (h : a.sqrt.Finite) : a.Finite := by
  cases a with
  | nan => exact h
  | inf s => cases s <;> exact h
  | zero => trivial
  | fin => trivial

/-- C96: a finite modulus, or a square root both parts of which are finite, comes from a number with finite parts. -/
theorem C96_modulus_finite (z : Complex (Ieee F)) :
    (∀ x, z.abs = .ok x → x.Finite → CFinite z) ∧ (∀ s, z.sqrt = .ok s → CFinite s → CFinite z) := by
  have key : ((z.re.mul z.re).add (z.im.mul z.im)).sqrt.Finite → CFinite z := fun h => by
    obtain ⟨h1, h2, _⟩ := Ieee.add_finite (sqrt_finite h)
    exact ⟨(Ieee.mul_finite h1).1, (Ieee.mul_finite h2).1⟩
  refine ⟨fun x hx => ?_, fun s hs => ?_⟩
  · cases (show z.abs = .ok ((z.re.mul z.re).add (z.im.mul z.im)).sqrt from rfl).symm.trans hx
    exact key
  · rw [ieee_csqrt] at hs
    cases hs
    rintro ⟨h1, h2⟩
    refine key ?_
    have h2 : ∀ {b : Bool} {a : Ieee F}, (if b then a.neg else a).Finite → a.Finite := fun {b a} h => by
      cases b
      · exact h
      · exact Ieee.neg_finite.1 h
    simp only at h1
    rename_i h3
    have h3 := h2 h3
    split_ifs at h1 h3
    · exact (Ieee.add_finite (Ieee.mul_finite (sqrt_finite h1)).1).1
    · exact (Ieee.add_finite (Ieee.mul_finite (sqrt_finite h1)).1).1
    · exact (Ieee.add_finite (Ieee.mul_finite (sqrt_finite h3)).1).1

/-- C96: complex dot products. -/
theorem C96_complex_dot_finite {n : ℕ} (v w : SVector (Complex (Ieee F)) n) (x : Complex (Ieee F)) (h : v.dot w = .ok x)
    (hx : x.re.Finite ∨ x.im.Finite) (i : Fin n) : CFinite (v.val i) ∧ CFinite (w.val i) := by
  have key : ∀ (l : List (Fin n)) (s : Complex (Ieee F)), ∃ x, l.foldlM (fun sum i => do
      let prod ← mulRefs (v.val i) (w.val i)
      (AddAssignRef.addAssign sum prod).toRes) s = .ok x ∧ 
      ((x.re.Finite → s.re.Finite) ∧ (x.im.Finite → s.im.Finite)) ∧
      (x.re.Finite ∨ x.im.Finite → ∀ i ∈ l, CFinite (v.val i) ∧ CFinite (w.val i)) := by
    intro l
    induction l with
    | nil => exact fun s => ⟨s, rfl, ⟨id, id⟩, fun _ i hi => by cases hi⟩
    | cons j l ih =>
      intro s
      obtain ⟨x, h1, ⟨h2, h3⟩, h4⟩ := ih ⟨s.re.add (((v.val j).re.mul (w.val j).re).sub ((v.val j).im.mul (w.val j).im)),
        s.im.add (((v.val j).re.mul (w.val j).im).add ((v.val j).im.mul (w.val j).re))⟩
      refine ⟨x, by rw [List.foldlM_cons]; exact h1, ⟨fun h => (Ieee.add_finite (h2 h)).1, fun h => (Ieee.add_finite (h3 h)).1⟩,
        fun h => List.forall_mem_cons.2 ⟨?_, h4 h⟩⟩
      refine (C96_complex_finite _ _).2.2.1 _ (ieee_cmul (v.val j) (w.val j)) ?_
      exact h.imp (fun h => (Ieee.add_finite (h2 h)).2.1) fun h => (Ieee.add_finite (h3 h)).2.1
  obtain ⟨y, h1, _, h2⟩ := key (List.finRange n) zero
  cases Except.ok.inj (h1.symm.trans h)
  exact h2 hx i (List.mem_finRange i)

/-- C96: complex matrices. -/
theorem C96_complex_smatrix_finite {l m n : ℕ} (a : SMatrix (Complex (Ieee F)) l m) (b : SMatrix (Complex (Ieee F)) m n)
    (c : SMatrix (Complex (Ieee F)) l n) (h : a.mul b = .ok c) (i : Fin l) (j : Fin n)
    (hc : (c.val i j).re.Finite ∨ (c.val i j).im.Finite) (k : Fin m) : CFinite (a.val i k) ∧ CFinite (b.val k j) :=
  C96_complex_dot_finite _ _ _ ((smatrix_mul_entries a b c).1 h i j) hc k

/-- C96: complex dynamic matrices. -/
theorem C96_complex_dmatrix_finite {p : Profile} {l m n : ℕ} (hf : p.Fits l (m + 1)) (hg : p.Fits (m + 1) n)
    (f : Fin l → Fin (m + 1) → Complex (Ieee F)) (g : Fin (m + 1) → Fin n → Complex (Ieee F)) (y : Fin l → Fin n → Complex (Ieee F))
    (h : (do (← (DMatrix.ofFn f).mul p (DMatrix.ofFn g)).eval) = .ok (DMatrix.ofFn y)) (i : Fin l) (j : Fin n)
    (hy : (y i j).re.Finite ∨ (y i j).im.Finite) (k : Fin (m + 1)) : CFinite (f i k) ∧ CFinite (g k j) := by
  obtain ⟨z, h1, h2⟩ := C95_complex_static_dynamic hf hg f g
  obtain rfl := ofFn_injective (Except.ok.inj (h.symm.trans h1))
  exact C96_complex_smatrix_finite _ _ _ h2 i j (hy.imp plusZero_finite.2 plusZero_finite.2) k

/-! ## What does disappear -/

/-- C96: an overflow inside a complex division is not visible in the result: if the sum of the squares of the parts of the
divisor overflows and the two sums in the numerators are finite, the quotient is a zero of some signs, whatever the
dividend. -/
theorem C96_division_hides (z w : Complex (Ieee F)) (h : (w.re.mul w.re).add (w.im.mul w.im) = .inf false)
    (h1 : ((z.re.mul w.re).add (z.im.mul w.im)).Finite) (h2 : ((z.im.mul w.re).sub (z.re.mul w.im)).Finite) :
    ∃ s t, z.div w = .ok ⟨.zero s, .zero t⟩ := by
  rw [ieee_cdiv]
  simp only [h]
  have : ∀ {a : Ieee F}, a.Finite → ∃ s, a.mul ((one : Ieee F).div (.inf false)) = .zero s := fun {a} ha => by
    cases a with
    | nan => exact ha.elim
    | inf => exact ha.elim
    | zero => exact ⟨_, rfl⟩
    | fin => exact ⟨_, rfl⟩
  obtain ⟨s, hs⟩ := this h1
  obtain ⟨t, ht⟩ := this h2
  exact ⟨s, t, by rw [hs, ht]⟩

end Magnesia
