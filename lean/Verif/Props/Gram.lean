import Verif.Proof.NonNeg
import Verif.Props.DynLinalg

/-!
# Property C75: inner products and Gram matrices in floating point arithmetic

Symmetry, conjugate symmetry, positivity and dominance, for every bit pattern. `Same` means equal, or both are zeros.
-/

namespace Magnesia

open RZero ROne MulRefs
open Ieee (Same Dom NonNeg)

variable {F : Fmt}

/-! ## Helper lemmas -/

/-- The complex product of the conjugate of `a` with `b`. -/
def cjMul (a b : Complex (Ieee F)) : Complex (Ieee F) :=
  ⟨(a.re.mul b.re).sub (a.im.neg.mul b.im), (a.re.mul b.im).add (a.im.neg.mul b.re)⟩

def cAdd (a b : Complex (Ieee F)) : Complex (Ieee F) := ⟨a.re.add b.re, a.im.add b.im⟩

theorem cjMul_swap (a b : Complex (Ieee F)) : (cjMul a b).re = (cjMul b a).re ∧ Same (cjMul a b).im (cjMul b a).im.neg := by
  refine ⟨?_, ?_⟩
  · show (a.re.mul b.re).sub (a.im.neg.mul b.im) = (b.re.mul a.re).sub (b.im.neg.mul a.im)
    rw [Ieee.neg_mul, Ieee.neg_mul, Ieee.mul_comm a.re, Ieee.mul_comm a.im]
  · show Same ((a.re.mul b.im).add (a.im.neg.mul b.re)) ((b.re.mul a.im).add (b.im.neg.mul a.re)).neg
    rw [Ieee.neg_mul, Ieee.neg_mul, Ieee.mul_comm b.re, Ieee.mul_comm b.im]
    have h := Ieee.neg_add (a.im.mul b.re) (a.re.mul b.im).neg
    rw [Ieee.neg_neg, Ieee.add_comm] at h
    exact h

theorem cjMul_self (a : Complex (Ieee F)) : (cjMul a a).re = (a.re.mul a.re).add (a.im.mul a.im) ∧
    (((a.re.mul a.im).Finite → (cjMul a a).im = .zero false) ∧ (¬ (a.re.mul a.im).Finite → (cjMul a a).im = .nan)) := by
  refine ⟨?_, ?_⟩
  · show (a.re.mul a.re).add (a.im.neg.mul a.im).neg = _
    rw [Ieee.neg_mul, Ieee.neg_neg]
  · have e : (cjMul a a).im = (a.re.mul a.im).add (a.re.mul a.im).neg := by
      show (a.re.mul a.im).add (a.im.neg.mul a.re) = _
      rw [Ieee.neg_mul, Ieee.mul_comm a.im]
    rw [e]
    exact Ieee.add_neg _

/-- Conjugate symmetry of a sum. -/
theorem swap_add {a b a' b' : Complex (Ieee F)} (h : a.re = a'.re ∧ Same a.im a'.im.neg)
    (h' : b.re = b'.re ∧ Same b.im b'.im.neg) : (cAdd a b).re = (cAdd a' b').re ∧ Same (cAdd a b).im (cAdd a' b').im.neg := by
  refine ⟨?_, ?_⟩
  · show a.re.add b.re = a'.re.add b'.re
    rw [h.1, h'.1]
  · exact (h.2.add h'.2).trans (Ieee.neg_add _ _)

theorem swap_foldl {α : Type} (f g : α → Complex (Ieee F)) : ∀ (l : List α) (s t : Complex (Ieee F)),
    (s.re = t.re ∧ Same s.im t.im.neg) →
    (l.foldl (fun s i => cAdd s (cjMul (f i) (g i))) s).re = (l.foldl (fun s i => cAdd s (cjMul (g i) (f i))) t).re ∧
    Same (l.foldl (fun s i => cAdd s (cjMul (f i) (g i))) s).im (l.foldl (fun s i => cAdd s (cjMul (g i) (f i))) t).im.neg
  | [], _, _, h => h
  | i :: l, _, _, h => swap_foldl f g l _ _ (swap_add h (cjMul_swap (f i) (g i)))

theorem inner_eq {n : ℕ} (f g : Fin n → Complex (Ieee F)) : (DVector.ofFn f).dot (DVector.ofFn g) =
    .ok ((List.finRange n).foldl (fun s i => cAdd s (cjMul (f i) (g i))) ⟨.zero false, .zero false⟩) := by
  show (List.zip (List.ofFn f) (List.ofFn g)).foldlM _ _ = _
  rw [List.ofFn_eq_map, List.ofFn_eq_map, List.zip_map', List.foldlM_map]
  generalize (List.finRange n) = l
  have : ∀ s : Complex (Ieee F), l.foldlM (fun acc i => do
      let prod ← RMul.mul (← RConj.conj (f i)) (g i)
      RAdd.add acc prod) s = (.ok (l.foldl (fun s i => cAdd s (cjMul (f i) (g i))) s) : Res _) := by
    induction l with
    | nil => intro s; rfl
    | cons i l ih => intro s; rw [List.foldlM_cons]; exact ih _
  exact this _

theorem re_foldl {α : Type} (f : α → Complex (Ieee F)) : ∀ (l : List α) (s : Complex (Ieee F)),
    (l.foldl (fun s i => cAdd s (cjMul (f i) (f i))) s).re =
      l.foldl (fun s i => s.add (((f i).re.mul (f i).re).add ((f i).im.mul (f i).im))) s.re
  | [], _ => rfl
  | i :: l, s => by
    refine (re_foldl f l _).trans ?_
    rw [List.foldl_cons]
    congr 1
    show s.re.add _ = _
    rw [(cjMul_self (f i)).1]

theorem im_foldl {α : Type} (f : α → Complex (Ieee F)) : ∀ (l : List α) (s : Complex (Ieee F)), s.im = .zero false →
    (∀ i ∈ l, ((f i).re.mul (f i).im).Finite) →
    (l.foldl (fun s i => cAdd s (cjMul (f i) (f i))) s).im = .zero false
  | [], _, h, _ => h
  | i :: l, s, h, hl => by
    refine im_foldl f l _ ?_ fun j hj => hl j (List.mem_cons_of_mem i hj)
    show s.im.add _ = _
    rw [h, (cjMul_self (f i)).2.1 (hl i (by simp))]; rfl

theorem im_foldl_nan {α : Type} (f : α → Complex (Ieee F)) : ∀ (l : List α) (s : Complex (Ieee F)),
    (s.im = .nan ∨ ∃ i ∈ l, ¬ ((f i).re.mul (f i).im).Finite) →
    (l.foldl (fun s i => cAdd s (cjMul (f i) (f i))) s).im = .nan
  | [], _, h => by
    rcases h with h | ⟨i, hi, _⟩
    · exact h
    · cases hi
  | i :: l, s, h => by
    refine im_foldl_nan f l _ ?_
    rcases h with h | ⟨j, hj, hf⟩
    · left
      show s.im.add _ = _
      rw [h, Ieee.nan_add]
    · rcases List.mem_cons.1 hj with rfl | hj
      · left
        show s.im.add _ = _
        rw [(cjMul_self (f j)).2.2 hf, Ieee.add_nan]
      · exact .inr ⟨j, hj, hf⟩

/-! ## Inner products -/

/-- C75: `u * v` and `v * u` are conjugates of each other: the real parts are the same bits, the imaginary parts are
opposite up to signs of zeros. -/
theorem C75_inner_conj {n : ℕ} (u v : Fin n → Complex (Ieee F)) :
    ∃ x y, (DVector.ofFn u).dot (DVector.ofFn v) = .ok x ∧ (DVector.ofFn v).dot (DVector.ofFn u) = .ok y ∧
      x.re = y.re ∧ Same x.im y.im.neg :=
  ⟨_, _, inner_eq u v, inner_eq v u, swap_foldl u v _ _ _ ⟨rfl, .inr ⟨false, true, rfl, rfl⟩⟩⟩

/-- C75: the real part of `u * u` is the sum of the squared absolute values from left to right, bit for bit; the imaginary
part is `+0`, except that it is NaN if for some entry the product of real and imaginary part is not finite. -/
theorem C75_inner_self {n : ℕ} (u : Fin n → Complex (Ieee F)) :
    ∃ x, (DVector.ofFn u).dot (DVector.ofFn u) = .ok x ∧
      (List.finRange n).foldlM (fun s i => do ringAdd s (← (u i).sqrNorm)) (zero : Ieee F) = .ok x.re ∧
      x.im = (if ∀ i, ((u i).re.mul (u i).im).Finite then .zero false else .nan) := by
  refine ⟨_, inner_eq u u, ?_, ?_⟩
  · rw [re_foldl]
    generalize (List.finRange n) = l
    have : ∀ s : Ieee F, l.foldlM (fun s i => do ringAdd s (← (u i).sqrNorm)) s =
        (.ok (l.foldl (fun s i => s.add (((u i).re.mul (u i).re).add ((u i).im.mul (u i).im))) s) : Res _) := by
      induction l with
      | nil => intro s; rfl
      | cons i l ih => intro s; rw [List.foldlM_cons]; exact ih _
    exact this _
  · split_ifs with h
    · exact im_foldl u _ _ rfl fun i _ => h i
    · obtain ⟨i, hi⟩ := not_forall.1 h
      exact im_foldl_nan u _ _ (.inr ⟨i, List.mem_finRange i, hi⟩)

/-- C75: the real part of `u * u` is not negative and at least the squared absolute value of every entry, as computed; it is
zero exactly if all of these are (for vectors without NaN; they may underflow to zero). -/
theorem C75_inner_positive {n : ℕ} (u : Fin n → Complex (Ieee F)) (hu : ∀ i, (u i).re ≠ .nan ∧ (u i).im ≠ .nan) :
    ∃ x, (DVector.ofFn u).dot (DVector.ofFn u) = .ok x ∧
      RPartialOrd.le (zero : Ieee F) x.re = true ∧
      (∀ i, ∃ s, (u i).sqrNorm = .ok s ∧ RPartialOrd.le s x.re = true) ∧
      (RPartialEq.eq x.re (zero : Ieee F) = true ↔ ∀ i, ∃ s, (u i).sqrNorm = .ok s ∧ RPartialEq.eq s (zero : Ieee F) = true) := by
  have hs : ∀ i, (((u i).re.mul (u i).re).add ((u i).im.mul (u i).im)).NonNeg := fun i =>
    Ieee.add_nonNeg (Ieee.sq_nonNeg (hu i).1) (Ieee.sq_nonNeg (hu i).2)
  have h0 : (Ieee.zero false : Ieee F).NonNeg := Ieee.nonNeg_zero false
  refine ⟨_, inner_eq u u, ?_, fun i => ⟨_, rfl, ?_⟩, ?_⟩
  · rw [re_foldl]
    exact Ieee.nonneg_iff.2 (start_foldl _ (List.finRange n) _ h0 fun i _ => hs i).2.1
  · rw [re_foldl]
    exact (term_foldl _ (List.finRange n) _ h0 (fun i _ => hs i) i (List.mem_finRange i)).2.2
  · rw [re_foldl]
    have zz : ∀ {a : Ieee F}, a.feq (.zero false) = true ↔ ∃ s, a = .zero s := by
      intro a
      rcases a with _ | s | s | ⟨x, hx, _⟩
      · simp [Ieee.feq, Ieee.key]
      · cases s <;> simp [Ieee.feq, Ieee.key]
      · simp [Ieee.feq, Ieee.key]
      · simp [Ieee.feq, Ieee.key, hx]
    have le0 : ∀ {a : Ieee F} {s : Bool}, Dom a (.zero s) → ∃ t, a = .zero t := by
      rintro a s ⟨h1, h2, h3⟩
      rcases (Ieee.fle_nonneg h1 h2).1 h3 with h | ⟨f1, _, h⟩
      · cases h
      · have : 0 ≤ a.value := (h1.resolve_left (by rintro rfl; exact f1)).2
        have h : a.value ≤ 0 := h
        rcases a with _ | t | t | ⟨x, hx, _⟩
        · exact f1.elim
        · exact f1.elim
        · exact ⟨t, rfl⟩
        · exact (hx (le_antisymm h this)).elim
    constructor
    · intro h i
      obtain ⟨s, hs'⟩ := zz.1 h
      refine ⟨_, rfl, zz.2 ?_⟩
      have := term_foldl _ (List.finRange n) _ h0 (fun i _ => hs i) i (List.mem_finRange i)
      rw [hs'] at this
      exact le0 this
    · intro h
      refine zz.2 ?_
      have hz : ∀ i, ∃ t, ((u i).re.mul (u i).re).add ((u i).im.mul (u i).im) = .zero t := by
        intro i
        obtain ⟨s, e, hs⟩ := h i
        cases e
        exact zz.1 hs
      generalize List.finRange n = l
      have : ∀ (s : Ieee F), (∃ t, s = .zero t) →
          ∃ t, l.foldl (fun s i => s.add (((u i).re.mul (u i).re).add ((u i).im.mul (u i).im))) s = .zero t := by
        induction l with
        | nil => intro s h; exact h
        | cons i l ih =>
          rintro s ⟨t, rfl⟩
          obtain ⟨t', e⟩ := hz i
          rw [List.foldl_cons]
          refine ih _ ?_
          rw [e]
          exact ⟨_, rfl⟩
      exact this _ ⟨false, rfl⟩

/-! ## Gram matrices -/

/-- The sum that starts with the first term: relations that are compatible with `+` carry over from the terms. -/
theorem rel_sumTerms {T : Type} [RAddAssign T T] {R : T → T → Prop} (add : T → T → T)
    (hadd : ∀ a b : T, (RAddAssign.addAssign a b).toRes = .ok (add a b))
    (hR : ∀ a a' b b', R a a' → R b b' → R (add a b) (add a' b')) {t t' : ℕ → Res T} {a a' : ℕ → T} : ∀ {n : ℕ},
    (∀ k < n + 1, t k = .ok (a k) ∧ t' k = .ok (a' k) ∧ R (a k) (a' k)) →
    ∃ x x', Tree.sumTerms t (n + 1) = .ok x ∧ Tree.sumTerms t' (n + 1) = .ok x' ∧ R x x' := by
  intro n
  induction n with
  | zero =>
    intro h
    exact ⟨_, _, (h 0 (by omega)).1, (h 0 (by omega)).2.1, (h 0 (by omega)).2.2⟩
  | succ n ih =>
    intro h
    obtain ⟨s, s', e1, e2, hs⟩ := ih fun k hk => h k (by omega)
    obtain ⟨f1, f2, hk⟩ := h (n + 1) (by omega)
    refine ⟨add s (a (n + 1)), add s' (a' (n + 1)), ?_, ?_, hR _ _ _ _ hs hk⟩
    · show (do
        let s ← Tree.sumTerms t (n + 1)
        let y ← t (n + 1)
        (RAddAssign.addAssign s y).toRes) = _
      rw [e1, f1]; exact hadd _ _
    · show (do
        let s ← Tree.sumTerms t' (n + 1)
        let y ← t' (n + 1)
        (RAddAssign.addAssign s y).toRes) = _
      rw [e2, f2]; exact hadd _ _

/-- Every term of a sum of numbers that are not negative is at most the sum. -/
theorem term_sumTerms {t : ℕ → Res (Ieee F)} {a : ℕ → Ieee F} : ∀ {n : ℕ} {x : Ieee F},
    (∀ k < n + 1, t k = .ok (a k) ∧ (a k).NonNeg) → Tree.sumTerms t (n + 1) = .ok x → ∀ k < n + 1, Dom (a k) x := by
  intro n
  induction n with
  | zero =>
    intro x h hx k hk
    obtain rfl : k = 0 := by omega
    have : t 0 = .ok x := hx
    rw [(h 0 hk).1] at this
    cases this
    exact (h 0 hk).2.dom
  | succ n ih =>
    intro x h hx k hk
    obtain ⟨s, e1, hx'⟩ := bind_ok (show (do
      let s ← Tree.sumTerms t (n + 1)
      let y ← t (n + 1)
      (RAddAssign.addAssign s y).toRes) = .ok x from hx)
    rw [(h (n + 1) (by omega)).1] at hx'
    obtain rfl : s.add (a (n + 1)) = x := Except.ok.inj hx'
    have hn := (h (n + 1) (by omega)).2
    have hs : s.NonNeg := (ih (fun k hk => h k (by omega)) e1 0 (by omega)).2.1
    rcases Nat.lt_succ_iff_lt_or_eq.1 hk with hk | rfl
    · exact (ih (fun k hk => h k (by omega)) e1 k hk).trans (Ieee.dom_add hs hn)
    · exact Ieee.dom_add' hs hn

/-- C75: `a.t() * a` is symmetric, bit for bit (up to NaN payloads). If `a` contains no NaN, a diagonal entry is not negative
and at least the square of every entry of its column, as computed. -/
theorem C75_gram {p : Profile} {m n : ℕ} (hp : p.Fits (m + 1) n) (hq : p.Fits n (m + 1)) (f : Fin (m + 1) → Fin n → Ieee F) :
    ∃ y : Fin n → Fin n → Ieee F,
      (do
        let at' ← ((DMatrix.ofFn f).t p).eval
        (← at'.mul p (DMatrix.ofFn f)).eval) = .ok (DMatrix.ofFn y) ∧
      (∀ i j, y i j = y j i) ∧
      ((∀ k i, f k i ≠ .nan) → ∀ i, RPartialOrd.le (zero : Ieee F) (y i i) = true ∧
        ∀ k, RPartialOrd.le ((f k i).mul (f k i)) (y i i) = true) := by
  have key : ∀ i j, ∃ x x', Tree.sumTerms (prodTerms (fun i k => f k i) f i j) (m + 1) = .ok x ∧
      Tree.sumTerms (prodTerms (fun i k => f k i) f j i) (m + 1) = .ok x' ∧ x = x' := by
    intro i j
    refine rel_sumTerms (R := Eq) Ieee.add (fun _ _ => rfl) (by rintro a _ b _ rfl rfl; rfl)
      (a := fun k => if h : k < m + 1 then (f ⟨k, h⟩ i).mul (f ⟨k, h⟩ j) else zero)
      (a' := fun k => if h : k < m + 1 then (f ⟨k, h⟩ j).mul (f ⟨k, h⟩ i) else zero) fun k hk => ?_
    simp only [prodTerms, dif_pos hk]
    exact ⟨rfl, rfl, Ieee.mul_comm _ _⟩
  choose y y' h1 h2 h3 using key
  refine ⟨y, ?_, fun i j => ?_, fun hn i => ?_⟩
  · rw [C31_transpose hp]
    exact (mul_eval_iff hq hp (fun i k => f k i) f _).2 ⟨y, h1, rfl⟩
  · have := h2 i j
    rw [h1 j i, ← h3 i j] at this
    exact (Except.ok.inj this).symm
  · have ht := term_sumTerms (a := fun k => if h : k < m + 1 then (f ⟨k, h⟩ i).mul (f ⟨k, h⟩ i) else zero)
      (fun k hk => by
        simp only [prodTerms, dif_pos hk]
        exact ⟨rfl, Ieee.sq_nonNeg (hn _ _)⟩) (h1 i i)
    refine ⟨Ieee.nonneg_iff.2 (ht 0 (by omega)).2.1, fun k => ?_⟩
    have := ht k k.2
    simp only [dif_pos k.2] at this
    exact this.2.2

/-- C75: `a.h() * a` is Hermitian up to signs of zeros, and its real part is symmetric bit for bit. If `a` contains no NaN, the
real part of a diagonal entry is not negative and at least the squared absolute value of every entry of its column, as
computed; the imaginary part of a diagonal entry is `+0`, except that it is NaN if for some entry of the column the product of
real and imaginary part is not finite. -/
theorem C75_gram_complex {p : Profile} {m n : ℕ} (hp : p.Fits (m + 1) n) (hq : p.Fits n (m + 1))
    (f : Fin (m + 1) → Fin n → Complex (Ieee F)) :
    ∃ y : Fin n → Fin n → Complex (Ieee F),
      (do
        let ah ← ((DMatrix.ofFn f).h p).eval
        (← ah.mul p (DMatrix.ofFn f)).eval) = .ok (DMatrix.ofFn y) ∧
      (∀ i j, (y i j).re = (y j i).re ∧ Same (y i j).im (y j i).im.neg) ∧
      (∀ i, (y i i).im = if ∀ k, ((f k i).re.mul (f k i).im).Finite then .zero false else .nan) ∧
      ((∀ k i, (f k i).re ≠ .nan ∧ (f k i).im ≠ .nan) → ∀ i, RPartialOrd.le (zero : Ieee F) (y i i).re = true ∧
        ∀ k, ∃ s, (f k i).sqrNorm = .ok s ∧ RPartialOrd.le s (y i i).re = true) := by
  let cj : Fin n → Fin (m + 1) → Complex (Ieee F) := fun i k => ⟨(f k i).re, (f k i).im.neg⟩
  let tm : Fin n → Fin n → ℕ → Complex (Ieee F) := fun i j k =>
    if h : k < m + 1 then cjMul (f ⟨k, h⟩ i) (f ⟨k, h⟩ j) else zero
  have ht : ∀ i j, ∀ k < m + 1, prodTerms cj f i j k = .ok (tm i j k) := by
    intro i j k hk
    simp only [prodTerms, tm, dif_pos hk]
    rfl
  have key : ∀ i j, ∃ x x', Tree.sumTerms (prodTerms cj f i j) (m + 1) = .ok x ∧
      Tree.sumTerms (prodTerms cj f j i) (m + 1) = .ok x' ∧ (x.re = x'.re ∧ Same x.im x'.im.neg) := by
    intro i j
    refine rel_sumTerms (R := fun x x' => x.re = x'.re ∧ Same x.im x'.im.neg) cAdd (fun _ _ => rfl)
      (fun _ _ _ _ h h' => swap_add h h') (a := tm i j) (a' := tm j i) fun k hk => ⟨ht i j k hk, ht j i k hk, ?_⟩
    simp only [tm, dif_pos hk]
    exact cjMul_swap _ _
  choose y y' h1 h2 h3 using key
  have hre : ∀ i, ∀ n x, Tree.sumTerms (prodTerms cj f i i) (n + 1) = .ok x → n < m + 1 →
      Tree.sumTerms (fun k => (.ok (tm i i k).re : Res (Ieee F))) (n + 1) = .ok x.re ∧
      (x.im = if ∀ k (h : k < m + 1), k < n + 1 → ((f ⟨k, h⟩ i).re.mul (f ⟨k, h⟩ i).im).Finite then .zero false else .nan) := by
    intro i n
    have hz : ∀ k (hk : k < m + 1), (tm i i k).im = if ((f ⟨k, hk⟩ i).re.mul (f ⟨k, hk⟩ i).im).Finite then .zero false else .nan := by
      intro k hk
      simp only [tm, dif_pos hk]
      split_ifs with h
      · exact (cjMul_self _).2.1 h
      · exact (cjMul_self _).2.2 h
    induction n with
    | zero =>
      intro x hx hm
      have hx' : prodTerms cj f i i 0 = .ok x := hx
      rw [ht i i 0 hm] at hx'
      cases hx'
      refine ⟨rfl, ?_⟩
      rw [hz 0 hm]
      congr 1
      refine propext ⟨fun h k hk hk' => ?_, fun h => h 0 hm (by omega)⟩
      obtain rfl : k = 0 := by omega
      exact h
    | succ n ih =>
      intro x hx hm
      obtain ⟨s, e1, hx'⟩ := bind_ok (show (do
        let s ← Tree.sumTerms (prodTerms cj f i i) (n + 1)
        let y ← prodTerms cj f i i (n + 1)
        (RAddAssign.addAssign s y).toRes) = .ok x from hx)
      rw [ht i i _ hm] at hx'
      obtain rfl : cAdd s (tm i i (n + 1)) = x := Except.ok.inj hx'
      obtain ⟨j1, j2⟩ := ih s e1 (by omega)
      refine ⟨?_, ?_⟩
      · show (do
          let s ← Tree.sumTerms (fun k => (.ok (tm i i k).re : Res (Ieee F))) (n + 1)
          let y ← (.ok (tm i i (n + 1)).re : Res (Ieee F))
          (RAddAssign.addAssign s y).toRes) = _
        rw [j1]; rfl
      · show s.im.add (tm i i (n + 1)).im = _
        rw [j2, hz (n + 1) hm]
        by_cases c1 : ∀ k (h : k < m + 1), k < n + 1 → ((f ⟨k, h⟩ i).re.mul (f ⟨k, h⟩ i).im).Finite
        · rw [if_pos c1]
          by_cases c2 : ((f ⟨n + 1, hm⟩ i).re.mul (f ⟨n + 1, hm⟩ i).im).Finite
          · rw [if_pos c2, if_pos]
            · rfl
            · intro k hk hk'
              rcases Nat.lt_succ_iff_lt_or_eq.1 hk' with hk' | rfl
              · exact c1 k hk hk'
              · exact c2
          · rw [if_neg c2, if_neg (fun h => c2 (h _ hm (by omega))), Ieee.add_nan]
        · rw [if_neg c1, Ieee.nan_add, if_neg (fun h => c1 fun k hk hk' => h k hk (by omega))]
  refine ⟨y, ?_, fun i j => ?_, fun i => ?_, fun hn i => ?_⟩
  · rw [(C31_hermitian hp f _).2 ⟨cj, fun _ _ => rfl, rfl⟩]
    exact (mul_eval_iff hq hp cj f _).2 ⟨y, h1, rfl⟩
  · have := h2 i j
    rw [h1 j i] at this
    obtain e := Except.ok.inj this
    rw [e]
    exact h3 i j
  · rw [(hre i m _ (h1 i i) (by omega)).2]
    congr 1
    exact propext ⟨fun h k => h k k.2 k.2, fun h k hk _ => h ⟨k, hk⟩⟩
  · have hs : ∀ k (hk : k < m + 1), (tm i i k).re = ((f ⟨k, hk⟩ i).re.mul (f ⟨k, hk⟩ i).re).add ((f ⟨k, hk⟩ i).im.mul (f ⟨k, hk⟩ i).im) := by
      intro k hk
      simp only [tm, dif_pos hk]
      exact (cjMul_self _).1
    have ht := term_sumTerms (a := fun k => (tm i i k).re) (fun k hk => ⟨rfl, by
      rw [hs k hk]
      exact Ieee.add_nonNeg (Ieee.sq_nonNeg (hn _ _).1) (Ieee.sq_nonNeg (hn _ _).2)⟩) (hre i m _ (h1 i i) (by omega)).1
    refine ⟨Ieee.nonneg_iff.2 (ht 0 (by omega)).2.1, fun k => ⟨_, rfl, ?_⟩⟩
    have := ht k k.2
    rw [hs k k.2] at this
    exact this.2.2

end Magnesia
