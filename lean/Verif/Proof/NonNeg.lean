import Verif.Props.IeeeSqrt
import Verif.Props.IeeeLaws
import Verif.Props.PForm

/-!
# Sums and products of numbers that are not negative are monotone (helper lemmas)
-/

namespace Magnesia

open RZero ROne MulRefs

variable {F : Fmt}

namespace Ieee

/-- Both are non-negative (possibly infinite) and in order. -/
def Dom (a b : Ieee F) : Prop := a.NonNeg ∧ b.NonNeg ∧ fle a b = true

/-- Finite, non-negative and in order. -/
def Below (a b : Ieee F) : Prop := a.Finite ∧ b.Finite ∧ 0 ≤ a.value ∧ a.value ≤ b.value

theorem Below.dom {a b : Ieee F} (h : Below a b) : Dom a b :=
  ⟨.inr ⟨h.1, h.2.2.1⟩, .inr ⟨h.2.1, h.2.2.1.trans h.2.2.2⟩, (fle_value h.1 h.2.1).2 h.2.2.2⟩

theorem Below.refl {a : Ieee F} (h : a.Finite) (h0 : 0 ≤ a.value) : Below a a := ⟨h, h, h0, le_rfl⟩

theorem NonNeg.dom {a : Ieee F} (h : a.NonNeg) : Dom a a := by
  refine ⟨h, h, (fle_nonneg h h).2 ?_⟩
  rcases h with h | h
  · exact .inl h
  · exact .inr ⟨h.1, h.1, le_rfl⟩

theorem Dom.trans {a b c : Ieee F} (h : Dom a b) (h' : Dom b c) : Dom a c := by
  refine ⟨h.1, h'.2.1, ?_⟩
  have h1 := (fle_nonneg h.1 h.2.1).1 h.2.2
  have h2 := (fle_nonneg h'.1 h'.2.1).1 h'.2.2
  rw [fle_nonneg h.1 h'.2.1]
  rcases h2 with h2 | ⟨f2, f3, h2⟩
  · exact .inl h2
  · rcases h1 with rfl | ⟨f1, _, h1⟩
    · exact f2.elim
    · exact .inr ⟨f1, f3, h1.trans h2⟩

theorem Dom.add {a b a' b' : Ieee F} (h : Dom a a') (h' : Dom b b') : Dom (a.add b) (a'.add b') :=
  ⟨add_nonNeg h.1 h'.1, add_nonNeg h.2.1 h'.2.1, add_mono h.1 h'.1 h.2.1 h'.2.1 h.2.2 h'.2.2⟩

theorem nonNeg_zero (s : Bool) : (Ieee.zero s : Ieee F).NonNeg := .inr ⟨trivial, le_rfl⟩

theorem zero_dom {a : Ieee F} (h : a.NonNeg) (s : Bool) : Dom (Ieee.zero s) a := by
  refine ⟨nonNeg_zero s, h, (fle_nonneg (nonNeg_zero s) h).2 ?_⟩
  rcases h with h | h
  · exact .inl h
  · exact .inr ⟨trivial, h.1, h.2⟩

/-- Adding a number that is not negative. -/
theorem dom_add {a b : Ieee F} (ha : a.NonNeg) (hb : b.NonNeg) : Dom a (a.add b) := by
  have h := ha.dom.add (zero_dom hb true)
  have : a.add (Ieee.zero true) = a := by
    cases a with
    | nan => rfl
    | inf => rfl
    | zero s => cases s <;> rfl
    | fin => rfl
  rwa [this] at h

theorem dom_add' {a b : Ieee F} (ha : a.NonNeg) (hb : b.NonNeg) : Dom b (a.add b) := by
  rw [Ieee.add_comm]; exact dom_add hb ha

theorem inf_mul_pos {b : Ieee F} (hb : 0 < b.value) : (inf false : Ieee F).mul b = inf false := by
  cases b with
  | nan => exact (lt_irrefl _ hb).elim
  | inf => exact (lt_irrefl _ hb).elim
  | zero => exact (lt_irrefl _ hb).elim
  | fin x h0 hr => show Ieee.inf (xor false (decide (x < 0))) = _; rw [decide_eq_false (show ¬ x < 0 from not_lt.2 (le_of_lt hb))]; rfl

theorem mul_nonNeg {a b : Ieee F} (ha : a.NonNeg) (hb : b.Finite) (hb0 : 0 ≤ b.value) (h : b.value = 0 → a.Finite) :
    (a.mul b).NonNeg := by
  rcases ha with rfl | ⟨ha, ha0⟩
  · rw [inf_mul_pos (lt_of_le_of_ne hb0 fun e => h e.symm)]; exact .inl rfl
  · by_cases h0 : a.value = 0 ∨ b.value = 0
    · obtain ⟨h1, h2⟩ := mul_zero_value ha hb h0
      exact .inr ⟨h1, h2.ge⟩
    · obtain ⟨h1, h2⟩ := not_or.1 h0
      rw [mul_fin h1 h2]
      exact round_nonneg (mul_nonneg ha0 hb0)

theorem Dom.mul {a b a' b' : Ieee F} (h : Dom a a') (hb : Below b b') (h0 : b.value = 0 → a.Finite)
    (h0' : b'.value = 0 → a'.Finite) : Dom (a.mul b) (a'.mul b') := by
  obtain ⟨f1, f2, p1, p2⟩ := hb
  have n1 := mul_nonNeg h.1 f1 p1 h0
  have n2 := mul_nonNeg h.2.1 f2 (p1.trans p2) h0'
  refine ⟨n1, n2, (fle_nonneg n1 n2).2 ?_⟩
  rcases (fle_nonneg h.1 h.2.1).1 h.2.2 with e | ⟨g1, g2, g3⟩
  · subst e
    exact .inl (inf_mul_pos (lt_of_le_of_ne (p1.trans p2) fun e => h0' e.symm))
  · have q1 : 0 ≤ a.value := (h.1.resolve_left (by rintro rfl; exact g1)).2
    have q : a.value * b.value ≤ a'.value * b'.value := mul_le_mul g3 p2 p1 (q1.trans g3)
    by_cases hf : (a'.mul b').Finite
    · right
      have hfa : (a.mul b).Finite := by
        rw [mul_finite_iff g2 f2, abs_of_nonneg (F.roundQ_nonneg (mul_nonneg (q1.trans g3) (p1.trans p2)))] at hf
        rw [mul_finite_iff g1 f1, abs_of_nonneg (F.roundQ_nonneg (mul_nonneg q1 p1))]
        exact (F.roundQ_mono q).trans_lt hf
      refine ⟨hfa, hf, ?_⟩
      rw [(mul_finite hfa).2.2, (mul_finite hf).2.2]
      exact F.roundQ_mono q
    · exact .inl (n2.inf_or hf)

/-- Products of finite numbers. -/
theorem Below.mul {a b a' b' : Ieee F} (h : Below a a') (hb : Below b b') : Dom (a.mul b) (a'.mul b') :=
  h.dom.mul hb (fun _ => h.1) fun _ => h.2.1

/-! ## Sums and differences, all signs -/

theorem fle_round {x y : ℚ} (h : x ≤ y) : fle (round x : Ieee F) (round y) = true := by
  have hm := F.roundQ_mono h
  rcases le_total 0 x with hx | hx
  · exact round_le_round hx h
  rcases lt_or_ge 0 y with hy | hy
  · have h1 : fle (round x : Ieee F) (zero false) = true := by
      have := F.roundQ_mono hx
      rw [F.roundQ_zero] at this
      unfold round
      split_ifs with h0 h2
      · simp [fle, key]
      · simpa [fle, key] using this
      · rw [decide_eq_true (lt_of_le_of_ne hx fun e => h0 (by rw [e, F.roundQ_zero]))]
        simp [fle, key]
    have h2 : fle (zero false : Ieee F) (round y) = true := nonneg_iff.2 (round_nonneg hy.le)
    revert h1 h2
    generalize (round x : Ieee F) = a
    generalize (round y : Ieee F) = b
    intro h1 h2
    rcases a with _ | s | s | ⟨a, _, _⟩ <;> rcases b with _ | t | t | ⟨b, _, _⟩ <;>
      (try cases s) <;> (try cases t) <;> simp_all [fle, key]; linarith
  · have h1 := round_le_round (F := F) (neg_nonneg.2 hy) (neg_le_neg h)
    have e : ∀ z : ℚ, z ≤ 0 → (round (-z) : Ieee F).key = (round z : Ieee F).neg.key := by
      intro z hz
      have hn := F.roundQ_neg z
      by_cases h0 : F.roundQ z = 0
      · have h0' : F.roundQ (-z) = 0 := by rw [hn, h0, _root_.neg_zero]
        unfold round
        rw [dif_pos h0, dif_pos h0']; rfl
      · have hz' : z < 0 := lt_of_le_of_ne hz fun e => h0 (by rw [e, F.roundQ_zero])
        have h0' : ¬ F.roundQ (-z) = 0 := by rw [hn]; simpa using h0
        unfold round
        rw [dif_neg h0, dif_neg h0']
        by_cases hb : |F.roundQ z| < 2 ^ (F.emax + 1)
        · rw [dif_pos hb, dif_pos (by rwa [hn, abs_neg])]
          show some ((0 : ℤ), F.roundQ (-z)) = some (0, - F.roundQ z)
          rw [hn]
        · rw [dif_neg hb, dif_neg (by rwa [hn, abs_neg]), decide_eq_true hz', decide_eq_false (by linarith)]; rfl
    have h2 : fle (round y : Ieee F).neg (round x : Ieee F).neg = true := by
      unfold fle at h1 ⊢
      rwa [← e y hy, ← e x hx]
    revert h2
    generalize (round x : Ieee F) = a
    generalize (round y : Ieee F) = b
    intro h2
    rcases a with _ | s | s | ⟨a, _, _⟩ <;> rcases b with _ | t | t | ⟨b, _, _⟩ <;>
      (try cases s) <;> (try cases t) <;> simp_all [fle, key, neg]

theorem add_key {a b : Ieee F} (ha : a.Finite) (hb : b.Finite) :
    (a.add b).key = (round (a.value + b.value) : Ieee F).key := by
  by_cases h : a.value + b.value = 0
  · obtain ⟨h1, h2⟩ := add_zero_value ha hb h
    rw [h]
    have e : (round 0 : Ieee F) = zero false := by unfold round; simp [F.roundQ_zero]
    rw [e]
    revert h1 h2
    generalize a.add b = c
    intro h1 h2
    cases c with
    | nan => exact h1.elim
    | inf => exact h1.elim
    | zero => rfl
    | fin x h0 hr => exact (h0 h2).elim
  · rw [add_fin ha hb h]

/-- Sums are monotone unless NaN. -/
theorem add_le_add_all {a b a' b' : Ieee F} (h1 : fle a a' = true) (h2 : fle b b' = true) (n1 : a.add b ≠ nan)
    (n2 : a'.add b' ≠ nan) : fle (a.add b) (a'.add b') = true := by
  have lo : ∀ {c : Ieee F}, c ≠ nan → fle (inf true) c = true := by
    intro c h
    rcases c with _ | s | s | _ <;> (try cases s) <;> simp_all [fle, key]
  have hi : ∀ {c : Ieee F}, c ≠ nan → fle c (inf false) = true := by
    intro c h
    rcases c with _ | s | s | _ <;> (try cases s) <;> simp_all [fle, key]
  by_cases ha : a.Finite ∧ a'.Finite
  · by_cases hb : b.Finite ∧ b'.Finite
    · unfold fle
      rw [add_key ha.1 hb.1, add_key ha.2 hb.2]
      exact fle_round (add_le_add ((fle_value ha.1 ha.2).1 h1) ((fle_value hb.1 hb.2).1 h2))
    · obtain ⟨ha, ha'⟩ := ha
      rcases b with _ | s | s | ⟨b, _, _⟩ <;> rcases b' with _ | t | t | ⟨b', _, _⟩ <;>
        first
        | (exfalso; exact hb ⟨trivial, trivial⟩)
        | (exfalso; revert h2; simp [fle, key]; done)
        | skip
      all_goals (try cases s) <;> (try cases t) <;> first
        | (exfalso; revert h2; simp [fle, key]; done)
        | (cases a <;> cases a' <;> first | exact ha.elim | exact ha'.elim | (simp [add, fle, key]; done) | exact lo n2 | exact hi n1)
  · rcases a with _ | s | s | ⟨a, _, _⟩ <;> rcases a' with _ | t | t | ⟨a', _, _⟩ <;>
        first
        | (exfalso; exact ha ⟨trivial, trivial⟩)
        | (exfalso; revert h1; simp [fle, key]; done)
        | skip
    all_goals (try cases s) <;> (try cases t) <;> first
        | (exfalso; revert h1; simp [fle, key]; done)
        | skip
    all_goals (rcases b with _ | s | s | ⟨b, _, _⟩ <;> rcases b' with _ | t | t | ⟨b', _, _⟩ <;> first
        | (exfalso; revert h2; simp [fle, key]; done)
        | skip)
    all_goals (try cases s) <;> (try cases t) <;> first
        | (exfalso; revert h2; simp [fle, key]; done)
        | (exfalso; exact n1 rfl)
        | (exfalso; exact n2 rfl)
        | exact lo n2
        | exact hi n1

end Ieee

open Ieee

/-! ## Loops -/

/-- Left to right sums of terms in order. -/
theorem dom_foldl {α : Type} (f g : α → Ieee F) : ∀ (l : List α) (s t : Ieee F), Dom s t → (∀ i ∈ l, Dom (f i) (g i)) →
    Dom (l.foldl (fun s i => s.add (f i)) s) (l.foldl (fun s i => s.add (g i)) t)
  | [], _, _, h, _ => h
  | i :: l, _, _, h, hl => dom_foldl f g l _ _ (h.add (hl i (by simp))) fun j hj => hl j (List.mem_cons_of_mem i hj)

/-- A sum of terms that are not negative is at least what it starts with. -/
theorem start_foldl {α : Type} (f : α → Ieee F) : ∀ (l : List α) (s : Ieee F), s.NonNeg → (∀ i ∈ l, (f i).NonNeg) →
    Dom s (l.foldl (fun s i => s.add (f i)) s)
  | [], _, h, _ => h.dom
  | i :: l, _, h, hl => (dom_add h (hl i (by simp))).trans
      (start_foldl f l _ (add_nonNeg h (hl i (by simp))) fun j hj => hl j (List.mem_cons_of_mem i hj))

/-- A sum of terms that are not negative is at least every term. -/
theorem term_foldl {α : Type} (f : α → Ieee F) : ∀ (l : List α) (s : Ieee F), s.NonNeg → (∀ i ∈ l, (f i).NonNeg) →
    ∀ i ∈ l, Dom (f i) (l.foldl (fun s i => s.add (f i)) s)
  | j :: l, s, h, hl, i, hi => by
    have hj := hl j (by simp)
    have hl' : ∀ i ∈ l, (f i).NonNeg := fun i hi => hl i (List.mem_cons_of_mem j hi)
    rcases List.mem_cons.1 hi with rfl | hi
    · exact (dom_add' h hj).trans (start_foldl f l _ (add_nonNeg h hj) hl')
    · exact term_foldl f l _ (add_nonNeg h hj) hl' i hi

/-- Horner's scheme without the wrapper. -/
def horner (x : Ieee F) (l : List (Ieee F)) : Ieee F := l.foldr (fun a y => (y.mul x).add a) (Ieee.zero false)

theorem eval_eq_horner (a : List (Ieee F)) (x : Ieee F) : (Poly.fromCoefficients a).eval x = .ok (horner x a) := by
  have : ∀ a : List (Ieee F), a.foldrM (fun a y => do
      let y ← (Except.ok (y.mul x) : Res (Ieee F))
      Except.ok (y.add a)) (Ieee.zero false) = .ok (horner x a) := by
    intro a
    induction a with
    | nil => rfl
    | cons a l ih => rw [List.foldrM_cons, ih]; rfl
  rw [← this, ← List.foldlM_reverse]; rfl

theorem mul_add_finite {y x a : Ieee F} (hy : y.Finite) (hx : x.Finite) (h : x.value = 0) (ha : a.Finite) :
    ((y.mul x).add a).Finite := by
  obtain ⟨h1, h2⟩ := mul_zero_value hy hx (.inr h)
  rw [add_finite_iff h1 ha, h2, _root_.zero_add, F.roundQ_representable a.value_representable]
  exact a.value_representable.2

/-- Horner's scheme is monotone. -/
theorem dom_horner {x x' : Ieee F} (hx : Below x x') {l l' : List (Ieee F)} (h : List.Forall₂ Below l l') :
    ∀ s s' : Ieee F, Dom s s' → (x.value = 0 → s.Finite) → (x'.value = 0 → s'.Finite) →
    Dom (l.foldr (fun a y => (y.mul x).add a) s) (l'.foldr (fun a y => (y.mul x').add a) s') ∧
    (x.value = 0 → (l.foldr (fun a y => (y.mul x).add a) s).Finite) ∧
    (x'.value = 0 → (l'.foldr (fun a y => (y.mul x').add a) s').Finite) := by
  intro s s' hs h1 h2
  induction h with
  | nil => exact ⟨hs, h1, h2⟩
  | cons ha _ ih =>
    obtain ⟨i1, i2, i3⟩ := ih
    refine ⟨(i1.mul hx i2 i3).add ha.dom, fun h => mul_add_finite (i2 h) hx.1 h ha.1, fun h => ?_⟩
    exact mul_add_finite (i3 h) hx.2.1 h ha.2.1

end Magnesia
