import Verif.Spec.Word
import Verif.Proof.IntFloat
import Verif.Proof.Euler

/-!
# Word lengths (helper lemmas)
-/

namespace Magnesia

open RZero ROne MulRefs

variable {F : Fmt}

theorem Fmt.Fixed.representable {k : ℤ} {m : ℕ} (h : F.Fixed k m) {z : ℤ} (hz : |z| ≤ m) : F.Representable (z * 2 ^ k) := by
  rcases h with rfl | ⟨h1, h2, h3⟩
  · have : z = 0 := by simpa using hz
    subst this
    simpa using Ieee.Fmt.representable_zero F
  · refine F.representable_of (hz.trans (by exact_mod_cast h2)) h1 ?_
    rw [abs_mul, abs_of_pos (by positivity : (0 : ℚ) < 2 ^ k)]
    have h4 : |(z : ℚ)| ≤ m := by exact_mod_cast hz
    exact (mul_le_mul_of_nonneg_right h4 (by positivity)).trans_lt h3

theorem Fmt.Fixed.mono {k : ℤ} {m n : ℕ} (h : F.Fixed k n) (hm : m ≤ n) : F.Fixed k m := by
  rcases h with rfl | ⟨h1, h2, h3⟩
  · exact .inl (by omega)
  · refine .inr ⟨h1, hm.trans h2, lt_of_le_of_lt ?_ h3⟩
    gcongr

namespace Word

theorem ret_ok {k : ℤ} {m : ℕ} {c : Word F} (h : ret k m = .ok c) : F.Fixed k m ∧ c = ⟨k, m⟩ := by
  unfold ret at h
  split at h
  · next h1 => cases h; exact ⟨h1, rfl⟩
  · cases h

theorem Has.rep {c : Word F} {x : ℚ} (h : c.Has x) (hc : F.Fixed c.lsb c.mag) : F.Representable x := by
  obtain ⟨z, rfl, hz⟩ := h
  exact hc.representable hz

theorem Has.zero {c : Word F} {x : ℚ} (h : c.Has x) (h0 : c.mag = 0) : x = 0 := by
  obtain ⟨z, rfl, hz⟩ := h
  rw [h0] at hz
  have : z = 0 := by simpa using hz
  simp [this]

theorem Has.neg {c : Word F} {x : ℚ} (h : c.Has x) : c.Has (-x) := by
  obtain ⟨z, rfl, hz⟩ := h
  exact ⟨-z, by push_cast; ring, by rwa [abs_neg]⟩

theorem regrid {k l : ℤ} (h : k ≤ l) (z : ℤ) : (z : ℚ) * 2 ^ l = ((z * 2 ^ (l - k).toNat : ℤ) : ℚ) * 2 ^ k := by
  have : l = (l - k).toNat + k := by omega
  conv_lhs => rw [this]
  rw [zpow_add₀ (by norm_num), zpow_natCast]
  push_cast
  ring

theorem add_has {a b c : Word F} {x y : ℚ} (ha : a.Has x) (hb : b.Has y) (h : a.add b = .ok c) :
    F.Fixed c.lsb c.mag ∧ c.Has (x + y) := by
  unfold add at h
  split at h
  · next h0 =>
    obtain ⟨h1, rfl⟩ := ret_ok h
    exact ⟨h1, by rw [ha.zero h0, zero_add]; exact hb⟩
  · split at h
    · next h0 =>
      obtain ⟨h1, rfl⟩ := ret_ok h
      exact ⟨h1, by rw [hb.zero h0, add_zero]; exact ha⟩
    · obtain ⟨h1, rfl⟩ := ret_ok h
      refine ⟨h1, ?_⟩
      obtain ⟨z, rfl, hz⟩ := ha
      obtain ⟨t, rfl, ht⟩ := hb
      refine ⟨z * 2 ^ (a.lsb - min a.lsb b.lsb).toNat + t * 2 ^ (b.lsb - min a.lsb b.lsb).toNat, ?_, ?_⟩
      · rw [regrid (min_le_left a.lsb b.lsb) z, regrid (min_le_right a.lsb b.lsb) t]
        push_cast
        ring
      · push_cast
        refine (abs_add_le _ _).trans ?_
        rw [abs_mul, abs_mul, abs_of_pos (by positivity : (0 : ℤ) < 2 ^ (a.lsb - min a.lsb b.lsb).toNat),
          abs_of_pos (by positivity : (0 : ℤ) < 2 ^ (b.lsb - min a.lsb b.lsb).toNat)]
        gcongr

theorem mul_has {a b c : Word F} {x y : ℚ} (ha : a.Has x) (hb : b.Has y) (h : a.mul b = .ok c) :
    F.Fixed c.lsb c.mag ∧ c.Has (x * y) := by
  obtain ⟨h1, rfl⟩ := ret_ok h
  refine ⟨h1, ?_⟩
  obtain ⟨z, rfl, hz⟩ := ha
  obtain ⟨t, rfl, ht⟩ := hb
  refine ⟨z * t, by rw [zpow_add₀ (by norm_num)]; push_cast; ring, ?_⟩
  rw [abs_mul]
  push_cast
  exact mul_le_mul hz ht (abs_nonneg _) (by positivity)

theorem neg_has {a c : Word F} {x : ℚ} (ha : a.Has x) (h : a.neg = .ok c) : F.Fixed c.lsb c.mag ∧ c.Has (-x) := by
  obtain ⟨h1, rfl⟩ := ret_ok h
  exact ⟨h1, ha.neg⟩

end Word

namespace Signal

/-- The floating point result is the exact result `q`, and of the word. -/
abbrev Agrees (x : Ieee F) (q : ℚ) (r : Res (Word F)) : Prop := ∀ c, r = .ok c → x.Finite ∧ x.value = q ∧ c.Has q

theorem add_ok (a b : Signal F) : Agrees (a.num.add b.num) (a.num.value + b.num.value) (a.word.add b.word) := fun c h => by
  obtain ⟨h1, h2⟩ := Word.add_has a.has b.has h
  obtain ⟨h3, h4⟩ := Ieee.add_exact a.finite b.finite (h2.rep h1)
  exact ⟨h3, h4, h2⟩

theorem sub_ok (a b : Signal F) : Agrees (a.num.sub b.num) (a.num.value - b.num.value) (a.word.add b.word) := fun c h => by
  obtain ⟨h1, h2⟩ := Word.add_has a.has b.has.neg h
  rw [← sub_eq_add_neg] at h2
  obtain ⟨h3, h4⟩ := Ieee.sub_exact a.finite b.finite (h2.rep h1)
  exact ⟨h3, h4, h2⟩

theorem mul_ok (a b : Signal F) : Agrees (a.num.mul b.num) (a.num.value * b.num.value) (a.word.mul b.word) := fun c h => by
  obtain ⟨h1, h2⟩ := Word.mul_has a.has b.has h
  obtain ⟨h3, h4⟩ := Ieee.mul_exact a.finite b.finite (h2.rep h1)
  exact ⟨h3, h4, h2⟩

theorem neg_ok (a : Signal F) : Agrees a.num.neg (-a.num.value) a.word.neg := fun _ h =>
  ⟨IntFloat.neg_finite.2 a.finite, Ieee.neg_value _, (Word.neg_has a.has h).2⟩

/-- Combine the floating point result with the word, if there is one. -/
def both (x : Ieee F) (q : ℚ) (r : Res (Word F)) (h : Agrees x q r) : Res (Signal F) :=
  match r, h with
  | .ok c, h => .ok ⟨x, c, (h c rfl).1, by rw [(h c rfl).2.1]; exact (h c rfl).2.2⟩
  | .error e, _ => .error e

def add (a b : Signal F) : Res (Signal F) := both _ _ _ (add_ok a b)
def sub (a b : Signal F) : Res (Signal F) := both _ _ _ (sub_ok a b)
def mul (a b : Signal F) : Res (Signal F) := both _ _ _ (mul_ok a b)
def neg (a : Signal F) : Res (Signal F) := both _ _ _ (neg_ok a)

instance : RZero (Signal F) := ⟨⟨zero, zero, trivial, 0, by simp [zero, Ieee.value], by simp [zero]⟩⟩
instance : ROne (Signal F) := ⟨⟨one, one, trivial, 1, by simp [one, Ieee.value], by simp [one]⟩⟩
instance : AddAssignRef (Signal F) := ⟨fun a b => Upd.ofRes a (add a b)⟩
instance : SubAssignRef (Signal F) := ⟨fun a b => Upd.ofRes a (sub a b)⟩
instance : MulRefs (Signal F) := ⟨mul⟩
instance : RNeg (Signal F) := ⟨neg⟩
instance : RPartialEq (Signal F) := ⟨fun a b => decide (a.num = b.num)⟩
instance : RRing (Signal F) where
instance : RAdd (Signal F) (Signal F) (Signal F) := ⟨add⟩
instance : RSub (Signal F) (Signal F) (Signal F) := ⟨sub⟩
instance : RMul (Signal F) (Signal F) (Signal F) := ⟨mul⟩
instance : RAddAssign (Signal F) (Signal F) := ⟨fun a b => Upd.ofRes a (add a b)⟩
instance : RSubAssign (Signal F) (Signal F) := ⟨fun a b => Upd.ofRes a (sub a b)⟩
instance : RConj (Signal F) := ⟨fun a => .ok a⟩

variable {x : Ieee F} {q : ℚ} {r : Res (Word F)}

theorem both_word (h : Agrees x q r) : ResRel true word (both x q r h) r := by
  cases r with
  | ok c => exact ResRel.ok rfl
  | error e => exact ResRel.error _ e

theorem both_num (h : Agrees x q r) : ResRel false num (both x q r h) (.ok x) := by
  cases r with
  | ok c => exact ResRel.ok rfl
  | error e => exact fun h => nomatch h

theorem both_exact (h : Agrees x q r) : ResRel false exact (both x q r h) (.ok ⟨q⟩) := by
  cases r with
  | ok c => exact ResRel.ok (by simp only [exact, (h c rfl).2.1])
  | error e => exact fun h => nomatch h

theorem ofRes_word {a : Signal F} {r : Res (Signal F)} {r' : Res (Word F)} (h : ResRel true word r r') :
    UpdRel true word (Upd.ofRes a r) (Upd.ofRes a.word r') := by
  cases r with
  | ok c => simp only [ResRel] at h; subst h; rfl
  | error e => simp only [ResRel, forall_const] at h; subst h; exact fun _ => rfl

theorem ofRes_done {β : Type} {f : Signal F → β} {a : Signal F} {r : Res (Signal F)} {x : β} (h : ResRel false f r (.ok x)) :
    UpdRel false f (Upd.ofRes a r) (.done x) := by
  cases r with
  | ok c =>
    simp only [ResRel] at h
    injection h with h
    subst h
    rfl
  | error e => exact fun h => nomatch h

theorem hom_word : Hom true (word : Signal F → Word F) :=
  ⟨rfl, rfl, fun _ _ => ofRes_word (both_word _), fun _ _ => ofRes_word (both_word _), fun _ _ => both_word _,
    fun _ => both_word _⟩
theorem hom_num : Hom false (num : Signal F → Ieee F) :=
  ⟨rfl, rfl, fun _ _ => ofRes_done (both_num _), fun _ _ => ofRes_done (both_num _), fun _ _ => both_num _,
    fun _ => both_num _⟩
theorem hom_exact : Hom false (exact : Signal F → Exact ℚ) :=
  ⟨rfl, rfl, fun _ _ => ofRes_done (both_exact _), fun _ _ => ofRes_done (both_exact _), fun _ _ => both_exact _,
    fun _ => both_exact _⟩

theorem valueOpsAgree : ValueOpsAgree (Signal F) where
  add _ _ := (toRes_ofRes _ _).symm
  sub _ _ := (toRes_ofRes _ _).symm
  mul _ _ := rfl
  addAssign _ _ := rfl
  subAssign _ _ := rfl

theorem valueOpsAgree_word : ValueOpsAgree (Word F) where
  add _ _ := (toRes_ofRes _ _).symm
  sub _ _ := (toRes_ofRes _ _).symm
  mul _ _ := rfl
  addAssign _ _ := rfl
  subAssign _ _ := rfl

end Signal

end Magnesia
