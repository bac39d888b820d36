import Verif.Proof.Ieee
import Verif.Proof.Hom
import Verif.Proof.Elem
import Verif.Props.Rounding

/-!
# IEEE arithmetic and trapping arithmetic (helper lemmas)
-/

set_option linter.unusedVariables false

namespace Magnesia

open RZero ROne MulRefs

variable {F : Fmt} {ud : Bool}

theorem trap_ringAdd (a b : Trap F ud) : ringAdd a b = Trap.add a b := toRes_ofRes a _
theorem trap_ringSub (a b : Trap F ud) : ringSub a b = Trap.sub a b := toRes_ofRes a _

/-- Trapping IEEE arithmetic satisfies the standard model. -/
theorem trap_roundsField : RoundsField (Trap.value : Trap F ud → ℚ) F.u (Trap.eta F ud) where
  u_nonneg := F.u_pos.le
  η_nonneg := Trap.eta_nonneg F ud
  zero := rfl
  one := rfl
  add a b c h := Trap.add_err (trap_ringAdd a b ▸ h)
  sub a b c h := Trap.sub_err (trap_ringSub a b ▸ h)
  mul a b c h := (Trap.mul_ok h).2
  neg a c h := by
    obtain ⟨_, h2⟩ := Trap.retF_ok h
    rw [Trap.value, h2]; exact Ieee.neg_value _
  div a b c h := (Trap.div_ok h).2

theorem trap_roundsSqrt : RoundsSqrt (Trap.value : Trap F ud → ℚ) F.u where
  u_le_one := F.u_le_one
  sqrt a c h := (Trap.sqrt_ok h).2

theorem trap_roundsV : RoundsV (Trap.value : Trap F ud → ℚ) F.u (Trap.eta F ud) where
  u_nonneg := F.u_pos.le
  η_nonneg := Trap.eta_nonneg F ud
  zero := rfl
  add a b c h := Trap.add_err h
  mul a b c h := (Trap.mul_ok h).2
  addAssign a b c h := Trap.add_err ((toRes_ofRes a _).symm.trans h)

theorem trap_valueOpsAgree : ValueOpsAgree (Trap F ud) where
  add a b := (toRes_ofRes a _).symm
  sub a b := (toRes_ofRes a _).symm
  mul a b := rfl
  addAssign a b := rfl
  subAssign a b := rfl

theorem resRel_trap {x : Res (Trap F ud)} {r : Ieee F} (h : ∀ c, x = .ok c → c.val = r) :
    ResRel false Trap.val x (.ok r) := by
  cases x with
  | error e => intro h; cases h
  | ok c => exact congrArg Except.ok (h c rfl).symm

theorem updRel_trap {a : Trap F ud} {x : Res (Trap F ud)} {r : Ieee F} (h : ∀ c, x = .ok c → c.val = r) :
    UpdRel false Trap.val (Upd.ofRes a x) (.done r) := by
  cases x with
  | error e => intro h; cases h
  | ok c => show Upd.mk r none = _; rw [← h c rfl]; rfl

/-- As long as nothing is trapped, trapping arithmetic computes what IEEE arithmetic computes. -/
theorem trap_hom : Hom false (Trap.val : Trap F ud → Ieee F) where
  zero := rfl
  one := rfl
  add a b := updRel_trap fun _ h => (Trap.add_ok h).1
  sub a b := updRel_trap fun _ h => (Trap.sub_ok h).1
  mul a b := resRel_trap fun _ h => (Trap.mul_ok h).1
  neg a := resRel_trap fun _ h => (Trap.retF_ok h).2

theorem trap_div (a b : Trap F ud) : ResRel false Trap.val (DivRefs.divRefs a b) (DivRefs.divRefs a.val b.val) :=
  resRel_trap fun _ h => (Trap.div_ok h).1

theorem trap_sqrt (a : Trap F ud) : ResRel false Trap.val (RSqrt.sqrt a) (RSqrt.sqrt a.val) :=
  resRel_trap fun _ h => (Trap.sqrt_ok h).1

theorem trap_cdiv (z w : Complex (Trap F ud)) :
    ResRel false (Complex.map Trap.val) (z.div w) ((z.map Trap.val).div (w.map Trap.val)) :=
  (trap_hom.sqrNorm w).bind fun _ _ => (trap_div _ _).bind fun _ _ => (trap_hom.mul _ _).bind fun _ _ =>
    (trap_hom.mul _ _).bind fun _ _ => (trap_hom.mul _ _).bind fun _ _ => (trap_hom.mul _ _).bind fun _ _ =>
    (trap_hom.add _ _).toRes.bind fun _ _ => (trap_hom.sub _ _).toRes.bind fun _ _ =>
    (trap_hom.mul _ _).bind fun _ _ => (trap_hom.mul _ _).bind fun _ _ => .pure rfl

theorem trap_cabs (z : Complex (Trap F ud)) :
    ResRel false Trap.val z.abs (z.map Trap.val).abs :=
  (trap_hom.sqrNorm z).bind fun _ _ => trap_sqrt _

/-! ## A finite final result shows that nothing overflowed -/

theorem trap_add_of_finite (a b : Trap F ud) (h : (a.val.add b.val).Finite) :
    Trap.add a b = .ok ⟨a.val.add b.val, h⟩ := dif_pos h

theorem trap_sub_of_finite (a b : Trap F ud) (h : (a.val.sub b.val).Finite) :
    Trap.sub a b = .ok ⟨a.val.sub b.val, h⟩ := dif_pos h

theorem trap_mul_of_finite (a b : Trap F false) (h : (a.val.mul b.val).Finite) :
    Trap.mul a b = .ok ⟨a.val.mul b.val, h⟩ := dif_pos ⟨h, by simp⟩

/-- One step of Horner's scheme. -/
theorem horner_step (y x a : Ieee F) : (do
    let y ← mulRefs y x
    (AddAssignRef.addAssign y a).toRes) = (.ok ((y.mul x).add a) : Res (Ieee F)) := rfl

theorem horner_finite (x : Ieee F) : ∀ (l : List (Ieee F)) (s y : Ieee F),
    l.foldlM (fun y a => do
      let y ← mulRefs y x
      (AddAssignRef.addAssign y a).toRes) s = .ok y → y.Finite →
    s.Finite ∧ (∀ a ∈ l, a.Finite) ∧ (l ≠ [] → x.Finite) := by
  intro l
  induction l with
  | nil => intro s y h hy; cases pure_ok h; exact ⟨hy, by simp, by simp⟩
  | cons a l ih =>
    intro s y h hy
    rw [List.foldlM_cons, horner_step] at h
    obtain ⟨h1, h2, h3⟩ := ih _ y h hy
    obtain ⟨h4, h5, _⟩ := Ieee.add_finite h1
    obtain ⟨h6, h7, _⟩ := Ieee.mul_finite h4
    refine ⟨h6, ?_, fun _ => h7⟩
    intro b hb
    rcases List.mem_cons.1 hb with rfl | hb
    · exact h5
    · exact h2 b hb

theorem horner_trap (x : Trap F false) : ∀ (l : List (Trap F false)) (s : Trap F false) (y : Ieee F),
    (l.map Trap.val).foldlM (fun y a => do
      let y ← mulRefs y x.val
      (AddAssignRef.addAssign y a).toRes) s.val = .ok y → y.Finite →
    ∃ y' : Trap F false, l.foldlM (fun y a => do
      let y ← mulRefs y x
      (AddAssignRef.addAssign y a).toRes) s = .ok y' ∧ y'.val = y := by
  intro l
  induction l with
  | nil => intro s y h hy; cases pure_ok h; exact ⟨s, rfl, rfl⟩
  | cons a l ih =>
    intro s y h hy
    rw [List.map_cons, List.foldlM_cons, horner_step] at h
    have h1 := (horner_finite x.val _ _ y h hy).1
    have h2 := (Ieee.add_finite h1).1
    obtain ⟨y', h3, h4⟩ := ih ⟨_, h1⟩ y h hy
    refine ⟨y', ?_, h4⟩
    rw [List.foldlM_cons]
    have e1 : mulRefs s x = .ok (⟨s.val.mul x.val, h2⟩ : Trap F false) := trap_mul_of_finite s x h2
    have e2 : (AddAssignRef.addAssign (⟨s.val.mul x.val, h2⟩ : Trap F false) a).toRes = .ok ⟨_, h1⟩ :=
      (toRes_ofRes _ _).trans (trap_add_of_finite ⟨s.val.mul x.val, h2⟩ a h1)
    rw [e1]
    show (AddAssignRef.addAssign (⟨s.val.mul x.val, h2⟩ : Trap F false) a).toRes >>= _ = _
    rw [e2]
    exact h3

theorem list_lift (l : List (Ieee F)) (h : ∀ a ∈ l, a.Finite) : ∃ l' : List (Trap F ud), l'.map Trap.val = l := by
  induction l with
  | nil => exact ⟨[], rfl⟩
  | cons a l ih =>
    obtain ⟨l', hl⟩ := ih fun b hb => h b (by simp [hb])
    exact ⟨⟨a, h a (by simp)⟩ :: l', by simp [hl]⟩

theorem dot_step (s a b : Ieee F) : (do
    let prod ← mulRefs a b
    (AddAssignRef.addAssign s prod).toRes) = (.ok (s.add (a.mul b)) : Res (Ieee F)) := rfl

theorem dot_finite {ι : Type} (f g : ι → Ieee F) : ∀ (l : List ι) (s y : Ieee F),
    l.foldlM (fun sum i => do
      let prod ← mulRefs (f i) (g i)
      (AddAssignRef.addAssign sum prod).toRes) s = .ok y → y.Finite →
    s.Finite ∧ ∀ i ∈ l, (f i).Finite ∧ (g i).Finite := by
  intro l
  induction l with
  | nil => intro s y h hy; cases pure_ok h; exact ⟨hy, by simp⟩
  | cons a l ih =>
    intro s y h hy
    rw [List.foldlM_cons, dot_step] at h
    obtain ⟨h1, h2⟩ := ih _ y h hy
    obtain ⟨h4, h5, _⟩ := Ieee.add_finite h1
    obtain ⟨h6, h7, _⟩ := Ieee.mul_finite h5
    refine ⟨h4, ?_⟩
    intro b hb
    rcases List.mem_cons.1 hb with rfl | hb
    · exact ⟨h6, h7⟩
    · exact h2 b hb

theorem dot_trap {ι : Type} (f g : ι → Trap F false) : ∀ (l : List ι) (s : Trap F false) (y : Ieee F),
    l.foldlM (fun sum i => do
      let prod ← mulRefs (f i).val (g i).val
      (AddAssignRef.addAssign sum prod).toRes) s.val = .ok y → y.Finite →
    ∃ y' : Trap F false, l.foldlM (fun sum i => do
      let prod ← mulRefs (f i) (g i)
      (AddAssignRef.addAssign sum prod).toRes) s = .ok y' ∧ y'.val = y := by
  intro l
  induction l with
  | nil => intro s y h hy; cases pure_ok h; exact ⟨s, rfl, rfl⟩
  | cons a l ih =>
    intro s y h hy
    rw [List.foldlM_cons, dot_step] at h
    have h1 := (dot_finite _ _ _ _ y h hy).1
    have h2 := (Ieee.add_finite h1).2.1
    obtain ⟨y', h3, h4⟩ := ih ⟨_, h1⟩ y h hy
    refine ⟨y', ?_, h4⟩
    rw [List.foldlM_cons]
    have e1 : mulRefs (f a) (g a) = .ok (⟨(f a).val.mul (g a).val, h2⟩ : Trap F false) :=
      trap_mul_of_finite _ _ h2
    have e2 : (AddAssignRef.addAssign s (⟨(f a).val.mul (g a).val, h2⟩ : Trap F false)).toRes = .ok ⟨_, h1⟩ :=
      (toRes_ofRes _ _).trans (trap_add_of_finite s ⟨(f a).val.mul (g a).val, h2⟩ h1)
    rw [e1]
    show (AddAssignRef.addAssign s (⟨(f a).val.mul (g a).val, h2⟩ : Trap F false)).toRes >>= _ = _
    rw [e2]
    exact h3

/-- The terms and the sum of a `DMatrix` product entry. -/
theorem sumTerms_trap (f g : ℕ → Ieee F) : ∀ (n : ℕ) (y : Ieee F),
    Tree.sumTerms (fun k => (.ok ((f k).mul (g k)) : Res (Ieee F))) n = .ok y → y.Finite →
    ∃ f' g' : ℕ → Trap F false, (∀ k < n, (f' k).val = f k ∧ (g' k).val = g k) ∧
      ∃ y' : Trap F false, Tree.sumTerms (fun k => Trap.mul (f' k) (g' k)) n = .ok y' ∧ y'.val = y := by
  have hcongr : ∀ {t t' : ℕ → Res (Trap F false)} (n : ℕ), (∀ k < n, t k = t' k) →
      Tree.sumTerms t n = Tree.sumTerms t' n := by
    intro t t' n
    induction n using Nat.strongRecOn with
    | _ n ih =>
      match n with
      | 0 => intro _; rfl
      | 1 => intro h; exact h 0 (by omega)
      | n + 2 =>
        intro h
        show (Tree.sumTerms t (n + 1) >>= fun s => t (n + 1) >>= fun x => _) =
          (Tree.sumTerms t' (n + 1) >>= fun s => t' (n + 1) >>= fun x => _)
        rw [ih (n + 1) (by omega) fun k hk => h k (by omega), h (n + 1) (by omega)]
  intro n
  induction n using Nat.strongRecOn with
  | _ n ih =>
    match n with
    | 0 => intro y h; cases h
    | 1 =>
      intro y h hy
      obtain rfl : (f 0).mul (g 0) = y := Except.ok.inj h
      obtain ⟨h1, h2, _⟩ := Ieee.mul_finite hy
      refine ⟨fun _ => ⟨f 0, h1⟩, fun _ => ⟨g 0, h2⟩, fun k hk => ?_, ⟨_, hy⟩,
        trap_mul_of_finite ⟨f 0, h1⟩ ⟨g 0, h2⟩ hy, rfl⟩
      obtain rfl : k = 0 := by omega
      exact ⟨rfl, rfl⟩
    | n + 2 =>
      intro y h hy
      obtain ⟨s, h1, h⟩ := bind_ok h
      obtain ⟨x, h2, h⟩ := bind_ok h
      cases h2
      obtain rfl : s.add ((f (n + 1)).mul (g (n + 1))) = y := Except.ok.inj h
      obtain ⟨h3, h4, _⟩ := Ieee.add_finite hy
      obtain ⟨h5, h6, _⟩ := Ieee.mul_finite h4
      obtain ⟨f', g', h7, y', h8, rfl⟩ := ih (n + 1) (by omega) s h1 h3
      refine ⟨fun k => if k < n + 1 then f' k else ⟨f (n + 1), h5⟩,
        fun k => if k < n + 1 then g' k else ⟨g (n + 1), h6⟩, fun k hk => ?_, ⟨_, hy⟩, ?_, rfl⟩
      · by_cases hk' : k < n + 1
        · simp only [if_pos hk']; exact h7 k hk'
        · obtain rfl : k = n + 1 := by omega
          simp
      · show (Tree.sumTerms _ (n + 1) >>= fun s => _ >>= fun x => _) = _
        rw [hcongr (t' := fun k => Trap.mul (f' k) (g' k)) (n + 1) fun k hk => by simp only [if_pos hk], h8]
        simp only [lt_irrefl, if_false]
        show (Trap.mul (⟨f (n + 1), h5⟩ : Trap F false) ⟨g (n + 1), h6⟩ >>= fun x =>
          (RAddAssign.addAssign y' x).toRes) = _
        rw [trap_mul_of_finite (⟨f (n + 1), h5⟩ : Trap F false) ⟨g (n + 1), h6⟩ h4]
        exact (toRes_ofRes _ _).trans (trap_add_of_finite y' ⟨_, h4⟩ hy)

end Magnesia
