import Verif.Spec.Convert
import Verif.Props.Magnitude
import Verif.Proof.ProgramRel
import Verif.Proof.Track

/-!
# Property C101: other builds, other machines, other integer types
-/

namespace Magnesia

open RZero ROne

/-- Panics other than overflow. -/
def Keep.noOverflow : Keep := fun e => e ≠ .overflow

theorem Profile.Ports.rel {p p' : Profile} (h : p.Ports p') : p.Rel Keep.noOverflow p' := fun x => by
  obtain ⟨hc, hb⟩ := h
  by_cases hx : x < 2 ^ p.bits
  · have hx' : x < 2 ^ p'.bits := hx.trans_le (Nat.pow_le_pow_right (by norm_num) hb)
    simp only [ResRel, Profile.usize, hx, hx', if_true, id]
  · simp [ResRel, Profile.usize, hx, hc, Keep.noOverflow]

/-- Runs of a program in two settings, the first of which returns. -/
theorem run_ok {T T' : Type} {f : T → T'} [RRing T] [RAdd T T T] [RSub T T T] [RMul T T T] [RAddAssign T T]
    [RSubAssign T T] [RConj T] [RRing T'] [RAdd T' T' T'] [RSub T' T' T'] [RMul T' T' T'] [RAddAssign T' T']
    [RSubAssign T' T'] [RConj T'] (h : Hom Keep.noOverflow f) (hv : HomV Keep.noOverflow f)
    (hc : ∀ a : T, ResRel Keep.noOverflow f (RConj.conj a) (RConj.conj (f a))) {pr pr' : Profile} (hp : pr.Rel Keep.noOverflow pr') {Γ : ℕ → Ty}
    (hΓ : ∀ i, (Γ i).IsData) {ty : Ty} (hty : ty.IsData) (p : Prog Γ ty) (env : (i : ℕ) → (Γ i).type T) (v : ty.type T)
    (hr : p.run pr env = .ok v) : p.run pr' (fun i => (Γ i).map f (hΓ i) (env i)) = .ok (ty.map f hty v) := by
  have := Prog.run_rel_profiles h hv hc hp env _ (fun i => ((Γ i).rel_iff (hΓ i) _ _).2 rfl) p
  rw [hr] at this
  obtain ⟨b, hb, hvb⟩ := this
  rw [hb, (ty.rel_iff hty _ _).1 hvb]

/-- Runs of a program in two settings, the first of which panics, not with overflow. -/
theorem run_error {T T' : Type} {f : T → T'} [RRing T] [RAdd T T T] [RSub T T T] [RMul T T T] [RAddAssign T T]
    [RSubAssign T T] [RConj T] [RRing T'] [RAdd T' T' T'] [RSub T' T' T'] [RMul T' T' T'] [RAddAssign T' T']
    [RSubAssign T' T'] [RConj T'] (h : Hom Keep.noOverflow f) (hv : HomV Keep.noOverflow f)
    (hc : ∀ a : T, ResRel Keep.noOverflow f (RConj.conj a) (RConj.conj (f a))) {pr pr' : Profile} (hp : pr.Rel Keep.noOverflow pr') {Γ : ℕ → Ty}
    (hΓ : ∀ i, (Γ i).IsData) {ty : Ty} (_hty : ty.IsData) (p : Prog Γ ty) (env : (i : ℕ) → (Γ i).type T) (e : Panic)
    (he : e ≠ .overflow) (hr : p.run pr env = .error e) : p.run pr' (fun i => (Γ i).map f (hΓ i) (env i)) = .error e := by
  have := Prog.run_rel_profiles h hv hc hp env _ (fun i => ((Γ i).rel_iff (hΓ i) _ _).2 rfl) p
  rw [hr] at this
  exact this he

theorem UpdRel.of_toRes {T T' : Type} {f : T → T'} {a : T} {b : T'} {x : Res T} {y : Res T'} (h : ResRel Keep.noOverflow f x y) (hb : b = f a) :
    UpdRel Keep.noOverflow f (Upd.ofRes a x) (Upd.ofRes b y) :=
  UpdRel.ofRes h hb

namespace MInt

variable {w w' : ℕ}

/-- No overflow: then the result without checks is the same. -/
theorem unchecked_guard (o : Bool) (r : BitVec w) : ResRel Keep.noOverflow unchecked (MInt.guard o r : Res (MInt w true)) (MInt.guard o r) := by
  rw [guard_false]
  unfold MInt.guard
  cases o with
  | true => exact fun h => absurd rfl h
  | false => rfl

theorem guard_error {o : Bool} {r : BitVec w} {chk : Bool} {x : Panic} (h : (MInt.guard o r : Res (MInt w chk)) = .error x) : x = .overflow := by
  unfold MInt.guard at h
  split at h
  · exact (Except.error.inj h).symm
  · cases h

theorem hom_unchecked : Hom Keep.noOverflow (unchecked (w := w)) :=
  ⟨rfl, rfl, fun _ _ => UpdRel.of_toRes (unchecked_guard _ _) rfl, fun _ _ => UpdRel.of_toRes (unchecked_guard _ _) rfl,
    fun _ _ => unchecked_guard _ _, fun _ => unchecked_guard _ _⟩

theorem toInt_cast {chk : Bool} (h : w ≤ w') (a : MInt w chk) : (a.cast w').toInt = a.toInt :=
  BitVec.toInt_signExtend_of_le h

theorem hom_cast (hw : 1 < w) (h : w ≤ w') : Hom Keep.noOverflow (cast w' (chk := true) (w := w)) := by
  have hw' : 1 < w' := hw.trans_le h
  have add : ∀ a b : MInt w true, ResRel Keep.noOverflow (cast w') (MInt.add a b) (MInt.add (a.cast w') (b.cast w')) := by
    intro a b
    cases e : MInt.add a b with
    | error x => exact fun h => absurd (guard_error e) h
    | ok c =>
      have h1 := C82_numbers hw a b c
      have h2 := C82_numbers hw' (a.cast w') (b.cast w') (c.cast w')
      have e1 : ringAdd a b = MInt.add a b := toRes_ofRes _ _
      have e2 : ringAdd (a.cast w') (b.cast w') = MInt.add (a.cast w') (b.cast w') := toRes_ofRes _ _
      rw [e1] at h1
      rw [e2] at h2
      exact h2.1.2 (by rw [toInt_cast h, toInt_cast h, toInt_cast h]; exact h1.1.1 e)
  have sub : ∀ a b : MInt w true, ResRel Keep.noOverflow (cast w') (MInt.sub a b) (MInt.sub (a.cast w') (b.cast w')) := by
    intro a b
    cases e : MInt.sub a b with
    | error x => exact fun h => absurd (guard_error e) h
    | ok c =>
      have h1 := C82_numbers hw a b c
      have h2 := C82_numbers hw' (a.cast w') (b.cast w') (c.cast w')
      have e1 : ringSub a b = MInt.sub a b := toRes_ofRes _ _
      have e2 : ringSub (a.cast w') (b.cast w') = MInt.sub (a.cast w') (b.cast w') := toRes_ofRes _ _
      rw [e1] at h1
      rw [e2] at h2
      exact h2.2.1.2 (by rw [toInt_cast h, toInt_cast h, toInt_cast h]; exact h1.2.1.1 e)
  refine ⟨toInt_injective ?_, toInt_injective ?_, fun a b => UpdRel.of_toRes (add a b) rfl, fun a b => UpdRel.of_toRes (sub a b) rfl, fun a b => ?_, fun a => ?_⟩
  · rw [toInt_cast h, (implements_checked hw).zero, (implements_checked hw').zero]
  · rw [toInt_cast h, (implements_checked hw).one, (implements_checked hw').one]
  · cases e : (MulRefs.mulRefs a b : Res (MInt w true)) with
    | error x => exact fun h => absurd (guard_error e) h
    | ok c =>
      exact (C82_numbers hw' (a.cast w') (b.cast w') (c.cast w')).2.2.1.2 (by
        rw [toInt_cast h, toInt_cast h, toInt_cast h]; exact (C82_numbers hw a b c).2.2.1.1 e)
  · cases e : (RNeg.neg a : Res (MInt w true)) with
    | error x => exact fun h => absurd (guard_error e) h
    | ok c =>
      exact (C82_numbers hw' (a.cast w') (a.cast w') (c.cast w')).2.2.2.1.2 (by
        rw [toInt_cast h, toInt_cast h]; exact (C82_numbers hw a a c).2.2.2.1.1 e)

theorem hom_truncate (h : w' ≤ w) : Hom true (cast w' (chk := false) (w := w)) := by
  have e : ∀ x : BitVec w, x.signExtend w' = x.setWidth w' := fun x => BitVec.signExtend_eq_setWidth_of_le _ h
  refine ⟨?_, ?_, fun a b => ?_, fun a b => ?_, fun a b => ?_, fun a => ?_⟩
  · simp [cast, RZero.zero, e]
  · show (⟨(1 : BitVec w).signExtend w'⟩ : MInt w' false) = ⟨1⟩
    rw [e]
    congr 1
    apply BitVec.eq_of_toNat_eq
    show (BitVec.setWidth w' (1#w)).toNat = (1#w').toNat
    rw [BitVec.toNat_setWidth, BitVec.toNat_ofNat, BitVec.toNat_ofNat, Nat.mod_mod_of_dvd _ (pow_dvd_pow 2 h)]
  · simp [UpdRel, AddAssignRef.addAssign, MInt.add, Upd.ofRes, cast, e, BitVec.setWidth_add _ _ h]
  · simp [UpdRel, SubAssignRef.subAssign, MInt.sub, Upd.ofRes, cast, e, BitVec.sub_eq_add_neg, BitVec.setWidth_add _ _ h, BitVec.setWidth_neg_of_le h]
  · simp [ResRel, MulRefs.mulRefs, MInt.mul, cast, e, BitVec.setWidth_mul _ _ h]
  · simp [ResRel, RNeg.neg, MInt.neg, cast, e, BitVec.setWidth_neg_of_le h]

end MInt

section
variable {T : Type} [RRing T] [RAdd T T T] [RSub T T T] [RMul T T T] [RAddAssign T T] [RSubAssign T T] [RConj T]

theorem ResRel.same {α : Type} {s : Keep} (x : Res α) : ResRel s id x x := by
  cases x with
  | ok a => rfl
  | error e => exact fun _ => rfl

theorem UpdRel.same {α : Type} {s : Keep} (u : Upd α) : UpdRel s id u u := by
  obtain ⟨v, o⟩ := u
  cases o with
  | none => rfl
  | some e => exact fun _ => rfl

/-- C101: for every element type: a program that returns on a machine, indices being checked for overflow, returns the same on every
machine whose addresses have at least as many bits, whether or not indices are checked there. -/
theorem C101_machines {pr pr' : Profile} (hp : pr.Ports pr') (Γ : ℕ → Ty) (hΓ : ∀ i, (Γ i).IsData) (ty : Ty) (hty : ty.IsData)
    (p : Prog Γ ty) (env : (i : ℕ) → (Γ i).type T) (v : ty.type T) (hv : p.run pr env = .ok v) : p.run pr' env = .ok v := by
  have h := run_ok (f := (id : T → T)) ⟨rfl, rfl, fun _ _ => UpdRel.same _, fun _ _ => UpdRel.same _, fun _ _ => ResRel.same _, fun _ => ResRel.same _⟩
    ⟨rfl, fun _ _ => ResRel.same _, fun _ _ => ResRel.same _, fun _ _ => ResRel.same _, fun _ _ => UpdRel.same _, fun _ _ => UpdRel.same _⟩
    (fun _ => ResRel.same _) hp.rel hΓ hty p env v hv
  have e : (fun i => (Γ i).map (id : T → T) (hΓ i) (env i)) = env := funext fun i => Ty.map_id _ _ _
  rw [e, show ty.map (id : T → T) hty v = v from Ty.map_id _ _ _] at h
  exact h

/-- C101: and a program that panics on the first machine, other than with overflow, panics likewise on the others. -/
theorem C101_machines_panics {pr pr' : Profile} (hp : pr.Ports pr') (Γ : ℕ → Ty) (hΓ : ∀ i, (Γ i).IsData) (ty : Ty) (hty : ty.IsData)
    (p : Prog Γ ty) (env : (i : ℕ) → (Γ i).type T) (e : Panic) (he : e ≠ .overflow) (hv : p.run pr env = .error e) : p.run pr' env = .error e := by
  have h := run_error (f := (id : T → T)) ⟨rfl, rfl, fun _ _ => UpdRel.same _, fun _ _ => UpdRel.same _, fun _ _ => ResRel.same _, fun _ => ResRel.same _⟩
    ⟨rfl, fun _ _ => ResRel.same _, fun _ _ => ResRel.same _, fun _ _ => ResRel.same _, fun _ _ => UpdRel.same _, fun _ _ => UpdRel.same _⟩
    (fun _ => ResRel.same _) hp.rel hΓ hty p env e he hv
  rwa [show (fun i => (Γ i).map (id : T → T) (hΓ i) (env i)) = env from funext fun i => Ty.map_id _ _ _] at h

end

variable {w w' : ℕ}

/-- C101: a program on machine integers that returns in a build with overflow checks returns the same numbers in a build without. -/
theorem C101_release {pr pr' : Profile} (hp : pr.Ports pr') (Γ : ℕ → Ty) (hΓ : ∀ i, (Γ i).IsData) (ty : Ty) (hty : ty.IsData)
    (p : Prog Γ ty) (env : (i : ℕ) → (Γ i).type (MInt w true)) (v : ty.type (MInt w true)) (hv : p.run pr env = .ok v) :
    p.run pr' (fun i => (Γ i).map MInt.unchecked (hΓ i) (env i)) = .ok (ty.map MInt.unchecked hty v) :=
  run_ok MInt.hom_unchecked (MInt.hom_unchecked.toV valueOpsAgree_mint valueOpsAgree_mint) (fun _ => ResRel.ok rfl) hp.rel hΓ hty p env v hv

/-- C101: and with complex elements. -/
theorem C101_release_complex {pr pr' : Profile} (hp : pr.Ports pr') (Γ : ℕ → Ty) (hΓ : ∀ i, (Γ i).IsData) (ty : Ty) (hty : ty.IsData)
    (p : Prog Γ ty) (env : (i : ℕ) → (Γ i).type (Complex (MInt w true))) (v : ty.type (Complex (MInt w true))) (hv : p.run pr env = .ok v) :
    p.run pr' (fun i => (Γ i).map (Complex.map MInt.unchecked) (hΓ i) (env i)) = .ok (ty.map (Complex.map MInt.unchecked) hty v) :=
  run_ok MInt.hom_unchecked.complex (MInt.hom_unchecked.complex.toV valueOpsAgree_mint.complex valueOpsAgree_mint.complex)
    MInt.hom_unchecked.cconj hp.rel hΓ hty p env v hv

/-- C101: with overflow checks, a program that returns does the same with wider integers. -/
theorem C101_wider (hw : 1 < w) (h : w ≤ w') {pr pr' : Profile} (hp : pr.Ports pr') (Γ : ℕ → Ty) (hΓ : ∀ i, (Γ i).IsData) (ty : Ty) (hty : ty.IsData)
    (p : Prog Γ ty) (env : (i : ℕ) → (Γ i).type (MInt w true)) (v : ty.type (MInt w true)) (hv : p.run pr env = .ok v) :
    p.run pr' (fun i => (Γ i).map (MInt.cast w') (hΓ i) (env i)) = .ok (ty.map (MInt.cast w') hty v) :=
  run_ok (MInt.hom_cast hw h) ((MInt.hom_cast hw h).toV valueOpsAgree_mint valueOpsAgree_mint) (fun _ => ResRel.ok rfl) hp.rel hΓ hty p env v hv

/-- C101: and with complex elements. -/
theorem C101_wider_complex (hw : 1 < w) (h : w ≤ w') {pr pr' : Profile} (hp : pr.Ports pr') (Γ : ℕ → Ty) (hΓ : ∀ i, (Γ i).IsData) (ty : Ty) (hty : ty.IsData)
    (p : Prog Γ ty) (env : (i : ℕ) → (Γ i).type (Complex (MInt w true))) (v : ty.type (Complex (MInt w true))) (hv : p.run pr env = .ok v) :
    p.run pr' (fun i => (Γ i).map (Complex.map (MInt.cast w')) (hΓ i) (env i)) = .ok (ty.map (Complex.map (MInt.cast w')) hty v) :=
  run_ok (MInt.hom_cast hw h).complex ((MInt.hom_cast hw h).complex.toV valueOpsAgree_mint.complex valueOpsAgree_mint.complex)
    (MInt.hom_cast hw h).cconj hp.rel hΓ hty p env v hv

/-- C101: a program that panics in a build with overflow checks, other than with overflow, panics likewise in a build without. -/
theorem C101_release_panics {pr pr' : Profile} (hp : pr.Ports pr') (Γ : ℕ → Ty) (hΓ : ∀ i, (Γ i).IsData) (ty : Ty) (hty : ty.IsData)
    (p : Prog Γ ty) (env : (i : ℕ) → (Γ i).type (MInt w true)) (e : Panic) (he : e ≠ .overflow) (hv : p.run pr env = .error e) :
    p.run pr' (fun i => (Γ i).map MInt.unchecked (hΓ i) (env i)) = .error e :=
  run_error MInt.hom_unchecked (MInt.hom_unchecked.toV valueOpsAgree_mint valueOpsAgree_mint) (fun _ => ResRel.ok rfl) hp.rel hΓ hty p env e he hv

/-- C101: and with complex elements. -/
theorem C101_release_complex_panics {pr pr' : Profile} (hp : pr.Ports pr') (Γ : ℕ → Ty) (hΓ : ∀ i, (Γ i).IsData) (ty : Ty) (hty : ty.IsData)
    (p : Prog Γ ty) (env : (i : ℕ) → (Γ i).type (Complex (MInt w true))) (e : Panic) (he : e ≠ .overflow) (hv : p.run pr env = .error e) :
    p.run pr' (fun i => (Γ i).map (Complex.map MInt.unchecked) (hΓ i) (env i)) = .error e :=
  run_error MInt.hom_unchecked.complex (MInt.hom_unchecked.complex.toV valueOpsAgree_mint.complex valueOpsAgree_mint.complex)
    MInt.hom_unchecked.cconj hp.rel hΓ hty p env e he hv

/-- C101: a program that panics, other than with overflow, panics likewise with wider integers. -/
theorem C101_wider_panics (hw : 1 < w) (h : w ≤ w') {pr pr' : Profile} (hp : pr.Ports pr') (Γ : ℕ → Ty) (hΓ : ∀ i, (Γ i).IsData) (ty : Ty) (hty : ty.IsData)
    (p : Prog Γ ty) (env : (i : ℕ) → (Γ i).type (MInt w true)) (e : Panic) (he : e ≠ .overflow) (hv : p.run pr env = .error e) :
    p.run pr' (fun i => (Γ i).map (MInt.cast w') (hΓ i) (env i)) = .error e :=
  run_error (MInt.hom_cast hw h) ((MInt.hom_cast hw h).toV valueOpsAgree_mint valueOpsAgree_mint) (fun _ => ResRel.ok rfl) hp.rel hΓ hty p env e he hv

/-- C101: and with complex elements. -/
theorem C101_wider_complex_panics (hw : 1 < w) (h : w ≤ w') {pr pr' : Profile} (hp : pr.Ports pr') (Γ : ℕ → Ty) (hΓ : ∀ i, (Γ i).IsData) (ty : Ty) (hty : ty.IsData)
    (p : Prog Γ ty) (env : (i : ℕ) → (Γ i).type (Complex (MInt w true))) (e : Panic) (he : e ≠ .overflow) (hv : p.run pr env = .error e) :
    p.run pr' (fun i => (Γ i).map (Complex.map (MInt.cast w')) (hΓ i) (env i)) = .error e :=
  run_error (MInt.hom_cast hw h).complex ((MInt.hom_cast hw h).complex.toV valueOpsAgree_mint.complex valueOpsAgree_mint.complex)
    (MInt.hom_cast hw h).cconj hp.rel hΓ hty p env e he hv

/-- C101: casting to a wider type does not change the number. -/
theorem C101_cast {chk : Bool} (h : w ≤ w') (a : MInt w chk) : (a.cast w').toInt = a.toInt := MInt.toInt_cast h a

/-- C101: without overflow checks, narrowing commutes with every program: calculating with the wider type and casting the result gives the
same bits as casting the inputs and calculating with the narrower type. -/
theorem C101_narrower (h : w' ≤ w) (pr : Profile) (Γ : ℕ → Ty) (hΓ : ∀ i, (Γ i).IsData) (ty : Ty) (hty : ty.IsData)
    (p : Prog Γ ty) (env : (i : ℕ) → (Γ i).type (MInt w false)) :
    p.run pr (fun i => (Γ i).map (MInt.cast w') (hΓ i) (env i)) = (p.run pr env).map (ty.map (MInt.cast w') hty) :=
  Prog.run_map (MInt.hom_truncate h) ((MInt.hom_truncate h).toV valueOpsAgree_mint valueOpsAgree_mint) (fun _ => ResRel.ok rfl) pr hΓ env hty p

end Magnesia
