import Verif.Props.DE
import Verif.Props.IeeeSpecial
import Verif.Proof.IeeeMono
import Verif.Model.DEIeee
import Verif.Spec.DEIeee

/-!
# Property C53: differential evolution with floating point numbers

The optimizer's coordinates are `f32` or `f64` (any format `F` here), the crossover probability an `f32` (any format
`E`).
-/

namespace Magnesia

set_option linter.unusedSectionVars false

open RZero ROne

section generic

variable {T P G S : Type} {N n : ℕ} {env : DEnv T P N G S}
variable [RPartialOrd P] [RZero P] [ROne P] [RPartialOrd T] [FromI8 T] [RAdd T T T] [RSub T T T] [RMul T T T]
variable {bounds : Fin N → T × T} {cp : P} {w : T} {iters : ℕ} {result : Pt T N}

/-- If the answers of a run are those of a strict weak order, the result is best. -/
theorem best_of_explains {better : Pt T N → Pt T N → Bool} (hw : StrictWeak better) {R : DERun T N n} {hn : 0 < n}
    {calls : List (Call T N)} (hR : R.Explains hn bounds cp w iters calls result)
    (ha : ∀ c ∈ calls, c.answer = better c.a c.b) :
    (∀ i, better (R.pop 0 i) result = false) ∧ ∀ call ∈ calls, better call.a result = false ∧ better call.b result = false := by
  -- an environment with `better` as its comparator
  let env' : DEnv T P N Unit Unit := ⟨fun _ g => (.error .emptyRange, g), fun _ _ g => (.error .emptyRange, g),
    fun g => (zero, g), fun a b s => (.ok (better a b), s)⟩
  have hb : env'.Compares better := fun _ _ _ => rfl
  have h2 : env'.Honest calls := fun c hc => ⟨(), by rw [ha c hc]⟩
  obtain ⟨k1, k2⟩ := hR.knockout.best hw fun c hcc => ha c (by rw [hR.calls_eq]; exact List.mem_append_right _ hcc)
  have hlast : ∀ t ≤ iters, ∀ i, better (R.pop t i) result = false := by
    intro t ht i
    have := slots_monotone hb hw hR h2 i (iters - t) t (by omega)
    rw [show t + (iters - t) = iters by omega] at this
    exact hw.negTrans _ _ _ this (k1 _ (Multiset.mem_map.2 ⟨i, Finset.mem_univ_val i, rfl⟩))
  refine ⟨hlast 0 (by omega), fun call hcall => ?_⟩
  rw [hR.calls_eq] at hcall
  rcases List.mem_append.1 hcall with hcall | hcall
  · obtain ⟨t, ht, rfl⟩ := List.mem_map.1 hcall
    have ht' : t < iters := by simpa using ht
    refine ⟨?_, hlast t (by omega) _⟩
    have ha := explains_answer hb hR h2 t ht'
    cases hans : R.answer t with
    | true =>
      have := hlast (t + 1) (by omega) (slot hn t)
      rw [hR.step t ht', hans, if_pos rfl, Function.update_self] at this
      exact this
    | false =>
      rw [hans] at ha
      exact hw.negTrans _ _ _ ha.symm (hlast t (by omega) _)
  · exact k2 call hcall

/-- In the knockout stage only candidates are compared. -/
theorem Knockout.calls_mem {p : Multiset (Pt T N)} {cs : List (Call T N)} {x : Pt T N} (h : Knockout p cs x) :
    ∀ c ∈ cs, c.a ∈ p ∧ c.b ∈ p := by
  induction h with
  | winner x => simp
  | game a b ans p cs x _ ih =>
    intro c hc
    have hsub : ∀ y, y ∈ ((if ans then a else b) ::ₘ p) → y ∈ a ::ₘ b ::ₘ p := by
      intro y hy
      simp only [Multiset.mem_cons] at hy ⊢
      rcases hy with rfl | hy
      · cases ans <;> simp
      · exact .inr (.inr hy)
    rcases List.mem_cons.1 hc with rfl | hc
    · simp
    · exact ⟨hsub _ (ih c hc).1, hsub _ (ih c hc).2⟩

/-- A property of single coordinates that the trial formula preserves holds throughout the run. -/
theorem explains_invariant (I : ℕ → Fin N → T → Prop) {R : DERun T N n} {hn : 0 < n} {calls : List (Call T N)}
    (hR : R.Explains hn bounds cp w iters calls result) (init : ∀ i c, I 0 c (R.pop 0 i c))
    (keep : ∀ t < iters, ∀ c a, I t c a → I (t + 1) c a)
    (make : ∀ t < iters, ∀ c a b d x, I t c a → I t c b → I t c d →
      (do RAdd.add a (← RMul.mul (← RSub.sub b d) w)) = .ok x → I (t + 1) c x) :
    (∀ t ≤ iters, ∀ i c, I t c (R.pop t i c)) ∧ ∀ c, I iters c (result c) := by
  have key : ∀ t ≤ iters, ∀ i c, I t c (R.pop t i c) := by
    intro t
    induction t with
    | zero => intro _; exact init
    | succ t ih =>
      intro ht i c
      rw [hR.step t (by omega)]
      cases R.answer t with
      | false => exact keep t (by omega) _ _ (ih (by omega) i c)
      | true =>
        rw [if_pos rfl]
        by_cases his : i = slot hn t
        · rw [his, Function.update_self]
          obtain ⟨j, k, l, r, m, _, _, hm1, hm2, _⟩ := hR.trial t (by omega)
          cases hmc : m c with
          | true => exact make t (by omega) c _ _ _ _ (ih (by omega) j c) (ih (by omega) k c) (ih (by omega) l c) (hm1 c hmc)
          | false => rw [hm2 c hmc]; exact keep t (by omega) _ _ (ih (by omega) _ c)
        · rw [Function.update_of_ne his]; exact keep t (by omega) _ _ (ih (by omega) i c)
  refine ⟨key, fun c => ?_⟩
  obtain ⟨i, _, hi⟩ := Multiset.mem_map.1 hR.knockout.mem
  rw [← hi]
  exact key iters (le_refl _) i c

end generic

variable {E F V : Fmt} {G S : Type} {N n : ℕ} {env : DEnv (Ieee F) (Ieee E) N G S}
variable {fuel : ℕ} {bounds : Fin N → Ieee F × Ieee F} {cp : Ieee E} {w : Ieee F} {iters : ℕ} {result : Pt (Ieee F) N}
  {s s' : DEWorld (Ieee F) N G S}

namespace Ieee

theorem fle_finite {a b c : Ieee F} (ha : a.Finite) (hc : c.Finite) :
    (fle a b = true ∧ fle b c = true) ↔ b.Finite ∧ a.value ≤ b.value ∧ b.value ≤ c.value := by
  by_cases hb : b.Finite
  · rw [fle_value ha hb, fle_value hb hc]; simp [hb]
  · simp only [hb, false_and, iff_false, not_and]
    intro h1 h2
    cases b with
    | nan => cases a <;> simp [fle, key] at h1
    | inf s => cases s with
      | true => cases a <;> first | exact ha.elim | simp [fle, key] at h1
      | false => cases c <;> first | exact hc.elim | simp [fle, key] at h2
    | zero => exact hb trivial
    | fin => exact hb trivial

end Ieee

theorem fromI8_zero : (FromI8.fromI8 0 : Ieee F) = .zero false := rfl

theorem fromI8_two : (FromI8.fromI8 2 : Ieee F) = .fin 2 two_ne_zero F.representable_two := by
  show (if (2 : ℤ) = 0 then _ else Ieee.round ((2 : ℤ) : ℚ)) = _
  rw [if_neg (by norm_num), Ieee.fin_eq_round]; norm_num

/-- C53: the accepted parameters: at least 4 points, a crossover probability in `[0, 1]` and a weight in `[0, 2]`. `-0`
is accepted, NaN and infinities are not. -/
theorem C53_params (n : ℕ) (cp : Ieee E) (w : Ieee F) : ValidParams n cp w ↔
    4 ≤ n ∧ (cp.Finite ∧ 0 ≤ cp.value ∧ cp.value ≤ 1) ∧ w.Finite ∧ 0 ≤ w.value ∧ w.value ≤ 2 := by
  have h1 := Ieee.fle_finite (a := (zero : Ieee E)) (b := cp) (c := one) trivial trivial
  have h2 := Ieee.fle_finite (a := (.zero false : Ieee F)) (b := w) (c := .fin 2 two_ne_zero F.representable_two) trivial trivial
  constructor
  · rintro ⟨a, b, c, d, e⟩
    rw [fromI8_zero] at d
    rw [fromI8_two] at e
    exact ⟨a, h1.1 ⟨b, c⟩, h2.1 ⟨d, e⟩⟩
  · rintro ⟨a, b, c⟩
    obtain ⟨b1, b2⟩ := h1.2 b
    obtain ⟨c1, c2⟩ := h2.2 c
    exact ⟨a, b1, b2, by rw [fromI8_zero]; exact c1, by rw [fromI8_two]; exact c2⟩

/-- C53: a NaN or infinite crossover probability or weight makes `optimize` panic before anything else happens. -/
theorem C53_nan_params (h : ¬ cp.Finite ∨ ¬ w.Finite) :
    env.optimize fuel bounds n cp w iters s = (.error .assertFailed, s) := by
  refine C37_invalid_parameters fun hv => ?_
  obtain ⟨_, ⟨h1, _⟩, h2, _⟩ := (C53_params n cp w).1 hv
  exact h.elim (fun h => h h1) (fun h => h h2)

/-- C53: floating point arithmetic never panics, so (C37, C42) the optimizer returns for all valid parameters. -/
theorem C53_arith : DEnv.Arith (Ieee F) := fun _ _ _ _ => ⟨_, rfl⟩

/-- Not NaN, and better if smaller: NaN counts as worst. -/
def nanLast (f : α → Ieee V) (a b : α) : Bool :=
  if f a = .nan then false else if f b = .nan then true else (f a).flt (f b)

theorem Ieee.flt_nan_left (a : Ieee V) : flt .nan a = false := by cases a <;> rfl
theorem Ieee.flt_nan_right (a : Ieee V) : flt a .nan = false := by
  unfold flt; cases a.key <;> rfl

theorem Ieee.key_some {a : Ieee V} (h : a ≠ .nan) : ∃ k, a.key = some k := by
  cases a with
  | nan => exact (h rfl).elim
  | inf s => cases s <;> exact ⟨_, rfl⟩
  | zero => exact ⟨_, rfl⟩
  | fin => exact ⟨_, rfl⟩

theorem Ieee.not_flt {a b : Ieee V} (ha : a ≠ .nan) (hb : b ≠ .nan) : flt a b = false ↔ fle b a = true := by
  obtain ⟨⟨k1, k2⟩, hk⟩ := key_some ha
  obtain ⟨⟨l1, l2⟩, hl⟩ := key_some hb
  simp only [flt, fle, hk, hl, decide_eq_false_iff_not, decide_eq_true_eq]
  constructor
  · intro h
    simp only [not_or, not_lt, not_and] at h
    rcases lt_or_eq_of_le h.1 with h1 | h1
    · exact .inl h1
    · exact .inr ⟨h1, h.2 h1.symm⟩
  · rintro (h | ⟨h, h'⟩) (g | ⟨g, g'⟩)
    · omega
    · omega
    · omega
    · linarith

theorem Ieee.fle_trans {a b c : Ieee V} (h1 : fle a b = true) (h2 : fle b c = true) : fle a c = true := by
  have hn : a ≠ .nan ∧ b ≠ .nan ∧ c ≠ .nan := by
    refine ⟨?_, ?_, ?_⟩
    · rintro rfl; simp [fle, key] at h1
    · rintro rfl; simp [fle, key] at h2
    · rintro rfl; unfold fle at h2; cases hb : b.key <;> simp [key] at h2
  obtain ⟨⟨k1, k2⟩, hk⟩ := key_some hn.1
  obtain ⟨⟨l1, l2⟩, hl⟩ := key_some hn.2.1
  obtain ⟨⟨m1, m2⟩, hm⟩ := key_some hn.2.2
  simp only [fle, hk, hl, hm, decide_eq_true_eq] at *
  rcases h1 with h1 | ⟨h1, h1'⟩ <;> rcases h2 with h2 | ⟨h2, h2'⟩
  · left; omega
  · left; omega
  · left; omega
  · right; exact ⟨by omega, by linarith⟩

theorem Ieee.flt_asymm {a b : Ieee V} (h : flt a b = true) : flt b a = false := by
  by_cases ha : a = .nan
  · rw [ha, flt_nan_left] at h; cases h
  by_cases hb : b = .nan
  · rw [hb, flt_nan_right] at h; cases h
  rw [not_flt hb ha]
  obtain ⟨⟨k1, k2⟩, hk⟩ := key_some ha
  obtain ⟨⟨l1, l2⟩, hl⟩ := key_some hb
  simp only [flt, fle, hk, hl, decide_eq_true_eq] at *
  rcases h with h | ⟨h, h'⟩
  · exact .inl h
  · exact .inr ⟨h, h'.le⟩

theorem nanLast_strictWeak {α : Type} (f : α → Ieee V) : StrictWeak (nanLast f) where
  asymm a b h := by
    unfold nanLast at *
    split_ifs at h ⊢ <;> first | rfl | contradiction | exact Ieee.flt_asymm h
  negTrans a b c h1 h2 := by
    unfold nanLast at *
    split_ifs at h1 h2 ⊢ <;> first | rfl | contradiction | skip
    rename_i ha hc hb
    rw [Ieee.not_flt ha hb] at h1
    rw [Ieee.not_flt hb hc] at h2
    rw [Ieee.not_flt ha hc]
    exact Ieee.fle_trans h2 h1

/-- C53: the documented use: the comparator is `f(a) < f(b)` with a floating point objective `f`. If the objective is
not NaN at the initial points (it may be NaN anywhere else), then it is not NaN at the returned point, and it is at most
the objective at every initial point and at every point passed to the comparator where it is not NaN. -/
theorem C53_minimum (f : Pt (Ieee F) N → Ieee V) (hc : env.RandContract)
    (hb : env.Compares (fun a b => RPartialOrd.lt (f a) (f b)))
    (initial : Fin n → Pt (Ieee F) N) (hi : env.Drawn bounds s.rng initial) (hf : ∀ i, f (initial i) ≠ .nan)
    (h : env.optimize fuel bounds n cp w iters s = (.ok result, s')) :
    f result ≠ .nan ∧ (∀ i, RPartialOrd.le (f result) (f (initial i)) = true) ∧
    ∃ calls, s'.log = s.log ++ calls ∧ ∀ call ∈ calls, f call.b ≠ .nan ∧
      RPartialOrd.le (f result) (f call.b) = true ∧ (f call.a ≠ .nan → RPartialOrd.le (f result) (f call.a) = true) := by
  obtain ⟨hn, R, calls, h1, h2, h3, h4, _⟩ := DEnv.optimize_ok hc h
  obtain rfl := drawn_unique hi h3
  -- no slot ever becomes NaN
  have hnan : ∀ t ≤ iters, ∀ i, f (R.pop t i) ≠ .nan := by
    intro t
    induction t with
    | zero => intro _; exact hf
    | succ t ih =>
      intro ht i
      rw [h4.step t (by omega)]
      have ha := explains_answer hb h4 h2 t (by omega)
      cases hans : R.answer t with
      | false => exact ih (by omega) i
      | true =>
        rw [if_pos rfl]
        by_cases his : i = slot hn t
        · rw [his, Function.update_self]
          intro hx
          rw [hans] at ha
          have : RPartialOrd.lt (f (R.trial t)) (f (R.pop t (slot hn t))) = false := by
            rw [hx]; exact Ieee.flt_nan_left _
          rw [this] at ha
          cases ha
        · rw [Function.update_of_ne his]; exact ih (by omega) i
  have hpop : ∀ y ∈ (Finset.univ.val.map (R.pop iters) : Multiset _), f y ≠ .nan := by
    intro y hy
    obtain ⟨i, _, rfl⟩ := Multiset.mem_map.1 hy
    exact hnan iters le_rfl i
  have hbn : ∀ c ∈ calls, f c.b ≠ .nan := by
    intro c hcc
    rw [h4.calls_eq] at hcc
    rcases List.mem_append.1 hcc with hcc | hcc
    · obtain ⟨t, ht, rfl⟩ := List.mem_map.1 hcc
      exact hnan t (by have : t < iters := by simpa using ht
                       omega) _
    · exact hpop _ (h4.knockout.calls_mem c hcc).2
  have ha : ∀ c ∈ calls, c.answer = nanLast f c.a c.b := by
    intro c hcc
    rw [honest_better hb h2 c hcc]
    unfold nanLast
    rw [if_neg (hbn c hcc)]
    split_ifs with hx
    · rw [hx]; exact Ieee.flt_nan_left _
    · rfl
  obtain ⟨k1, k2⟩ := best_of_explains (nanLast_strictWeak f) h4 ha
  have hres : f result ≠ .nan := hpop _ h4.knockout.mem
  have fin : ∀ y, f y ≠ .nan → nanLast f y result = false → RPartialOrd.le (f result) (f y) = true := by
    intro y hy h
    unfold nanLast at h
    rw [if_neg hy, if_neg hres] at h
    exact (Ieee.not_flt hy hres).1 h
  refine ⟨hres, fun i => fin _ (hf i) (k1 i), calls, h1, fun call hcall => ⟨hbn _ hcall, ?_, fun hx => ?_⟩⟩
  · exact fin _ (hbn _ hcall) (k2 call hcall).2
  · exact fin _ hx (k2 call hcall).1

/-- `a <= b` and `b < c` for finite `a` and `c`. -/
theorem Ieee.between_finite {a b c : Ieee F} (ha : a.Finite) (hc : c.Finite) (h1 : fle a b = true) (h2 : flt b c = true) :
    b.Finite ∧ a.value ≤ b.value ∧ b.value < c.value := by
  have hb : b.Finite := by
    cases b with
    | nan => cases a <;> simp [fle, key] at h1
    | inf s => cases s with
      | true => cases a <;> first | exact ha.elim | simp [fle, key] at h1
      | false => cases c <;> first | exact hc.elim | simp [flt, key] at h2
    | zero => exact trivial
    | fin => exact trivial
  exact ⟨hb, (fle_value ha hb).1 h1, (flt_value hb hc).1 h2⟩

/-- The trial formula in floating point arithmetic. -/
theorem trial_ieee {a b d x : Ieee F} (h : (do RAdd.add a (← RMul.mul (← RSub.sub b d) w)) = .ok x) :
    x = a.add ((b.sub d).mul w) := (Except.ok.inj h).symm

/-- C53: with weight zero (of either sign) the returned point lies within the bounds, if the bounds are finite numbers
and their differences do not overflow. -/
theorem C53_weight_zero (hc : env.RandContract) (h : env.optimize fuel bounds n cp w iters s = (.ok result, s'))
    (hw : w.value = 0) (c : Fin N) (h1 : (bounds c).1.Finite) (h2 : (bounds c).2.Finite)
    (h3 : ((bounds c).2.sub (bounds c).1).Finite) :
    RPartialOrd.le (bounds c).1 (result c) = true ∧ RPartialOrd.lt (result c) (bounds c).2 = true := by
  obtain ⟨_, _, hwf, _⟩ := (C53_params n cp w).1 (C37_valid_of_returns h)
  obtain ⟨hn, R, calls, _, _, _, h4, _⟩ := DEnv.optimize_ok hc h
  have hb : ∀ x : Ieee F, ((bounds c).1.fle x = true ∧ x.flt (bounds c).2 = true) ↔
      x.Finite ∧ (bounds c).1.value ≤ x.value ∧ x.value < (bounds c).2.value := fun x =>
    ⟨fun ⟨g1, g2⟩ => Ieee.between_finite h1 h2 g1 g2,
      fun ⟨g1, g2, g3⟩ => ⟨(Ieee.fle_value h1 g1).2 g2, (Ieee.flt_value g1 h2).2 g3⟩⟩
  refine (hb _).2 ((explains_invariant (fun _ c' (x : Ieee F) => c' = c → x.Finite ∧ (bounds c).1.value ≤ x.value ∧
    x.value < (bounds c).2.value) h4 ?_ (fun _ _ _ _ h => h) ?_).2 c rfl)
  · rintro i c' rfl
    exact (hb _).1 (h4.initial i c')
  · rintro t _ c' a b d x ha hb' hd hx rfl
    obtain ⟨a1, a2, a3⟩ := ha rfl
    obtain ⟨b1, b2, b3⟩ := hb' rfl
    obtain ⟨d1, d2, d3⟩ := hd rfl
    rw [trial_ieee hx]
    have hs : (b.sub d).Finite := by
      rw [Ieee.sub_finite_iff b1 d1]
      rw [Ieee.sub_finite_iff h2 h1] at h3
      refine lt_of_le_of_lt (F.abs_roundQ_mono ?_) h3
      rw [abs_of_pos (by linarith : 0 < (bounds c').2.value - (bounds c').1.value), abs_le]
      constructor <;> linarith
    obtain ⟨m1, m2⟩ := Ieee.mul_zero_value hs hwf (.inr hw)
    obtain ⟨r1, r2⟩ := Ieee.add_value_zero a1 m1 m2
    rw [r2]
    exact ⟨r1, a2, a3⟩

theorem Fmt.growth_nonneg (F : Fmt) {w M : ℚ} (hw : 0 ≤ w) (hM : 0 ≤ M) : ∀ t, 0 ≤ F.growth w M t
  | 0 => hM
  | t + 1 => by
    have h1 := F.u_pos
    have h2 := F.η_pos
    have h3 := F.growth_nonneg hw hM t
    unfold growth
    positivity

theorem Fmt.growth_succ (F : Fmt) {w M : ℚ} (hw : 0 ≤ w) (hM : 0 ≤ M) (t : ℕ) : F.growth w M t ≤ F.growth w M (t + 1) := by
  have h1 := F.u_pos
  have h2 := F.η_pos
  have h3 := F.growth_nonneg hw hM t
  show _ ≤ (1 + F.u) ^ 3 * (1 + 2 * w) * F.growth w M t + (1 + F.u) * F.η
  have h4 : 1 ≤ (1 + F.u) ^ 3 * (1 + 2 * w) := one_le_mul_of_one_le_of_one_le (one_le_pow₀ (by linarith)) (by linarith)
  have h5 : 0 ≤ (1 + F.u) * F.η := by positivity
  nlinarith

theorem Fmt.growth_mono (F : Fmt) {w M : ℚ} (hw : 0 ≤ w) (hM : 0 ≤ M) {t t' : ℕ} (h : t ≤ t') :
    F.growth w M t ≤ F.growth w M t' := monotone_nat_of_le_succ (F.growth_succ hw hM) h

theorem Fmt.abs_roundQ_le_any (F : Fmt) (x : ℚ) : |F.roundQ x| ≤ (1 + F.u) * |x| + F.η := by
  have h1 := F.roundQ_err_any x
  have h2 := abs_add_le (F.roundQ x - x) x
  rw [sub_add_cancel] at h2
  linarith

theorem Fmt.abs_roundQ_add_le (F : Fmt) {x y : ℚ} (hx : F.Representable x) (hy : F.Representable y) :
    |F.roundQ (x + y)| ≤ (1 + F.u) * |x + y| := by
  have h1 := F.roundQ_add_err hx hy
  have h2 := abs_add_le (F.roundQ (x + y) - (x + y)) (x + y)
  rw [sub_add_cancel] at h2
  linarith

/-- C53: how far coordinates can run away: if both bounds of a coordinate have magnitude at most `M`, the coordinate of
the returned point - and of all points in between - is finite and has magnitude at most `growth w M iters`, provided that
this is below half the overflow threshold. -/
theorem C53_finite (hc : env.RandContract) (h : env.optimize fuel bounds n cp w iters s = (.ok result, s'))
    (c : Fin N) (M : ℚ) (h1 : (bounds c).1.Finite) (h2 : (bounds c).2.Finite) (hM1 : |(bounds c).1.value| ≤ M)
    (hM2 : |(bounds c).2.value| ≤ M) (hov : F.growth w.value M iters < 2 ^ F.emax) :
    (result c).Finite ∧ |(result c).value| ≤ F.growth w.value M iters := by
  obtain ⟨_, _, hwf, hw0, _⟩ := (C53_params n cp w).1 (C37_valid_of_returns h)
  have hM : 0 ≤ M := (abs_nonneg _).trans hM1
  obtain ⟨hn, R, calls, _, _, _, h4, _⟩ := DEnv.optimize_ok hc h
  refine (explains_invariant (fun t c' x => c' = c → x.Finite ∧ |x.value| ≤ F.growth w.value M t) h4 ?_ ?_ ?_).2 c rfl
  · rintro i c' rfl
    obtain ⟨g1, g2⟩ := h4.initial i c'
    obtain ⟨g3, g4, g5⟩ := Ieee.between_finite h1 h2 g1 g2
    refine ⟨g3, abs_le.2 ⟨?_, ?_⟩⟩
    · have := (abs_le.1 hM1).1; show -M ≤ _; linarith
    · have := (abs_le.1 hM2).2; show _ ≤ M; linarith
  · rintro t _ c' a ha rfl
    exact ⟨(ha rfl).1, (ha rfl).2.trans (F.growth_succ hw0 hM t)⟩
  · rintro t ht c' a b d x ha hb hd hx rfl
    obtain ⟨a1, a2⟩ := ha rfl
    obtain ⟨b1, b2⟩ := hb rfl
    obtain ⟨d1, d2⟩ := hd rfl
    rw [trial_ieee hx]
    have hg : F.growth w.value M (t + 1) < 2 ^ F.emax := lt_of_le_of_lt (F.growth_mono hw0 hM ht) hov
    have hB := F.growth_nonneg hw0 hM t
    have hu := F.u_pos
    have hη := F.η_pos
    have hpow : (2 : ℚ) ^ (F.emax + 1) = 2 * 2 ^ F.emax := by rw [zpow_add_one₀ (by norm_num), mul_comm]
    rw [Fmt.growth] at hg ⊢
    generalize F.growth w.value M t = B at *
    have q1 : 0 ≤ B * w.value := mul_nonneg hB hw0
    have q2 : 0 ≤ F.u * (B * w.value) := mul_nonneg hu.le q1
    have q3 : 0 ≤ F.u * (F.u * (B * w.value)) := mul_nonneg hu.le q2
    have q4 : 0 ≤ F.u * (F.u * (F.u * (B * w.value))) := mul_nonneg hu.le q3
    have q5 : 0 ≤ F.u * B := mul_nonneg hu.le hB
    have q6 : 0 ≤ F.u * (F.u * B) := mul_nonneg hu.le q5
    have q7 : 0 ≤ F.u * (F.u * (F.u * B)) := mul_nonneg hu.le q6
    have q8 : 0 ≤ F.u * F.η := by positivity
    -- the difference
    have e1 : |F.roundQ (b.value - d.value)| ≤ (1 + F.u) * (2 * B) := by
      have := F.abs_roundQ_add_le (Ieee.value_representable b) (F.representable_neg (Ieee.value_representable d))
      rw [← sub_eq_add_neg] at this
      refine this.trans (mul_le_mul_of_nonneg_left ?_ (by linarith))
      have := abs_sub b.value d.value
      linarith
    have f1 : (b.sub d).Finite := by
      rw [Ieee.sub_finite_iff b1 d1, hpow]
      nlinarith
    have v1 := (Ieee.sub_finite f1).2.2
    rw [← v1] at e1
    -- the product
    have e2 : |F.roundQ ((b.sub d).value * w.value)| ≤ (1 + F.u) * ((1 + F.u) * (2 * B) * w.value) + F.η := by
      refine (F.abs_roundQ_le_any _).trans ?_
      rw [abs_mul, abs_of_nonneg hw0]
      have := mul_le_mul_of_nonneg_right e1 hw0
      have := mul_le_mul_of_nonneg_left this (by linarith : 0 ≤ 1 + F.u)
      linarith
    have f2 : ((b.sub d).mul w).Finite := by
      rw [Ieee.mul_finite_iff f1 hwf, hpow]
      nlinarith
    have v2 := (Ieee.mul_finite f2).2.2
    rw [← v2] at e2
    -- the sum
    have e3 : |F.roundQ (a.value + ((b.sub d).mul w).value)| ≤ (1 + F.u) ^ 3 * (1 + 2 * w.value) * B + (1 + F.u) * F.η := by
      refine (F.abs_roundQ_add_le (Ieee.value_representable _) (Ieee.value_representable _)).trans ?_
      have h5 := abs_add_le a.value ((b.sub d).mul w).value
      have h6 : |a.value + ((b.sub d).mul w).value| ≤ B + ((1 + F.u) * ((1 + F.u) * (2 * B) * w.value) + F.η) := by linarith
      refine (mul_le_mul_of_nonneg_left h6 (by linarith : 0 ≤ 1 + F.u)).trans ?_
      nlinarith
    have f3 : (a.add ((b.sub d).mul w)).Finite := by
      rw [Ieee.add_finite_iff a1 f2, hpow]
      have : (0 : ℚ) < 2 ^ F.emax := by positivity
      linarith
    refine ⟨f3, ?_⟩
    rw [(Ieee.add_finite f3).2.2]
    exact e3

/-! ### Examples -/

/-- A generator for `f64` coordinates and `f32` probabilities: a counter; `gen_range(lo..hi)` gives `lo`, or 1 where that
is possible, alternately. The objective is the first coordinate squared, minus the second. -/
def demoF : DEnv (Ieee .f64) (Ieee .f32) 2 ℕ Unit where
  genIndex n g := (if n = 0 then .error .emptyRange else .ok (g % n), g + 1)
  genUniform lo hi g := (if lo.flt hi then .ok (if g % 2 = 1 ∧ lo.fle one ∧ (one : Ieee .f64).flt hi then one else lo)
    else .error .emptyRange, g + 1)
  genUnit g := (.zero false, g + 1)
  compare a b s := (.ok ((((a 0).mul (a 0)).sub (a 1)).flt (((b 0).mul (b 0)).sub (b 1))), s)

theorem demoF_contract : demoF.RandContract where
  index_empty g := rfl
  index_returns n g hn := ⟨g % n, if_neg (by omega)⟩
  index_range n g k h := by
    unfold demoF at h
    by_cases hn : n = 0
    · simp [hn] at h
    · simp [hn] at h
      rw [← h]; exact Nat.mod_lt _ (by omega)
  uniform_empty lo hi g h := if_neg (by rw [show lo.flt hi = false from h]; simp)
  uniform_range lo hi g x h := by
    change (if lo.flt hi = true then Except.ok (if g % 2 = 1 ∧ lo.fle one ∧ (one : Ieee .f64).flt hi then one else lo)
      else Except.error Panic.emptyRange) = .ok x at h
    show lo.fle x = true ∧ x.flt hi = true
    split_ifs at h with h1 h2
    · cases h; exact h2.2
    · cases h
      refine ⟨?_, h1⟩
      have hn : lo ≠ .nan := by rintro rfl; rw [Ieee.flt_nan_left] at h1; cases h1
      obtain ⟨k, hk⟩ := Ieee.key_some hn
      simp [Ieee.fle, hk]
  unit_range _ := by
    show (Ieee.zero false : Ieee .f32).flt (.zero false) = false ∧ (Ieee.zero false : Ieee .f32).flt one = true
    decide +kernel

/-- The bounds of the example: `-2..3`. -/
def boundsF : Fin 2 → Ieee .f64 × Ieee .f64 := fun _ => (f64 (-2), f64 3)

theorem demoF_fair : demoF.Fair := by
  have hd : ∀ m n g, demoF.afterDraws n m g = demo.afterDraws n m g := by
    intro m
    induction m with
    | zero => intro n g; rfl
    | succ m ih => intro n g; exact ih _ _
  intro n g a ha
  obtain ⟨m, hm⟩ := demo_fair n g a ha
  exact ⟨m, by rw [hd]; exact hm⟩

theorem demoF_genuine : demoF.Genuine where
  cmp a b s h := by cases h
  uniform lo hi g h := by
    simp only [demoF] at h
    split at h <;> cases h
  arith a b c w h := by cases h

/-- The hypotheses of the theorems above are met: `optimize` with bounds `-2..3`, 4 points, crossover probability and
weight `1/2` returns, for any number of iterations. -/
theorem demoF_returns (iters : ℕ) (s : DEWorld (Ieee .f64) 2 ℕ Unit) : ∃ L result s', ∀ fuel, L ≤ fuel →
    demoF.optimize fuel boundsF 4 (f32 (1 / 2)) (f64 (1 / 2)) iters s = (.ok result, s') :=
  C42_returns (bounds := boundsF) demoF_contract demoF_fair demoF_genuine C53_arith (fun _ _ _ => ⟨_, rfl⟩)
    ((C53_params _ _ _).2 (by decide +kernel))
    (fun _ g => ⟨_, if_pos (show (f64 (-2)).flt (f64 3) = true by decide +kernel)⟩) (.inl (by omega)) s

example : ValidParams 4 (f32 (1 / 2)) (f64 (1 / 2)) := (C53_params _ _ _).2 (by decide +kernel)
example : ValidParams 4 (.zero true : Ieee .f32) (.zero true : Ieee .f64) := (C53_params _ _ _).2 (by decide +kernel)
example : Fmt.f64.growth (1 / 2) 3 5 < 2 ^ Fmt.f64.emax := by decide +kernel

end Magnesia
