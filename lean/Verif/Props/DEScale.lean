import Verif.Spec.DEScale
import Verif.Proof.DERef
import Verif.Proof.Scale
import Verif.Props.DERel
import Verif.Props.DEIeee
import Verif.Proof.IeeeLaws

/-!
# C80 (units) and C54 (mirror images) for the optimizer over floating point numbers
-/

namespace Magnesia

set_option linter.unusedSectionVars false

open RZero ROne

variable {F : Fmt} {P G G' S S' : Type} {N n : ℕ} [RPartialOrd P] [RZero P] [ROne P]

private theorem trap_fromI8 {z : ℤ} (h : (FromI8.fromI8 z : Ieee F).Finite) : (FromI8.fromI8 z : Trap F true).val = FromI8.fromI8 z := by
  show (if h : (FromI8.fromI8 z : Ieee F).Finite then (⟨_, h⟩ : Trap F true) else RZero.zero).val = _
  rw [dif_pos h]

private theorem trap_weight (w : Trap F true) :
    (RPartialOrd.le (FromI8.fromI8 0) w && RPartialOrd.le w (FromI8.fromI8 2)) =
    (RPartialOrd.le (FromI8.fromI8 0) w.val && RPartialOrd.le w.val (FromI8.fromI8 2)) := by
  show (Ieee.fle (FromI8.fromI8 0 : Trap F true).val w.val && Ieee.fle w.val (FromI8.fromI8 2 : Trap F true).val) = _
  rw [trap_fromI8 (by rw [fromI8_zero]; trivial), trap_fromI8 (by rw [fromI8_two]; trivial)]
  rfl

/-- A run without exceptions is a run. -/
private theorem trapped_tracks (env : DEnv (Ieee F) P N G S) (bounds : Fin N → Trap F true × Trap F true) (w : Trap F true) :
    env.trapped.Tracks true (fun _ x y => y = x.val) (fun a b => a = b) (fun a b => a = b) env bounds
      (fun c => ((bounds c).1.val, (bounds c).2.val)) w w.val where
  weight := trap_weight w
  index := by rintro n g _ rfl; exact ⟨rfl, rfl⟩
  unit := by rintro g _ rfl; exact ⟨rfl, rfl⟩
  uniform := by
    rintro c g _ rfl
    refine ⟨?_, rfl⟩
    show EndsIf true _ ((env.genUniform (bounds c).1.val (bounds c).2.val g).1.bind Trap.retF) _
    cases (env.genUniform (bounds c).1.val (bounds c).2.val g).1 with
    | error e => trivial
    | ok x =>
      show EndsIf true _ (Trap.retF x) _
      cases h : (Trap.retF x : Res (Trap F true)) with
      | error e => trivial
      | ok y => exact (Trap.retF_ok h).2.symm
  arith := by
    rintro c x y z _ _ _ rfl rfl rfl
    cases h : (do RAdd.add x (← RMul.mul (← RSub.sub y z) w) : Res (Trap F true)) with
    | error e => trivial
    | ok r =>
      obtain ⟨d, h1, h⟩ := bind_ok h
      obtain ⟨p, h2, h⟩ := bind_ok h
      show x.val.add (Ieee.mul (Ieee.sub y.val z.val) w.val) = r.val
      rw [Trap.add_val h, Trap.mul_val h2, Trap.sub_val h1]
  compare := by
    intro a b a' b' s s' ha hb hs
    obtain rfl : a' = Pt.vals a := funext ha
    obtain rfl : b' = Pt.vals b := funext hb
    subst hs
    exact ⟨rfl, rfl⟩

private theorem trapped_run {env : DEnv (Ieee F) P N G S} {fuel : ℕ} {bounds : Fin N → Trap F true × Trap F true} {cp : P}
    {w : Trap F true} {iters : ℕ} {g : G} {c : S} {x : Pt (Trap F true) N} {s : DEWorld (Trap F true) N G S}
    (h : env.trapped.optimize fuel bounds n cp w iters ⟨g, c, []⟩ = (.ok x, s)) :
    env.optimize fuel (fun c => ((bounds c).1.val, (bounds c).2.val)) n cp w.val iters ⟨g, c, []⟩ =
      (.ok x.vals, ⟨s.rng, s.cmp, s.log.map Call.vals⟩) := by
  obtain ⟨h1, h2⟩ := (trapped_tracks env bounds w).optimize_ref (n := n) (cp := cp) fuel iters ⟨g, c, []⟩ ⟨g, c, []⟩ ⟨rfl, rfl, .nil⟩
  rw [h] at h1 h2
  rcases e : env.optimize fuel (fun c => ((bounds c).1.val, (bounds c).2.val)) n cp w.val iters ⟨g, c, []⟩ with ⟨e' | y, t⟩
  · rw [e] at h1
    exact absurd h1 (by simp [EndsIf])
  · rw [e] at h1 h2
    obtain ⟨t1, t2, t3⟩ := h2 x y rfl rfl
    have hy : y = x.vals := funext h1
    have hlog : t.log = s.log.map Call.vals := by
      clear h h1 h2 e hy
      revert t3
      generalize s.log = l
      generalize t.log = l'
      intro t3
      induction t3 with
      | nil => rfl
      | @cons c c' _ _ hc _ ih =>
        rw [List.map_cons, ← ih]
        congr 1
        obtain ⟨a, b, ans⟩ := c
        obtain ⟨a', b', ans'⟩ := c'
        obtain ⟨q1, q2, q3⟩ := hc
        obtain rfl : a' = Pt.vals a := funext q1
        obtain rfl : b' = Pt.vals b := funext q2
        obtain rfl : ans = ans' := q3
        rfl
    rw [hy, ← hlog, show s.rng = t.rng from t1, show s.cmp = t.cmp from t2]

/-- The optimizer over `f32` or `f64`: measure coordinate `c` in units that differ by the factor `2^(k c)`. If the generators deliver the
same numbers up to these factors and the comparators compare the scaled points alike, and if in neither run anything overflows or
underflows, both runs return, the same comparisons are made, and all points compared and the result differ by exactly these factors. -/
theorem C80_optimize (k : Fin N → ℤ) {RG : G → G' → Prop} {RS : S → S' → Prop} {env : DEnv (Ieee F) P N G S}
    {env' : DEnv (Ieee F) P N G' S'} {bounds bounds' : Fin N → Trap F true × Trap F true} {cp : P} {w : Trap F true} {fuel iters : ℕ}
    (hs : env.Corresponds (fun c => Ieee.Scaled (k c)) RG RS env' (fun c => ((bounds c).1.val, (bounds c).2.val))
      (fun c => ((bounds' c).1.val, (bounds' c).2.val)))
    {g : G} {g' : G'} (hg : RG g g') {c : S} {c' : S'} (hc : RS c c') {x x' : Pt (Trap F true) N} {s : DEWorld (Trap F true) N G S}
    {s' : DEWorld (Trap F true) N G' S'} (h : env.trapped.optimize fuel bounds n cp w iters ⟨g, c, []⟩ = (.ok x, s))
    (h' : env'.trapped.optimize fuel bounds' n cp w iters ⟨g', c', []⟩ = (.ok x', s')) :
    env.optimize fuel (fun c => ((bounds c).1.val, (bounds c).2.val)) n cp w.val iters ⟨g, c, []⟩ =
      (.ok x.vals, ⟨s.rng, s.cmp, s.log.map Call.vals⟩) ∧
    env'.optimize fuel (fun c => ((bounds' c).1.val, (bounds' c).2.val)) n cp w.val iters ⟨g', c', []⟩ =
      (.ok x'.vals, ⟨s'.rng, s'.cmp, s'.log.map Call.vals⟩) ∧
    PtRel (fun c => Ieee.Scaled (k c)) x.vals x'.vals ∧
    List.Forall₂ (CallRel fun c => Ieee.Scaled (k c)) (s.log.map Call.vals) (s'.log.map Call.vals) ∧ RG s.rng s'.rng ∧ RS s.cmp s'.cmp := by
  refine ⟨trapped_run h, trapped_run h', ?_⟩
  have ht : env.trapped.Tracks false (fun c (x x' : Trap F true) => x.val.Scaled (k c) x'.val) RG RS env'.trapped bounds bounds' w w := {
    weight := rfl
    index := hs.index
    unit := hs.unit
    uniform := by
      intro c g g' hg
      obtain ⟨u1, u2⟩ := hs.uniform c g g' hg
      refine ⟨?_, u2⟩
      show EndsIf false _ ((env.genUniform (bounds c).1.val (bounds c).2.val g).1.bind Trap.retF)
        ((env'.genUniform (bounds' c).1.val (bounds' c).2.val g').1.bind Trap.retF)
      refine (EndsIf.ofSame u1).bind fun a b hab => ?_
      cases e : (Trap.retF a : Res (Trap F true)) with
      | error e => trivial
      | ok y =>
        cases e' : (Trap.retF b : Res (Trap F true)) with
        | error e => rfl
        | ok y' =>
          show y.val.Scaled (k c) y'.val
          rw [(Trap.retF_ok e).2, (Trap.retF_ok e').2]
          exact hab
    arith := by
      intro c x y z x' y' z' hx hy hz
      cases e : (do RAdd.add x (← RMul.mul (← RSub.sub y z) w) : Res (Trap F true)) with
      | error e => trivial
      | ok r =>
        cases e' : (do RAdd.add x' (← RMul.mul (← RSub.sub y' z') w) : Res (Trap F true)) with
        | error e => rfl
        | ok r' =>
          obtain ⟨d, h1, h⟩ := bind_ok e
          obtain ⟨p, h2, h⟩ := bind_ok h
          obtain ⟨d', h1', h'⟩ := bind_ok e'
          obtain ⟨p', h2', h'⟩ := bind_ok h'
          refine Trap.scaled_add hx ?_ h h'
          have hw : w.val.Scaled 0 w.val := by
            have := w.finite
            match w.val, this with
            | .zero s, _ => rfl
            | .fin x _ _, _ => show x = x * 2 ^ (0 : ℤ); rw [zpow_zero, mul_one]
          have := Trap.scaled_mul (Trap.scaled_sub hy hz h1 h1') hw h2 h2'
          rwa [add_zero] at this
    compare := fun a b a' b' s s' ha hb hss => hs.compare _ _ _ _ s s' ha hb hss }
  obtain ⟨h1, h2⟩ := ht.optimize_ref (n := n) (cp := cp) fuel iters ⟨g, c, []⟩ ⟨g', c', []⟩ ⟨hg, hc, .nil⟩
  rw [h, h'] at h1 h2
  obtain ⟨t1, t2, t3⟩ := h2 x x' rfl rfl
  refine ⟨h1, ?_, t1, t2⟩
  rw [List.forall₂_map_left_iff, List.forall₂_map_right_iff]
  exact t3.imp fun _ _ hc => ⟨hc.1, hc.2.1, hc.2.2⟩

private theorem mirrored_arith {m : Bool} {x y z x' y' z' w : Ieee F} (hx : x.Mirrored m x') (hy : y.Mirrored m y')
    (hz : z.Mirrored m z') : (x.add ((y.sub z).mul w)).Mirrored m (x'.add ((y'.sub z').mul w)) := by
  unfold Ieee.Mirrored at *
  have h1 := hx.add ((hy.sub hz).mul (Or.inl rfl : w.Same w))
  cases m with
  | false => exact h1
  | true =>
    simp only [if_true] at h1 ⊢
    refine h1.trans ?_
    have h2 : ((y.neg.sub z.neg).mul w).Same ((y.sub z).mul w).neg := by
      rw [← Ieee.neg_mul]
      exact (Ieee.neg_add y z.neg).mul (Or.inl rfl)
    exact (Ieee.Same.add (Or.inl rfl) h2).trans (Ieee.neg_add _ _)

/-- C54: mirror images, over `f32` or `f64`, NaN and infinities included: mirror the coordinates `c` with `m c`. If the generator delivers
mirrored numbers and the comparator compares mirrored points as the original ones, the run is the mirrored run (up to signs of zeros):
same panics, same comparisons, mirrored points and result. -/
theorem C54_mirror (m : Fin N → Bool) {RG : G → G' → Prop} {RS : S → S' → Prop} {env : DEnv (Ieee F) P N G S}
    {env' : DEnv (Ieee F) P N G' S'} {bounds bounds' : Fin N → Ieee F × Ieee F} {cp : P} {w : Ieee F} {fuel iters : ℕ}
    (hs : env.Corresponds (fun c => Ieee.Mirrored (m c)) RG RS env' bounds bounds') {g : G} {g' : G'} (hg : RG g g') {c : S} {c' : S'}
    (hc : RS c c') :
    let r := env.optimize fuel bounds n cp w iters ⟨g, c, []⟩
    let r' := env'.optimize fuel bounds' n cp w iters ⟨g', c', []⟩
    SameEnd (PtRel fun c => Ieee.Mirrored (m c)) r.1 r'.1 ∧ List.Forall₂ (CallRel fun c => Ieee.Mirrored (m c)) r.2.log r'.2.log ∧
      RG r.2.rng r'.2.rng ∧ RS r.2.cmp r'.2.cmp := by
  refine C54_alike ⟨rfl, hs.index, hs.unit, hs.uniform, ?_, hs.compare⟩ g g' hg c c' hc
  intro c x y z x' y' z' hx hy hz
  show Ieee.Mirrored (m c) (x.add ((y.sub z).mul w)) (x'.add ((y'.sub z').mul w))
  exact mirrored_arith hx hy hz

end Magnesia
