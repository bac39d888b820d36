import Verif.Proof.DEGrid
import Verif.Proof.IntFloat
import Verif.Props.DEIeee

/-!
# Property C83: a search on a grid is exact in floating point
-/

namespace Magnesia

set_option linter.unusedSectionVars false

open RZero ROne

section General

variable {T T' P G G' S S' : Type} {N n : ℕ} {env : DEnv T P N G S} {env' : DEnv T' P N G' S'}
variable [RPartialOrd P] [RZero P] [ROne P] [RPartialOrd T] [FromI8 T] [RAdd T T T] [RSub T T T] [RMul T T T]
variable [RPartialOrd T'] [FromI8 T'] [RAdd T' T' T'] [RSub T' T' T'] [RMul T' T' T']
variable {fuel : ℕ} {bounds : Fin N → T × T} {cp : P} {w : T} {iters : ℕ}

/-- C83: two settings that behave alike as long as the population stays within `R`, with comparators that never let it
leave `R`, correspond to each other call by call for ever. -/
theorem C83_alike_within {R Q : Fin N → T → T' → Prop} {RG : G → G' → Prop} {RS : S → S' → Prop} {bounds' : Fin N → T' × T'}
    {w' : T'} (h : env.AlikeWithin R Q RG RS env' bounds bounds' w w') (g : G) (g' : G') (hg : RG g g') (c : S) (c' : S')
    (hc : RS c c') :
    let r := env.optimize fuel bounds n cp w iters ⟨g, c, []⟩
    let r' := env'.optimize fuel bounds' n cp w' iters ⟨g', c', []⟩
    SameEnd (PtRel R) r.1 r'.1 ∧ List.Forall₂ (CallRel Q) r.2.log r'.2.log ∧ RG r.2.rng r'.2.rng ∧ RS r.2.cmp r'.2.cmp := by
  obtain ⟨h1, h2, h3, h4⟩ := h.optimize_rel (n := n) (cp := cp) fuel iters ⟨g, c, []⟩ ⟨g', c', []⟩ ⟨hg, hc, .nil⟩
  exact ⟨h1, h4, h2, h3⟩

end General

variable {F : Fmt} {P G S : Type} {N n : ℕ} [RPartialOrd P] [RZero P] [ROne P]
variable {fuel : ℕ} {cp : P} {iters : ℕ} {bounds : Fin N → Ieee F × Ieee F} {bounds' : Fin N → Exact ℤ × Exact ℤ} {B : ℕ}

theorem Fmt.Grid.representable {k : ℤ} (hF : F.Grid k B) {z : ℤ} (hz : |z| ≤ 5 * B) : F.Representable (z * 2 ^ k) := by
  obtain ⟨h1, h2, h3⟩ := hF
  have hz' : |z| ≤ 2 ^ F.p := hz.trans (by exact_mod_cast h3)
  refine F.representable_of hz' h1 ?_
  rw [abs_mul, abs_of_pos (by positivity : (0 : ℚ) < 2 ^ k)]
  have h4 : |(z : ℚ)| ≤ 2 ^ (F.p : ℤ) := by
    rw [zpow_natCast]
    exact_mod_cast hz'
  calc |(z : ℚ)| * 2 ^ k ≤ 2 ^ (F.p : ℤ) * 2 ^ k := by gcongr
    _ = 2 ^ (F.p + k) := by rw [zpow_add₀ (by norm_num)]
    _ < 2 ^ (F.emax + 1) := zpow_lt_zpow_right₀ (by norm_num) (by omega)

/-- The trial coordinate of grid numbers is the exact one. -/
theorem Ieee.OnGrid.arith {k : ℤ} (hF : F.Grid k B) {w x y z : Ieee F} {v i j l : ℤ} (hw : w.Finite) (hv : w.value = v)
    (h0 : 0 ≤ v) (h2 : v ≤ 2) (hx : x.OnGrid k B i) (hy : y.OnGrid k B j) (hz : z.OnGrid k B l) :
    (x.add ((y.sub z).mul w)).OnGrid k (5 * B) (i + (j - l) * v) := by
  obtain ⟨x1, x2, x3⟩ := hx
  obtain ⟨y1, y2, y3⟩ := hy
  obtain ⟨z1, z2, z3⟩ := hz
  have b1 : |j - l| ≤ 2 * B := by have := abs_sub j l; omega
  have b2 : |(j - l) * v| ≤ 4 * B := by
    rw [abs_mul, abs_of_nonneg h0]
    nlinarith [abs_nonneg (j - l)]
  have b3 : |i + (j - l) * v| ≤ 5 * B := by have := abs_add_le i ((j - l) * v); omega
  have e1 : y.value - z.value = ((j - l : ℤ) : ℚ) * 2 ^ k := by rw [y2, z2]; push_cast; ring
  have r1 := hF.representable (z := j - l) (by omega)
  have f1 : (y.sub z).Finite := (sub_finite_iff y1 z1).2 (by rw [e1, F.roundQ_representable r1]; exact r1.2)
  have v1 : (y.sub z).value = ((j - l : ℤ) : ℚ) * 2 ^ k := by rw [(sub_finite f1).2.2, e1, F.roundQ_representable r1]
  have e2 : (y.sub z).value * w.value = (((j - l) * v : ℤ) : ℚ) * 2 ^ k := by rw [v1, hv]; push_cast; ring
  have r2 := hF.representable (z := (j - l) * v) (by omega)
  have f2 : ((y.sub z).mul w).Finite := (mul_finite_iff f1 hw).2 (by rw [e2, F.roundQ_representable r2]; exact r2.2)
  have v2 : ((y.sub z).mul w).value = (((j - l) * v : ℤ) : ℚ) * 2 ^ k := by
    rw [(mul_finite f2).2.2, e2, F.roundQ_representable r2]
  have e3 : x.value + ((y.sub z).mul w).value = ((i + (j - l) * v : ℤ) : ℚ) * 2 ^ k := by rw [v2, x2]; push_cast; ring
  have r3 := hF.representable (z := i + (j - l) * v) b3
  have f3 : (x.add ((y.sub z).mul w)).Finite := (add_finite_iff x1 f2).2 (by rw [e3, F.roundQ_representable r3]; exact r3.2)
  exact ⟨f3, by rw [(add_finite f3).2.2, e3, F.roundQ_representable r3], by push_cast; exact b3⟩

theorem Ieee.OnGrid.wider {k : ℤ} {x : Ieee F} {z : ℤ} (h : x.OnGrid k B z) : x.OnGrid k (5 * B) z :=
  ⟨h.1, h.2.1, h.2.2.trans (by push_cast; omega)⟩

theorem weight_ok {w : Ieee F} (hw : w.Finite) (h0 : 0 ≤ w.value) (h2 : w.value ≤ 2) :
    (RPartialOrd.le (FromI8.fromI8 0) w && RPartialOrd.le w (FromI8.fromI8 2)) = true := by
  obtain ⟨c1, c2⟩ := (Ieee.fle_finite (a := (.zero false : Ieee F)) (b := w) (c := .fin 2 two_ne_zero F.representable_two)
    trivial trivial).2 ⟨hw, h0, h2⟩
  rw [fromI8_zero, fromI8_two, Bool.and_eq_true]
  exact ⟨c1, c2⟩

/-- C83: a floating point search on a grid, with the weight 0, 1 or 2, is the search in integer arithmetic: no operation
ever rounds. The runs make the same comparator calls with the same answers at the same points, leave generator and
comparator in the same state, and return the same point or end in the same panic. -/
theorem C83_exact {k : Fin N → ℤ} (hF : ∀ c, F.Grid (k c) B) {env : DEnv (Ieee F) P N G S} {env' : DEnv (Exact ℤ) P N G S}
    (h : env.SameSearch k B env' bounds bounds') {w : Ieee F} {v : ℤ} (hw : w.Finite) (hv : w.value = v) (h0 : 0 ≤ v)
    (h2 : v ≤ 2) (s : G) (c : S) :
    let r := env.optimize fuel bounds n cp w iters ⟨s, c, []⟩
    let r' := env'.optimize fuel bounds' n cp ⟨v⟩ iters ⟨s, c, []⟩
    SameEnd (fun x z => ∀ i, (x i).OnGrid (k i) B (z i).val) r.1 r'.1 ∧
    List.Forall₂ (fun x z => (∀ i, (x.a i).OnGrid (k i) (5 * B) (z.a i).val) ∧
      (∀ i, (x.b i).OnGrid (k i) (5 * B) (z.b i).val) ∧ x.answer = z.answer) r.2.log r'.2.log ∧
    r.2.rng = r'.2.rng ∧ r.2.cmp = r'.2.cmp := by
  refine C83_alike_within (R := fun i (x : Ieee F) (z : Exact ℤ) => x.OnGrid (k i) B z.val)
    (Q := fun i (x : Ieee F) (z : Exact ℤ) => x.OnGrid (k i) (5 * B) z.val)
    (RG := fun g g' => g = g') (RS := fun s s' => s = s')
    ⟨?_, ?_, ?_, ?_, fun i x z h => h.wider, ?_, ?_⟩ s s rfl c c rfl
  · rw [weight_ok hw (by rw [hv]; exact_mod_cast h0) (by rw [hv]; exact_mod_cast h2)]
    symm
    show (decide ((0 : ℤ) ≤ v) && decide (v ≤ (2 : ℤ))) = true
    simp [h0, h2]
  · rintro m g _ rfl
    rw [h.index]
    exact ⟨rfl, rfl⟩
  · rintro g _ rfl
    rw [h.unit]
    exact ⟨rfl, rfl⟩
  · rintro i g _ rfl
    exact h.uniform i g
  · intro i x y z x' y' z' hx hy hz
    exact Ieee.OnGrid.arith (hF i) hw hv h0 h2 hx hy hz
  · rintro a b a' b' s _ ha hb rfl
    rw [h.compare a b a' b' s ha hb]
    refine ⟨rfl, rfl, fun ht i => ⟨(ha i).1, (ha i).2.1, ?_⟩⟩
    exact h.inside a' b' s (fun c => (hb c).2.2) ht i

/-- C83: whatever the comparator computes, a floating point search that starts on a grid and never prefers a point
outside the box to one inside asks for and returns points of the grid only. -/
theorem C83_stays_on_grid {k : Fin N → ℤ} (hF : ∀ c, F.Grid (k c) B) {env : DEnv (Ieee F) P N G S}
    (hu : ∀ c g x, (env.genUniform (bounds c).1 (bounds c).2 g).1 = .ok x → ∃ z, x.OnGrid (k c) B z)
    (hi : ∀ a b s, (∀ c, ∃ z, (b c).OnGrid (k c) B z) → (env.compare a b s).1 = .ok true →
      ∀ c, |(a c).value| ≤ B * 2 ^ k c)
    {w : Ieee F} {v : ℤ} (hw : w.Finite) (hv : w.value = v) (h0 : 0 ≤ v) (h2 : v ≤ 2) (s : G) (c : S) :
    let r := env.optimize fuel bounds n cp w iters ⟨s, c, []⟩
    (∀ x, r.1 = .ok x → ∀ i, ∃ z, (x i).OnGrid (k i) B z) ∧
    ∀ q ∈ r.2.log, ∀ i, (∃ z, (q.a i).OnGrid (k i) (5 * B) z) ∧ ∃ z, (q.b i).OnGrid (k i) (5 * B) z := by
  have hall := C83_alike_within (fuel := fuel) (n := n) (cp := cp) (iters := iters) (env := env) (env' := env)
    (bounds := bounds) (bounds' := bounds) (w := w) (w' := w)
    (R := fun i x y => x = y ∧ ∃ z, x.OnGrid (k i) B z) (Q := fun i x y => x = y ∧ ∃ z, x.OnGrid (k i) (5 * B) z)
    (RG := fun g g' => g = g') (RS := fun s s' => s = s')
    ⟨rfl, ?_, ?_, ?_, fun i x y h => ⟨h.1, h.2.imp fun z hz => hz.wider⟩, ?_, ?_⟩ s s rfl c c rfl
  · obtain ⟨h1, h2, _⟩ := hall
    constructor
    · intro x hx i
      rw [hx] at h1
      exact (h1 i).2
    · intro q hq i
      have : ∀ l l', List.Forall₂ (CallRel fun i (x y : Ieee F) => x = y ∧ ∃ z, x.OnGrid (k i) (5 * B) z) l l' →
          ∀ q ∈ l, (∃ z, (q.a i).OnGrid (k i) (5 * B) z) ∧ ∃ z, (q.b i).OnGrid (k i) (5 * B) z := by
        intro l l' hl
        induction hl with
        | nil => simp
        | cons hab _ ih =>
          intro q hq
          rcases List.mem_cons.1 hq with rfl | hq
          · exact ⟨(hab.1 i).2, (hab.2.1 i).2⟩
          · exact ih q hq
      exact this _ _ h2 q hq
  · rintro m g _ rfl
    exact ⟨rfl, rfl⟩
  · rintro g _ rfl
    exact ⟨rfl, rfl⟩
  · rintro i g _ rfl
    refine ⟨?_, rfl⟩
    cases hx : (env.genUniform (bounds i).1 (bounds i).2 g).1 with
    | ok x => exact ⟨rfl, hu i g x hx⟩
    | error e => rfl
  · rintro i x y z x' y' z' ⟨rfl, ix, hx⟩ ⟨rfl, iy, hy⟩ ⟨rfl, iz, hz⟩
    exact ⟨rfl, _, Ieee.OnGrid.arith (hF i) hw hv h0 h2 hx hy hz⟩
  · rintro a b a' b' s _ ha hb rfl
    obtain rfl : a = a' := funext fun i => (ha i).1
    obtain rfl : b = b' := funext fun i => (hb i).1
    refine ⟨rfl, rfl, fun ht i => ⟨rfl, ?_⟩⟩
    obtain ⟨z, f, e, _⟩ := (ha i).2
    have := hi a b s (fun c => (hb c).2) ht i
    rw [e, abs_mul, abs_of_pos (by positivity : (0 : ℚ) < 2 ^ k i), mul_le_mul_iff_left₀ (by positivity)] at this
    exact ⟨z, f, e, by exact_mod_cast this⟩

/-- The integers in `f64`: up to `2 ^ 53 / 5`, more than `1.8 · 10 ^ 15`; in `f32`: up to `2 ^ 24 / 5`, more than three
millions. -/
theorem C83_sizes : Fmt.f64.Grid 0 1801439850948198 ∧ Fmt.f32.Grid 0 3355443 := by
  constructor <;> refine ⟨?_, ?_, ?_⟩ <;> simp only [Fmt.f64, Fmt.f32, Fmt.emin] <;> norm_num

/-- The bound is sharp: with the weight 2 the trial coordinate of three numbers of size `B` can be `5 B`, and with
`5 B > 2 ^ p` odd it is rounded. In `f32`: `3355445 + 2 (3355445 + 3355445)` is `16777224`, not `16777225`. -/
theorem C83_sharp :
    ((Ieee.ofInt 3355445 : Ieee .f32).add (((Ieee.ofInt 3355445).sub (Ieee.ofInt (-3355445))).mul (Ieee.ofInt 2))).num =
      some 16777224 ∧ (3355445 : ℚ) + (3355445 - -3355445) * 2 = 16777225 := by
  constructor
  · decide +kernel
  · norm_num

end Magnesia
