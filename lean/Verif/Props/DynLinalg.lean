import Verif.Proof.DynProd
import Verif.Props.DynExpr
import Verif.Props.SLinalg

/-!
# Properties C31 - C33: transposes, diagonals and products of dynamic matrices

`DMatrix.ofFn f` is the evaluated matrix with entries `f i j`; by C28 every `DMatrix` obtainable through the API is of
this form.
-/

namespace Magnesia

open RZero ROne MulRefs

variable {T O R : Type} {p : Profile} {r c l m n : ℕ}

/-! ## C33 -/
section C33

/-- C33: the entries of `(&a * &b).eval()` are the sums of products, so it is the mathematical product. (If it returns:
see `C33_returns` and `C33_inner_zero`.) -/
theorem C33_denotes [RZero T] [RAdd T T T] [RSub T T T] [RMul T T T] [RAddAssign T T] [RSubAssign T T] [Ring R]
    {φ : T → R} (h : ImplementsV φ) (hf : p.Fits l m) (hg : p.Fits m n) (f : Fin l → Fin m → T) (g : Fin m → Fin n → T)
    (x : DMatrix T) (hx : (do (← (DMatrix.ofFn f).mul p (DMatrix.ofFn g)).eval) = .ok x) :
    ∃ y : Fin l → Fin n → T, x = DMatrix.ofFn y ∧
      Matrix.of (fun i j => φ (y i j)) = Matrix.of (fun i j => φ (f i j)) * Matrix.of (fun i j => φ (g i j)) := by
  obtain ⟨y, hy, rfl⟩ := (mul_eval_iff hf hg f g x).1 hx
  refine ⟨y, rfl, ?_⟩
  ext i j
  rw [Matrix.mul_apply]
  simp only [Matrix.of_apply]
  rw [sumTerms_value h.addAssign (v := fun k => if hk : k < m then φ (f i ⟨k, hk⟩) * φ (g ⟨k, hk⟩ j) else 0) ?_ (hy i j)]
  · rw [← Fin.sum_univ_eq_sum_range (fun k => if hk : k < m then φ (f i ⟨k, hk⟩) * φ (g ⟨k, hk⟩ j) else 0)]
    simp
  · intro k hk z hz
    simp only [prodTerms, dif_pos hk] at hz ⊢
    exact h.mul _ _ _ hz

/-- C33: with inner dimension at least 1 (or an empty result) it returns if the element operations do not panic. -/
theorem C33_returns [RAdd T T T] [RSub T T T] [RMul T T T] [RAddAssign T T] [RSubAssign T T] (hn : NeverPanicsV T)
    (hf : p.Fits l m) (hg : p.Fits m n) (hm : 1 ≤ m ∨ l = 0 ∨ n = 0) (f : Fin l → Fin m → T)
    (g : Fin m → Fin n → T) : Returns (do (← (DMatrix.ofFn f).mul p (DMatrix.ofFn g)).eval) := by
  have key : ∀ (i : Fin l) (j : Fin n), Returns (Tree.sumTerms (prodTerms (O := T) f g i j) m) := by
    intro i j
    obtain ⟨m, rfl⟩ : ∃ m', m = m' + 1 := by
      rcases hm with h | h | h
      · exact ⟨m - 1, by omega⟩
      · subst h; exact i.elim0
      · subst h; exact j.elim0
    refine sumTerms_returns hn.addAssign fun k hk => ?_
    simp only [prodTerms, dif_pos hk]
    exact hn.mul _ _
  choose y hy using key
  exact ⟨_, (mul_eval_iff hf hg f g _).2 ⟨y, hy, rfl⟩⟩

/-- C33: the `DMatrix` product and the `SMatrix` product of the same entries are the same, for every element type for
which by-value and by-reference operators agree and adding to `zero()` is exact (checked integers included: then both
return or both panic). -/
theorem C33_eq_smatrix [RRing T] [RAdd T T T] [RSub T T T] [RMul T T T] [RAddAssign T T] [RSubAssign T T]
    (ho : ValueOpsAgree T) (hz : ∀ x : T, ringAdd zero x = .ok x) (hf : p.Fits l m) (hg : p.Fits m n) (hm : 1 ≤ m)
    (f : Fin l → Fin m → T) (g : Fin m → Fin n → T) (y : Fin l → Fin n → T) :
    (do (← (DMatrix.ofFn f).mul p (DMatrix.ofFn g)).eval) = .ok (DMatrix.ofFn y) ↔
      (SMatrix.mk f).mul (SMatrix.mk g) = .ok ⟨y⟩ := by
  obtain ⟨m, rfl⟩ : ∃ m', m = m' + 1 := ⟨m - 1, by omega⟩
  have h1 : (do (← (DMatrix.ofFn f).mul p (DMatrix.ofFn g)).eval) = .ok (DMatrix.ofFn y) ↔
      ∀ i j, Tree.sumTerms (prodTerms f g i j) (m + 1) = .ok (y i j) := by
    rw [mul_eval_iff hf hg]
    constructor
    · rintro ⟨z, hz, e⟩
      rw [ofFn_injective e]; exact hz
    · intro h; exact ⟨y, h, rfl⟩
  have h2 : (SMatrix.mk f).mul (SMatrix.mk g) = .ok ⟨y⟩ ↔
      ∀ i j, (SVector.mk (f i)).dot (SVector.mk fun k => g k j) = .ok (y i j) := by
    show (SMatrix.mk f).mulRef (SMatrix.mk g) = .ok ⟨y⟩ ↔ _
    rw [SMatrix.mulRef_eq]
    have e : ∀ (i : Fin l) (j : Fin n), (List.range (m + 1)).foldlM (fun sum k => do
        let prod ← mulRefs (← SMatrix.at2 f i k) (← SMatrix.at2 g k j)
        (AddAssignRef.addAssign sum prod).toRes) (zero : T) =
          (SVector.mk (f i)).dot (SVector.mk fun k => g k j) := fun i j =>
      Implements.foldlM_range_fin _ _ (fun s k => by simp [SMatrix.at2, arrGet, bind, Except.bind, Nat.lt_succ_iff.1 k.2]) _
    simp only [e]
    constructor
    · intro h
      obtain ⟨w, h1, h⟩ := bind_ok h
      cases pure_ok h
      exact fun i j => fromFnM_ok_iff.1 (fromFnM_ok_iff.1 h1 i) j
    · intro h
      rw [fromFnM_ok_iff.2 fun i => fromFnM_ok_iff.2 (h i)]
      rfl
  rw [h1, h2]
  refine forall_congr' fun i => forall_congr' fun j => ?_
  rw [sumTerms_fold (fun x => by rw [ho.addAssign]; exact hz x)]
  have : (List.range (m + 1)).foldlM (fun s k => do
      let x ← prodTerms (O := T) f g i j k
      (RAddAssign.addAssign s x).toRes) (zero : T) = (SVector.mk (f i)).dot (SVector.mk fun k => g k j) := by
    refine Implements.foldlM_range_fin _ _ (fun s k => ?_) _
    simp only [prodTerms, k.2, dif_pos, ho.mul, ho.addAssign]
  rw [this]

/-- C33: if the inner dimension is 0 and the result is not empty, evaluating the product panics, although the
mathematical product (the zero matrix) is well defined. -/
theorem C33_inner_zero [RMul T T O] [RAddAssign O O] (hl : 0 < l) (hn : 0 < n) (f : Fin l → Fin 0 → T)
    (g : Fin 0 → Fin n → T) :
    (do (← (DMatrix.ofFn f).mul p (DMatrix.ofFn g)).eval) = (.error .indexOutOfBounds : Res (DMatrix O)) := by
  rw [mul_ofFn]
  show MExpr.defaultEval l n (DMatrix.mulEntry p (DMatrix.ofFn f) (DMatrix.ofFn g)) = _
  have he : DMatrix.mulEntry p (DMatrix.ofFn f) (DMatrix.ofFn g) 0 0 = (.error .indexOutOfBounds : Res O) :=
    mulEntry_eq (p := p) (by simp [Profile.Fits]) (by simp [Profile.Fits]) f g ⟨0, hl⟩ ⟨0, hn⟩
  obtain ⟨l, rfl⟩ : ∃ l', l = l' + 1 := ⟨l - 1, by omega⟩
  obtain ⟨n, rfl⟩ : ∃ n', n = n' + 1 := ⟨n - 1, by omega⟩
  unfold MExpr.defaultEval
  simp only [List.range_succ_eq_map, List.flatMap_cons, List.map_cons, List.cons_append, List.mapM_cons, he]
  rfl

end C33

/-- The hypotheses of `C33_eq_smatrix` hold for `i32` with overflow checks. -/
example : ValueOpsAgree I32 ∧ (∀ x : I32, ringAdd zero x = .ok x) := by
  refine ⟨valueOpsAgree_mint, fun x => ?_⟩
  show (Upd.ofRes _ (MInt.add ⟨0⟩ x)).toRes = _
  rw [toRes_ofRes]
  unfold MInt.add MInt.guard
  have : (0 : BitVec 32).saddOverflow x.bv = false := by
    have h1 := BitVec.toInt_lt (x := x.bv)
    have h2 := BitVec.le_toInt (x := x.bv)
    simp [BitVec.saddOverflow]
    constructor <;> omega
  rw [this]
  simp
example : (do (← (DMatrix.ofFn ![![(.lit 1 : I32), .lit 2, .lit 3]]).mul x64
    (DMatrix.ofFn ![![.lit 4], ![.lit 5], ![.lit 6]])).eval) = .ok (DMatrix.ofFn ![![(.lit 32 : I32)]]) := by decide +kernel
/-- 2×0 times 0×2 panics. -/
example : (do (← (DMatrix.ofFn (![![], ![]] : Fin 2 → Fin 0 → I32)).mul x64
    (DMatrix.ofFn (![] : Fin 0 → Fin 2 → I32))).eval) = .error .indexOutOfBounds := by decide +kernel

/-! ## C31 -/
section C31

/-- C31: `m.t().eval()` is the transpose. -/
theorem C31_transpose (hp : p.Fits r c) (f : Fin r → Fin c → T) :
    ((DMatrix.ofFn f).t p).eval = .ok (DMatrix.ofFn fun j i => f i j) :=
  (mdefaultEval_iff (g := fun j i => (DMatrix.ofFn f).entry p i j)).2 ⟨_, fun j i => entry_ofFn hp f i j, rfl⟩

/-- C31: `m.h().eval()` is the matrix of the conjugates of the transposed entries. -/
theorem C31_hermitian [RConj T] (hp : p.Fits r c) (f : Fin r → Fin c → T) (x : DMatrix T) :
    ((DMatrix.ofFn f).h p).eval = .ok x ↔
      ∃ g : Fin c → Fin r → T, (∀ j i, RConj.conj (f i j) = .ok (g j i)) ∧ x = DMatrix.ofFn g := by
  have e : ∀ (j : Fin c) (i : Fin r), (do RConj.conj (← (DMatrix.ofFn f).entry p i j)) = RConj.conj (f i j) := by
    intro j i
    rw [entry_ofFn hp f i j]; rfl
  refine (mdefaultEval_iff (g := fun j i => do RConj.conj (← (DMatrix.ofFn f).entry p i j))).trans ?_
  constructor <;> rintro ⟨g, hg, rfl⟩ <;> refine ⟨g, fun j i => ?_, rfl⟩
  · rw [← e j i]; exact hg j i
  · exact (e j i).trans (hg j i)

/-- C31: `e.t().t()` evaluates to what `e` evaluates to (panics included), for every expression `e` that can be built. -/
theorem C31_t_t (e : Tree .mat T) (hf : e.Fits p) (o : MExpr T) (ho : e.build p = .ok o) : o.t.t.eval = o.eval :=
  (C26_eval_is_default_matrix p e hf o ho).symm

/-- C31: `e.h().h()` evaluates to what `e` evaluates to, if conjugating twice gives back the element. -/
theorem C31_h_h [RConj T] (hconj : ∀ x : T, (do RConj.conj (← RConj.conj x)) = .ok x) (e : Tree .mat T) (hf : e.Fits p)
    (o : MExpr T) (ho : e.build p = .ok o) : o.h.h.eval = o.eval := by
  rw [C26_eval_is_default_matrix p e hf o ho]
  show MExpr.defaultEval o.numRows o.numCols (fun i j => do RConj.conj (← (do RConj.conj (← o.entry i j)))) = _
  congr 1
  funext i j
  cases o.entry i j with
  | error e => rfl
  | ok x => exact hconj x

/-- C31: if conjugation is the identity (real numbers, integers), `h()` is `t()`. -/
theorem C31_h_eq_t [RConj T] (hconj : ∀ x : T, RConj.conj x = .ok x) (o : MExpr T) : o.h.eval = o.t.eval := by
  show MExpr.defaultEval o.numCols o.numRows (fun i j => do RConj.conj (← o.entry j i)) =
    MExpr.defaultEval o.numCols o.numRows (fun i j => o.entry j i)
  congr 1
  funext i j
  cases o.entry j i with
  | error e => rfl
  | ok x => exact hconj x

/-- C31: `(a*b).t() = b.t() * a.t()` for entries whose multiplication is commutative (no other law needed: true of
floating point numbers too), panics included, for all shapes. -/
theorem C31_mul_t [RMul T T O] [RAddAssign O O] (hcomm : ∀ x y : T, (RMul.mul x y : Res O) = RMul.mul y x)
    (hf : p.Fits l m) (hg : p.Fits m n) (f : Fin l → Fin m → T) (g : Fin m → Fin n → T) :
    (do (← (DMatrix.ofFn f).mul p (DMatrix.ofFn g)).t.eval) = (do
      let bt ← ((DMatrix.ofFn g).t p).eval
      let at' ← ((DMatrix.ofFn f).t p).eval
      (← bt.mul p at').eval) := by
  rw [C31_transpose hf, C31_transpose hg, mul_ofFn]
  show _ = (do (← (DMatrix.ofFn fun j i => g i j).mul p (DMatrix.ofFn fun j i => f i j)).eval)
  rw [mul_ofFn]
  refine mdefaultEval_congr (f := fun r c => DMatrix.mulEntry p (DMatrix.ofFn f) (DMatrix.ofFn g) c r)
    fun i hi j hj => ?_
  rw [mulEntry_eq hf hg f g ⟨j, hj⟩ ⟨i, hi⟩]
  have hf' : p.Fits m l := by unfold Profile.Fits at *; rwa [Nat.mul_comm]
  have hg' : p.Fits n m := by unfold Profile.Fits at *; rwa [Nat.mul_comm]
  refine Eq.trans ?_ (mulEntry_eq hg' hf' (fun j i => g i j) (fun j i => f i j) ⟨i, hi⟩ ⟨j, hj⟩).symm
  refine sumTerms_congr fun k hk => ?_
  rw [dif_pos hk, dif_pos hk, hcomm]

/-- C31: `(a*b).h() = b.h() * a.h()` if conjugation of elements denotes an additive map `σ` that reverses products
(`σ (x * y) = σ y * σ x`), e.g. the identity of a commutative ring or complex conjugation. -/
theorem C31_mul_h [RZero T] [RAdd T T T] [RSub T T T] [RMul T T T] [RAddAssign T T] [RSubAssign T T] [RConj T] [Ring R]
    {φ : T → R} (h : ImplementsV φ) (hi : Function.Injective φ) (σ : R →+ R) (hσ : ∀ x y, σ (x * y) = σ y * σ x)
    (hc : ∀ x y : T, RConj.conj x = .ok y → φ y = σ (φ x))
    (hf : p.Fits l m) (hg : p.Fits m n) (f : Fin l → Fin m → T) (g : Fin m → Fin n → T) (x y : DMatrix T)
    (hx : (do (← (DMatrix.ofFn f).mul p (DMatrix.ofFn g)).h.eval) = .ok x)
    (hy : (do
      let bh ← ((DMatrix.ofFn g).h p).eval
      let ah ← ((DMatrix.ofFn f).h p).eval
      (← bh.mul p ah).eval) = .ok y) : x = y := by
  obtain ⟨bh, h1, hy⟩ := bind_ok hy
  obtain ⟨ah, h2, hy⟩ := bind_ok hy
  obtain ⟨g', hg1, rfl⟩ := (C31_hermitian hg g bh).1 h1
  obtain ⟨f', hf1, rfl⟩ := (C31_hermitian hf f ah).1 h2
  have hf' : p.Fits m l := by unfold Profile.Fits at *; rwa [Nat.mul_comm]
  have hg' : p.Fits n m := by unfold Profile.Fits at *; rwa [Nat.mul_comm]
  obtain ⟨y, rfl, hyd⟩ := C33_denotes h hg' hf' g' f' y hy
  rw [mul_ofFn] at hx
  obtain ⟨x, hxe, rfl⟩ := mdefaultEval_iff.1 (show MExpr.defaultEval n l (fun i j => do
    RConj.conj (← DMatrix.mulEntry p (DMatrix.ofFn f) (DMatrix.ofFn g) j i)) = .ok x from hx)
  -- the product itself evaluates
  have hz : ∀ (i : Fin l) (j : Fin n), ∃ z, DMatrix.mulEntry p (DMatrix.ofFn f) (DMatrix.ofFn g) i j = .ok z ∧
      RConj.conj z = .ok (x j i) := fun i j => bind_ok (hxe j i)
  choose z hz1 hz2 using hz
  have hzz : (do (← (DMatrix.ofFn f).mul p (DMatrix.ofFn g)).eval) = .ok (DMatrix.ofFn z) := by
    rw [mul_ofFn]
    exact mdefaultEval_iff.2 ⟨z, hz1, rfl⟩
  obtain ⟨z', ez, hz3⟩ := C33_denotes h hf hg f g _ hzz
  obtain rfl := ofFn_injective ez
  congr 1
  funext j i
  apply hi
  rw [hc _ _ (hz2 i j)]
  have e1 := congrArg (fun M : Matrix _ _ R => M i j) hz3
  have e2 := congrArg (fun M : Matrix _ _ R => M j i) hyd
  rw [Matrix.mul_apply] at e1 e2
  simp only [Matrix.of_apply] at e1 e2
  rw [e1, e2, map_sum]
  refine Finset.sum_congr rfl fun k _ => ?_
  rw [hσ, hc _ _ (hg1 j k), hc _ _ (hf1 k i)]

/-- C31: complex conjugation satisfies the hypotheses of `C31_mul_h` and `C31_h_h` over wrapping integers. -/
theorem C31_complex_conj : (∃ σ : Cx (BitVec 8) →+ Cx (BitVec 8), (∀ x y, σ (x * y) = σ y * σ x) ∧
      ∀ x y : Complex W8, RConj.conj x = .ok y → y.toCx MInt.bv = σ (x.toCx MInt.bv)) ∧
    ∀ x : Complex W8, (do RConj.conj (← RConj.conj x)) = .ok x := by
  constructor
  · obtain ⟨σ, hσ⟩ := C24_complex_conj_is_hom (implements_wrapping (w := 8))
    exact ⟨σ.toAddMonoidHom, fun x y => by
      show σ (x * y) = σ y * σ x
      rw [map_mul, mul_comm], hσ⟩
  · intro x
    obtain ⟨⟨a⟩, ⟨b⟩⟩ := x
    show (.ok (Complex.mk ⟨a⟩ ⟨- - b⟩) : Res (Complex W8)) = _
    rw [neg_neg]

end C31

example : (do (← (DMatrix.ofFn ![![(⟨.lit 1, .lit 2⟩ : Complex I32), ⟨.lit 0, .lit 1⟩]]).mul x64
    (DMatrix.ofFn ![![⟨.lit 1, .lit 1⟩], ![⟨.lit 3, .lit 0⟩]])).h.eval) =
    .ok (DMatrix.ofFn ![![⟨.lit (-1), .lit (-6)⟩]]) := by decide +kernel

/-! ## C32 -/
section C32

/-- C32: `v.diag()` is square with `v` on the diagonal and zero elsewhere. -/
theorem C32_diag_of_vector [RZero T] (v : Fin n → T) :
    ((DVector.ofFn v).diag).eval = .ok (DMatrix.ofFn fun i j : Fin n => if i = j then v i else zero) := by
  have hl : (DVector.ofFn v).data.length = n := List.length_ofFn
  show MExpr.defaultEval (DVector.ofFn v).data.length (DVector.ofFn v).data.length
    (fun r c => if r = c then getIdx (List.ofFn v) r else .ok zero) = _
  rw [hl]
  refine mdefaultEval_iff.2 ⟨_, fun i j => ?_, rfl⟩
  by_cases h : i = j
  · rw [if_pos (congrArg Fin.val h), if_pos h]; exact getIdx_ofFn v i
  · rw [if_neg (fun e => h (Fin.ext e)), if_neg h]

/-- C32: `m.diag()` has length `min(rows, cols)` and entries `m[i][i]`. -/
theorem C32_diag_of_matrix (hp : p.Fits r c) (f : Fin r → Fin c → T) :
    ((DMatrix.ofFn f).diag p).eval = .ok (DVector.ofFn fun i : Fin (min r c) =>
      f ⟨i, by omega⟩ ⟨i, by omega⟩) :=
  vdefaultEval_iff.2 ⟨_, fun _ => entry_ofFn' hp f _ _, rfl⟩

/-- C32: `v.diag().diag()` evaluates to what `v` evaluates to (panics included), for every vector expression `v` that
can be built. -/
theorem C32_diag_diag [RZero T] (e : Tree .vec T) (hf : e.Fits p) (o : VExpr T) (ho : e.build p = .ok o) :
    o.diag.diag.eval = o.eval := by
  rw [C26_eval_is_default_vector p e hf o ho]
  show VExpr.defaultEval (min o.len o.len) (fun i => if i = i then o.entry i else .ok zero) = _
  rw [Nat.min_self]
  simp

/-- C32: `DMatrix::eye(n)` is the diagonal matrix of ones. -/
theorem C32_eye [RZero T] [ROne T] :
    (DMatrix.eye n : MExpr T).eval = .ok (DMatrix.ofFn fun i j : Fin n => if i = j then one else zero) ∧
    (DMatrix.eye n : MExpr T).eval = (do (← (DVector.ones n : VExpr T).eval).diag.eval) := by
  have h1 : (DMatrix.eye n : MExpr T).eval = .ok (DMatrix.ofFn fun i j : Fin n => if i = j then one else zero) := by
    refine (mdefaultEval_iff (g := fun r c => .ok (if r = c then one else zero))).2 ⟨_, fun i j => ?_, rfl⟩
    by_cases h : i = j
    · rw [if_pos (congrArg Fin.val h), if_pos h]
    · rw [if_neg (fun e => h (Fin.ext e)), if_neg h]
  refine ⟨h1, ?_⟩
  rw [h1]
  have h2 : (DVector.ones n : VExpr T).eval = .ok (DVector.ofFn fun _ : Fin n => one) :=
    vdefaultEval_iff.2 ⟨_, fun _ => rfl, rfl⟩
  rw [h2]
  exact (C32_diag_of_vector _).symm

/-- C32: `eye` is neutral for the matrix product on both sides, for all shapes. -/
theorem C32_eye_neutral [RZero T] [ROne T] [RAdd T T T] [RSub T T T] [RMul T T T] [RAddAssign T T] [RSubAssign T T]
    [Ring R] {φ : T → R} (h : ImplementsV φ) (h1 : φ one = 1) (hi : Function.Injective φ) (hn : NeverPanicsV T)
    (hp : p.Fits r c) (hr : p.Fits r r) (hc : p.Fits c c) (f : Fin r → Fin c → T) :
    (do
      let i ← (DMatrix.eye r : MExpr T).eval
      (← i.mul p (DMatrix.ofFn f)).eval) = .ok (DMatrix.ofFn f) ∧
    (do
      let i ← (DMatrix.eye c : MExpr T).eval
      (← (DMatrix.ofFn f).mul p i).eval) = .ok (DMatrix.ofFn f) := by
  rw [C32_eye.1, C32_eye.1]
  have one_eq : ∀ n, Matrix.of (fun i j : Fin n => φ (if i = j then one else zero)) = 1 := by
    intro n
    ext i j
    rw [Matrix.one_apply]
    by_cases h' : i = j <;> simp [h', h1, h.zero]
  constructor
  · show (do (← DMatrix.mul p _ _).eval) = _
    obtain ⟨x, hx⟩ := C33_returns hn hr hp (by omega) (fun i j : Fin r => if i = j then (one : T) else zero) f
    obtain ⟨y, rfl, hy⟩ := C33_denotes h hr hp _ f x hx
    refine hx.trans (congrArg _ (congrArg _ ?_))
    rw [one_eq, Matrix.one_mul] at hy
    funext i j
    exact hi (congrFun (congrFun hy i) j)
  · show (do (← DMatrix.mul p _ _).eval) = _
    obtain ⟨x, hx⟩ := C33_returns hn hp hc (by omega) f (fun i j : Fin c => if i = j then (one : T) else zero)
    obtain ⟨y, rfl, hy⟩ := C33_denotes h hp hc f _ x hx
    refine hx.trans (congrArg _ (congrArg _ ?_))
    rw [one_eq, Matrix.mul_one] at hy
    funext i j
    exact hi (congrFun (congrFun hy i) j)

end C32

example : ((DVector.ofFn ![(.lit 1 : I32), .lit 2]).diag).eval =
    .ok ⟨[.lit 1, .lit 0, .lit 0, .lit 2], 2, 2⟩ := by decide +kernel
example : ((DMatrix.ofFn ![![(.lit 1 : I32), .lit 2, .lit 3], ![.lit 4, .lit 5, .lit 6]]).diag x64).eval =
    .ok ⟨[.lit 1, .lit 5]⟩ := by decide +kernel

end Magnesia
