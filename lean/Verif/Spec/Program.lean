import Verif.Spec.Nest
import Verif.Model.Dyn

/-!
# Programs over the public API

`Prog Γ ty` is a program that computes a value of type `ty` from inputs whose types are given by `Γ`, by composing
public functions of the crate (ring operations of arbitrarily nested containers, polynomial evaluation, static and
dynamic linear algebra, indexing and index writes, compound assignments). It mentions no element type: `Prog.run`
executes the *same* program over any element type. (Used to state "the same computation over the unbounded integers".
Not included: functions that need a field or real functions, and `map`/`zip` with arbitrary user closures.)
-/

namespace Magnesia

open RZero ROne

/-- The types of values handled by programs. The element type of the dynamic containers is the scalar type (which may
itself be instantiated by e.g. `Complex<i32>`). -/
inductive Ty where
  | ring (t : Nest)
  | svec (n : ℕ) (t : Nest)
  | smat (r c : ℕ) (t : Nest)
  | vexpr
  | mexpr
  | dvec
  | dmat

/-- The Rust type. -/
def Ty.type (T : Type) : Ty → Type
  | .ring t => t.type T
  | .svec n t => SVector (t.type T) n
  | .smat r c t => SMatrix (t.type T) r c
  | .vexpr => VExpr T
  | .mexpr => MExpr T
  | .dvec => DVector T
  | .dmat => DMatrix T

/-- Programs. -/
inductive Prog (Γ : ℕ → Ty) : Ty → Type
  | input (i : ℕ) : Prog Γ (Γ i)
  -- ring operations of any nesting
  | zero (t : Nest) : Prog Γ (.ring t)
  | one (t : Nest) : Prog Γ (.ring t)
  | addAssign {t : Nest} (a b : Prog Γ (.ring t)) : Prog Γ (.ring t)
  | subAssign {t : Nest} (a b : Prog Γ (.ring t)) : Prog Γ (.ring t)
  | mulRefs {t : Nest} (a b : Prog Γ (.ring t)) : Prog Γ (.ring t)
  | neg {t : Nest} (a : Prog Γ (.ring t)) : Prog Γ (.ring t)
  -- Complex
  | cNew {t : Nest} (re im : Prog Γ (.ring t)) : Prog Γ (.ring (.complex t))
  | cRe {t : Nest} (z : Prog Γ (.ring (.complex t))) : Prog Γ (.ring t)
  | cIm {t : Nest} (z : Prog Γ (.ring (.complex t))) : Prog Γ (.ring t)
  | cConj {t : Nest} (z : Prog Γ (.ring (.complex t))) : Prog Γ (.ring (.complex t))
  | cSqrNorm {t : Nest} (z : Prog Γ (.ring (.complex t))) : Prog Γ (.ring t)
  | cMulScalar {t : Nest} (z : Prog Γ (.ring (.complex t))) (x : Prog Γ (.ring t)) : Prog Γ (.ring (.complex t))
  | cMulAssign {t : Nest} (a b : Prog Γ (.ring (.complex t))) : Prog Γ (.ring (.complex t))
  -- Polynomial
  | pFrom {t : Nest} (n : ℕ) (c : Fin n → Prog Γ (.ring t)) : Prog Γ (.ring (.poly t))
  | pEval {t : Nest} (p : Prog Γ (.ring (.poly t))) (x : Prog Γ (.ring t)) : Prog Γ (.ring t)
  | pAdd {t : Nest} (p q : Prog Γ (.ring (.poly t))) : Prog Γ (.ring (.poly t))
  | pAddAssign {t : Nest} (p q : Prog Γ (.ring (.poly t))) : Prog Γ (.ring (.poly t))
  | pSub {t : Nest} (p q : Prog Γ (.ring (.poly t))) : Prog Γ (.ring (.poly t))
  | pSubAssign {t : Nest} (p q : Prog Γ (.ring (.poly t))) : Prog Γ (.ring (.poly t))
  | pMulAssign {t : Nest} (p q : Prog Γ (.ring (.poly t))) : Prog Γ (.ring (.poly t))
  -- SVector
  | vFrom {t : Nest} (n : ℕ) (c : Fin n → Prog Γ (.ring t)) : Prog Γ (.svec n t)
  | vZero (n : ℕ) (t : Nest) : Prog Γ (.svec n t)
  | vAdd {n : ℕ} {t : Nest} (u v : Prog Γ (.svec n t)) : Prog Γ (.svec n t)
  | vSub {n : ℕ} {t : Nest} (u v : Prog Γ (.svec n t)) : Prog Γ (.svec n t)
  | vDot {n : ℕ} {t : Nest} (u v : Prog Γ (.svec n t)) : Prog Γ (.ring t)
  | vMulScalar {n : ℕ} {t : Nest} (u : Prog Γ (.svec n t)) (x : Prog Γ (.ring t)) : Prog Γ (.svec n t)
  | vIndex {n : ℕ} {t : Nest} (u : Prog Γ (.svec n t)) (i : ℕ) : Prog Γ (.ring t)
  -- SMatrix
  | mFrom {t : Nest} (r c : ℕ) (a : Fin r → Fin c → Prog Γ (.ring t)) : Prog Γ (.smat r c t)
  | mZero (r c : ℕ) (t : Nest) : Prog Γ (.smat r c t)
  | mOne (r c : ℕ) (t : Nest) : Prog Γ (.smat r c t)
  | mAdd {r c : ℕ} {t : Nest} (a b : Prog Γ (.smat r c t)) : Prog Γ (.smat r c t)
  | mSub {r c : ℕ} {t : Nest} (a b : Prog Γ (.smat r c t)) : Prog Γ (.smat r c t)
  | mNeg {r c : ℕ} {t : Nest} (a : Prog Γ (.smat r c t)) : Prog Γ (.smat r c t)
  | mMul {l m n : ℕ} {t : Nest} (a : Prog Γ (.smat l m t)) (b : Prog Γ (.smat m n t)) : Prog Γ (.smat l n t)
  | mMulVec {m n : ℕ} {t : Nest} (a : Prog Γ (.smat m n t)) (v : Prog Γ (.svec n t)) : Prog Γ (.svec m t)
  | mOfSquare {n : ℕ} {t : Nest} (a : Prog Γ (.ring (.matrix n t))) : Prog Γ (.smat n n t)
  | mToSquare {n : ℕ} {t : Nest} (a : Prog Γ (.smat n n t)) : Prog Γ (.ring (.matrix n t))
  -- dynamic vectors
  | slice (n : ℕ) (c : Fin n → Prog Γ (.ring .scalar)) : Prog Γ .vexpr
  | makeV (n : ℕ) (e : ℕ → Prog Γ (.ring .scalar)) : Prog Γ .vexpr
  | vref (v : Prog Γ .dvec) : Prog Γ .vexpr
  | veAdd (a b : Prog Γ .vexpr) : Prog Γ .vexpr
  | veSub (a b : Prog Γ .vexpr) : Prog Γ .vexpr
  | veMulElemwise (a b : Prog Γ .vexpr) : Prog Γ .vexpr
  | veConj (a : Prog Γ .vexpr) : Prog Γ .vexpr
  | veDiag (a : Prog Γ .vexpr) : Prog Γ .mexpr
  | veEval (a : Prog Γ .vexpr) : Prog Γ .dvec
  | veEntry (a : Prog Γ .vexpr) (i : ℕ) : Prog Γ (.ring .scalar)
  | dvIndex (v : Prog Γ .dvec) (i : ℕ) : Prog Γ (.ring .scalar)
  | dvSet (v : Prog Γ .dvec) (i : ℕ) (x : Prog Γ (.ring .scalar)) : Prog Γ .dvec
  | dvAddAssign (v : Prog Γ .dvec) (e : Prog Γ .vexpr) : Prog Γ .dvec
  | dvSubAssign (v : Prog Γ .dvec) (e : Prog Γ .vexpr) : Prog Γ .dvec
  | dvDot (u v : Prog Γ .dvec) : Prog Γ (.ring .scalar)
  -- dynamic matrices
  | array (r c : ℕ) (a : Fin r → Fin c → Prog Γ (.ring .scalar)) : Prog Γ .mexpr
  | makeM (r c : ℕ) (e : ℕ → ℕ → Prog Γ (.ring .scalar)) : Prog Γ .mexpr
  | mref (m : Prog Γ .dmat) : Prog Γ .mexpr
  | meAdd (a b : Prog Γ .mexpr) : Prog Γ .mexpr
  | meSub (a b : Prog Γ .mexpr) : Prog Γ .mexpr
  | meMulElemwise (a b : Prog Γ .mexpr) : Prog Γ .mexpr
  | meT (a : Prog Γ .mexpr) : Prog Γ .mexpr
  | meH (a : Prog Γ .mexpr) : Prog Γ .mexpr
  | meDiag (a : Prog Γ .mexpr) : Prog Γ .vexpr
  | meEval (a : Prog Γ .mexpr) : Prog Γ .dmat
  | meEntry (a : Prog Γ .mexpr) (i j : ℕ) : Prog Γ (.ring .scalar)
  | dmMul (a b : Prog Γ .dmat) : Prog Γ .mexpr
  | dmIndex (m : Prog Γ .dmat) (i j : ℕ) : Prog Γ (.ring .scalar)
  | dmSet (m : Prog Γ .dmat) (i j : ℕ) (x : Prog Γ (.ring .scalar)) : Prog Γ .dmat
  | dmAddAssign (m : Prog Γ .dmat) (e : Prog Γ .mexpr) : Prog Γ .dmat
  | dmSubAssign (m : Prog Γ .dmat) (e : Prog Γ .mexpr) : Prog Γ .dmat

/-- Execute a program over the element type `T`. -/
def Prog.run {T : Type} [RRing T] [RAdd T T T] [RSub T T T] [RMul T T T] [RAddAssign T T] [RSubAssign T T] [RConj T]
    (pr : Profile) {Γ : ℕ → Ty} (env : (i : ℕ) → (Γ i).type T) : {ty : Ty} → Prog Γ ty → Res (ty.type T)
  | _, .input i => .ok (env i)
  | _, .zero t => .ok ((t.rring T).zero)
  | _, .one t => .ok ((t.rring T).one)
  | .ring t, .addAssign a b => do
    let x ← a.run pr env
    let y ← b.run pr env
    ((t.rring T).addAssign x y).toRes
  | .ring t, .subAssign a b => do
    let x ← a.run pr env
    let y ← b.run pr env
    ((t.rring T).subAssign x y).toRes
  | .ring t, .mulRefs a b => do
    let x ← a.run pr env
    let y ← b.run pr env
    (t.rring T).mulRefs x y
  | .ring t, .neg a => do
    let x ← a.run pr env
    (t.rring T).neg x
  | _, .cNew a b => do
    let x ← a.run pr env
    let y ← b.run pr env
    pure (Complex.mk x y)
  | _, .cRe z => do
    let z ← z.run pr env
    pure (Complex.re z)
  | _, .cIm z => do
    let z ← z.run pr env
    pure (Complex.im z)
  | .ring (.complex t), .cConj z => do
    let _ := t.rring T
    let z ← z.run pr env
    Complex.conj z
  | .ring t, .cSqrNorm z => do
    let _ := t.rring T
    let z ← z.run pr env
    Complex.sqrNorm (T := t.type T) z
  | .ring (.complex t), .cMulScalar z x => do
    let _ := t.rring T
    let z ← z.run pr env
    let x ← x.run pr env
    Complex.mulScalar z x
  | .ring (.complex t), .cMulAssign a b => do
    let _ := t.rring T
    let a ← a.run pr env
    let b ← b.run pr env
    (Complex.mulAssign a b).toRes
  | .ring (.poly t), .pFrom n c => do
    let v ← fromFnM n (fun i => (c i).run pr env)
    pure (Poly.fromCoefficients (T := t.type T) (List.ofFn v))
  | .ring t, .pEval p x => do
    let _ := t.rring T
    let p ← p.run pr env
    let x ← x.run pr env
    Poly.eval (T := t.type T) p x
  | .ring (.poly t), .pAdd p q => do
    let _ := t.rring T
    let p ← p.run pr env
    let q ← q.run pr env
    Poly.add p q
  | .ring (.poly t), .pAddAssign p q => do
    let _ := t.rring T
    let p ← p.run pr env
    let q ← q.run pr env
    (Poly.addAssignV p q).toRes
  | .ring (.poly t), .pSub p q => do
    let _ := t.rring T
    let p ← p.run pr env
    let q ← q.run pr env
    Poly.sub p q
  | .ring (.poly t), .pSubAssign p q => do
    let _ := t.rring T
    let p ← p.run pr env
    let q ← q.run pr env
    (Poly.subAssignV p q).toRes
  | .ring (.poly t), .pMulAssign p q => do
    let _ := t.rring T
    let p ← p.run pr env
    let q ← q.run pr env
    (Poly.mulAssign p q).toRes
  | _, .vFrom n c => do
    let v ← fromFnM n (fun i => (c i).run pr env)
    pure (SVector.fromArray v)
  | _, .vZero n t =>
    let _ := t.rring T
    .ok (RZero.zero : SVector (t.type T) n)
  | .svec _ t, .vAdd u v => do
    let _ := t.rring T
    let u ← u.run pr env
    let v ← v.run pr env
    SVector.add u v
  | .svec _ t, .vSub u v => do
    let _ := t.rring T
    let u ← u.run pr env
    let v ← v.run pr env
    SVector.sub u v
  | .ring t, .vDot u v => do
    let _ := t.rring T
    let u ← u.run pr env
    let v ← v.run pr env
    SVector.dot (T := t.type T) u v
  | .svec _ t, .vMulScalar u x => do
    let _ := t.rring T
    let u ← u.run pr env
    let x ← x.run pr env
    SVector.mulScalar u x
  | _, .vIndex u i => do
    let u ← u.run pr env
    SVector.index u i
  | _, .mFrom r c a => do
    let v ← fromFnM r (fun i => fromFnM c (fun j => (a i j).run pr env))
    pure (SMatrix.fromArray v)
  | _, .mZero r c t =>
    let _ := t.rring T
    .ok (RZero.zero : SMatrix (t.type T) r c)
  | _, .mOne r c t =>
    let _ := t.rring T
    .ok (ROne.one : SMatrix (t.type T) r c)
  | .smat _ _ t, .mAdd a b => do
    let _ := t.rring T
    let a ← a.run pr env
    let b ← b.run pr env
    SMatrix.add a b
  | .smat _ _ t, .mSub a b => do
    let _ := t.rring T
    let a ← a.run pr env
    let b ← b.run pr env
    SMatrix.sub a b
  | .smat _ _ t, .mNeg a => do
    let _ := t.rring T
    let a ← a.run pr env
    SMatrix.neg a
  | .smat _ _ t, .mMul a b => do
    let _ := t.rring T
    let a ← a.run pr env
    let b ← b.run pr env
    SMatrix.mul a b
  | .svec _ t, .mMulVec a v => do
    let _ := t.rring T
    let a ← a.run pr env
    let v ← v.run pr env
    SMatrix.mulVec a v
  | _, .mOfSquare a => a.run pr env
  | _, .mToSquare a => a.run pr env
  | _, .slice n c => do
    let v ← fromFnM n (fun i => (c i).run pr env)
    pure (sliceExpr (List.ofFn v))
  | _, .makeV n e => .ok (makeVectorExpr n (fun i => (e i).run pr env))
  | _, .vref v => do
    let v ← v.run pr env
    pure (DVector.asExpr v)
  | _, .veAdd a b => do
    let a ← a.run pr env
    let b ← b.run pr env
    VExpr.add (T := T) (U := T) a b
  | _, .veSub a b => do
    let a ← a.run pr env
    let b ← b.run pr env
    VExpr.sub (T := T) (U := T) a b
  | _, .veMulElemwise a b => do
    let a ← a.run pr env
    let b ← b.run pr env
    VExpr.mulElemwise (T := T) (U := T) a b
  | _, .veConj a => do
    let a ← a.run pr env
    pure (VExpr.conj (T := T) a)
  | _, .veDiag a => do
    let a ← a.run pr env
    pure (VExpr.diag (T := T) a)
  | _, .veEval a => do
    let a ← a.run pr env
    VExpr.eval a
  | _, .veEntry a i => do
    let a ← a.run pr env
    VExpr.entry a i
  | _, .dvIndex v i => do
    let v ← v.run pr env
    DVector.index v i
  | _, .dvSet v i x => do
    let v ← v.run pr env
    let x ← x.run pr env
    (DVector.indexSet v i x).toRes
  | _, .dvAddAssign v e => do
    let v ← v.run pr env
    let e ← e.run pr env
    (DVector.addAssign (T := T) (U := T) v e).toRes
  | _, .dvSubAssign v e => do
    let v ← v.run pr env
    let e ← e.run pr env
    (DVector.subAssign (T := T) (U := T) v e).toRes
  | _, .dvDot u v => do
    let u ← u.run pr env
    let v ← v.run pr env
    DVector.dot (T := T) u v
  | _, .array r c a => do
    let v ← fromFnM r (fun i => fromFnM c (fun j => (a i j).run pr env))
    pure (arrayExpr v)
  | _, .makeM r c e => .ok (makeMatrixExpr r c (fun i j => (e i j).run pr env))
  | _, .mref m => do
    let m ← m.run pr env
    pure (DMatrix.asExpr pr m)
  | _, .meAdd a b => do
    let a ← a.run pr env
    let b ← b.run pr env
    MExpr.add (T := T) (U := T) a b
  | _, .meSub a b => do
    let a ← a.run pr env
    let b ← b.run pr env
    MExpr.sub (T := T) (U := T) a b
  | _, .meMulElemwise a b => do
    let a ← a.run pr env
    let b ← b.run pr env
    MExpr.mulElemwise (T := T) (U := T) a b
  | _, .meT a => do
    let a ← a.run pr env
    pure (MExpr.t (T := T) a)
  | _, .meH a => do
    let a ← a.run pr env
    pure (MExpr.h (T := T) a)
  | _, .meDiag a => do
    let a ← a.run pr env
    pure (MExpr.diag (T := T) a)
  | _, .meEval a => do
    let a ← a.run pr env
    MExpr.eval a
  | _, .meEntry a i j => do
    let a ← a.run pr env
    MExpr.entry a i j
  | _, .dmMul a b => do
    let a ← a.run pr env
    let b ← b.run pr env
    DMatrix.mul (T := T) (O := T) pr a b
  | _, .dmIndex m i j => do
    let m ← m.run pr env
    DMatrix.index pr m i j
  | _, .dmSet m i j x => do
    let m ← m.run pr env
    let x ← x.run pr env
    (DMatrix.indexSet pr m i j x).toRes
  | _, .dmAddAssign m e => do
    let m ← m.run pr env
    let e ← e.run pr env
    (DMatrix.addAssign (T := T) (U := T) pr m e).toRes
  | _, .dmSubAssign m e => do
    let m ← m.run pr env
    let e ← e.run pr env
    (DMatrix.subAssign (T := T) (U := T) pr m e).toRes

/-- The types whose values are plain data (not lazy expressions holding closures). -/
def Ty.IsData : Ty → Prop
  | .vexpr => False
  | .mexpr => False
  | _ => True

/-- Apply `f` to every scalar of a value; on a lazy expression: no meaning, only used for data types. -/
def Ty.map {T T' : Type} (f : T → T') : (ty : Ty) → ty.IsData → ty.type T → ty.type T'
  | .ring t, _ => t.map f
  | .svec _ t, _ => SVector.map (t.map f)
  | .smat _ _ t, _ => SMatrix.map (t.map f)
  | .dvec, _ => DVector.map f
  | .dmat, _ => DMatrix.map f

end Magnesia
