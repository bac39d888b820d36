import Verif.Proof.Laws
import Verif.Spec.Dyn

/-!
# Static vectors and matrices (helper lemmas)
-/

namespace Magnesia

open RZero ROne MulRefs

variable {T R : Type}

theorem Returns.bind {α β : Type} {x : Res α} {k : α → Res β} (hx : Returns x) (hk : ∀ a, x = .ok a → Returns (k a)) :
    Returns (x >>= k) := by
  obtain ⟨a, rfl⟩ := hx
  exact hk a rfl

theorem res_ext {α : Type} {x y : Res α} (hx : Returns x) (hy : Returns y)
    (h : ∀ a b, x = .ok a → y = .ok b → a = b) : x = y := by
  obtain ⟨a, rfl⟩ := hx
  obtain ⟨b, rfl⟩ := hy
  rw [h a b rfl rfl]

theorem toRes_iff {σ : Type} {u : Upd σ} {v : σ} : u.toRes = .ok v ↔ u.panic = none ∧ u.val = v := by
  constructor
  · exact toRes_ok
  · rintro ⟨h1, rfl⟩; exact toRes_done h1

theorem arrLoop_total {C : Type} {n : ℕ} (g : Fin n → C → Upd C) (v : Fin n → C) (h : ∀ i, (g i (v i)).panic = none) :
    (forEach (List.finRange n) (fun i v => arrUpd v i (g i)) v).panic = none := by
  cases hp : (forEach (List.finRange n) (fun i v => arrUpd v i (g i)) v).panic with
  | none => rfl
  | some e =>
    obtain ⟨k, hk, _⟩ := arrLoop_crash g v hp
    rw [h k] at hk; cases hk

/-- A per-cell in-place loop returns `w` iff every cell update returns the cell of `w`. -/
theorem arrLoop_iff {C : Type} {n : ℕ} (g : Fin n → C → Upd C) (v w : Fin n → C) :
    (forEach (List.finRange n) (fun i v => arrUpd v i (g i)) v).toRes = .ok w ↔ ∀ i, (g i (v i)).toRes = .ok (w i) := by
  constructor
  · intro h i
    obtain ⟨h1, rfl⟩ := toRes_ok h
    obtain ⟨h2, h3⟩ := arrLoop_done g v h1 i
    rw [h3]; exact toRes_done h2
  · intro h
    have h1 := arrLoop_total g v (fun i => (toRes_ok (h i)).1)
    rw [toRes_done h1]
    congr 1
    funext i
    rw [(arrLoop_done g v h1 i).2]
    exact (toRes_ok (h i)).2

theorem into_toRes {σ τ : Type} {u : Upd σ} {f : σ → τ} {y : τ} :
    (u.into f).toRes = .ok y ↔ ∃ x, u.toRes = .ok x ∧ f x = y := by
  simp only [toRes_iff, Upd.into]
  constructor
  · rintro ⟨h1, h2⟩; exact ⟨_, ⟨h1, rfl⟩, h2⟩
  · rintro ⟨x, ⟨h1, rfl⟩, h2⟩; exact ⟨h1, h2⟩

theorem toFun_injective {n : ℕ} {φ : T → R} (hi : Function.Injective φ) :
    Function.Injective (SVector.toFun φ : SVector T n → Fin n → R) := by
  intro a b h
  apply SVector.ext
  funext i
  exact hi (congrFun h i)

theorem vloop_iff {n : ℕ} (g : Fin n → T → Upd T) (u w : SVector T n) :
    ((forEach (List.finRange n) (fun i v => arrUpd v i (g i)) u.val).into SVector.mk).toRes = .ok w ↔
      ∀ i, (g i (u.val i)).toRes = .ok (w.val i) := by
  rw [into_toRes]
  constructor
  · rintro ⟨x, h, rfl⟩; exact (arrLoop_iff g u.val x).1 h
  · intro h; exact ⟨w.val, (arrLoop_iff g u.val w.val).2 h, rfl⟩

theorem mloop_iff {r c : ℕ} (g : Fin r → Fin c → T → Upd T) (u w : SMatrix T r c) :
    ((forEach (List.finRange r) (fun i a => arrUpd a i (fun lo =>
      forEach (List.finRange c) (fun j lo => arrUpd lo j (g i j)) lo)) u.val).into SMatrix.mk).toRes = .ok w ↔
      ∀ i j, (g i j (u.val i j)).toRes = .ok (w.val i j) := by
  rw [into_toRes]
  have key : ∀ x, (forEach (List.finRange r) (fun i a => arrUpd a i (fun lo =>
      forEach (List.finRange c) (fun j lo => arrUpd lo j (g i j)) lo)) u.val).toRes = .ok x ↔
      ∀ i j, (g i j (u.val i j)).toRes = .ok (x i j) := by
    intro x
    rw [arrLoop_iff (fun i lo => forEach (List.finRange c) (fun j lo => arrUpd lo j (g i j)) lo) u.val x]
    exact forall_congr' fun i => arrLoop_iff (g i) (u.val i) (x i)
  constructor
  · rintro ⟨x, h, rfl⟩; exact (key x).1 h
  · intro h; exact ⟨w.val, (key w.val).2 h, rfl⟩

end Magnesia
