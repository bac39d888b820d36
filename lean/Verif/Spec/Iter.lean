import Verif.Model.Core

/-!
# What a loop over mutable items does
-/

namespace Magnesia

variable {T S : Type}

/-- `for x in items { body(x, &mut s) }` visits the items one after the other, in the given order. `Visits body items s
items' s' e`: starting with the items `items` and the loop state `s`, the loop leaves the items `items'` and the state
`s'`, and ends with the panic `e` (if any), which the body raised. -/
inductive Visits (body : T → S → Upd (T × S)) : List T → S → List T → S → Option Panic → Prop
  | nil (s : S) : Visits body [] s [] s none
  | item {x y : T} {s s' s'' : S} {xs ys : List T} {e : Option Panic} :
      body x s = ⟨(y, s'), none⟩ → Visits body xs s' ys s'' e → Visits body (x :: xs) s (y :: ys) s'' e
  | panic {x y : T} {s s' : S} {xs : List T} {e : Panic} :
      body x s = ⟨(y, s'), some e⟩ → Visits body (x :: xs) s (y :: xs) s' (some e)

end Magnesia
