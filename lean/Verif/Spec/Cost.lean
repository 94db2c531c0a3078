import Verif.Model.Basic

/-!
# What a traversal costs
-/

set_option autoImplicit false

namespace Dendron

/-- The iterator `next`, which reports the work done by each call, yields exactly the items of the
list, in order, and then `None`; the calls up to and including the one that returns `None` cost `c`
units together. -/
inductive YieldsIn {σ ι : Type} (next : σ → Except Fault ((Option ι × σ) × Nat)) : σ → List ι → Nat → Prop
  | done {s s' c} : next s = .ok ((none, s'), c) → YieldsIn next s [] c
  | more {s x s' l c k} : next s = .ok ((some x, s'), c) → YieldsIn next s' l k →
      YieldsIn next s (x :: l) (c + k)

/-- A function and its counting version do the same: the counting version returns the same result
(or the same fault), and a number. -/
def Counts {α : Type} (f : Except Fault α) (g : Except Fault (α × Nat)) : Prop :=
  f = g.map Prod.fst

end Dendron
