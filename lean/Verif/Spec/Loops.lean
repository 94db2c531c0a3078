import Verif.Model.WTraverse
import Verif.Spec.Shape
import Verif.Spec.Handles
import Verif.Spec.Wide
import Verif.Spec.Reads

/-!
# Loops over an iterator that change the tree
-/

set_option autoImplicit false

namespace Dendron
variable {α σ ι : Type}

/-- From state `w` on the program uses an iterator with state `s`, and makes calls of its own in
between, edits of the tree included; it keeps the iterator, so the handles in it stay.  `calls` lists
the program states at which `next` was called and what it returned. -/
inductive Walk (owns : σ → List NodeId) (next : σ → Prog α (Option ι × σ)) :
    World α → σ → List (World α × Option ι) → World α → σ → Prop
  | nil (w : World α) (s : σ) : Walk owns next w s [] w s
  /-- the program makes a call of its own -/
  | other {w w' w1 : World α} {s s1 : σ} {op : Op α} {r : Res} {calls : List (World α × Option ι)} :
      w.Step op w' r → w'.Has (handles .plain (owns s)) → w'.Roomy →
      Walk owns next w' s calls w1 s1 → Walk owns next w s calls w1 s1
  /-- `next` is called -/
  | call {w w' w1 : World α} {s s' s1 : σ} {x : Option ι} {calls : List (World α × Option ι)} :
      (next s).run w = .ok (w', (x, s')) → Walk owns next w' s' calls w1 s1 →
      Walk owns next w s ((w, x) :: calls) w1 s1

/-- In the hierarchy `ch` the event `e` is followed by this one. -/
inductive After (ch : NodeId → List NodeId) : DftEvent NodeId → Option (DftEvent NodeId) → Prop
  | enter {n c : NodeId} {l : List NodeId} : ch n = c :: l → After ch (.opn n) (some (.opn c))
  | leave {n : NodeId} : ch n = [] → After ch (.opn n) (some (.cls n))
  | next {p n m : NodeId} {l1 l2 : List NodeId} : ch p = l1 ++ n :: m :: l2 → After ch (.cls n) (some (.opn m))
  | up {p n : NodeId} {l : List NodeId} : ch p = l ++ [n] → After ch (.cls n) (some (.cls p))
  | out {n : NodeId} : (∀ p, n ∉ ch p) → After ch (.cls n) none

/-- In the hierarchy `ch` the event `e` is preceded by this one. -/
inductive Before (ch : NodeId → List NodeId) : DftEvent NodeId → Option (DftEvent NodeId) → Prop
  | enter {n c : NodeId} {l : List NodeId} : ch n = l ++ [c] → Before ch (.cls n) (some (.cls c))
  | leave {n : NodeId} : ch n = [] → Before ch (.cls n) (some (.opn n))
  | prev {p n m : NodeId} {l1 l2 : List NodeId} : ch p = l1 ++ m :: n :: l2 → Before ch (.opn n) (some (.cls m))
  | up {p n : NodeId} {l : List NodeId} : ch p = n :: l → Before ch (.opn n) (some (.opn p))
  | out {n : NodeId} : (∀ p, n ∉ ch p) → Before ch (.opn n) none

/-- The next sibling. -/
inductive NextSib (ch : NodeId → List NodeId) : NodeId → Option NodeId → Prop
  | next {p n m : NodeId} {l1 l2 : List NodeId} : ch p = l1 ++ n :: m :: l2 → NextSib ch n (some m)
  | last {p n : NodeId} {l : List NodeId} : ch p = l ++ [n] → NextSib ch n none
  | out {n : NodeId} : (∀ p, n ∉ ch p) → NextSib ch n none

/-- The previous sibling. -/
inductive PrevSib (ch : NodeId → List NodeId) : NodeId → Option NodeId → Prop
  | prev {p n m : NodeId} {l1 l2 : List NodeId} : ch p = l1 ++ m :: n :: l2 → PrevSib ch n (some m)
  | first {p n : NodeId} {l : List NodeId} : ch p = n :: l → PrevSib ch n none
  | out {n : NodeId} : (∀ p, n ∉ ch p) → PrevSib ch n none

/-- The parent. -/
inductive ParentIs (ch : NodeId → List NodeId) : NodeId → Option NodeId → Prop
  | up {p n : NodeId} : n ∈ ch p → ParentIs ch n (some p)
  | out {n : NodeId} : (∀ p, n ∉ ch p) → ParentIs ch n none

/-- Each item returned stands in the relation `P` to the one returned before it, in the hierarchy the
tree had when *that* one was returned; after `None` only `None` is returned. -/
def Chained (P : (NodeId → List NodeId) → ι → Option ι → Prop) (calls : List (World α × Option ι)) : Prop :=
  ∀ (i : Nat) (w w' : World α) (y : Option ι),
    (calls[i]? = some (w, none) → calls[i + 1]? = some (w', y) → y = none) ∧
    ∀ x, calls[i]? = some (w, some x) → calls[i + 1]? = some (w', y) →
      ∃ ch, FShape w.heap ch ∧ P ch x y

/-- A loop that begins with `next` of an iterator in state `s` returns `first` first, then items related
by `P`; every item is a living node; and `next` always returns. -/
def Follows (owns : σ → List NodeId) (next : σ → Prog α (Option ι × σ)) (node : ι → NodeId)
    (P : (NodeId → List NodeId) → ι → Option ι → Prop) (w : World α) (s : σ) (first : Option ι) : Prop :=
  ∀ calls w1 s1, Walk owns next w s calls w1 s1 →
    (∀ v x, calls.head? = some (v, x) → x = first) ∧ Chained P calls ∧
    (∀ v x, (v, some x) ∈ calls → v.heap.alive (node x) = true) ∧
    ∃ w2 x s2, (next s1).run w1 = .ok (w2, (x, s2))

/-- The first of the siblings of a node. -/
inductive FirstSib (ch : NodeId → List NodeId) : NodeId → NodeId → Prop
  | first {p n c : NodeId} {l : List NodeId} : n ∈ ch p → ch p = c :: l → FirstSib ch n c
  | out {n : NodeId} : (∀ p, n ∉ ch p) → FirstSib ch n n

/-- The last of the siblings of a node. -/
inductive LastSib (ch : NodeId → List NodeId) : NodeId → NodeId → Prop
  | last {p n c : NodeId} {l : List NodeId} : n ∈ ch p → ch p = l ++ [c] → LastSib ch n c
  | out {n : NodeId} : (∀ p, n ∉ ch p) → LastSib ch n n

/-- The user calls `start` on a handle of kind `k` to the node `n`, which gives an iterator, and loops
over the iterator: the first item is one with `first`, the items are related by `P`. -/
def LoopFollows (k : Kind) (n : NodeId) (start : Prog α σ) (owns : σ → List NodeId)
    (next : σ → Prog α (Option ι × σ)) (node : ι → NodeId) (first : Option ι → Prop)
    (P : (NodeId → List NodeId) → ι → Option ι → Prop) (w : World α) : Prop :=
  ∃ w' s x, (methodP k n start).run w = .ok (w', s) ∧ first x ∧ Follows owns next node P w' s x

/-! The same where the calls between those of `next` may also take the last of several siblings away (`StepW`);
`next` is called in states of the program and the iterator with `Ok`. -/

/-- Going back from this event does not meet a wrong `last_child`: at the close of a node it is that node's own that
is asked, at the open of a first child its parent's. -/
def World.BackRight (w : World α) : DftEvent NodeId → Prop
  | .cls n => ∀ ch, FShape w.heap ch → LastRight w.heap ch n
  | .opn n => ∀ ch, FShape w.heap ch → ∀ p, (ch p).head? = some n → LastRight w.heap ch p

/-- Like `Walk`, with calls of `StepW`. -/
inductive WalkW (Ok : World α → σ → Prop) (owns : σ → List NodeId) (next : σ → Prog α (Option ι × σ)) :
    World α → σ → List (World α × Option ι) → World α → σ → Prop
  | nil (w : World α) (s : σ) : WalkW Ok owns next w s [] w s
  /-- the program makes a call of its own -/
  | other {w w' w1 : World α} {s s1 : σ} {op : Op α} {r : Res} {calls : List (World α × Option ι)} :
      w.StepW op w' r → w'.Has (handles .plain (owns s)) → w'.Roomy →
      WalkW Ok owns next w' s calls w1 s1 → WalkW Ok owns next w s calls w1 s1
  /-- `next` is called -/
  | call {w w' w1 : World α} {s s' s1 : σ} {x : Option ι} {calls : List (World α × Option ι)} :
      Ok w s → (next s).run w = .ok (w', (x, s')) → WalkW Ok owns next w' s' calls w1 s1 →
      WalkW Ok owns next w s ((w, x) :: calls) w1 s1

/-- Like `Follows`. -/
def FollowsW (Ok : World α → σ → Prop) (owns : σ → List NodeId) (next : σ → Prog α (Option ι × σ)) (node : ι → NodeId)
    (P : (NodeId → List NodeId) → ι → Option ι → Prop) (w : World α) (s : σ) (first : Option ι) : Prop :=
  ∀ calls w1 s1, WalkW Ok owns next w s calls w1 s1 →
    (∀ v x, calls.head? = some (v, x) → x = first) ∧ Chained P calls ∧
    (∀ v x, (v, some x) ∈ calls → v.heap.alive (node x) = true) ∧
    (Ok w1 s1 → ∃ w2 x s2, (next s1).run w1 = .ok (w2, (x, s2)))

/-- Like `LoopFollows`. -/
def LoopFollowsW (Ok : World α → σ → Prop) (k : Kind) (n : NodeId) (start : Prog α σ) (owns : σ → List NodeId)
    (next : σ → Prog α (Option ι × σ)) (node : ι → NodeId) (first : Option ι → Prop)
    (P : (NodeId → List NodeId) → ι → Option ι → Prop) (w : World α) : Prop :=
  ∃ w' s x, (methodP k n start).run w = .ok (w', s) ∧ first x ∧ FollowsW Ok owns next node P w' s x

/-- The iterator in this state can go back from the event it returns next. -/
def RevDft.BackOk (w : World α) (s : RevDft.State) : Prop := ∀ e t, s = some (e, t) → w.BackRight e

/-- The iterator in this state can go back from the node it returns next. -/
def Sib.BackOk (w : World α) (s : Sib.State) : Prop := ∀ n, s = some n → w.BackRight (.opn n)

/-- Like `Ends`: the code run in `w` ends as `res`, with the same fault or with the same result `b`, having replaced
the handles `a` by the handles `out b` by calls that are no edits, which lead to a state of these histories. -/
def EndsW {β : Type} (w : World α) (run : World α → Except Fault (World α × β)) (a : Handles)
    (res : Except Fault β) (out : β → Handles) : Prop :=
  match res with
  | .error e => run w = .error e
  | .ok b => ∃ w', run w = .ok (w', b) ∧ ReadsAny w w' ∧ ReachW w' ∧ Exchange w w' a (out b)

end Dendron
