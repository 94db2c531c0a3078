import Verif.Model.Builder
import Verif.Spec.Machine
import Verif.Spec.Handles

/-!
# Tree builders that live among other calls of the program

A `TreeBuilder` owns a `Node` (its root) and a `HotNode` (its cursor).  `a.Builds b e res a' b'` says,
in terms of the abstract machine of `Verif.Spec.Machine`, what pushing the event `e` into the builder
`b` does to the forest `a` (`b`'s own handles are among those counted in `a`), what it returns, and what
the builder becomes.
-/

set_option autoImplicit false

namespace Dendron
variable {α : Type}

namespace Forest

/-- Going up from `c` for `k` parents leads to `m`, without leaving `r` on the way. -/
inductive Climbs (a : Forest α) (r : NodeId) : NodeId → Nat → NodeId → Prop
  | here (c : NodeId) : Climbs a r c 0 c
  | up {c p m : NodeId} {k : Nat} : c ≠ r → c ∈ a.children p → Climbs a r p k m → Climbs a r c (k + 1) m

/-- A hot handle to `c` is exchanged for one to `m`. -/
def shift (a : Forest α) (c m : NodeId) : Forest α := (a.give .hot m).take .hot c

/-- What a builder does with an event. -/
inductive Builds (a : Forest α) : Builder → Event α → Except BuildError Unit → Forest α → Builder → Prop
  /-- the first node: a new tree -/
  | first (d : α) : Builds a ⟨none, none⟩ (.opn d) (.ok ())
      ((((a.addNode d a.newTree).addTree a.newNode).give .hot a.newNode).give .plain a.newNode)
      ⟨some a.newNode, some a.newNode⟩
  /-- a new last child at the cursor, wherever the cursor is now -/
  | child {r c : NodeId} {t : TreeId} (d : α) : a.tree c = some t →
      Builds a ⟨some r, some c⟩ (.opn d) (.ok ())
        (((a.addNode d t).setChildren c (a.children c ++ [a.newNode])).shift c a.newNode)
        ⟨some r, some a.newNode⟩
  | closed {r : NodeId} (d : α) : Builds a ⟨some r, none⟩ (.opn d) (.error .rootClosed) a ⟨some r, none⟩
  | nothing {b : Builder} : Builds a b (.close 0) (.ok ()) a b
  /-- the cursor goes up and is still at a node -/
  | up {r c m p : NodeId} {k : Nat} : a.Climbs r c k m → m ∈ a.children p →
      Builds a ⟨some r, some c⟩ (.close (k + 1)) (.ok ()) (a.shift c p) ⟨some r, some p⟩
  /-- the cursor leaves the top node: nothing is open any more -/
  | out {r c m : NodeId} {k : Nat} : a.Climbs r c k m → a.IsTop m →
      Builds a ⟨some r, some c⟩ (.close (k + 1)) (.ok ()) (a.take .hot c).sweep ⟨some r, none⟩
  /-- too many closings: the cursor is left at the builder's root, or at the top -/
  | tooFar {r c m : NodeId} {j k : Nat} : a.Climbs r c j m → j < k → m = r ∨ a.IsTop m →
      Builds a ⟨some r, some c⟩ (.close (k + 1)) (.error .rootClosed) (a.shift c m) ⟨some r, some m⟩
  | over {r : NodeId} {k : Nat} : Builds a ⟨some r, none⟩ (.close (k + 1)) (.error .rootClosed) a ⟨some r, none⟩
  | early {k : Nat} : Builds a ⟨none, none⟩ (.close (k + 1)) (.error .rootNotOpened) a ⟨none, none⟩

/-- All builders drop their cursor; `finish` returns the root, otherwise it is dropped too. -/
noncomputable def dropHot (a : Forest α) : Option NodeId → Forest α
  | none => a
  | some c => (a.take .hot c).sweep

/-- A `Node` is dropped, if there is one. -/
noncomputable def dropPlain (a : Forest α) : Option NodeId → Forest α
  | none => a
  | some r => (a.take .plain r).sweep

end Forest

/-- The handles in a list of builders. -/
def Builder.share (bs : List Builder) : Kind → NodeId → Nat
  | .plain, n => bs.countP (fun b => b.root == some n)
  | .hot, n => bs.countP (fun b => b.cur == some n)
  | .frozen, _ => 0

/-- The tokens of each tree and the nodes ever created, and one more, are fewer than `2^62`. -/
def World.Spare (w : World α) : Prop := ∀ t, w.grantTok t + w.prohTok t + w.heap.nNode + 1 < 2 ^ 62

/-- The same with room for `j` more nodes. -/
def World.RoomFor (w : World α) (j : Nat) : Prop :=
  ∀ t, w.grantTok t + w.prohTok t + w.heap.nNode + j + 1 < 2 ^ 62

/-- A program with any number of builders: `w` is its state (with the handles of the builders counted in
it), `bs` are the builders.  The program makes calls of its own (`StepW`), but cannot give away the handles
of its builders; and it uses the builders, at any time and in any order. -/
inductive ReachB : World α → List Builder → Prop
  | init : ReachB World.init []
  | call {w w' : World α} {bs : List Builder} {op : Op α} {r : Res} : ReachB w bs → w.StepW op w' r →
      (∀ k n, Builder.share bs k n ≤ w'.held k n) → ReachB w' bs
  | new {w : World α} {bs : List Builder} : ReachB w bs → ReachB w (.new :: bs)
  /-- `TreeBuilder::with_root`; the handle given to it is the program's own -/
  | withRoot {w w' : World α} {bs : List Builder} {b : Builder} {n : NodeId} : ReachB w bs → w.Spare →
      Builder.share bs .hot n < w.held .hot n → Builder.withRoot w n = .ok (w', b) → ReachB w' (b :: bs)
  /-- an event is pushed; a new child is appended only where `last_child` is right -/
  | push {w w' : World α} {l1 l2 : List Builder} {b b' : Builder} {e : Event α}
      {res : Except BuildError Unit} : ReachB w (l1 ++ b :: l2) → w.Spare →
      (∀ c d, b.cur = some c → e = .opn d → ∀ ch, FShape w.heap ch → LastRight w.heap ch c) →
      Builder.push w b e = .ok (w', b', res) → ReachB w' (l1 ++ b' :: l2)
  | finish {w w' : World α} {l1 l2 : List Builder} {b : Builder} {res : Except BuildError NodeId} :
      ReachB w (l1 ++ b :: l2) → w.Spare → Builder.finish w b = .ok (w', res) → ReachB w' (l1 ++ l2)
  | drop {w w' : World α} {l1 l2 : List Builder} {b : Builder} : ReachB w (l1 ++ b :: l2) → w.Spare →
      Builder.dropAll w b = .ok w' → ReachB w' (l1 ++ l2)

/-- The call from `w` to `w'` leaves the subtree of the builder's root as it is: no node of it loses or gains
children or gets other data, and a root stays a root. -/
def Builder.LeftAlone (b : Builder) (w w' : World α) : Prop :=
  ∀ r ch ch', b.root = some r → FShape w.heap ch → FShape w'.heap ch' →
    (∀ x, Desc ch r x → ch' x = ch x ∧ w'.heap.data x = w.heap.data x) ∧
    ((∀ p, r ∉ ch p) → ∀ p, r ∉ ch' p)

/-- The events `l` are pushed one by one, all with success, from the program state `w` and the builder `b`;
in between the program makes other calls, which leave the builder's subtree alone. -/
inductive Fed : World α → Builder → List (Event α) → World α → Builder → Prop
  | nil (w : World α) (b : Builder) : Fed w b [] w b
  | other {w w' w1 : World α} {b b1 : Builder} {l : List (Event α)} {op : Op α} {r : Res} :
      w.StepW op w' r → (∀ k n, Builder.share [b] k n ≤ w'.held k n) → b.LeftAlone w w' →
      Fed w' b l w1 b1 → Fed w b l w1 b1
  | push {w w' w1 : World α} {b b' b1 : Builder} {e : Event α} {l : List (Event α)} : w.Spare →
      (∀ c d, b.cur = some c → e = .opn d → ∀ ch, FShape w.heap ch → LastRight w.heap ch c) →
      Builder.push w b e = .ok (w', b', .ok ()) → Fed w' b' l w1 b1 → Fed w b (e :: l) w1 b1

end Dendron
