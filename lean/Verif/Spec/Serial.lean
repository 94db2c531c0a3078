import Verif.Model.Serial
import Verif.Spec.Iter

/-!
# What serialization and comparison must do
-/

set_option autoImplicit false

namespace Dendron
variable {α β γ : Type}

/-- One entry per node event: `some v` for the opening of a node labelled `v`, `none` for one
closing. -/
def Event.expand : List (Event β) → List (Option β)
  | [] => []
  | .opn v :: l => some v :: expand l
  | .close k :: l => List.replicate k none ++ expand l

/-- The same for depth-first events. -/
def DftEvent.toStep : DftEvent β → Option β
  | .opn v => some v
  | .cls _ => none

/-- `l` is the canonical event sequence of the tree: expanding the closings gives the depth-first
sequence of the tree (so openings are in pre-order and closings match them), there are no empty
closings, and runs of closings are merged. -/
structure Canonical (t : RTree β) (l : List (Event β)) : Prop where
  same : Event.expand l = t.events.map DftEvent.toStep
  pos : ∀ k, Event.close k ∈ l → 0 < k
  merged : ∀ l1 l2 i j, l ≠ l1 ++ .close i :: .close j :: l2

/-- The labels of the nodes of `t` (its node ids) carry the data in memory: `u` is `t` with every node
replaced by its data. -/
def HasData (h : Heap α) (t : RTree NodeId) (u : RTree α) : Prop := t.map h.data = u.map some

/-- What the serializer must yield for an event that names a node: the data of the node, or the borrow
error if the data is mutably borrowed at the moment. -/
inductive SerItem (h : Heap α) : Event NodeId → Except BorrowError (Event α) → Prop
  | opn {n d} : h.mutB n = false → h.data n = some d → SerItem h (.opn n) (.ok (.opn d))
  | busy {n} : h.mutB n = true → SerItem h (.opn n) (.error .mk)
  | close (k) : SerItem h (.close k) (.ok (.close k))

namespace RTree

mutual
/-- Same shape, and the labels are equal at corresponding positions. -/
def Equal (eq : β → γ → Bool) : RTree β → RTree γ → Prop
  | node v cs, node w ds => eq v w = true ∧ EqualL eq cs ds
/-- The same for lists of trees of equal length. -/
def EqualL (eq : β → γ → Bool) : List (RTree β) → List (RTree γ) → Prop
  | [], [] => True
  | c :: cs, d :: ds => Equal eq c d ∧ EqualL eq cs ds
  | _, _ => False
end

end RTree
end Dendron

namespace Dendron

/-- The two lists have equal lengths and corresponding entries are related. -/
inductive Zip {β γ : Type} (R : β → γ → Prop) : List β → List γ → Prop
  | nil : Zip R [] []
  | cons {a b l m} : R a b → Zip R l m → Zip R (a :: l) (b :: m)

/-- Two steps of depth-first walks over two subtrees agree: both open a node and the data of both nodes can
be borrowed and is equal, or both close a node. -/
inductive SameStep {α β : Type} (eq : α → β → Bool) (h : Heap α) (g : Heap β) :
    DftEvent NodeId → DftEvent NodeId → Prop
  | opn {a b x y} : h.mutB a = false → g.mutB b = false → h.data a = some x → g.data b = some y →
      eq x y = true → SameStep eq h g (.opn a) (.opn b)
  | cls {a b} : SameStep eq h g (.cls a) (.cls b)

/-- Walking over both subtrees in step, all is equal until two nodes are opened of which one has mutably
borrowed data. -/
def Blocked {α β : Type} (eq : α → β → Bool) (h : Heap α) (g : Heap β) (t s : RTree NodeId) : Prop :=
  ∃ pre pre' a b rest rest', t.events = pre ++ .opn a :: rest ∧ s.events = pre' ++ .opn b :: rest' ∧
    Zip (SameStep eq h g) pre pre' ∧ (h.mutB a = true ∨ g.mutB b = true)

/-- The labels of the openings, in order. -/
def Event.opens {β : Type} : List (Event β) → List β
  | [] => []
  | .opn v :: l => v :: opens l
  | .close _ :: l => opens l

/-- The total number of closings. -/
def Event.closings {β : Type} : List (Event β) → Nat
  | [] => 0
  | .opn _ :: l => closings l
  | .close k :: l => k + closings l

end Dendron
