import Verif.Model.Basic

/-!
# What a well-formed hierarchy is

The vocabulary of the properties: a hierarchy is a function `ch` giving, for every node, the ordered
list of its children.  `Shape h ch` says that the pointers stored in memory describe exactly `ch`.
-/

set_option autoImplicit false

namespace Dendron

/-- The elements of the list are linked one after the other by `nx`; the last one is linked to `e`. -/
def Seg (nx : NodeId → Option NodeId) : List NodeId → Option NodeId → Prop
  | [], _ => True
  | a :: l, e => nx a = l.head?.or e ∧ Seg nx l e

/-- The elements of the list are linked backwards by `pv`; the first one is linked to `b`. -/
def PSeg (pv : NodeId → Option NodeId) : List NodeId → Option NodeId → Prop
  | [], _ => True
  | a :: l, b => pv a = b ∧ PSeg pv l (some a)

/-- The forward part of the hierarchy: first children, next siblings and parents describe `ch`. -/
structure FShape {α : Type} (h : Heap α) (ch : NodeId → List NodeId) : Prop where
  /-- nodes that are not allocated have no children -/
  dead : ∀ p, h.alive p = false → ch p = []
  /-- `first_child` is the head of the child list -/
  first : ∀ p, h.alive p = true → h.firstChild p = (ch p).head?
  /-- no node occurs twice among the children -/
  nodup : ∀ p, (ch p).Nodup
  /-- the children of `p` are the living nodes whose parent is `p` -/
  mem : ∀ p c, c ∈ ch p ↔ h.alive c = true ∧ h.parent c = some p
  /-- `next_sibling` follows the child list -/
  seg : ∀ p, Seg h.next (ch p) none
  /-- a node without a parent has no siblings -/
  rootNext : ∀ c, h.alive c = true → h.parent c = none → h.next c = none
  /-- there is no cycle -/
  acyc : ∃ ht : NodeId → Nat, ∀ p c, c ∈ ch p → ht c < ht p
  /-- ids in use are below the allocation counter -/
  bound : ∀ n, h.alive n = true → n < h.nNode

/-- The cached numbers of children are right. -/
def NumOK {α : Type} (h : Heap α) (ch : NodeId → List NodeId) : Prop :=
  ∀ p, h.alive p = true → h.numCh p = (ch p).length

/-- The cyclic previous-sibling pointers are right: every child points to its predecessor, the first
one to the last one, and nodes without parent to themselves. -/
structure BackOK {α : Type} (h : Heap α) (ch : NodeId → List NodeId) : Prop where
  pseg : ∀ p, PSeg h.prevCyc (ch p) (ch p).getLast?
  rootPrev : ∀ c, h.alive c = true → h.parent c = none → h.prevCyc c = some c

/-- The pointers in memory describe exactly the hierarchy `ch`. -/
structure Shape {α : Type} (h : Heap α) (ch : NodeId → List NodeId) : Prop extends FShape h ch where
  num : NumOK h ch
  back : BackOK h ch

/-- `d` is `n` or a descendant of `n`. -/
inductive Desc (ch : NodeId → List NodeId) : NodeId → NodeId → Prop
  | refl (n) : Desc ch n n
  | step {n m d} : Desc ch n m → d ∈ ch m → Desc ch n d

/-- Memberships, tree roots and parents agree. -/
structure TreeWF {α : Type} (h : Heap α) : Prop where
  /-- every living node is a member of a living tree -/
  live : ∀ n, h.alive n = true → ∃ t, h.memTree n = some t ∧ h.treeAlive t = true
  /-- the root of a tree is a living node of that tree without a parent -/
  root : ∀ t r, h.root t = some r → h.alive r = true ∧ h.memTree r = some t ∧ h.parent r = none
  /-- children are members of the tree of their parent -/
  child : ∀ c p, h.alive c = true → h.parent c = some p → h.memTree c = h.memTree p
  /-- a node without a parent is the root of its tree -/
  top : ∀ n t, h.alive n = true → h.parent n = none → h.memTree n = some t → h.root t = some n
  /-- tree ids in use are below the allocation counter -/
  bound : ∀ t, h.treeAlive t = true → t < h.nTree

/-- Strong memberships count at least one node link, locks are held through node links, and a tree
core is allocated only while something refers to it. -/
structure RefWF {α : Type} (h : Heap α) : Prop where
  alive : ∀ n t rc l, h.mem n = .strong t rc l → h.alive n = true
  pos : ∀ n t rc l, h.mem n = .strong t rc l → 0 < rc ∧ l ≤ rc
  /-- a living tree is held by a `Tree`/local `Rc` or by a strong membership -/
  held : ∀ t, h.treeAlive t = true → 0 < h.treeRc t ∨ ∃ n rc l, h.mem n = .strong t rc l

end Dendron

namespace Dendron

/-- `DestSplit ch dest p l1 l2`: inserting a node at the destination `dest` of the hierarchy `ch`
puts it between `l1` and `l2` in the child list `l1 ++ l2` of `p`. -/
inductive DestSplit (ch : NodeId → List NodeId) :
    InsertAs NodeId → NodeId → List NodeId → List NodeId → Prop
  | first (p) : DestSplit ch (.firstChildOf p) p [] (ch p)
  | last (p) : DestSplit ch (.lastChildOf p) p (ch p) []
  | prev {p a l1 l2} : ch p = l1 ++ a :: l2 → DestSplit ch (.previousSiblingOf a) p l1 (a :: l2)
  | next {p a l1 l2} : ch p = l1 ++ a :: l2 → DestSplit ch (.nextSiblingOf a) p (l1 ++ [a]) l2

/-- `AncPath ch n l`: `l` is the path of proper ancestors of `n`, nearest first, ending with a node
that is nobody's child. -/
inductive AncPath (ch : NodeId → List NodeId) : NodeId → List NodeId → Prop
  | root {n} : (∀ p, n ∉ ch p) → AncPath ch n []
  | step {n p l} : n ∈ ch p → AncPath ch p l → AncPath ch n (p :: l)

end Dendron

namespace Dendron

/-- A consistent state of the whole memory: the pointers describe the hierarchy `ch`, memberships
and roots agree with it, reference counts are sane. -/
structure WF {α : Type} (h : Heap α) (ch : NodeId → List NodeId) : Prop extends Shape h ch where
  tree : TreeWF h
  refs : RefWF h

/-- A consistent state except for child counts and previous-sibling pointers. -/
structure FWF {α : Type} (h : Heap α) (ch : NodeId → List NodeId) : Prop extends FShape h ch where
  tree : TreeWF h
  refs : RefWF h

theorem WF.fwd {α : Type} {h : Heap α} {ch : NodeId → List NodeId} (W : WF h ch) : FWF h ch :=
  { toFShape := W.toFShape, tree := W.tree, refs := W.refs }

/-- Everything outside links and child counts is as before, except that node `new` has been allocated
with data `d`, as a member of tree `t` with one handle and no lock. -/
structure Created {α : Type} (h h' : Heap α) (new : NodeId) (d : α) (t : TreeId) : Prop where
  data : h'.data = upd h.data new (some d)
  mutB : h'.mutB = upd h.mutB new false
  mem : h'.mem = upd h.mem new (.strong t 1 0)
  root : h'.root = h.root
  grants : h'.grants = h.grants
  treeRc : h'.treeRc = h.treeRc
  nNode : h'.nNode = h.nNode + 1
  nTree : h'.nTree = h.nTree

end Dendron

namespace Dendron

/-- Nothing observable changed: the same nodes and trees are alive with the same contents. -/
structure SameLive {α : Type} (h h' : Heap α) : Prop where
  data : h'.data = h.data
  root : h'.root = h.root
  grants : h'.grants = h.grants
  treeRc : h'.treeRc = h.treeRc
  nTree : h'.nTree = h.nTree
  nNode : h.nNode ≤ h'.nNode
  mutB : ∀ n, h.alive n = true → h'.mutB n = h.mutB n
  parent : ∀ n, h.alive n = true → h'.parent n = h.parent n
  firstChild : ∀ n, h.alive n = true → h'.firstChild n = h.firstChild n
  next : ∀ n, h.alive n = true → h'.next n = h.next n
  prevCyc : ∀ n, h.alive n = true → h'.prevCyc n = h.prevCyc n
  numCh : ∀ n, h.alive n = true → h'.numCh n = h.numCh n
  mem : ∀ n, h.alive n = true → h'.mem n = h.mem n
  deadMem : ∀ n t rc l, h'.mem n = .strong t rc l → h.alive n = true

/-- The place next to the node `n` meant by an `AdoptAs`. -/
def AdoptAs.at : AdoptAs → NodeId → InsertAs NodeId
  | .firstChild, n => .firstChildOf n
  | .lastChild, n => .lastChildOf n
  | .previousSibling, n => .previousSiblingOf n
  | .nextSibling, n => .nextSiblingOf n

end Dendron
