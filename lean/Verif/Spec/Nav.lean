import Verif.Model.Query
import Verif.Spec.Shape

/-!
# What the navigation methods must report

`Coherent h ch`: there is one ordered list of children `ch n` per node, and every navigation method
answers exactly what these lists say, without panicking or looping.
-/

set_option autoImplicit false

namespace Dendron

/-- Every navigation method reports the hierarchy `ch`. -/
structure Coherent {α : Type} (h : Heap α) (ch : NodeId → List NodeId) : Prop where
  /-- each living node has at most one position -/
  nodup : ∀ p, (ch p).Nodup
  /-- it is a child of at most one node -/
  uniq : ∀ p q c, c ∈ ch p → c ∈ ch q → p = q
  /-- children are living nodes -/
  alive : ∀ p c, c ∈ ch p → h.alive p = true ∧ h.alive c = true
  /-- there is no cycle -/
  acyclic : ∀ p c, c ∈ ch p → ¬ Desc ch c p
  parent : ∀ p c, h.alive c = true → (h.parentLink c = some p ↔ c ∈ ch p)
  isRoot : ∀ c, h.alive c = true → (h.nodeIsRoot c = .ok true ↔ ∀ p, c ∉ ch p)
  isRootTotal : ∀ c, h.alive c = true → ∃ b, h.nodeIsRoot c = .ok b
  firstChild : ∀ p, h.alive p = true → h.firstChildLink p = (ch p).head?
  lastChild : ∀ p, h.alive p = true → h.lastChildLink p = .ok (ch p).getLast?
  firstLastChild : ∀ p, h.alive p = true →
    h.firstLastChildLink p = .ok (match (ch p).head?, (ch p).getLast? with
      | some f, some l => some (f, l)
      | _, _ => none)
  /-- a child between `l1` and `l2` in its sibling list -/
  next : ∀ p l1 c l2, ch p = l1 ++ c :: l2 → h.nextLink c = l2.head?
  prev : ∀ p l1 c l2, ch p = l1 ++ c :: l2 → h.prevLink c = .ok l1.getLast?
  hasNext : ∀ p l1 c l2, ch p = l1 ++ c :: l2 → h.hasNext c = !l2.isEmpty
  hasPrev : ∀ p l1 c l2, ch p = l1 ++ c :: l2 → h.hasPrev c = .ok (!l1.isEmpty)
  isFirst : ∀ p l1 c l2, ch p = l1 ++ c :: l2 → h.isFirstSibling c = .ok l1.isEmpty
  isLast : ∀ p l1 c l2, ch p = l1 ++ c :: l2 → h.isLastSibling c = l2.isEmpty
  firstSib : ∀ p c, c ∈ ch p → ∃ f, (ch p).head? = some f ∧ h.firstSibling c = .ok f
  lastSib : ∀ p c, c ∈ ch p → ∃ l, (ch p).getLast? = some l ∧ h.lastSibling c = .ok l
  firstLastSib : ∀ p c, c ∈ ch p → ∃ f l, (ch p).head? = some f ∧ (ch p).getLast? = some l ∧
    h.firstLastSibling c = .ok (f, l)
  /-- a node without parent has no siblings and is its own first and last sibling -/
  top : ∀ c, h.alive c = true → (∀ p, c ∉ ch p) →
    h.nextLink c = none ∧ h.prevLink c = .ok none ∧ h.hasNext c = false ∧
    h.hasPrev c = .ok false ∧ h.isFirstSibling c = .ok true ∧ h.isLastSibling c = true ∧
    h.firstSibling c = .ok c ∧ h.lastSibling c = .ok c ∧ h.firstLastSibling c = .ok (c, c)

/-- The child counts reported are the lengths of the child lists. -/
structure CountsExact {α : Type} (h : Heap α) (ch : NodeId → List NodeId) : Prop where
  num : ∀ n, h.alive n = true → h.numCh n = (ch n).length
  has : ∀ n, h.alive n = true → (h.hasChildren n = true ↔ ch n ≠ [])
  one : ∀ n, h.alive n = true → (h.hasOneChild n = true ↔ (ch n).length = 1)
  multi : ∀ n, h.alive n = true → (h.hasMultipleChildren n = true ↔ 2 ≤ (ch n).length)
  /-- counting by walking over the children gives the same number -/
  walk : ∀ n, h.alive n = true → h.countChildren n = .ok (ch n).length

/-- Positions and depths. -/
structure PositionsExact {α : Type} (h : Heap α) (ch : NodeId → List NodeId) : Prop where
  before : ∀ p l1 c l2, ch p = l1 ++ c :: l2 → h.countPreceding c = .ok l1.length
  after : ∀ p l1 c l2, ch p = l1 ++ c :: l2 → h.countFollowing c = .ok l2.length
  top : ∀ c, h.alive c = true → (∀ p, c ∉ ch p) →
    h.countPreceding c = .ok 0 ∧ h.countFollowing c = .ok 0
  depth : ∀ n l, h.alive n = true → AncPath ch n l → h.countAncestors n = .ok l.length
  depthTotal : ∀ n, h.alive n = true → ∃ l, AncPath ch n l

/-- Tree handles, roots and memberships agree. -/
structure TreesAgree {α : Type} (h : Heap α) (ch : NodeId → List NodeId) : Prop where
  /-- every node has a living tree; `root()` is a node of that tree without a parent -/
  root : ∀ n, h.alive n = true → ∃ t r, h.nodeTree n = .ok t ∧ h.treeAlive t = true ∧
    h.nodeRoot n = .ok r ∧ h.alive r = true ∧ (∀ p, r ∉ ch p) ∧ h.nodeTree r = .ok t
  /-- it is the only node of the tree without a parent -/
  rootUnique : ∀ n m t, h.alive n = true → h.alive m = true → h.nodeTree n = .ok t →
    h.nodeTree m = .ok t → (∀ p, n ∉ ch p) → (∀ p, m ∉ ch p) → n = m
  /-- the node descends from it: it is the last element of `ancestors_or_self` -/
  rootAncestor : ∀ n l, h.alive n = true → AncPath ch n l →
    ∃ r, h.nodeRoot n = .ok r ∧ (n :: l).getLast? = some r
  /-- parent and child are in the same tree -/
  childTree : ∀ p c, c ∈ ch p → h.nodeTree c = h.nodeTree p
  belongs : ∀ n t, h.alive n = true → (h.belongsTo n t = true ↔ h.nodeTree n = .ok t)
  same : ∀ n m, h.alive n = true → h.alive m = true →
    (h.belongsToSameTree n m = true ↔ h.nodeTree n = h.nodeTree m)
  /-- `Tree::root` -/
  treeRoot : ∀ t r, h.rootLink t = .ok r → h.alive r = true ∧ h.nodeTree r = .ok t ∧ ∀ p, r ∉ ch p

end Dendron
