import Verif.Spec.World
import Verif.Spec.Nav

/-!
# Histories that also take the last of several siblings away

Detaching, replacing or moving the last of several siblings leaves a stale answer to `last_child`
at the parent (C13-C15), and everything else intact.  `ReachW w`: the program state `w` is reached by
calls of which none relies on the last child of a parent whose `last_child` is stale.
-/

set_option autoImplicit false

namespace Dendron
variable {α : Type}

/-- `last_child` of `p` answers the last child. -/
def LastRight (h : Heap α) (ch : NodeId → List NodeId) (p : NodeId) : Prop :=
  h.navTo p .lastChild = .ok (ch p).getLast?

/-- The destination is the first or the last place among the children of `p`. -/
def AtEnd (ch : NodeId → List NodeId) (dest : InsertAs NodeId) (p : NodeId) : Prop :=
  ∃ l1 l2, DestSplit ch dest p l1 l2 ∧ (l1 = [] ∨ l2 = [])

/-- The call depends on where the list of children of `p` ends: it asks for the last child or sibling,
for the previous sibling of the first child, it inserts a node as first or last child, or it takes the
first child away. -/
def UsesLast (ch : NodeId → List NodeId) : Op α → NodeId → Prop
  | .nav _ .lastChild n, p => p = n
  | .nav _ .lastSibling n, p => n ∈ ch p
  | .nav _ .prevSibling n, p => (ch p).head? = some n
  | .create _ n _ as, p => AtEnd ch (as.at n) p
  | .createParent _ n _, p => (ch p).head? = some n ∨ (ch p).getLast? = some n
  | .detach _ n, p => (ch p).head? = some n
  | .replace _ n, p => p = n ∨ (ch p).head? = some n
  | .move _ n dest, p => (ch p).head? = some n ∨ AtEnd (fun q => (ch q).erase n) dest p
  | _, _ => False

/-- `n` is the last of several children of `p`. -/
def LastOf (ch : NodeId → List NodeId) (n p : NodeId) : Prop := ∃ l a, ch p = l ++ [a, n]

/-- The call takes the last of several children of `p` away, without putting others in its place. -/
def DropsLast (ch : NodeId → List NodeId) : Op α → NodeId → Prop
  | .detach _ n, p => LastOf ch n p
  | .replace _ n, p => ch n = [] ∧ LastOf ch n p
  | .move _ n _, p => LastOf ch n p
  | _, _ => False

/-- A move that does not make a cycle, does not ask for a sibling of a root, and does not move a root
into another tree, except the only node of a tree without `Tree` handles.  If the node is the last of
several siblings, it is not put first or last among these. -/
def MoveFits (h : Heap α) (ch : NodeId → List NodeId) (n : NodeId) (dest : InsertAs NodeId) : Prop :=
  ((∀ p, n ∉ ch p) ∧ h.memTree n = h.memTree dest.anchor) ∨
  ((∃ p, n ∈ ch p) ∧ ¬ Desc ch n dest.anchor ∧ (dest.isSibling = true → ∃ q, dest.anchor ∈ ch q) ∧
    ∀ p, LastOf ch n p → ¬ AtEnd (fun q => (ch q).erase n) dest p) ∨
  LonelyRoot h ch n dest

/-- The restriction on moves. -/
def CallFits (h : Heap α) (ch : NodeId → List NodeId) : Op α → Prop
  | .move _ n dest => MoveFits h ch n dest
  | _ => True

/-- The program makes a call which returns `r`; where the call depends on a last child, `last_child`
is right. -/
structure World.StepW (w : World α) (op : Op α) (w' : World α) (r : Res) : Prop where
  allowed : w.Allowed op
  fits : ∀ ch, FShape w.heap ch → CallFits w.heap ch op ∧
    ∀ p, UsesLast ch op p → LastRight w.heap ch p
  room : Room w.heap
  run : w.exec op = .ok (w', r)

/-- The program states reached by such calls. -/
inductive ReachW : World α → Prop
  | init : ReachW World.init
  | step {w w' : World α} {op : Op α} {r : Res} : ReachW w → w.StepW op w' r → ReachW w'

/-- Every navigation method reports the hierarchy `ch`, except that the methods which find the end of
the list of children of `p` (the last child or sibling, the first and last, the previous sibling of the
first child) are only right if `Ok p`. -/
structure CoherentOn (h : Heap α) (ch : NodeId → List NodeId) (Ok : NodeId → Prop) : Prop where
  nodup : ∀ p, (ch p).Nodup
  uniq : ∀ p q c, c ∈ ch p → c ∈ ch q → p = q
  alive : ∀ p c, c ∈ ch p → h.alive p = true ∧ h.alive c = true
  acyclic : ∀ p c, c ∈ ch p → ¬ Desc ch c p
  parent : ∀ p c, h.alive c = true → (h.parentLink c = some p ↔ c ∈ ch p)
  isRoot : ∀ c, h.alive c = true → (h.nodeIsRoot c = .ok true ↔ ∀ p, c ∉ ch p)
  isRootTotal : ∀ c, h.alive c = true → ∃ b, h.nodeIsRoot c = .ok b
  firstChild : ∀ p, h.alive p = true → h.firstChildLink p = (ch p).head?
  lastChild : ∀ p, h.alive p = true → Ok p → h.lastChildLink p = .ok (ch p).getLast?
  firstLastChild : ∀ p, h.alive p = true → Ok p →
    h.firstLastChildLink p = .ok (match (ch p).head?, (ch p).getLast? with
      | some f, some l => some (f, l)
      | _, _ => none)
  next : ∀ p l1 c l2, ch p = l1 ++ c :: l2 → h.nextLink c = l2.head?
  prev : ∀ p l1 c l2, ch p = l1 ++ c :: l2 → Ok p ∨ l1 ≠ [] → h.prevLink c = .ok l1.getLast?
  hasNext : ∀ p l1 c l2, ch p = l1 ++ c :: l2 → h.hasNext c = !l2.isEmpty
  hasPrev : ∀ p l1 c l2, ch p = l1 ++ c :: l2 → Ok p ∨ l1 ≠ [] → h.hasPrev c = .ok (!l1.isEmpty)
  isFirst : ∀ p l1 c l2, ch p = l1 ++ c :: l2 → Ok p ∨ l1 ≠ [] → h.isFirstSibling c = .ok l1.isEmpty
  isLast : ∀ p l1 c l2, ch p = l1 ++ c :: l2 → h.isLastSibling c = l2.isEmpty
  firstSib : ∀ p c, c ∈ ch p → ∃ f, (ch p).head? = some f ∧ h.firstSibling c = .ok f
  lastSib : ∀ p c, c ∈ ch p → Ok p → ∃ l, (ch p).getLast? = some l ∧ h.lastSibling c = .ok l
  firstLastSib : ∀ p c, c ∈ ch p → Ok p → ∃ f l, (ch p).head? = some f ∧ (ch p).getLast? = some l ∧
    h.firstLastSibling c = .ok (f, l)
  top : ∀ c, h.alive c = true → (∀ p, c ∉ ch p) →
    h.nextLink c = none ∧ h.prevLink c = .ok none ∧ h.hasNext c = false ∧
    h.hasPrev c = .ok false ∧ h.isFirstSibling c = .ok true ∧ h.isLastSibling c = true ∧
    h.firstSibling c = .ok c ∧ h.lastSibling c = .ok c ∧ h.firstLastSibling c = .ok (c, c)

/-- Positions and depths; counting the preceding siblings needs `Ok`. -/
structure PositionsOn (h : Heap α) (ch : NodeId → List NodeId) (Ok : NodeId → Prop) : Prop where
  before : ∀ p l1 c l2, ch p = l1 ++ c :: l2 → Ok p → h.countPreceding c = .ok l1.length
  after : ∀ p l1 c l2, ch p = l1 ++ c :: l2 → h.countFollowing c = .ok l2.length
  top : ∀ c, h.alive c = true → (∀ p, c ∉ ch p) →
    h.countPreceding c = .ok 0 ∧ h.countFollowing c = .ok 0
  depth : ∀ n l, h.alive n = true → AncPath ch n l → h.countAncestors n = .ok l.length
  depthTotal : ∀ n, h.alive n = true → ∃ l, AncPath ch n l

end Dendron
