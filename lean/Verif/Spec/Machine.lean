import Verif.Spec.Wide

/-!
# The abstract machine of ordered trees

What the crate is meant to be, without pointers, counters and destructors: a set of nodes with data,
ordered lists of children, trees with roots, and the handles the program holds.  `a.Step op r a'` says
what the call `op` does to `a` and what it returns.  A tree that nothing holds vanishes with all its
nodes (`sweep`).
-/

set_option autoImplicit false

namespace Dendron
variable {α : Type}

/-- The abstract state. -/
structure Forest (α : Type) where
  /-- the nodes that exist, with their data -/
  data : NodeId → Option α
  /-- the data is borrowed mutably -/
  borrowed : NodeId → Bool
  children : NodeId → List NodeId
  /-- the tree of a node -/
  tree : NodeId → Option TreeId
  /-- the root of a tree; `none` if there is no such tree -/
  root : TreeId → Option NodeId
  /-- names for the next node and the next tree -/
  newNode : NodeId
  newTree : TreeId
  /-- what the program holds -/
  held : Kind → NodeId → Nat
  trees : TreeId → Nat
  grantTok : TreeId → Nat
  prohTok : TreeId → Nat

namespace Forest

/-- The program at its start. -/
def init : Forest α where
  data _ := none
  borrowed _ := false
  children _ := []
  tree _ := none
  root _ := none
  newNode := 0
  newTree := 0
  held _ _ := 0
  trees _ := 0
  grantTok _ := 0
  prohTok _ := 0

/-! ### What the program holds -/

/-- One more handle. -/
def give (a : Forest α) (k : Kind) (n : NodeId) : Forest α :=
  { a with held := fun k' m => if k' = k ∧ m = n then a.held k' m + 1 else a.held k' m }

/-- One handle less. -/
def take (a : Forest α) (k : Kind) (n : NodeId) : Forest α :=
  { a with held := fun k' m => if k' = k ∧ m = n then a.held k' m - 1 else a.held k' m }

def giveTree (a : Forest α) (t : TreeId) : Forest α := { a with trees := upd a.trees t (a.trees t + 1) }
def takeTree (a : Forest α) (t : TreeId) : Forest α := { a with trees := upd a.trees t (a.trees t - 1) }

def giveTok (a : Forest α) (grant : Bool) (t : TreeId) : Forest α :=
  if grant then { a with grantTok := upd a.grantTok t (a.grantTok t + 1) }
  else { a with prohTok := upd a.prohTok t (a.prohTok t + 1) }

def takeTok (a : Forest α) (grant : Bool) (t : TreeId) : Forest α :=
  if grant then { a with grantTok := upd a.grantTok t (a.grantTok t - 1) }
  else { a with prohTok := upd a.prohTok t (a.prohTok t - 1) }

/-- The program holds the tree: a `Tree`, or a handle to one of its nodes. -/
def Holds (a : Forest α) (t : TreeId) : Prop :=
  0 < a.trees t ∨ ∃ k n, 0 < a.held k n ∧ a.tree n = some t

/-- There is an edit grant: a token, or a hot node of the tree. -/
def Granted (a : Forest α) (t : TreeId) : Prop :=
  0 < a.grantTok t ∨ ∃ n, 0 < a.held .hot n ∧ a.tree n = some t

/-- There is an edit prohibition: a token, or a frozen node of the tree. -/
def Prohibited (a : Forest α) (t : TreeId) : Prop :=
  0 < a.prohTok t ∨ ∃ n, 0 < a.held .frozen n ∧ a.tree n = some t

/-- A grant (`true`) or a prohibition (`false`) is refused. -/
def Refused (a : Forest α) (t : TreeId) : Bool → Prop
  | true => a.Prohibited t
  | false => a.Granted t

/-- The grant given to a call, if any, is for the tree of the node. -/
def Fits (a : Forest α) (n : NodeId) : Auth → Prop
  | .token t => a.tree n = some t
  | .hot => True

/-! ### Changes of the forest -/

open Classical in
/-- Every tree that is not held vanishes, with its nodes. -/
noncomputable def sweep (a : Forest α) : Forest α :=
  { a with
    data := fun n => if ∃ t, a.tree n = some t ∧ a.Holds t then a.data n else none
    borrowed := fun n => if ∃ t, a.tree n = some t ∧ a.Holds t then a.borrowed n else false
    children := fun n => if ∃ t, a.tree n = some t ∧ a.Holds t then a.children n else []
    tree := fun n => if ∃ t, a.tree n = some t ∧ a.Holds t then a.tree n else none
    root := fun t => if a.Holds t then a.root t else none }

/-- A new node of tree `t`. -/
def addNode (a : Forest α) (d : α) (t : TreeId) : Forest α :=
  { a with
    data := upd a.data a.newNode (some d)
    borrowed := upd a.borrowed a.newNode false
    tree := upd a.tree a.newNode (some t)
    newNode := a.newNode + 1 }

def setRoot (a : Forest α) (t : TreeId) (n : NodeId) : Forest α := { a with root := upd a.root t (some n) }

/-- A new tree. -/
def addTree (a : Forest α) (r : NodeId) : Forest α :=
  { a with root := upd a.root a.newTree (some r), newTree := a.newTree + 1 }

def setChildren (a : Forest α) (p : NodeId) (l : List NodeId) : Forest α :=
  { a with children := upd a.children p l }

open Classical in
/-- The nodes `D` go to tree `t`. -/
noncomputable def rehome (a : Forest α) (D : NodeId → Prop) (t : TreeId) : Forest α :=
  { a with tree := fun n => if D n then some t else a.tree n }

/-- The node has no parent. -/
def IsTop (a : Forest α) (n : NodeId) : Prop := ∀ p, n ∉ a.children p

/-- What a navigation method finds. -/
def Finds (a : Forest α) (n : NodeId) (o : Option NodeId) : Nav → Prop
  | .root => ∃ t, a.tree n = some t ∧ o = a.root t
  | .parent => (∃ p, n ∈ a.children p ∧ o = some p) ∨ a.IsTop n ∧ o = none
  | .prevSibling => (∃ p l1 l2, a.children p = l1 ++ n :: l2 ∧ o = l1.getLast?) ∨ a.IsTop n ∧ o = none
  | .nextSibling => (∃ p l1 l2, a.children p = l1 ++ n :: l2 ∧ o = l2.head?) ∨ a.IsTop n ∧ o = none
  | .firstSibling => (∃ p, n ∈ a.children p ∧ o = (a.children p).head?) ∨ a.IsTop n ∧ o = some n
  | .lastSibling => (∃ p, n ∈ a.children p ∧ o = (a.children p).getLast?) ∨ a.IsTop n ∧ o = some n
  | .firstChild => o = (a.children n).head?
  | .lastChild => o = (a.children n).getLast?

/-- The token or bundle of the kind is a grant. -/
def _root_.Dendron.Kind.lock : Kind → Option Bool
  | .plain => none
  | .hot => some true
  | .frozen => some false

/-- The calls. -/
inductive Step (a : Forest α) : Op α → Res → Forest α → Prop
  | newTree (hot : Bool) (d : α) :
      Step a (.newTree hot d) (.node (some a.newNode))
        (((a.addNode d a.newTree).addTree a.newNode).give (if hot then .hot else .plain) a.newNode)
  | clone (k : Kind) (n : NodeId) : Step a (.clone k n) .unit (a.give k n)
  | drop (k : Kind) (n : NodeId) : Step a (.drop k n) .unit (a.take k n).sweep
  | navNone {k : Kind} {q : Nav} {n : NodeId} : a.Finds n none q → Step a (.nav k q n) (.node none) a
  | navSome {k : Kind} {q : Nav} {n m : NodeId} : a.Finds n (some m) q →
      Step a (.nav k q n) (.node (some m)) (a.give k m)
  | upgradeDead {n : NodeId} : a.data n = none → Step a (.upgrade n) (.node none) a
  | upgrade {n : NodeId} : a.data n ≠ none → Step a (.upgrade n) (.node (some n)) (a.give .plain n)
  | plainOf (k : Kind) (n : NodeId) : Step a (.plainOf k n) .unit (a.give .plain n)
  | bundleRefused {k : Kind} {n : NodeId} {t : TreeId} {b : Bool} : a.tree n = some t → k.lock = some b →
      a.Refused t b → Step a (.bundle k n) .denied (a.take .plain n).sweep
  | bundle {k : Kind} {n : NodeId} {t : TreeId} {b : Bool} : a.tree n = some t → k.lock = some b →
      ¬ a.Refused t b → Step a (.bundle k n) .unit ((a.take .plain n).give k n)
  | bundleWith {k : Kind} {n : NodeId} {t : TreeId} : a.tree n = some t →
      Step a (.bundleWith k n t) .unit ((a.take .plain n).give k n)
  | treeOf {k : Kind} {n : NodeId} {t : TreeId} : a.tree n = some t →
      Step a (.treeOf k n) (.tree (some t)) (a.giveTree t)
  | cloneTree (t : TreeId) : Step a (.cloneTree t) .unit (a.giveTree t)
  | dropTree (t : TreeId) : Step a (.dropTree t) .unit (a.takeTree t).sweep
  | treeRoot {t : TreeId} {r : NodeId} : a.root t = some r →
      Step a (.treeRoot t) (.node (some r)) (a.give .plain r)
  | upgradeTreeDead {t : TreeId} : a.root t = none → Step a (.upgradeTree t) (.tree none) a
  | upgradeTree {t : TreeId} : a.root t ≠ none → Step a (.upgradeTree t) (.tree (some t)) (a.giveTree t)
  | acquireRefused {b : Bool} {t : TreeId} : a.Refused t b → Step a (.acquire b t) .denied a
  | acquire {b : Bool} {t : TreeId} : ¬ a.Refused t b → Step a (.acquire b t) .unit (a.giveTok b t)
  | cloneTok (b : Bool) (t : TreeId) : Step a (.cloneTok b t) .unit (a.giveTok b t)
  | dropTok (b : Bool) (t : TreeId) : Step a (.dropTok b t) .unit (a.takeTok b t)
  | extract {b : Bool} {n : NodeId} {t : TreeId} : a.tree n = some t →
      Step a (.extract b n) .unit (a.giveTok b t)
  | create {au : Auth} {n p : NodeId} {d : α} {as : AdoptAs} {l1 l2 : List NodeId} {t : TreeId} :
      a.Fits n au → a.tree n = some t → DestSplit a.children (as.at n) p l1 l2 →
      Step a (.create au n d as) (.node (some a.newNode))
        (((a.addNode d t).setChildren p (l1 ++ a.newNode :: l2)).give au.kind a.newNode)
  | createFails {au : Auth} {n : NodeId} {d : α} {as : AdoptAs} :
      a.Fits n au → a.IsTop n → (as = .previousSibling ∨ as = .nextSibling) →
      Step a (.create au n d as) (.err .siblingsWithoutParent) { a with newNode := a.newNode + 1 }
  | createParent {au : Auth} {n p : NodeId} {d : α} {l1 l2 : List NodeId} {t : TreeId} :
      a.Fits n au → a.tree n = some t → a.children p = l1 ++ n :: l2 →
      Step a (.createParent au n d) (.node (some a.newNode))
        ((((a.addNode d t).setChildren p (l1 ++ a.newNode :: l2)).setChildren a.newNode [n]).give
          au.kind a.newNode)
  | createRoot {au : Auth} {n : NodeId} {d : α} {t : TreeId} :
      a.Fits n au → a.tree n = some t → a.IsTop n →
      Step a (.createParent au n d) (.node (some a.newNode))
        ((((a.addNode d t).setRoot t a.newNode).setChildren a.newNode [n]).give au.kind a.newNode)
  | createChild {au : Auth} {n : NodeId} {d : α} {t : TreeId} :
      a.Fits n au → a.tree n = some t →
      Step a (.createChild au n d) (.node (some a.newNode))
        ((((a.addNode d t).setChildren n [a.newNode]).setChildren a.newNode (a.children n)).give
          au.kind a.newNode)
  | detachRoot {au : Auth} {n : NodeId} : a.Fits n au → a.IsTop n → Step a (.detach au n) .unit a
  | detach {au : Auth} {n p : NodeId} {l1 l2 : List NodeId} : a.Fits n au →
      a.children p = l1 ++ n :: l2 →
      Step a (.detach au n) .unit
        (((a.rehome (Desc a.children n) a.newTree).addTree n).setChildren p (l1 ++ l2)).sweep
  | replace {au : Auth} {n p : NodeId} {l1 l2 : List NodeId} : a.Fits n au →
      a.children p = l1 ++ n :: l2 →
      Step a (.replace au n) .unit
        ((((a.rehome (· = n) a.newTree).addTree n).setChildren p (l1 ++ a.children n ++ l2)).setChildren
          n []).sweep
  | replaceRoot {au : Auth} {n c : NodeId} {t : TreeId} : a.Fits n au → a.IsTop n →
      a.children n = [c] → a.tree n = some t →
      Step a (.replace au n) .unit
        ((((a.rehome (· = n) a.newTree).setRoot t c).addTree n).setChildren n []).sweep
  | replaceEmpty {au : Auth} {n : NodeId} : a.Fits n au → a.IsTop n → a.children n = [] →
      Step a (.replace au n) (.err .emptyTree) a
  | replaceSeveral {au : Auth} {n : NodeId} : a.Fits n au → a.IsTop n → 1 < (a.children n).length →
      Step a (.replace au n) (.err .siblingsWithoutParent) a
  | moveRoot {au : Auth} {n : NodeId} {dest : InsertAs NodeId} : a.Fits n au → a.IsTop n →
      a.tree n = a.tree dest.anchor → Step a (.move au n dest) .unit a
  | move {au : Auth} {n p q : NodeId} {dest : InsertAs NodeId} {l1 l2 m1 m2 : List NodeId} {t : TreeId} :
      a.Fits n au → a.children p = l1 ++ n :: l2 → a.tree dest.anchor = some t →
      ¬ Desc a.children n dest.anchor → DestSplit (a.setChildren p (l1 ++ l2)).children dest q m1 m2 →
      Step a (.move au n dest) .unit
        ((((a.rehome (Desc a.children n) t).setChildren p (l1 ++ l2)).setChildren q (m1 ++ n :: m2))).sweep
  | moveWhole {au : Auth} {n q : NodeId} {dest : InsertAs NodeId} {m1 m2 : List NodeId} {t t' : TreeId} :
      a.Fits n au → a.IsTop n → a.tree n = some t' → a.trees t' = 0 → a.tree dest.anchor = some t →
      t' ≠ t → DestSplit a.children dest q m1 m2 →
      Step a (.move au n dest) .unit
        (((a.rehome (Desc a.children n) t).setChildren q (m1 ++ n :: m2))).sweep
  | writeBorrowed {n : NodeId} {d : α} : a.borrowed n = true → Step a (.write n d) .borrowed a
  | write {n : NodeId} {d : α} : a.borrowed n = false →
      Step a (.write n d) .unit { a with data := upd a.data n (some d) }
  | borrowBorrowed {n : NodeId} : a.borrowed n = true → Step a (.borrowMut n true) .borrowed a
  | borrow {n : NodeId} : a.borrowed n = false →
      Step a (.borrowMut n true) .unit { a with borrowed := upd a.borrowed n true }
  | borrowEnd {n : NodeId} : Step a (.borrowMut n false) .unit { a with borrowed := upd a.borrowed n false }

/-- An edit at `n` is made through a plain node and a grant, or through a hot node. -/
def With (a : Forest α) (n : NodeId) : Auth → Prop
  | .token t => 0 < a.held .plain n ∧ 0 < a.grantTok t
  | .hot => 0 < a.held .hot n

/-- The program can make the call: it holds the values the call is made with (Rust's ownership rules). -/
def May (a : Forest α) : Op α → Prop
  | .newTree _ _ | .upgrade _ | .upgradeTree _ => True
  | .clone k n | .drop k n | .nav k _ n | .treeOf k n => 0 < a.held k n
  | .plainOf k n => k ≠ .plain ∧ 0 < a.held k n
  | .bundle k n => k ≠ .plain ∧ 0 < a.held .plain n
  | .bundleWith k n t =>
    0 < a.held .plain n ∧ (k = .hot ∧ 0 < a.grantTok t ∨ k = .frozen ∧ 0 < a.prohTok t)
  | .cloneTree t | .dropTree t | .treeRoot t | .acquire _ t => 0 < a.trees t
  | .cloneTok b t | .dropTok b t => if b then 0 < a.grantTok t else 0 < a.prohTok t
  | .extract b n => if b then 0 < a.held .hot n else 0 < a.held .frozen n
  | .create au n _ _ | .createParent au n _ | .createChild au n _ | .detach au n | .replace au n =>
    a.With n au
  | .move au n dest => a.With n au ∧ 0 < a.held .hot dest.anchor
  | .write n _ | .borrowMut n _ => ∃ k, 0 < a.held k n

/-- The calls without a known defect other than stale last children: a move inside the own tree of a root;
a move of a node that is no root to a place outside its subtree; a move of the only node of a tree without
`Tree` handles.  A node that is the last of several siblings is not moved to an end of its own list. -/
def Fine (a : Forest α) : Op α → Prop
  | .move _ n dest =>
    (a.IsTop n ∧ a.tree n = a.tree dest.anchor) ∨
    ((∃ p, n ∈ a.children p) ∧ ¬ Desc a.children n dest.anchor ∧
      (dest.isSibling = true → ∃ q, dest.anchor ∈ a.children q) ∧
      ∀ p, LastOf a.children n p → ¬ AtEnd (fun q => (a.children q).erase n) dest p) ∨
    (a.IsTop n ∧ a.children n = [] ∧ a.tree n ≠ a.tree dest.anchor ∧
      (∀ t, a.tree n = some t → a.trees t = 0) ∧ (dest.isSibling = true → ∃ q, dest.anchor ∈ a.children q))
  | _ => True

/-- The nodes whose last child has been taken away: the crate may answer `last_child` wrongly for these. -/
def marks (a : Forest α) (S : NodeId → Prop) (op : Op α) (p : NodeId) : Prop :=
  S p ∨ DropsLast a.children op p ∨ ∃ au n d, op = .createChild au n d ∧ p = a.newNode ∧ S n

/-- A sequence of calls with their results. -/
inductive Runs : Forest α → List (Op α × Res) → Forest α → Prop
  | nil (a : Forest α) : Runs a [] a
  | snoc {a b c : Forest α} {l : List (Op α × Res)} {op : Op α} {r : Res} : Runs a l b → b.Step op r c →
      Runs a (l ++ [(op, r)]) c

/-- A program written against the abstract machine: every call can be made, has no known defect, and does not
depend on a last child after one has been taken away. -/
inductive Program : List (Op α × Res) → Forest α → (NodeId → Prop) → Prop
  | init : Program [] init (fun _ => False)
  | step {l : List (Op α × Res)} {a a' : Forest α} {S : NodeId → Prop} {op : Op α} {r : Res} :
      Program l a S → a.May op → a.Fine op → (∀ p, UsesLast a.children op p → ¬ S p) → a.Step op r a' →
      Program (l ++ [(op, r)]) a' (a.marks S op)

end Forest

/-- The memory represents the abstract state. -/
structure Shows (w : World α) (a : Forest α) : Prop where
  children : FShape w.heap a.children
  data : a.data = w.heap.data
  borrowed : ∀ n, a.borrowed n = (w.heap.alive n && w.heap.mutB n)
  tree : ∀ n, a.tree n = if w.heap.alive n then w.heap.memTree n else none
  root : a.root = w.heap.root
  newNode : a.newNode = w.heap.nNode
  newTree : a.newTree = w.heap.nTree
  held : a.held = w.held
  trees : a.trees = w.trees
  grantTok : a.grantTok = w.grantTok
  prohTok : a.prohTok = w.prohTok

/-- A history of calls (`StepW`) from the start, with their results. -/
inductive Played : List (Op α × Res) → World α → Prop
  | init : Played [] World.init
  | step {l : List (Op α × Res)} {w w' : World α} {op : Op α} {r : Res} : Played l w → w.StepW op w' r →
      Played (l ++ [(op, r)]) w'

end Dendron
