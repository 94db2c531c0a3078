import Verif.Model.Builder
import Verif.Model.Pretty
import Verif.Model.Macro
import Verif.Model.Traverse

/-!
# Running the crate's own tests on the model

The tests of the crate (`/repo/tests`, the test modules in `/repo/src`, the examples in its
documentation) are transcribed, call by call, in `Verif.Conformance.*`; Lean's kernel evaluates the model on
them.  These are tests of the *model* — evidence that it describes the crate — and no theorem depends
on them.

`T β` is a test program.  `call` makes one call of the API, after checking that the program holds the
values the call needs (`World.Allowed`): so the transcriptions cannot use a handle that was dropped.
A function of the crate that returns a handle gives it to the program; `look` is a navigation whose
result is a temporary that is dropped at the end of the statement.
-/

set_option autoImplicit false

namespace Dendron

instance (w : World String) (n : NodeId) : Decidable (w.Holds n) :=
  decidable_of_iff (0 < w.held .plain n ∨ 0 < w.held .hot n ∨ 0 < w.held .frozen n) (by
    constructor
    · rintro (h | h | h)
      · exact ⟨_, h⟩
      · exact ⟨_, h⟩
      · exact ⟨_, h⟩
    · rintro ⟨k, h⟩
      cases k <;> simp [h])

instance (w : World String) (n : NodeId) (a : Auth) : Decidable (w.HasAuth n a) := by
  cases a <;> (unfold World.HasAuth; infer_instance)

instance (w : World String) (op : Op String) : Decidable (w.Allowed op) := by
  cases op <;> (unfold World.Allowed; infer_instance)

namespace Conformance

/-- A test program. -/
abbrev T (β : Type) : Type := StateT (World String) (Except Fault) β

/-- One call. -/
def call (op : Op String) : T Res := do
  let w ← get
  if w.Allowed op then
    let (w, r) ← w.exec op
    set w
    return r
  else throw (.panic "the program does not hold the values for this call")

/-- `assert!`. -/
def check (b : Bool) : T Unit := if b then return () else throw (.panic "assertion failed")

/-- The test passes. -/
def passes (t : T Unit) : Bool :=
  match t World.init with
  | .ok _ => true
  | .error _ => false

/-- The call panics (`#[should_panic]`, or an example that ends in a panic). -/
def panics {β : Type} (t : T β) : T Unit := do
  match t (← get) with
  | .error (.panic _) => return ()
  | _ => throw (.panic "a panic was expected")

/-- The memory. -/
def heap : T (Heap String) := do return (← get).heap

/-- A computation without effects. -/
def pureT {β : Type} (r : Except Fault β) : T β :=
  match r with
  | .ok b => return b
  | .error e => throw e

/-- The node a call returns. -/
def node (t : T Res) : T NodeId := do
  match ← t with
  | .node (some n) => return n
  | _ => throw (.panic "a node was expected")

/-- The call returns `Ok(())` or a value nobody looks at. -/
def ok (t : T Res) : T Unit := do
  match ← t with
  | .unit => return ()
  | _ => throw (.panic "a unit result was expected")

/-- The call returns this error. -/
def fails (t : T Res) (e : HierarchyError) : T Unit := do check (decide ((← t) = .err e))

/-- `Node::new_tree`. -/
def newTree (d : String) : T NodeId := node (call (.newTree false d))
/-- `HotNode::new_tree`. -/
def newHot (d : String) : T NodeId := node (call (.newTree true d))
/-- `drop` of a handle. -/
def drop (k : Kind) (n : NodeId) : T Unit := ok (call (.drop k n))
/-- `clone` of a handle. -/
def clone (k : Kind) (n : NodeId) : T Unit := ok (call (.clone k n))

/-- `tree()`. -/
def treeOf (k : Kind) (n : NodeId) : T TreeId := do
  match ← call (.treeOf k n) with
  | .tree (some t) => return t
  | _ => throw (.panic "a tree was expected")

/-- `n.tree().grant_hierarchy_edit()` (or `prohibit_hierarchy_edit`); the `Tree` is a temporary. -/
def tryLock (grant : Bool) (n : NodeId) : T (Option TreeId) := do
  let t ← treeOf .plain n
  let r ← call (.acquire grant t)
  ok (call (.dropTree t))
  match r with
  | .unit => return some t
  | .denied => return none
  | _ => throw (.panic "unexpected result")

/-- `n.tree().grant_hierarchy_edit()?`. -/
def grant (n : NodeId) : T TreeId := do
  match ← tryLock true n with
  | some t => return t
  | none => throw (.panic "denied")

/-- `n.tree().prohibit_hierarchy_edit()?`. -/
def prohibit (n : NodeId) : T TreeId := do
  match ← tryLock false n with
  | some t => return t
  | none => throw (.panic "denied")

/-- `n.bundle_new_hierarchy_edit_grant()` / `_prohibition()`; is the result `Ok`? -/
def bundle (k : Kind) (n : NodeId) : T Bool := do
  match ← call (.bundle k n) with
  | .unit => return true
  | .denied => return false
  | _ => throw (.panic "unexpected result")

/-- `create_as_first_child`, `create_as_last_child`, `try_create_as_prev_sibling(..).expect(..)`,
`try_create_as_next_sibling(..).expect(..)`. -/
def mk (a : Auth) (n : NodeId) (d : String) (as : AdoptAs := .lastChild) : T NodeId :=
  node (call (.create a n d as))

/-- A navigation method whose result is only looked at. -/
def look (q : Nav) (n : NodeId) (k : Kind := .plain) : T (Option NodeId) := do
  match ← call (.nav k q n) with
  | .node (some m) => do
    drop k m
    return some m
  | .node none => return none
  | _ => throw (.panic "a node was expected")

/-- The result of a navigation method is this node (`ptr_eq`) / is `None`. -/
def goes (q : Nav) (n : NodeId) (r : Option NodeId) (k : Kind := .plain) : T Unit := do
  check ((← look q n k) == r)

/-- `is_root`. -/
def isRoot (n : NodeId) : T Bool := do pureT ((← heap).nodeIsRoot n)

/-- The data of a node (`borrow_data`). -/
def data (n : NodeId) : T String := do
  match (← heap).borrowData n with
  | .ok d => return d
  | .error _ => throw (.panic "BorrowError")

/-- How many values of the node type are alive (the counters of `tests/tree_drop.rs`). -/
def count : T Nat := do
  let h ← heap
  return ((List.range h.nNode).filter h.alive).length

/-- Enough steps to exhaust any of the traversers below. -/
def steps : Nat := 100

/-- `collect` of an iterator. -/
def collect {σ ι : Type} (next : Heap String → σ → Step σ ι) (s : σ) : T (List ι) := do
  pureT (drain (next (← heap)) steps s)

/-- The data of some nodes. -/
def datas : List NodeId → T (List String)
  | [] => return []
  | n :: l => do return (← data n) :: (← datas l)

/-- The events of `depth_first_traverse` with the data of the nodes. -/
def dfts : List (DftEvent NodeId) → T (List (DftEvent String))
  | [] => return []
  | .opn n :: l => do return .opn (← data n) :: (← dfts l)
  | .cls n :: l => do return .cls (← data n) :: (← dfts l)

/-- `n.depth_first_traverse().map(|ev| ev.map(|node| node.borrow_data().clone())).collect()`. -/
def dft (n : NodeId) : T (List (DftEvent String)) := do dfts (← collect Dft.next (Dft.start n))

/-- `n == m` of `Node`. -/
def nodeEq (n m : NodeId) : T Bool := do
  match ← pureT ((← heap).tryEq (fun a b => a == b) n m) with
  | .ok b => return b
  | .error _ => throw (.panic "BorrowError")

/-- `tree_node!`. -/
def treeNode (l : Lit String) : T NodeId := do
  let (w, n) ← l.treeNode (← get)
  set w
  return n

/-- `n.debug_pretty_print().to_string()`. -/
def pretty (n : NodeId) (fmt : String → List (List Char) := fun s => [s.toList]) : T (List Char) := do
  pureT ((← heap).pretty fmt n)

/-- `n == tree_node!{..}`: the temporary is dropped. -/
def looks (n : NodeId) (l : Lit String) : T Unit := do
  let m ← treeNode l
  check (← nodeEq n m)
  drop .plain m

/-- Some lines of text. -/
def lines : List String → List Char
  | [] => []
  | [s] => s.toList
  | s :: l => s.toList ++ '\n' :: lines l

/-- A loop `for x in l`. -/
def each {β : Type} (l : List β) (f : β → T Unit) : T Unit :=
  match l with
  | [] => return ()
  | x :: l => do
    f x
    each l f

/-- `n.belongs_to(&t)`. -/
def belongs (n : NodeId) (t : TreeId) : T Bool := do return (← heap).belongsTo n t

/-- `num_children`. -/
def numChildren (n : NodeId) : T Nat := do return (← heap).numCh n

/-- A function of the builder, on the state of the program. -/
def onWorld {β : Type} (f : World String → Except Fault (World String × β)) : T β := do
  let (w, r) ← f (← get)
  set w
  return r

/-- `collect` of events to a `Result<Node<_>, _>`, then `expect`. -/
def fromEvents (es : List (Event String)) : T NodeId := do
  match ← onWorld (Builder.fromEvents · es) with
  | .ok n => return n
  | .error _ => throw (.panic "valid events that can construct tree")

/-- `n.to_events().collect::<Result<Vec<_>, _>>()`, then `expect`. -/
def toEvents (n : NodeId) : T (List (Event String)) := do
  let es ← collect Heap.serNext (Dft.start n)
  let rec go : List (Except BorrowError (Event String)) → T (List (Event String))
    | [] => return []
    | .ok e :: l => do return e :: (← go l)
    | .error _ :: _ => throw (.panic "data associated to any nodes are not borrowed")
  go es

end Conformance
end Dendron
