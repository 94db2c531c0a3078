import Verif.Model.World

/-!
# Code of the crate that only uses handles

Iterators, comparison, printing and so on are written in the crate with the public operations on
handles: navigation, `clone` and `drop` of a handle, borrowing the data.  `Prog α β` is such a piece of
code with a result in `β`; `run` performs its operations one after another on the program state with
`World.exec`, so reference counts and locks change as in the crate; `eval` is the same code on the
memory alone, without counting handles.
-/

set_option autoImplicit false

namespace Dendron

/-- A piece of code of the crate using handles (syntax; the source lines are cited where a `Prog` is
defined). -/
inductive Prog (α β : Type) : Type where
  /-- the result -/
  | ret (b : β)
  /-- a panic -/
  | fail (e : Fault)
  /-- a navigation method of a handle of kind `k` to node `n` -/
  | nav (k : Kind) (q : Nav) (n : NodeId) (f : Option NodeId → Prog α β)
  /-- `clone` of a handle -/
  | clone (k : Kind) (n : NodeId) (f : Prog α β)
  /-- `drop` of a handle -/
  | drop (k : Kind) (n : NodeId) (f : Prog α β)
  /-- `HotNode::plain`, `FrozenNode::plain` -/
  | plain (k : Kind) (n : NodeId) (f : Prog α β)
  /-- `try_borrow_data` of a handle (`src/node/plain.rs` 328-331), the `Ref` is dropped before the next
  operation; `none` is `BorrowError` -/
  | data (k : Kind) (n : NodeId) (f : Option α → Prog α β)

namespace Prog
variable {α β γ : Type}

/-- Sequential composition (`;` of Rust). -/
def bind : Prog α β → (β → Prog α γ) → Prog α γ
  | ret b, g => g b
  | fail e, _ => fail e
  | nav k q n f, g => nav k q n (fun r => (f r).bind g)
  | clone k n f, g => clone k n (f.bind g)
  | drop k n f, g => drop k n (f.bind g)
  | plain k n f, g => plain k n (f.bind g)
  | data k n f, g => data k n (fun r => (f r).bind g)

instance : Monad (Prog α) where
  pure := ret
  bind := bind

/-- A navigation method. -/
def navP (k : Kind) (q : Nav) (n : NodeId) : Prog α (Option NodeId) := nav k q n ret
/-- `clone`. -/
def cloneP (k : Kind) (n : NodeId) : Prog α Unit := clone k n (ret ())
/-- `drop`. -/
def dropP (k : Kind) (n : NodeId) : Prog α Unit := drop k n (ret ())
/-- `plain()`. -/
def plainP (k : Kind) (n : NodeId) : Prog α Unit := plain k n (ret ())
/-- `try_borrow_data`. -/
def dataP (k : Kind) (n : NodeId) : Prog α (Option α) := data k n ret
/-- `drop` of several handles, one after another. -/
def dropAll (k : Kind) : List NodeId → Prog α Unit
  | [] => ret ()
  | n :: l => drop k n (dropAll k l)
/-- `clone` of several handles, one after another. -/
def cloneAll (k : Kind) : List NodeId → Prog α Unit
  | [] => ret ()
  | n :: l => clone k n (cloneAll k l)
/-- A computation without handles. -/
def lift : Except Fault β → Prog α β
  | .ok b => ret b
  | .error e => fail e

/-- Perform the operations on the program state. -/
def run : Prog α β → World α → Except Fault (World α × β)
  | ret b, w => .ok (w, b)
  | fail e, _ => .error e
  | nav k q n f, w =>
    match w.exec (.nav k q n) with
    | .error e => .error e
    | .ok (w', .node r) => (f r).run w'
    | .ok _ => .error (.panic "unreachable: navigation returns a node")
  | clone k n f, w =>
    match w.exec (.clone k n) with
    | .error e => .error e
    | .ok (w', _) => f.run w'
  | drop k n f, w =>
    match w.exec (.drop k n) with
    | .error e => .error e
    | .ok (w', _) => f.run w'
  | plain k n f, w =>
    match w.exec (.plainOf k n) with
    | .error e => .error e
    | .ok (w', _) => f.run w'
  | data _ n f, w => (f (if w.heap.mutB n then none else w.heap.data n)).run w

/-- The same code on the memory, without counting handles. -/
def eval : Prog α β → Heap α → Except Fault β
  | ret b, _ => .ok b
  | fail e, _ => .error e
  | nav _ q n f, h =>
    match h.navTo n q with
    | .error e => .error e
    | .ok r => (f r).eval h
  | clone _ _ f, h => f.eval h
  | drop _ _ f, h => f.eval h
  | plain _ _ f, h => f.eval h
  | data _ n f, h => (f (if h.mutB n then none else h.data n)).eval h

end Prog
end Dendron
