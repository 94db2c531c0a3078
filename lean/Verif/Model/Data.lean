import Verif.Model.World

/-!
# Access to the data of nodes

The data of a node is in a `RefCell` (`src/node/internal.rs` 49-57, 362-392).  `GWorld` is a program
state together with the shared guards (`Ref`) the program holds; an exclusive guard (`RefMut`) of node
`n` is recorded in the memory itself (`mutB n`).  The methods of `HotNode` and `FrozenNode`
(`src/node/hot.rs` 218-281, `src/node/frozen.rs` 227-298) forward to those of `Node`.
-/

set_option autoImplicit false

namespace Dendron

/-- A program state and the number of `Ref`s alive for each node. -/
structure GWorld (α : Type) where
  world : World α
  shared : NodeId → Nat

/-- The calls of `Op`, and the uses of guards. -/
inductive GOp (α : Type) where
  /-- any call of `Op`; `write` is `*n.try_borrow_data_mut()? = d;`, `borrowMut n true` is
  `try_borrow_data_mut` keeping the guard, `borrowMut n false` is the drop of that guard -/
  | call (op : Op α)
  /-- `try_borrow_data`, keeping the guard (`src/node/plain.rs` 329-331) -/
  | borrow (n : NodeId)
  /-- drop of a `Ref` -/
  | unborrow (n : NodeId)
  /-- reading through a guard (`Ref::deref`, `RefMut::deref`) -/
  | get (n : NodeId)
  /-- writing through a `RefMut` (`RefMut::deref_mut`) -/
  | set (n : NodeId) (d : α)

/-- What they return. -/
inductive GRes (α : Type) where
  | call (r : Res)
  | unit
  /-- the data seen through the guard -/
  | value (d : α)
  /-- `BorrowError` -/
  | denied

namespace GWorld
variable {α : Type}

/-- The program at its start. -/
def init : GWorld α := ⟨World.init, fun _ => 0⟩

/-- The calls of `Op` need an exclusive borrow of the data of this node (`RefCell::try_borrow_mut`). -/
def needsMut : Op α → Option NodeId
  | .write n _ => some n
  | .borrowMut n true => some n
  | _ => none

/-- One call.  `RefCell::try_borrow` fails while there is a `RefMut`, `RefCell::try_borrow_mut` while
there is a `RefMut` or a `Ref`. -/
def exec (g : GWorld α) : GOp α → Except Fault (GWorld α × GRes α)
  | .call op =>
    match needsMut op with
    | some n =>
      if 0 < g.shared n then .ok (g, .call .borrowed)
      else do
        let (w, r) ← g.world.exec op
        return ({ g with world := w }, .call r)
    | none => do
      let (w, r) ← g.world.exec op
      return ({ g with world := w }, .call r)
  | .borrow n =>
    if g.world.heap.mutB n then .ok (g, .denied)
    else
      match g.world.heap.data n with
      | none => .error (.panic "use after free")
      | some d => .ok ({ g with shared := upd g.shared n (g.shared n + 1) }, .value d)
  | .unborrow n => .ok ({ g with shared := upd g.shared n (g.shared n - 1) }, .unit)
  | .get n =>
    match g.world.heap.data n with
    | none => .error (.panic "use after free")
    | some d => .ok (g, .value d)
  | .set n d =>
    match g.world.heap.data n with
    | none => .error (.panic "use after free")
    | some _ => .ok ({ g with world := { g.world with heap := g.world.heap.setData n d } }, .unit)

/-- The program holds a guard for the data of the node. -/
def Guarded (g : GWorld α) (n : NodeId) : Prop := 0 < g.shared n ∨ g.world.heap.mutB n = true

/-- The program can make the call: it holds the handle or the guard. -/
def Allowed (g : GWorld α) : GOp α → Prop
  | .call op => g.world.Allowed op
  | .borrow n => g.world.Holds n
  | .unborrow n => 0 < g.shared n
  | .get n => g.Guarded n
  | .set n _ => g.world.heap.mutB n = true

end GWorld
end Dendron
