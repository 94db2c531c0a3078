import Verif.Model.Data

/-! Histories of calls with guards, and the value a history stores in a node. -/

set_option autoImplicit false

namespace Dendron
variable {α : Type}

/-- One call that returns `r`.  A guard borrows the handle it was got from, which Rust does not let the
program drop or give away: a node with a guard keeps a handle. -/
structure GWorld.Call (g : GWorld α) (op : GOp α) (g' : GWorld α) (r : GRes α) : Prop where
  allowed : g.Allowed op
  run : g.exec op = .ok (g', r)
  guards : ∀ n, g.Guarded n → g'.world.Holds n

/-- The program gets to state `g` by the calls in the list, the last call first. -/
inductive GRun : List (GOp α × GRes α) → GWorld α → Prop
  | init : GRun [] GWorld.init
  | step {past : List (GOp α × GRes α)} {g g' : GWorld α} {op : GOp α} {r : GRes α} :
      GRun past g → g.Call op g' r → GRun ((op, r) :: past) g'

/-- The value a call stores in node `x`: the data of a node it creates, or of a successful write. -/
def Stored : GOp α → GRes α → NodeId → Option α
  | .call (.newTree _ d), .call (.node (some m)), x
  | .call (.create _ _ d _), .call (.node (some m)), x
  | .call (.createParent _ _ d), .call (.node (some m)), x
  | .call (.createChild _ _ d), .call (.node (some m)), x => if x = m then some d else none
  | .call (.write n d), .call .unit, x => if x = n then some d else none
  | .set n d, .unit, x => if x = n then some d else none
  | _, _, _ => none

/-- The value most recently stored in node `x`. -/
def lastStored : List (GOp α × GRes α) → NodeId → Option α
  | [], _ => none
  | (op, r) :: past, x =>
    match Stored op r x with
    | some d => some d
    | none => lastStored past x

/-- The number of `Ref`s of node `x` the program has got and not dropped. -/
def refsAlive : List (GOp α × GRes α) → NodeId → Nat
  | [], _ => 0
  | (.borrow n, .value _) :: past, x => if x = n then refsAlive past x + 1 else refsAlive past x
  | (.unborrow n, _) :: past, x => if x = n then refsAlive past x - 1 else refsAlive past x
  | _ :: past, x => refsAlive past x

/-- The program has got a `RefMut` of node `x` and not dropped it. -/
def refMutAlive : List (GOp α × GRes α) → NodeId → Bool
  | [], _ => false
  | (.call (.borrowMut n keep), .call .unit) :: past, x => if x = n then keep else refMutAlive past x
  | _ :: past, x => refMutAlive past x

end Dendron
