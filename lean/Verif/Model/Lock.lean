import Verif.Model.Basic

/-!
# Lock manager of a tree (`src/tree/lock.rs`)

`num_grants` is a signed counter: positive = number of edit grants, negative = number of edit
prohibitions.  The functions below are the pure counter operations.
-/

set_option autoImplicit false

namespace Dendron
namespace Lock

/-- `isize::MAX` on a 64-bit target. -/
def isizeMax : Int := 2 ^ 63 - 1
/-- `isize::MIN` on a 64-bit target. -/
def isizeMin : Int := -(2 ^ 63)

/-- `ensure_prohibition_acquirable` (`src/tree/lock.rs` 63-71). -/
def ensureProhibitionAcquirable (g : Int) : Bool := decide (g ≤ 0)

/-- `ensure_grant_acquirable` (`src/tree/lock.rs` 78-84). -/
def ensureGrantAcquirable (g : Int) : Bool := decide (0 ≤ g)

/-- `acquire_prohibition` (`src/tree/lock.rs` 96-107); `none` is the `Err` result. -/
def acquireProhibition (g : Int) : Except Fault (Option Int) :=
  if 0 < g then .ok none
  else if g - 1 < isizeMin then .error (.panic "too many hierarchy edit prohibitions")
  else .ok (some (g - 1))

/-- `release_prohibition` (`src/tree/lock.rs` 114-120). -/
def releaseProhibition (g : Int) : Except Fault Int :=
  if 0 ≤ g then
    .error (.panic "attempt to release an edit prohibition while none are active")
  else .ok (g + 1)

/-- `acquire_grant` (`src/tree/lock.rs` 133-144); `none` is the `Err` result. -/
def acquireGrant (g : Int) : Except Fault (Option Int) :=
  if g < 0 then .ok none
  else if isizeMax < g + 1 then .error (.panic "too many hierarchy edit grants")
  else .ok (some (g + 1))

/-- `release_grant` (`src/tree/lock.rs` 151-157). -/
def releaseGrant (g : Int) : Except Fault Int :=
  if g ≤ 0 then .error (.panic "attempt to release an edit grant while none are active")
  else .ok (g - 1)

/-- `release_any_lock` (`src/tree/lock.rs` 164-180). -/
def releaseAny (g : Int) : Except Fault Int :=
  if 0 < g then .ok (g - 1)
  else if g = 0 then .error (.panic "lock count should be nonzero")
  else .ok (g + 1)

end Lock

namespace Heap
variable {α : Type}

/-- `transfer_single_lock_to` (`src/tree/lock.rs` 188-207, `src/tree.rs` 64-70); `none` is `Err`.
The two counters are two cells; if `src = dst` the stores hit the same cell in this order. -/
def transferLock (h : Heap α) (src dst : TreeId) : Except Fault (Option (Heap α)) :=
  if 0 < h.grants src then
    match Lock.acquireGrant (h.grants dst) with
    | .error e => .error e
    | .ok none => .ok none
    | .ok (some g) =>
      let h1 := h.setGrants dst g
      .ok (some (h1.setGrants src (h1.grants src - 1)))
  else if h.grants src = 0 then .ok (some h)
  else
    match Lock.acquireProhibition (h.grants dst) with
    | .error e => .error e
    | .ok none => .ok none
    | .ok (some g) =>
      let h1 := h.setGrants dst g
      .ok (some (h1.setGrants src (h1.grants src + 1)))

/-! ### Locks aggregated per node (`src/tree/lock.rs` 383-463, `src/node/membership.rs` 283-375) -/

/-- `decrement_edit_lock_count` (`src/node/membership.rs` 291-307) with
`LockAggregatorForNode::decrement_count` (`src/tree/lock.rs` 404-413). -/
def decLock (h : Heap α) (n : NodeId) : Except Fault (Heap α) :=
  match h.mem n with
  | .weak _ => .error (.panic "the node should have an incoming strong reference")
  | .strong t rc l =>
    if l = 0 then
      .error (.panic "attempt to decrement aggregated lock count while it is zero")
    else
      let h1 := h.setMem n (.strong t rc (l - 1))
      if l - 1 = 0 then
        match Lock.releaseAny (h1.grants t) with
        | .error e => .error e
        | .ok g => .ok (h1.setGrants t g)
      else .ok h1

/-- `increment_nonzero_edit_lock_count` (`src/node/membership.rs` 317-330) with
`increment_nonzero_count` (`src/tree/lock.rs` 420-428). -/
def incLockNonzero (h : Heap α) (n : NodeId) : Except Fault (Heap α) :=
  match h.mem n with
  | .weak _ => .error (.panic "the node should have an incoming strong reference")
  | .strong t rc l =>
    if l = 0 then
      .error (.panic "expected the lock aggregator already has some locks")
    else .ok (h.setMem n (.strong t rc (l + 1)))

/-- `acquire_edit_prohibition` (`src/node/membership.rs` 337-352, `src/tree/lock.rs` 431-445);
`none` is `Err`. -/
def acquireEditProhibition (h : Heap α) (n : NodeId) : Except Fault (Option (Heap α)) :=
  match h.mem n with
  | .weak _ => .error (.panic "the node should have an incoming strong reference")
  | .strong t rc l =>
    if !Lock.ensureProhibitionAcquirable (h.grants t) then .ok none
    else if l ≠ 0 then .ok (some (h.setMem n (.strong t rc (l + 1))))
    else
      match Lock.acquireProhibition (h.grants t) with
      | .error e => .error e
      | .ok none => .ok none
      | .ok (some g) => .ok (some ((h.setGrants t g).setMem n (.strong t rc 1)))

/-- `acquire_edit_grant` (`src/node/membership.rs` 359-375, `src/tree/lock.rs` 448-462);
`none` is `Err`. -/
def acquireEditGrant (h : Heap α) (n : NodeId) : Except Fault (Option (Heap α)) :=
  match h.mem n with
  | .weak _ => .error (.panic "the node should have an incoming strong reference")
  | .strong t rc l =>
    if !Lock.ensureGrantAcquirable (h.grants t) then .ok none
    else if l ≠ 0 then .ok (some (h.setMem n (.strong t rc (l + 1))))
    else
      match Lock.acquireGrant (h.grants t) with
      | .error e => .error e
      | .ok none => .ok none
      | .ok (some g) => .ok (some ((h.setGrants t g).setMem n (.strong t rc 1)))

end Heap
end Dendron
