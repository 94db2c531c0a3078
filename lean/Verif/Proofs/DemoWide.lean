import Verif.Proofs.WideFacts
import Verif.Proofs.DemoWorld

/-! A program that detaches the last of three children and goes on without asking for the last child.

```
let n0 = HotNode::new_tree(10);
let n1 = n0.create_as_last_child(11);
let n2 = n0.create_as_last_child(12);
let n3 = n0.create_as_last_child(13);
n3.detach_subtree();                       // `n0.last_child()` is stale from here on
let n4 = n2.try_create_node_as(14, PreviousSibling)?;
drop(n3);                                  // the detached tree is destroyed
drop(n1);
```
-/

set_option autoImplicit false

namespace Dendron.DemoWorld

def wideOps : List (Op Nat) :=
  [.newTree true 10, .create .hot 0 11 .lastChild, .create .hot 0 12 .lastChild,
   .create .hot 0 13 .lastChild, .detach .hot 3, .create .hot 2 14 .previousSibling, .drop .hot 3,
   .drop .hot 1]

/-- The state after the first `i` calls. -/
def wide (i : Nat) : World Nat := run (wideOps.take i) .init

theorem wideRoom (i : Nat) (hi : i ≤ 8) : Room (wide i).heap := by
  have h2 : ∀ i, i ≤ 8 → ∀ t, 2 ≤ t → (wide i).heap.grants t = 0 := by
    intro i hi t ht
    obtain ⟨s, rfl⟩ : ∃ s, t = s + 2 := ⟨t - 2, (Nat.sub_add_cancel ht).symm⟩
    match i, hi with
    | 0, _ => rfl
    | 1, _ => rfl
    | 2, _ => rfl
    | 3, _ => rfl
    | 4, _ => rfl
    | 5, _ => rfl
    | 6, _ => rfl
    | 7, _ => rfl
    | 8, _ => rfl
    | i + 9, h => omega
  refine room_of 2 (h2 i hi) ?_
  have : ∀ i, i < 9 → ∀ t, t < 2 → -(2 : Int) ^ 62 < (wide i).heap.grants t ∧
      (wide i).heap.grants t < (2 : Int) ^ 62 := by
    decide +kernel
  exact this i (by omega)

theorem wideStep {i : Nat} (hr : Reach (wide i)) {op : Op Nat} {r : Res} (hi : i ≤ 8)
    (ha : (wide i).Allowed op) (hs : ∀ ch, FShape (wide i).heap ch → SafeCall (wide i).heap ch op)
    (e : (wide i).exec op = .ok (wide (i + 1), r)) : Reach (wide (i + 1)) :=
  .step hr ⟨ha, hs, wideRoom i hi, e⟩

theorem wideReach4 : Reach (wide 4) := by
  have r0 : Reach (wide 0) := .init
  have r1 : Reach (wide 1) := wideStep (r := .node (some 0)) r0 (by decide) (op := .newTree true 10) trivial (fun _ _ => trivial) rfl
  have r2 : Reach (wide 2) := wideStep (r := .node (some 1)) r1 (by decide) (op := .create .hot 0 11 .lastChild) (show 0 < _ by decide) (fun _ _ => trivial) rfl
  have r3 : Reach (wide 3) := wideStep (r := .node (some 2)) r2 (by decide) (op := .create .hot 0 12 .lastChild) (show 0 < _ by decide) (fun _ _ => trivial) rfl
  exact wideStep (r := .node (some 3)) r3 (by decide) (op := .create .hot 0 13 .lastChild) (show 0 < _ by decide) (fun _ _ => trivial) rfl

theorem wideHead {i : Nat} {ch : NodeId → List NodeId} {p x : NodeId} (F : FShape (wide i).heap ch)
    (h0 : (wide i).heap.alive 0 = true) (h1 : (wide i).heap.firstChild 0 = some 1)
    (hx : (wide i).heap.parent x = some 0) (hne : x ≠ 1) : (ch p).head? ≠ some x := by
  intro e
  have hp := F.parent_of_mem (List.mem_of_head? e)
  rw [hx] at hp
  obtain rfl : 0 = p := by simpa using hp
  have := F.first 0 h0
  rw [h1, e] at this
  exact hne (by simpa using this.symm)

/-- The call that leaves `last_child` stale. -/
theorem wideDetach : (wide 4).StepW (.detach .hot 3) (wide 5) .unit :=
  ⟨show 0 < _ by decide, fun ch F => ⟨trivial, fun p hp => absurd hp (wideHead F rfl rfl rfl (by decide))⟩,
    wideRoom 4 (by decide), rfl⟩

theorem wideCreate : (wide 5).StepW (.create .hot 2 14 .previousSibling) (wide 6) (.node (some 4)) :=
  ⟨show 0 < _ by decide, fun ch F => ⟨trivial, fun p hp => by
      obtain ⟨l1, l2, hd, he⟩ := hp
      exfalso
      cases hd with
      | @prev _ _ l1 l2 e =>
        rcases he with rfl | he
        · exact wideHead (p := p) (x := 2) F rfl rfl rfl (by decide) (by rw [e]; rfl)
        · cases he⟩,
    wideRoom 5 (by decide), rfl⟩

theorem wideDrop : (wide 6).StepW (.drop .hot 3) (wide 7) .unit :=
  ⟨show 0 < _ by decide, fun ch F => ⟨trivial, fun p hp => hp.elim⟩, wideRoom 6 (by decide), rfl⟩

theorem wideDrop1 : (wide 7).StepW (.drop .hot 1) (wide 8) .unit :=
  ⟨show 0 < _ by decide +kernel, fun ch F => ⟨trivial, fun p hp => hp.elim⟩, wideRoom 7 (by decide), rfl⟩

theorem wideReach5 : ReachW (wide 5) := .step wideReach4.toW wideDetach
theorem wideReach6 : ReachW (wide 6) := .step wideReach5 wideCreate
theorem wideReach7 : ReachW (wide 7) := .step wideReach6 wideDrop
theorem wideReach8 : ReachW (wide 8) := .step wideReach7 wideDrop1

theorem moveStepW : (at_ 8).StepW (.move .hot 1 (.lastChildOf 4)) (at_ 9) .unit := by
  obtain ⟨ch, I⟩ := reach8.inv
  exact moveStep.toW I

end Dendron.DemoWorld
