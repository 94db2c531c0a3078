import Verif.Proofs.WorldStepEdit

/-! A concrete program: two trees, a token, hot handles, a move between trees.

```
let n0 = Node::new_tree(10);                                     // tree 0
let tree0 = n0.tree();
let grant = tree0.grant_hierarchy_edit()?;
let n1 = n0.create_as_last_child(&grant, 11);
let n2 = n0.create_as_last_child(&grant, 12);
let n3 = n1.create_as_last_child(&grant, 13);
let hot1 = n1.bundle_hierarchy_edit_grant(&grant);
let hot4 = HotNode::new_tree(20);                                // tree 1
hot1.try_detach_insert_subtree(&hot4 as last child)?;
drop(n0); drop(n2); drop(n3); drop(grant);
drop(tree0);                                                     // the last handle of tree 0
```
-/

set_option autoImplicit false

namespace Dendron.DemoWorld

/-- The calls of the program. -/
def ops : List (Op Nat) :=
  [.newTree false 10, .treeOf .plain 0, .acquire true 0,
   .create (.token 0) 0 11 .lastChild, .create (.token 0) 0 12 .lastChild,
   .create (.token 0) 1 13 .lastChild, .bundleWith .hot 1 0, .newTree true 20,
   .move .hot 1 (.lastChildOf 4),
   .drop .plain 0, .drop .plain 2, .drop .plain 3, .dropTok true 0, .dropTree 0]

/-- Run some calls, keeping the last state if one fails. -/
def run : List (Op Nat) → World Nat → World Nat
  | [], w => w
  | op :: l, w => match w.exec op with
    | .ok (w', _) => run l w'
    | .error _ => w

/-- The state after the first `i` calls. -/
def at_ (i : Nat) : World Nat := run (ops.take i) .init

theorem room_of {h : Heap Nat} (N : Nat) (h0 : ∀ t, N ≤ t → h.grants t = 0)
    (h1 : ∀ t, t < N → -(2 : Int) ^ 62 < h.grants t ∧ h.grants t < (2 : Int) ^ 62) : Room h := by
  intro t _
  by_cases e : t < N
  · exact h1 t e
  · rw [h0 t (Nat.le_of_not_lt e)]; decide

theorem room (i : Nat) (hi : i ≤ 14) : Room (at_ i).heap := by
  have h2 : ∀ i, i ≤ 14 → ∀ t, 2 ≤ t → (at_ i).heap.grants t = 0 := by
    intro i hi t ht
    obtain ⟨s, rfl⟩ : ∃ s, t = s + 2 := ⟨t - 2, (Nat.sub_add_cancel ht).symm⟩
    match i, hi with
    | 0, _ => rfl
    | 1, _ => rfl
    | 2, _ => rfl
    | 3, _ => rfl
    | 4, _ => rfl
    | 5, _ => rfl
    | 6, _ => rfl
    | 7, _ => rfl
    | 8, _ => rfl
    | 9, _ => rfl
    | 10, _ => rfl
    | 11, _ => rfl
    | 12, _ => rfl
    | 13, _ => rfl
    | 14, _ => rfl
    | i + 15, h => omega
  refine room_of 2 (h2 i hi) ?_
  have : ∀ i, i < 15 → ∀ t, t < 2 → -(2 : Int) ^ 62 < (at_ i).heap.grants t ∧
      (at_ i).heap.grants t < (2 : Int) ^ 62 := by
    decide +kernel
  exact this i (by omega)

theorem move_safe (ch : NodeId → List NodeId) (F : FShape (at_ 8).heap ch) :
    SafeCall (at_ 8).heap ch (.move .hot 1 (.lastChildOf 4)) := by
  refine .inr (.inl ?_)
  have h1 : (1 : NodeId) ∈ ch 0 := (F.mem 0 1).2 ⟨rfl, rfl⟩
  refine ⟨⟨0, h1⟩, ?_, ?_, by simp [InsertAs.isSibling]⟩
  · rintro ⟨p, l, a, e⟩
    have h2 : (1 : NodeId) ∈ ch p := by rw [e]; simp
    have := F.next_at (p := p) (n := 1) (l1 := l ++ [a]) (l2 := []) (by rw [e]; simp)
    have h3 : (at_ 8).heap.next 1 = some 2 := rfl
    rw [h3] at this; simp at this
  · intro hd
    have := (F.desc_alive (a := 1) (b := 4) rfl hd)
    have key : ∀ x, Desc ch 1 x → x ≠ 4 := by
      intro x hx
      cases hx with
      | refl => decide
      | step h2 h3 =>
        intro e
        subst e
        have := F.parent_of_mem h3
        have h4 : (at_ 8).heap.parent 4 = none := rfl
        rw [h4] at this; cases this
    exact key 4 hd rfl

theorem step {i : Nat} (hr : Reach (at_ i)) {op : Op Nat} {r : Res} (hi : i ≤ 14)
    (ha : (at_ i).Allowed op) (hs : ∀ ch, FShape (at_ i).heap ch → SafeCall (at_ i).heap ch op)
    (e : (at_ i).exec op = .ok (at_ (i + 1), r)) : Reach (at_ (i + 1)) :=
  .step hr ⟨ha, hs, room i hi, e⟩

theorem reach8 : Reach (at_ 8) := by
  have r0 : Reach (at_ 0) := .init
  have r1 : Reach (at_ 1) := step (r := .node (some 0)) r0 (by decide) (op := .newTree false 10) trivial (fun _ _ => trivial) rfl
  have r2 : Reach (at_ 2) := step (r := .tree (some 0)) r1 (by decide) (op := .treeOf .plain 0) (show 0 < (at_ 1).held .plain 0 by decide) (fun _ _ => trivial) rfl
  have r3 : Reach (at_ 3) := step (r := .unit) r2 (by decide) (op := .acquire true 0) (show 0 < (at_ 2).trees 0 by decide) (fun _ _ => trivial) rfl
  have r4 : Reach (at_ 4) := step (r := .node (some 1)) r3 (by decide) (op := .create (.token 0) 0 11 .lastChild) ⟨by decide, by decide⟩ (fun _ _ => trivial) rfl
  have r5 : Reach (at_ 5) := step (r := .node (some 2)) r4 (by decide) (op := .create (.token 0) 0 12 .lastChild) ⟨by decide, by decide⟩ (fun _ _ => trivial) rfl
  have r6 : Reach (at_ 6) := step (r := .node (some 3)) r5 (by decide) (op := .create (.token 0) 1 13 .lastChild) ⟨by decide, by decide⟩ (fun _ _ => trivial) rfl
  have r7 : Reach (at_ 7) := step (r := .unit) r6 (by decide) (op := .bundleWith .hot 1 0) ⟨by decide, .inl ⟨rfl, by decide⟩⟩ (fun _ _ => trivial) rfl
  exact step (r := .node (some 4)) r7 (by decide) (op := .newTree true 20) trivial (fun _ _ => trivial) rfl

/-- The move between the trees. -/
theorem moveStep : (at_ 8).Step (.move .hot 1 (.lastChildOf 4)) (at_ 9) .unit :=
  ⟨⟨show 0 < (at_ 8).held .hot 1 by decide, by decide⟩, move_safe, room 8 (by decide), rfl⟩

/-- Instead: node 4, the only node of its tree, moves below node 1. -/
theorem lonelyStep : ∃ w', (at_ 8).Step (.move .hot 4 (.lastChildOf 1)) w' .unit ∧
    w'.heap.parentLink 4 = some 1 ∧ w'.heap.treeAlive 1 = false := by
  refine ⟨_, ⟨⟨show 0 < (at_ 8).held .hot 4 by decide, by decide⟩, ?_, room 8 (by decide), rfl⟩, rfl, rfl⟩
  intro ch F
  refine .inr (.inr ⟨?_, ?_, by decide, ?_, by simp [InsertAs.isSibling]⟩)
  · intro p hp
    have := F.parent_of_mem hp
    have h4 : (at_ 8).heap.parent 4 = none := rfl
    rw [h4] at this; cases this
  · have := F.first 4 rfl
    exact List.head?_eq_none_iff.1 (this.symm.trans rfl)
  · intro t ht
    have h4 : (at_ 8).heap.memTree 4 = some 1 := rfl
    rw [h4] at ht
    obtain rfl : 1 = t := by simpa using ht
    rfl

theorem reach9 : Reach (at_ 9) := .step reach8 moveStep

theorem reach13 : Reach (at_ 13) := by
  have r1 : Reach (at_ 10) := step (r := .unit) reach9 (by decide) (op := .drop .plain 0) (show 0 < (at_ 9).held .plain 0 by decide) (fun _ _ => trivial) rfl
  have r2 : Reach (at_ 11) := step (r := .unit) r1 (by decide) (op := .drop .plain 2) (show 0 < (at_ 10).held .plain 2 by decide) (fun _ _ => trivial) rfl
  have r3 : Reach (at_ 12) := step (r := .unit) r2 (by decide) (op := .drop .plain 3) (show 0 < (at_ 11).held .plain 3 by decide) (fun _ _ => trivial) rfl
  exact step (r := .unit) r3 (by decide) (op := .dropTok true 0) (show 0 < (at_ 12).grantTok 0 by decide) (fun _ _ => trivial) rfl

/-- Dropping the last handle of tree 0, a `Tree`. -/
theorem lastStep : (at_ 13).Step (.dropTree 0) (at_ 14) .unit :=
  ⟨show 0 < (at_ 13).trees 0 by decide, fun _ _ => trivial, room 13 (by decide), rfl⟩

theorem reach14 : Reach (at_ 14) := .step reach13 lastStep

/-- A list of calls leads to a reachable state if each of them is allowed and returns. -/
theorem _root_.Dendron.ReachAny.run : ∀ l : List (Op Nat), ∀ w : World Nat, ReachAny w →
    (∀ i, ∀ op, l[i]? = some op →
      (DemoWorld.run (l.take i) w).Allowed op ∧
      ∃ r, (DemoWorld.run (l.take i) w).exec op = .ok (DemoWorld.run (l.take (i + 1)) w, r)) →
    ReachAny (DemoWorld.run l w) := by
  intro l
  induction l with
  | nil => intro w hw _; exact hw
  | cons op l ih =>
    intro w hw h
    obtain ⟨h1, r, h2⟩ := h 0 op rfl
    simp only [List.take_zero, DemoWorld.run] at h1 h2
    have e : w.exec op = .ok (DemoWorld.run [op] w, r) := by simpa [DemoWorld.run] using h2
    have hs : ∀ l', DemoWorld.run (op :: l') w = DemoWorld.run l' (DemoWorld.run [op] w) := by
      intro l'
      simp only [DemoWorld.run]
      cases hx : w.exec op with
      | ok v => rfl
      | error f => rw [hx] at e; cases e
    rw [hs]
    refine ih _ (.step hw ⟨h1, e⟩) ?_
    intro i op' hi
    have := h (i + 1) op' (by simpa using hi)
    rw [List.take_succ_cons, List.take_succ_cons, hs (l.take i), hs (l.take (i + 1))] at this
    exact this

end Dendron.DemoWorld
