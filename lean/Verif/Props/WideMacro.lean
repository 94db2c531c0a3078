import Verif.Proofs.WideMacro
import Verif.Props.WideTree

/-!
# C50 in the histories of `ReachW`

The macros after calls that have left a `last_child` wrong.
-/

set_option autoImplicit false

namespace Dendron
open RTree
variable {α : Type} {w w' : World α} {ch : NodeId → List NodeId}

/-- C50 for `tree_node!`: the macro succeeds; its value is a plain handle to the root of a new tree with the
shape and the data of the literal.  Everything else is as before: no handle (and thus no lock) is left over,
and the nodes of the new tree are the only new nodes. -/
theorem C50_tree_node_wide (l : Lit α) (hr : ReachW w) (F : FShape w.heap ch) (hroom : w.RoomFor l.tree.size) :
    ∃ w' n ch', l.treeNode w = .ok (w', n) ∧ ReachW w' ∧ FShape w'.heap ch' ∧ NewTree w w' ch' n l.tree ∧
      Untouched w w' ch ch' none ∧ GotPlain w w' n ∧
      ∀ x, w'.heap.alive x = true → w.heap.alive x = false → w'.heap.nodeTree x = w'.heap.nodeTree n := by
  obtain ⟨a, S⟩ := Shows.exists hr
  obtain rfl := F.unique S.children
  obtain ⟨w', a', n, ks, E, e, A, O, ht, hE⟩ := l.treeNode_sown hr S hroom
  obtain ⟨N, G, U⟩ := A.made hr S hroom O ht hE
  refine ⟨w', n, _, e, A.reach, A.shows.children, N, U, G, fun x hx hx0 => ?_⟩
  have hd := A.shows.alive.1 hx
  have hd0 : a.data x = none := by
    apply Classical.byContradiction
    intro h
    rw [S.alive.2 h] at hx0; cases hx0
  have hn : 0 < a'.held .plain n := by rw [A.held]; simp [given]
  rw [(A.reach.nodeTree_live A.shows hd).2 (A.newT x hd hd0),
    (A.reach.nodeTree_live A.shows (A.reach.held_live A.shows hn)).2 (A.mine n (by simp))]

/-- C50 for `tree!`: the value is the only new `Tree`; the tree has the shape and the data of the literal.
The program holds no new handle. -/
theorem C50_tree_wide (l : Lit α) (hr : ReachW w) (F : FShape w.heap ch) (hroom : w.RoomFor l.tree.size) :
    ∃ w' t n ch', l.treeMacro w = .ok (w', t) ∧ ReachW w' ∧ FShape w'.heap ch' ∧ NewTree w w' ch' n l.tree ∧
      w'.heap.nodeTree n = .ok t ∧ w'.held = w.held ∧ w'.trees = upd w.trees t (w.trees t + 1) ∧
      Untouched w { w' with trees := w.trees } ch ch' none := by
  obtain ⟨a, S⟩ := Shows.exists hr
  obtain rfl := F.unique S.children
  obtain ⟨w1, a1, n, ks, E, e1, A, O, ht, hE⟩ := l.treeNode_sown hr S hroom
  obtain ⟨N, G, U⟩ := A.made hr S hroom O ht hE
  obtain ⟨w2, w3, t, ch', e2, e3, h⟩ := hr.as_tree S hroom A.reach A.shows N G U A.few
  refine ⟨w3, t, n, ch', ?_, h⟩
  simp only [Lit.treeMacro, bind, Except.bind, pure, Except.pure, e1, e2, e3]

/-- The literal `10, [11, /(12, [14, 15]), /(13, [])]`. -/
private def wideLit : Lit Nat :=
  .branch 10 [.leaf 11, .branch 12 [.leaf 14, .leaf 15], .branch 13 []]

/-- `last_child` of node 0 is wrong in this state. -/
example : ∃ w' n ch', wideLit.treeNode (DemoWorld.wide 5) = .ok (w', n) ∧ ReachW w' ∧
    NewTree (DemoWorld.wide 5) w' ch' n
      (.node 10 [.node 11 [], .node 12 [.node 14 [], .node 15 []], .node 13 []]) := by
  obtain ⟨a, S⟩ := Shows.exists DemoWorld.wideReach5
  obtain ⟨w', n, ch', h1, h2, -, h4, -⟩ := C50_tree_node_wide wideLit DemoWorld.wideReach5 S.children
    (DemoWorld.wideRoomFor _ (by decide))
  exact ⟨w', n, ch', h1, h2, h4⟩

end Dendron
