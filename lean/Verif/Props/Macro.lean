import Verif.Proofs.Macro
import Verif.Proofs.Collect
import Verif.Props.Build
import Verif.Model.Pretty

/-!
# C50: `tree_node!` and `tree!`

`Lit.tree` is the tree that a literal describes (`Verif.Spec.Macro`).
-/

set_option autoImplicit false

namespace Dendron
open RTree
variable {α : Type} {w : World α} {ch : NodeId → List NodeId}

/-- C50 for `tree_node!`: in every state of a program the macro succeeds; its value is a plain handle to
the root of a new tree with the shape and the data of the literal.  Everything else is as before: no
handle (and thus no lock) is left over, and the nodes of the new tree are the only new nodes.  (The literal
must have less than `2 ^ 62` nodes, or the lock counter could overflow.) -/
theorem C50_tree_node (l : Lit α) (hr : Reach w) (hroom : Room w.heap) (W : WF w.heap ch)
    (hs : l.tree.size + 3 ≤ 2 ^ 62) :
    ∃ w' n ch', l.treeNode w = .ok (w', n) ∧ Reach w' ∧ WF w'.heap ch' ∧ NewTree w w' ch' n l.tree ∧
      Untouched w w' ch ch' none ∧ GotPlain w w' n ∧
      ∀ x, w'.heap.alive x = true → w.heap.alive x = false → w'.heap.nodeTree x = w'.heap.nodeTree n := by
  obtain ⟨ch1, I⟩ := hr.inv
  obtain rfl := I.wf.toFShape.unique W.toFShape
  obtain ⟨w', ch', e, R, N⟩ := l.treeNode_spec I hr hroom hs
  refine ⟨w', _, ch', e, R.reach, R.inv.wf, N, R.untouched_new W W.toFShape.fresh_not_alive, R.gotPlain, ?_⟩
  intro x hx hx0
  have h1 := R.mine x hx hx0
  have h2 := R.psT w.heap.nNode (by simp)
  have ha := R.inv.held_alive (R.held_of_ps (c := w.heap.nNode) (by simp))
  rw [show w'.heap.nodeTree x = _ from (R.inv.wf.tree.treeCore_iff hx).2 h1,
    show w'.heap.nodeTree w.heap.nNode = _ from (R.inv.wf.tree.treeCore_iff ha).2 h2]

/-- C50 for `tree!`: the value is the only new `Tree`; the tree has the shape and the data of the
literal.  The program holds no new handle. -/
theorem C50_tree (l : Lit α) (hr : Reach w) (hroom : Room w.heap) (W : WF w.heap ch)
    (hs : l.tree.size + 3 ≤ 2 ^ 62) :
    ∃ w' t n ch', l.treeMacro w = .ok (w', t) ∧ Reach w' ∧ WF w'.heap ch' ∧ NewTree w w' ch' n l.tree ∧
      w'.heap.nodeTree n = .ok t ∧ w'.held = w.held ∧ w'.trees = upd w.trees t (w.trees t + 1) ∧
      Untouched w { w' with trees := w.trees } ch ch' none := by
  obtain ⟨ch1, I⟩ := hr.inv
  obtain rfl := I.wf.toFShape.unique W.toFShape
  obtain ⟨w1, ch', e1, R, N⟩ := l.treeNode_spec I hr hroom hs
  obtain ⟨w2, w3, e2, e3, h⟩ := R.toTree W W.toFShape.fresh_not_alive N
  refine ⟨w3, _, _, ch', ?_, h⟩
  simp only [Lit.treeMacro, bind, Except.bind, pure, Except.pure, e1, e2, e3]

/-- The literal `10, [11, /(12, [14, 15]), /(13, [])]`. -/
private def demoLit : Lit Nat :=
  .branch 10 [.leaf 11, .branch 12 [.leaf 14, .leaf 15], .branch 13 []]

example : demoLit.tree = .node 10 [.node 11 [], .node 12 [.node 14 [], .node 15 []], .node 13 []] := rfl

/-- The hypotheses are met in a state with two trees and some handles. -/
example : ∃ ch, Reach (DemoWorld.at_ 8) ∧ Room (DemoWorld.at_ 8).heap ∧ WF (DemoWorld.at_ 8).heap ch ∧
    demoLit.tree.size + 3 ≤ 2 ^ 62 := by
  obtain ⟨ch, I⟩ := DemoWorld.reach8.inv
  exact ⟨ch, DemoWorld.reach8, DemoWorld.room 8 (by decide), I.wf, by decide⟩

/-- The literal built from the empty memory and printed. -/
example : (match demoLit.treeNode (World.init : World Nat) with
    | .ok (w, n) => match w.heap.pretty (fun d => [(Nat.repr d).toList]) n with
      | .ok s => s == "10\n|-- 11\n|-- 12\n|   |-- 14\n|   `-- 15\n`-- 13".toList
      | .error _ => false
    | .error _ => false) = true := by decide +kernel

end Dendron
