import Verif.Proofs.Demo

/-!
# C01-C04: navigation

The states quantified over are the consistent memories (`WF`); that every history avoiding the known
defects leads to consistent memories is `Verif.Props.Reach`.
-/

set_option autoImplicit false

namespace Dendron
variable {α : Type} {h : Heap α} {ch : NodeId → List NodeId}

/-- C01: in a consistent memory all navigation methods report the same child lists. -/
theorem C01_navigation_coherent_partial (W : WF h ch) : Coherent h ch := W.coherent

/-- C02: in a consistent memory the cached child counts are the numbers of children enumerated. -/
theorem C02_child_counts_partial (W : WF h ch) : CountsExact h ch := W.counts

/-- C03: positions and depths. -/
theorem C03_positions_partial (W : WF h ch) : PositionsExact h ch := W.positions

/-- C04: trees, roots and memberships. -/
theorem C04_trees_agree_partial (W : WF h ch) : TreesAgree h ch := W.trees

/-- The hypothesis is met by a memory with two trees and eight nodes. -/
example : ∃ (h : Heap Nat) (ch : NodeId → List NodeId), WF h ch ∧ ch 0 = [1, 2, 3] ∧ ch 2 = [4, 5] :=
  ⟨Demo.heap, Demo.ch, Demo.wf, rfl, rfl⟩

example : Demo.heap.lastChildLink 0 = .ok (some 3) ∧ Demo.heap.prevLink 5 = .ok (some 4) ∧
    Demo.heap.nodeRoot 5 = .ok 0 ∧ Demo.heap.countPreceding 3 = .ok 2 := by
  refine ⟨?_, ?_, ?_, ?_⟩ <;> rfl

end Dendron
