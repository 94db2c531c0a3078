import Verif.Proofs.Interrupt
import Verif.Proofs.Demo

/-!
# C08, C09: creating a node between a node and its parent or its children
-/

set_option autoImplicit false

namespace Dendron
variable {α : Type} {h h' : Heap α} {ch : NodeId → List NodeId} {n p : NodeId} {t : TreeId}

/-- C08 (target with a parent): the new node stands exactly where the target stood in the parent's
child list, the target is its only child, every other child list is as before, and (`Created`) so
are all data, memberships, roots, locks and reference counts. -/
theorem C08_interrupting_parent_nonroot {l1 l2 : List NodeId} (W : WF h ch)
    (hs : ch p = l1 ++ n :: l2) (ht : h.nodeTree n = .ok t) (d : α) :
    ∃ h' ch', h.createInterruptingParent n d = .ok (h', h.nNode) ∧ WF h' ch' ∧
      h.alive h.nNode = false ∧ ch' p = l1 ++ h.nNode :: l2 ∧ ch' h.nNode = [n] ∧
      (∀ q, q ≠ p → q ≠ h.nNode → ch' q = ch q) ∧ Created h h' h.nNode d t := by
  have hfresh := W.fresh_not_alive
  have hm : n ∈ ch p := by simp [hs]
  have ha := W.alive_of_mem hm
  have hne : p ≠ h.nNode := by
    rintro rfl; rw [W.alive_parent hm] at hfresh; simp at hfresh
  obtain ⟨h', h1, h2, h3⟩ := interruptParent_nonroot W hs ((W.tree.treeCore_iff ha).1 ht) d
  exact ⟨h', _, h1, h3, hfresh, by simp [hne], by simp, by
    intro q hq hq'; simp [hq, hq'], h2⟩

/-- C08 (target is a root): the new node becomes the root of the target's tree (its only new root),
the target is its only child, everything else is as before. -/
theorem C08_interrupting_parent_root (W : WF h ch) (ha : h.alive n = true)
    (hroot : ∀ p, n ∉ ch p) (ht : h.nodeTree n = .ok t) (d : α) :
    ∃ h' ch', h.createInterruptingParent n d = .ok (h', h.nNode) ∧ WF h' ch' ∧
      h.alive h.nNode = false ∧ ch' h.nNode = [n] ∧ (∀ q, q ≠ h.nNode → ch' q = ch q) ∧
      (∀ q, h.nNode ∉ ch' q) ∧
      h'.root t = some h.nNode ∧ (∀ u, u ≠ t → h'.root u = h.root u) ∧
      Created h { h' with root := h.root } h.nNode d t := by
  have hfresh := W.fresh_not_alive
  have hp : h.parent n = none := by
    cases hp : h.parent n with
    | none => rfl
    | some q => exact absurd (W.mem_of_parent ha hp) (hroot q)
  obtain ⟨h', h1, h2, h3, h4⟩ := interruptParent_root W ha hp ((W.tree.treeCore_iff ha).1 ht) d
  refine ⟨h', _, h1, h4, hfresh, by simp, by intro q hq; simp [hq], ?_, by simp [h3], by
    intro u hu; simp [h3, hu], h2⟩
  intro q hq
  by_cases e : q = h.nNode
  · subst e
    simp only [upd_same, List.mem_singleton] at hq
    rw [← hq] at ha; rw [ha] at hfresh; simp at hfresh
  · rw [upd_ne _ _ e] at hq
    have := W.alive_of_mem hq
    rw [hfresh] at this; simp at this

/-- C09: the new node is the only child of the target and takes over its former children, in the
same order; every other child list is as before, and (`Created`) so are all data, memberships,
roots, locks and reference counts. -/
theorem C09_interrupting_child (W : WF h ch) (ha : h.alive n = true)
    (ht : h.nodeTree n = .ok t) (d : α) :
    ∃ h' ch', h.createInterruptingChild n d = .ok (h', h.nNode) ∧ WF h' ch' ∧
      h.alive h.nNode = false ∧ ch' n = [h.nNode] ∧ ch' h.nNode = ch n ∧
      (∀ q, q ≠ n → q ≠ h.nNode → ch' q = ch q) ∧ Created h h' h.nNode d t := by
  have hfresh := W.fresh_not_alive
  have hne : n ≠ h.nNode := by rintro e; rw [← e, ha] at hfresh; simp at hfresh
  obtain ⟨h', h1, h2, h3⟩ := interruptChild_spec W ha ((W.tree.treeCore_iff ha).1 ht) d
  exact ⟨h', _, h1, h3, hfresh, by simp [hne], by simp, by
    intro q hq hq'; simp [hq, hq'], h2⟩

/-- The hypotheses are met: child 2 between 1 and 3 in the demo, and root 0. -/
example : WF Demo.heap Demo.ch ∧ Demo.ch 0 = [1] ++ 2 :: [3] ∧ Demo.heap.nodeTree 2 = .ok 0 ∧
    Demo.heap.alive 0 = true ∧ (∀ p, 0 ∉ Demo.ch p) ∧ Demo.heap.nodeTree 0 = .ok 0 :=
  ⟨Demo.wf, rfl, rfl, rfl, by
    intro p hp; have := Demo.wf.parent_of_mem hp
    simp [show Demo.heap.parent 0 = none from rfl] at this, rfl⟩

end Dendron
