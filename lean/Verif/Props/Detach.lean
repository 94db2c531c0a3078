import Verif.Proofs.MoveMore

/-!
# C12, C13: detaching a subtree
-/

set_option autoImplicit false

namespace Dendron
open RTree
variable {α : Type} {h : Heap α} {ch : NodeId → List NodeId} {n p : NodeId}
  {t : TreeId} {T : RTree NodeId} {l1 l2 : List NodeId} {rc lk : Nat}

/-- C13: for every position of the node among its siblings, detaching it yields a memory that is
consistent except possibly for links to previous siblings: the node is the root of a new tree with the
same subtree, whose members are exactly the nodes of the subtree; it is removed from the child list of
its parent; all other nodes are as before (`Rehomed`), unless the last handles to the old tree left with
the subtree, in which case the rest of that tree is freed. -/
theorem C13_detach_forward (W : WF h ch) (hs : ch p = l1 ++ n :: l2) (hT : SubtreeAt ch n T)
    (hhandle : h.mem n = .strong t rc lk) (hlocks : LocksCounted h t)
    (hmax : h.grants t ≤ Lock.isizeMax) :
    ∃ h' ch', h.detachSubtree n = .ok h' ∧ ForwardWF h' ch' ∧
      h'.root h.nTree = some n ∧ SubtreeAt ch' n T ∧
      (∀ x, h'.alive x = true → (h'.memTree x = some h.nTree ↔ x ∈ T.nodes)) ∧
      (¬ LastHandlesLeave h T.nodes t → ch' p = l1 ++ l2) ∧
      Rehomed h h' (upd ch p (l1 ++ l2)) ch' T.nodes t h.nTree 0 := by
  have hm : n ∈ ch p := by simp [hs]
  have ha := W.alive_of_mem hm
  have ht : h.memTree n = some t := by simp [Heap.memTree, hhandle]
  have g1 := hlocks.subtree W ha hT ht
  obtain ⟨h', ch', e, F, N, TW, RW, -, RH, e1, -, -⟩ :=
    detach_spec W hs hT hhandle g1 (Int.le_trans g1 hmax)
  have hT1 : SubtreeAt (upd ch p (l1 ++ l2)) n T := hT.upd (W.toFShape.not_desc_parent hm)
  refine ⟨h', ch', e, { toFShape := F, num := N, tree := TW, refs := RW }, e1, RH.subtree hT1, ?_, ?_, RH⟩
  · intro x hx
    rw [RH.memTree x hx]
    by_cases e : x ∈ T.nodes
    · simp [e]
    · simp only [e, if_false, iff_false]
      intro hx2
      have hxa : h.alive x = true := by
        by_cases hab : Abandoned h T.nodes t x
        · rw [RH.freed x hab] at hx; simp at hx
        · simpa [Heap.alive, (RH.data x hab).1] using hx
      have := W.tree_alive hxa hx2
      have := W.tree.bound _ this
      exact absurd this (Nat.lt_irrefl _)
  · intro hl
    rw [RH.children p (fun hab => hl hab.1)]; simp

/-- C12 (partial: the node is the first child or has a following sibling): the memory after the
detachment is consistent. -/
theorem C12_detach_subtree_partial (W : WF h ch) (hs : ch p = l1 ++ n :: l2)
    (hpos : l1 = [] ∨ l2 ≠ []) (hT : SubtreeAt ch n T)
    (hhandle : h.mem n = .strong t rc lk) (hlocks : LocksCounted h t)
    (hmax : h.grants t ≤ Lock.isizeMax) :
    ∃ h' ch', h.detachSubtree n = .ok h' ∧ WF h' ch' ∧
      h'.root h.nTree = some n ∧ SubtreeAt ch' n T ∧
      (∀ x, h'.alive x = true → (h'.memTree x = some h.nTree ↔ x ∈ T.nodes)) ∧
      (¬ LastHandlesLeave h T.nodes t → ch' p = l1 ++ l2) ∧
      Rehomed h h' (upd ch p (l1 ++ l2)) ch' T.nodes t h.nTree 0 := by
  have hm : n ∈ ch p := by simp [hs]
  have ha := W.alive_of_mem hm
  have ht : h.memTree n = some t := by simp [Heap.memTree, hhandle]
  have g1 := hlocks.subtree W ha hT ht
  obtain ⟨h1, ch1, e, F, N, TW, RW, B, RH, e1, -, -⟩ :=
    detach_spec W hs hT hhandle g1 (Int.le_trans g1 hmax)
  obtain ⟨h', ch', e', F', a1, a2, a3, a4, a5⟩ := C13_detach_forward W hs hT hhandle hlocks hmax
  rw [e] at e'
  obtain rfl : h1 = h' := by simpa using e'
  have : ch1 = ch' := F.unique F'.toFShape
  subst this
  exact ⟨h1, ch1, e, F'.toWF (B hpos), a1, a2, a3, a4, a5⟩

/-- C12: detaching a root is a no-op. -/
theorem C12_detach_root_noop (W : WF h ch) (ha : h.alive n = true) (hroot : ∀ p, n ∉ ch p) :
    h.detachSubtree n = .ok h := by
  have hp : h.parent n = none := by
    cases hp : h.parent n with
    | none => rfl
    | some q => exact absurd (W.mem_of_parent ha hp) (hroot q)
  have : h.isRoot n = true := by simp [Heap.isRoot, W.toFShape.parentLink ha, hp]
  simp [Heap.detachSubtree, this]

/-- C12 fails in the code for a last child with preceding siblings: after the detachment,
`last_child` of the former parent still returns the detached node, which is a root by now. -/
theorem C12_detach_last_child_violation :
    ∃ (h : Heap Nat) (ch : NodeId → List NodeId) (n p : NodeId) (h' : Heap Nat),
      WF h ch ∧ ch p = [1, 2] ++ [n] ∧ h.detachSubtree n = .ok h' ∧
      h'.lastChildLink p = .ok (some n) ∧ h'.nodeIsRoot n = .ok true ∧
      h'.nodeTree n ≠ h'.nodeTree p :=
  ⟨Demo.heap, Demo.ch, 3, 0, _, Demo.wf, rfl, rfl, rfl, rfl, by
    intro e
    have : Except.ok (2 : TreeId) = (Except.ok 0 : Except Fault TreeId) := e
    simp at this⟩

/-- The hypotheses of the theorems above are met: child 2 with subtree {2, 4, 5} of the demo. -/
theorem Demo.locksCounted (t : TreeId) : LocksCounted Demo.heap t := by
  intro D _ _
  have : Demo.heap.locked = fun _ => false := by
    funext x
    match x with
    | 0 => rfl
    | 1 => rfl
    | 2 => rfl
    | 3 => rfl
    | 4 => rfl
    | 5 => rfl
    | 6 => rfl
    | 7 => rfl
    | x + 8 => rfl
  have h2 : (0 : Int) ≤ Demo.heap.grants t := by
    match t with
    | 0 => exact Int.le_refl _
    | 1 => exact Int.le_refl _
    | t + 2 => exact Int.le_refl _
  have h3 : D.filter Demo.heap.locked = [] := by rw [this]; simp
  rw [Heap.lockedIn, h3]; exact h2

example : WF Demo.heap Demo.ch ∧ Demo.ch 0 = [1] ++ 2 :: [3] ∧
    SubtreeAt Demo.ch 2 (.node 2 [.node 4 [], .node 5 []]) ∧ Demo.heap.mem 2 = .strong 0 1 0 ∧
    LocksCounted Demo.heap 0 ∧ Demo.heap.grants 0 ≤ Lock.isizeMax ∧
    Demo.heap.alive 6 = true ∧ (∀ p, 6 ∉ Demo.ch p) :=
  ⟨Demo.wf, rfl, ⟨rfl, rfl, ⟨rfl, trivial⟩, ⟨rfl, trivial⟩, trivial⟩, rfl, Demo.locksCounted 0,
    by decide, rfl, by
      intro p hp; have := Demo.wf.parent_of_mem hp
      simp [show Demo.heap.parent 6 = none from rfl] at this⟩

end Dendron
