import Verif.Props.Detach

/-!
# C10, C11: replacing a node by its children
-/

set_option autoImplicit false

namespace Dendron
open RTree
variable {α : Type} {h : Heap α} {ch : NodeId → List NodeId} {n p c : NodeId}
  {t : TreeId} {l1 l2 : List NodeId} {rc lk : Nat}

theorem LocksCounted.single (L : LocksCounted h t) (ht : h.memTree n = some t) :
    (h.lockedIn [n] : Int) ≤ h.grants t :=
  L [n] (by simp) (by intro x hx; simp at hx; subst hx; exact ht)

/-- C10 (node below the root; partial: the node has children, or is the first child, or has a
following sibling): the children of the node take its place in the child list of its parent, the node
becomes the root and only member of a new tree, and everything else is as before (`Rehomed`; if the
node had the last handle to its old tree, that tree is freed). -/
theorem C10_replace_with_children_partial (W : WF h ch) (hs : ch p = l1 ++ n :: l2)
    (hpos : ch n ≠ [] ∨ l1 = [] ∨ l2 ≠ [])
    (hhandle : h.mem n = .strong t rc lk) (hlocks : LocksCounted h t) :
    ∃ h' ch', h.replaceWithChildren n = .ok (h', .ok ()) ∧ WF h' ch' ∧
      h'.root h.nTree = some n ∧ ch' n = [] ∧
      (¬ LastHandlesLeave h [n] t → ch' p = l1 ++ ch n ++ l2) ∧
      Rehomed h h' (upd (upd ch p (l1 ++ ch n ++ l2)) n []) ch' [n] t h.nTree 0 := by
  have hnp := (W.toFShape.spliceFacts hs).np
  obtain ⟨h', ch', e, F, N, B, TW, RW, RH, e1, -, -⟩ := replace_nonroot_spec W hs hhandle
    (hlocks.single (by simp [Heap.memTree, hhandle]))
  rw [← List.append_assoc] at RH
  refine ⟨h', ch', e, { toFShape := F, num := N, back := B hpos, tree := TW, refs := RW }, e1, ?_, ?_, RH⟩
  · rw [RH.children n (fun hab => hab.2.2 (by simp))]; simp
  · intro hl
    rw [RH.children p (fun hab => hl hab.1)]
    simp [upd_apply, hnp.symm]

/-- C10 (node below the root, every position): the same, up to the links to previous siblings. -/
theorem C10_replace_forward (W : WF h ch) (hs : ch p = l1 ++ n :: l2)
    (hhandle : h.mem n = .strong t rc lk) (hlocks : LocksCounted h t) :
    ∃ h' ch', h.replaceWithChildren n = .ok (h', .ok ()) ∧ ForwardWF h' ch' ∧
      h'.root h.nTree = some n ∧ ch' n = [] ∧
      (¬ LastHandlesLeave h [n] t → ch' p = l1 ++ ch n ++ l2) ∧
      Rehomed h h' (upd (upd ch p (l1 ++ ch n ++ l2)) n []) ch' [n] t h.nTree 0 := by
  have hnp := (W.toFShape.spliceFacts hs).np
  obtain ⟨h', ch', e, F, N, B, TW, RW, RH, e1, -, -⟩ := replace_nonroot_spec W hs hhandle
    (hlocks.single (by simp [Heap.memTree, hhandle]))
  rw [← List.append_assoc] at RH
  refine ⟨h', ch', e, { toFShape := F, num := N, tree := TW, refs := RW }, e1, ?_, ?_, RH⟩
  · rw [RH.children n (fun hab => hab.2.2 (by simp))]; simp
  · intro hl
    rw [RH.children p (fun hab => hl hab.1)]
    simp [upd_apply, hnp.symm]

/-- C10 (root with one child): the child becomes the root of the tree, the node becomes the root and
only member of a new tree, and everything else is as before. -/
theorem C10_replace_root (W : WF h ch) (hroot : ∀ p, n ∉ ch p) (hs : ch n = [c])
    (hhandle : h.mem n = .strong t rc lk) (hlocks : LocksCounted h t) :
    ∃ h' ch', h.replaceWithChildren n = .ok (h', .ok ()) ∧ WF h' ch' ∧
      h'.root h.nTree = some n ∧ ch' n = [] ∧
      (¬ LastHandlesLeave h [n] t → h'.root t = some c ∧ h'.alive c = true ∧ h'.parent c = none ∧
        ch' c = ch c) ∧
      Rehomed (h.setRoot t (some c)) h' (upd ch n []) ch' [n] t h.nTree 0 := by
  have ha := W.refs.alive _ _ _ _ hhandle
  have hp : h.parent n = none := by
    cases hp : h.parent n with
    | none => rfl
    | some q => exact absurd (W.mem_of_parent ha hp) (hroot q)
  obtain ⟨h', ch', e, W', RH, e1, -, -⟩ := replace_root_spec W hs hp hhandle
    (hlocks.single (by simp [Heap.memTree, hhandle]))
  have hcn : c ≠ n := by
    rintro rfl; exact hroot c (by simp [hs])
  refine ⟨h', ch', e, W', e1, ?_, ?_, RH⟩
  · rw [RH.children n (fun hab => hab.2.2 (by simp))]; simp
  · intro hl
    have hr : h'.root t = some c := by rw [RH.rootKept hl]; simp [Heap.setRoot]
    refine ⟨hr, (W'.tree.root t c hr).1, (W'.tree.root t c hr).2.2, ?_⟩
    rw [RH.children c (fun hab => hl hab.1)]; simp [hcn]

/-- C10 fails in the code for a childless last child with preceding siblings: after the replacement
`last_child` of the former parent still returns the removed node, which is a root by now. -/
theorem C10_replace_last_leaf_violation :
    ∃ (h : Heap Nat) (ch : NodeId → List NodeId) (n p : NodeId) (h' : Heap Nat),
      WF h ch ∧ ch p = [1, 2] ++ [n] ∧ h.replaceWithChildren n = .ok (h', .ok ()) ∧
      h'.lastChildLink p = .ok (some n) ∧ h'.nodeIsRoot n = .ok true ∧
      h'.nodeTree n ≠ h'.nodeTree p :=
  ⟨Demo.heap, Demo.ch, 3, 0, _, Demo.wf, rfl, rfl, rfl, rfl, by
    intro e
    have : Except.ok (2 : TreeId) = (Except.ok 0 : Except Fault TreeId) := e
    simp at this⟩

/-- C11: the outcome of `try_replace_with_children` on any node with a handle: `EmptyTree` exactly for
a root without children, `SiblingsWithoutParent` exactly for a root with two or more, success
otherwise; a failed call returns the memory unchanged. -/
theorem C11_replace_errors (W : WF h ch) (hhandle : h.mem n = .strong t rc lk)
    (hlocks : LocksCounted h t) :
    ∃ h' r, h.replaceWithChildren n = .ok (h', r) ∧
      (r = .error .emptyTree ↔ (∀ p, n ∉ ch p) ∧ (ch n).length = 0) ∧
      (r = .error .siblingsWithoutParent ↔ (∀ p, n ∉ ch p) ∧ 2 ≤ (ch n).length) ∧
      (r = .ok () ↔ (∃ p, n ∈ ch p) ∨ (ch n).length = 1) ∧
      (r ≠ .ok () → h' = h) := by
  have ha := W.refs.alive _ _ _ _ hhandle
  have hmt : h.memTree n = some t := by simp [Heap.memTree, hhandle]
  by_cases hroot : ∀ p, n ∉ ch p
  · have hp : h.parent n = none := by
      cases hp : h.parent n with
      | none => rfl
      | some q => exact absurd (W.mem_of_parent ha hp) (hroot q)
    have hno : ¬ ∃ p, n ∈ ch p := by rintro ⟨p, hp⟩; exact hroot p hp
    by_cases h1 : (ch n).length = 1
    · obtain ⟨c, hc⟩ := List.length_eq_one_iff.1 h1
      obtain ⟨h', ch', e, -⟩ := replace_root_spec W hc hp hhandle (hlocks.single hmt)
      exact ⟨h', _, e, by simp [hc], by simp [hc], by simp [hc], by simp⟩
    · refine ⟨h, _, replace_root_fail W hp hhandle h1, ?_, ?_, ?_, fun _ => rfl⟩
      · by_cases e : ch n = []
        · simp [e, hroot]
        · simp [e]
      · by_cases e : ch n = []
        · simp [e]
        · have : 2 ≤ (ch n).length := by
            have : (ch n).length ≠ 0 := by simpa using e
            omega
          simp [e, hroot, this]
      · simp [hno, h1]
  · obtain ⟨p, hp⟩ : ∃ p, n ∈ ch p := Classical.byContradiction (fun hh => hroot (fun p hp => hh ⟨p, hp⟩))
    obtain ⟨l1, l2, hs⟩ := List.append_of_mem hp
    obtain ⟨h', ch', e, -⟩ := replace_nonroot_spec W hs hhandle (hlocks.single hmt)
    exact ⟨h', _, e, by simp [hroot], by simp [hroot], by simp only [true_iff]; exact .inl ⟨p, hp⟩, by simp⟩

/-- The hypotheses are met by node 2 of the demo (below the root, with children) and by the root 6
with its only child 7; root 0 has three children. -/
example : WF Demo.heap Demo.ch ∧ Demo.ch 0 = [1] ++ 2 :: [3] ∧ Demo.heap.mem 2 = .strong 0 1 0 ∧
    (∀ p, 6 ∉ Demo.ch p) ∧ Demo.ch 6 = [7] ∧ Demo.heap.mem 6 = .strong 1 1 0 ∧
    LocksCounted Demo.heap 0 ∧ LocksCounted Demo.heap 1 :=
  ⟨Demo.wf, rfl, rfl, by
      intro p hp; have := Demo.wf.parent_of_mem hp
      simp [show Demo.heap.parent 6 = none from rfl] at this, rfl, rfl, Demo.locksCounted 0,
      Demo.locksCounted 1⟩

end Dendron
