import Verif.Proofs.Demo

/-!
# C05-C07: creating nodes next to an existing one
-/

set_option autoImplicit false

namespace Dendron
variable {α : Type} {h h' : Heap α} {ch : NodeId → List NodeId} {n p : NodeId} {t : TreeId}

/-- C05: `create_as_first_child`. The new node `h.nNode` was not alive before, is a leaf with data
`d`, and is put in front of the children of `n`; every other child list is as before, and
(`Created`) so are all data, memberships, roots, locks and reference counts. -/
theorem C05_create_as_first_child (W : WF h ch) (ha : h.alive n = true)
    (ht : h.nodeTree n = .ok t) (d : α) :
    ∃ h' ch', h.nodeCreate n d .firstChild = .ok (h', .ok h.nNode) ∧ WF h' ch' ∧
      h.alive h.nNode = false ∧ ch' n = h.nNode :: ch n ∧ ch' h.nNode = [] ∧
      (∀ q, q ≠ n → ch' q = ch q) ∧ Created h h' h.nNode d t := by
  have hfresh := W.fresh_not_alive
  have hne : h.nNode ≠ n := by rintro e; rw [e, ha] at hfresh; simp at hfresh
  obtain ⟨h', h1, h2, h3, _⟩ := nodeCreate_ok (as := .firstChild) W (.first n) ha
    ((W.tree.treeCore_iff ha).1 ht) d
  exact ⟨h', _, h1, h3, hfresh, by simp, by simp [hne, W.dead _ hfresh], by
    intro q hq; simp [hq], h2⟩

/-- C05: `create_as_last_child`. -/
theorem C05_create_as_last_child (W : WF h ch) (ha : h.alive n = true)
    (ht : h.nodeTree n = .ok t) (d : α) :
    ∃ h' ch', h.nodeCreate n d .lastChild = .ok (h', .ok h.nNode) ∧ WF h' ch' ∧
      h.alive h.nNode = false ∧ ch' n = ch n ++ [h.nNode] ∧ ch' h.nNode = [] ∧
      (∀ q, q ≠ n → ch' q = ch q) ∧ Created h h' h.nNode d t := by
  have hfresh := W.fresh_not_alive
  have hne : h.nNode ≠ n := by rintro e; rw [e, ha] at hfresh; simp at hfresh
  obtain ⟨h', h1, h2, h3, _⟩ := nodeCreate_ok (as := .lastChild) W (.last n) ha
    ((W.tree.treeCore_iff ha).1 ht) d
  exact ⟨h', _, h1, h3, hfresh, by simp, by simp [hne, W.dead _ hfresh], by
    intro q hq; simp [hq], h2⟩

/-- C06: `try_create_as_prev_sibling` of a child at a given position of its parent `p`. -/
theorem C06_create_as_prev_sibling {l1 l2 : List NodeId} (W : WF h ch)
    (hs : ch p = l1 ++ n :: l2) (ht : h.nodeTree n = .ok t) (d : α) :
    ∃ h' ch', h.nodeCreate n d .previousSibling = .ok (h', .ok h.nNode) ∧ WF h' ch' ∧
      h.alive h.nNode = false ∧ ch' p = l1 ++ h.nNode :: n :: l2 ∧ ch' h.nNode = [] ∧
      (∀ q, q ≠ p → ch' q = ch q) ∧ Created h h' h.nNode d t := by
  have hfresh := W.fresh_not_alive
  have hm : n ∈ ch p := by simp [hs]
  have ha := W.alive_of_mem hm
  have hne : h.nNode ≠ p := by
    rintro e; rw [e, W.alive_parent hm] at hfresh; simp at hfresh
  obtain ⟨h', h1, h2, h3, _⟩ := nodeCreate_ok (as := .previousSibling) W (.prev hs) ha
    ((W.tree.treeCore_iff ha).1 ht) d
  exact ⟨h', _, h1, h3, hfresh, by simp, by simp [hne, W.dead _ hfresh], by
    intro q hq; simp [hq], h2⟩

/-- C06: `try_create_as_next_sibling`. -/
theorem C06_create_as_next_sibling {l1 l2 : List NodeId} (W : WF h ch)
    (hs : ch p = l1 ++ n :: l2) (ht : h.nodeTree n = .ok t) (d : α) :
    ∃ h' ch', h.nodeCreate n d .nextSibling = .ok (h', .ok h.nNode) ∧ WF h' ch' ∧
      h.alive h.nNode = false ∧ ch' p = l1 ++ n :: h.nNode :: l2 ∧ ch' h.nNode = [] ∧
      (∀ q, q ≠ p → ch' q = ch q) ∧ Created h h' h.nNode d t := by
  have hfresh := W.fresh_not_alive
  have hm : n ∈ ch p := by simp [hs]
  have ha := W.alive_of_mem hm
  have hne : h.nNode ≠ p := by
    rintro e; rw [e, W.alive_parent hm] at hfresh; simp at hfresh
  obtain ⟨h', h1, h2, h3, _⟩ := nodeCreate_ok (as := .nextSibling) W (.next hs) ha
    ((W.tree.treeCore_iff ha).1 ht) d
  exact ⟨h', _, h1, h3, hfresh, by simp, by simp [hne, W.dead _ hfresh], by
    intro q hq; simp [hq], h2⟩

/-- C06: on a root, creating a sibling fails with `SiblingsWithoutParent`. -/
theorem C06_create_sibling_of_root {as : AdoptAs} (W : WF h ch) (ha : h.alive n = true)
    (hroot : ∀ p, n ∉ ch p) (has : as = .previousSibling ∨ as = .nextSibling) (d : α) :
    ∃ h', h.nodeCreate n d as = .ok (h', .error .siblingsWithoutParent) := by
  obtain ⟨t, ht, _⟩ := W.tree.live n ha
  obtain ⟨h', h1, _⟩ := tryCreate_root W ha ht hroot has d
  exact ⟨h', by rw [nodeCreate_eq W ha ht]; exact h1⟩

/-- C07: a failed creation has no effect: the same nodes are alive with the same contents, all
trees, locks and counts are as before, and no node has been leaked.  Creation never panics. -/
theorem C07_failed_creation_no_effect (W : WF h ch) (ha : h.alive n = true) (d : α)
    (as : AdoptAs) :
    ∃ h' r, h.nodeCreate n d as = .ok (h', r) ∧
      ∀ e, r = .error e → SameLive h h' ∧ WF h' ch := by
  obtain ⟨t, ht, _⟩ := W.tree.live n ha
  have good : ∀ p l1 l2, DestSplit ch (as.at n) p l1 l2 → ∃ h' r,
      h.nodeCreate n d as = .ok (h', r) ∧ ∀ e, r = .error e → SameLive h h' ∧ WF h' ch := by
    intro p l1 l2 hd
    obtain ⟨h', h1, _⟩ := nodeCreate_ok W hd ha ht d
    exact ⟨h', _, h1, by intro e he; simp at he⟩
  have bad : (∀ p, n ∉ ch p) → (as = .previousSibling ∨ as = .nextSibling) → ∃ h' r,
      h.nodeCreate n d as = .ok (h', r) ∧ ∀ e, r = .error e → SameLive h h' ∧ WF h' ch := by
    intro hroot has
    obtain ⟨h', h1, h2⟩ := tryCreate_root W ha ht hroot has d
    exact ⟨h', _, by rw [nodeCreate_eq W ha ht]; exact h1, fun e _ => ⟨h2, h2.wf W⟩⟩
  by_cases hroot : ∀ p, n ∉ ch p
  · cases as with
    | firstChild => exact good _ _ _ (.first n)
    | lastChild => exact good _ _ _ (.last n)
    | previousSibling => exact bad hroot (.inl rfl)
    | nextSibling => exact bad hroot (.inr rfl)
  · obtain ⟨p, hp⟩ := Classical.not_forall.1 hroot
    obtain ⟨l1, l2, hs⟩ := exists_split (Classical.not_not.1 hp)
    cases as with
    | firstChild => exact good _ _ _ (.first n)
    | lastChild => exact good _ _ _ (.last n)
    | previousSibling => exact good _ _ _ (.prev hs)
    | nextSibling => exact good _ _ _ (.next hs)

/-- The hypotheses are met: inner node 2 of the demo, child 2 between 1 and 3, and root 0. -/
example : WF Demo.heap Demo.ch ∧ Demo.heap.alive 2 = true ∧ Demo.heap.nodeTree 2 = .ok 0 ∧
    Demo.ch 0 = [1] ++ 2 :: [3] ∧ Demo.heap.alive 0 = true ∧ (∀ p, 0 ∉ Demo.ch p) :=
  ⟨Demo.wf, rfl, rfl, rfl, rfl, by
    intro p hp; have := Demo.wf.parent_of_mem hp; simp [show Demo.heap.parent 0 = none from rfl] at this⟩

end Dendron
