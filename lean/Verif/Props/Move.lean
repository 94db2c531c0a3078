import Verif.Props.Detach

/-!
# C14-C18: moving subtrees
-/

set_option autoImplicit false

namespace Dendron
open RTree
variable {α : Type} {h h' : Heap α} {ch : NodeId → List NodeId} {n p q : NodeId}
  {t t' : TreeId} {T : RTree NodeId} {l1 l2 m1 m2 : List NodeId} {dest : InsertAs NodeId}

/-- C14 (partial: the moved node is the first child of its parent or has a following sibling): a
destination `dest` that means the place between `m1` and `m2` among the remaining children of `q`,
where `q` is a node of the same tree outside the moved subtree.  The node is at that place afterwards,
the moved subtree is intact, every other child list is as before, and no data, membership, root, lock
or reference count has changed. -/
theorem C14_move_same_tree_partial (W : WF h ch) (hs : ch p = l1 ++ n :: l2)
    (hpos : l1 = [] ∨ l2 ≠ []) (hT : SubtreeAt ch n T)
    (hd : DestSplit (upd ch p (l1 ++ l2)) dest q m1 m2) (hq : h.alive q = true)
    (hout : q ∉ T.nodes) (hsame : h.nodeTree n = h.nodeTree q) :
    ∃ h' ch', h.detachInsert n dest = .ok (h', .ok ()) ∧ WF h' ch' ∧
      ch' q = m1 ++ n :: m2 ∧ (p ≠ q → ch' p = l1 ++ l2) ∧ (∀ x, x ≠ p → x ≠ q → ch' x = ch x) ∧
      SubtreeAt ch' n T ∧ SameNonLink h h' := by
  have hm : n ∈ ch p := by simp [hs]
  have ha := W.alive_of_mem hm
  have hnd : ¬ Desc ch n q := by rw [← hT.mem_nodes_iff]; exact hout
  have hmt : h.memTree n = h.memTree q := by
    obtain ⟨u, hu, -⟩ := W.tree.live q hq
    obtain ⟨v, hv, -⟩ := W.tree.live n ha
    rw [(W.tree.treeCore_iff ha (t := v)).2 hv |> fun e => (show h.nodeTree n = .ok v from e),
      show h.nodeTree q = .ok u from (W.tree.treeCore_iff hq).2 hu] at hsame
    rw [hu, hv]; simpa using hsame
  obtain ⟨h', e, s, W'⟩ := moveSame_spec W hs hpos hd hq hnd hmt
  refine ⟨h', _, e, W', by simp, ?_, ?_, ?_, s⟩
  · intro hpq; simp [upd_apply, hpq]
  · intro x hx hx'; simp [upd_apply, hx, hx']
  · have h1 : SubtreeAt (upd ch p (l1 ++ l2)) n T := hT.upd (W.toFShape.not_desc_parent hm)
    refine h1.upd ?_
    rw [← h1.mem_nodes_iff]; exact hout

/-- C14 for every position of the moved node among its siblings (if it is the last of several, a place
that is neither first nor last among the others): everything is as C14 says, except possibly the links
to previous siblings (`ForwardWF`), of which at most one is wrong: that of the first of the remaining
siblings, if the last of several has left. -/
theorem C14_move_forward (W : WF h ch) (hs : ch p = l1 ++ n :: l2) (hT : SubtreeAt ch n T)
    (hend : l2 = [] → l1 ≠ [] → q = p → m1 ≠ [] ∧ m2 ≠ [])
    (hd : DestSplit (upd ch p (l1 ++ l2)) dest q m1 m2) (hq : h.alive q = true)
    (hout : q ∉ T.nodes) (hsame : h.nodeTree n = h.nodeTree q) :
    ∃ h' ch', h.detachInsert n dest = .ok (h', .ok ()) ∧ ForwardWF h' ch' ∧
      ch' q = m1 ++ n :: m2 ∧ (p ≠ q → ch' p = l1 ++ l2) ∧ (∀ x, x ≠ p → x ≠ q → ch' x = ch x) ∧
      SubtreeAt ch' n T ∧ SameNonLink h h' ∧
      ∀ x l a r, ch' x = l ++ a :: r → ¬ (l2 = [] ∧ l1.head? = some a) → h'.prevLink a = .ok l.getLast? := by
  have hm : n ∈ ch p := by simp [hs]
  have ha := W.alive_of_mem hm
  have hnd : ¬ Desc ch n q := by rw [← hT.mem_nodes_iff]; exact hout
  have hmt : h.memTree n = h.memTree q := by
    obtain ⟨u, hu, -⟩ := W.tree.live q hq
    obtain ⟨v, hv, -⟩ := W.tree.live n ha
    rw [(W.tree.treeCore_iff ha (t := v)).2 hv |> fun e => (show h.nodeTree n = .ok v from e),
      show h.nodeTree q = .ok u from (W.tree.treeCore_iff hq).2 hu] at hsame
    rw [hu, hv]; simpa using hsame
  obtain ⟨h0, h', e, sim, s, W'⟩ := moveSame_wideSpec W hs hend hd hq hnd hmt
  have sy := sim.symm
  refine ⟨h0, _, e, ⟨sy.fshape W'.toFShape, sy.numOK W'.num, sy.treeWF W'.tree, sy.refWF W'.refs⟩, by simp, ?_, ?_, ?_, sy.sameNonLink s, ?_⟩
  · intro hpq; simp [upd_apply, hpq]
  · intro x hx hx'; simp [upd_apply, hx, hx']
  · have h1 : SubtreeAt (upd ch p (l1 ++ l2)) n T := hT.upd (W.toFShape.not_desc_parent hm)
    refine h1.upd ?_
    rw [← h1.mem_nodes_iff]; exact hout
  · intro x l a r hx hna
    rw [← sim.prevLink (n := a) hna]
    exact W'.toShape.prevLink_at hx

/-- C14 fails in the code for a last child with preceding siblings.  Moving such a node away leaves
`last_child` of the old parent pointing to it. -/
theorem C14_move_last_child_violation :
    ∃ (h : Heap Nat) (ch : NodeId → List NodeId) (n p q : NodeId) (h' : Heap Nat),
      WF h ch ∧ ch p = [1, 2] ++ [n] ∧ h.detachInsert n (.firstChildOf q) = .ok (h', .ok ()) ∧
      h'.parentLink n = some q ∧ q ≠ p ∧ h'.lastChildLink p = .ok (some n) :=
  ⟨Demo.heap, Demo.ch, 3, 0, 1, _, Demo.wf, rfl, rfl, rfl, by decide, rfl⟩

/-- C14 fails in the code: moving the last child to the last position of the same parent, which
should change nothing, makes the node its own next sibling and drops it from the child list. -/
theorem C14_move_last_to_last_violation :
    ∃ (h : Heap Nat) (ch : NodeId → List NodeId) (n p : NodeId) (h' : Heap Nat),
      WF h ch ∧ ch p = [1, 2] ++ [n] ∧ h.detachInsert n (.lastChildOf p) = .ok (h', .ok ()) ∧
      h'.nextLink n = some n ∧ h'.nextLink 1 = some 2 ∧ h'.nextLink 2 = none ∧ h'.numCh p = 3 :=
  ⟨Demo.heap, Demo.ch, 3, 0, _, Demo.wf, rfl, rfl, rfl, rfl, rfl, rfl⟩

/-- C15 (partial: the moved node has a parent, and is its first child or has a following sibling):
moving into another tree `t'` to a place between `m1` and `m2` among the children of `q`.  The node is at
that place afterwards, its subtree is intact, its nodes have become members of `t'` keeping data,
handles and locks, the destination tree keeps its root, and everything else is as before (`Rehomed`; if
the last handles to the old tree left with the subtree, the rest of it is freed). -/
theorem C15_move_other_tree_partial (W : WF h ch) (hs : ch p = l1 ++ n :: l2)
    (hpos : l1 = [] ∨ l2 ≠ []) (hT : SubtreeAt ch n T) (ht : h.memTree n = some t)
    (hd : DestSplit ch dest q m1 m2) (hq : h.alive q = true) (ht' : h.memTree q = some t')
    (hne : t ≠ t') (hlocks : LocksCounted h t) (hgrant : 0 ≤ h.grants t')
    (hmax : h.grants t' + h.grants t ≤ Lock.isizeMax) :
    ∃ h' ch', h.detachInsert n dest = .ok (h', .ok ()) ∧ WF h' ch' ∧
      ch' q = m1 ++ n :: m2 ∧ (¬ LastHandlesLeave h T.nodes t → ch' p = l1 ++ l2) ∧
      SubtreeAt ch' n T ∧ (∀ x ∈ T.nodes, h'.memTree x = some t') ∧ h'.root t' = h.root t' ∧
      Rehomed h h' (upd (upd ch p (l1 ++ l2)) q (m1 ++ n :: m2)) ch' T.nodes t t' (h.grants t') := by
  have hm : n ∈ ch p := by simp [hs]
  have ha := W.alive_of_mem hm
  have g1 := hlocks.subtree W ha hT ht
  obtain ⟨h', ch', e, W', RH, e1, -, -⟩ := moveOther_spec W hs hpos hT ht hd hq ht' hne g1 hgrant
    (Int.le_trans (Int.add_le_add_left g1 _) hmax)
  have hmp : h.memTree p = some t := by
    rw [← W.tree.child n p ha (W.parent_of_mem hm)]; exact ht
  have hqp : p ≠ q := by
    rintro rfl; rw [hmp] at ht'; exact hne (by simpa using ht')
  have hqT : q ∉ T.nodes := by
    intro e
    have := W.tree.desc_memTree W.toFShape ((hT.mem_nodes_iff q).1 e)
    rw [ht, ht'] at this; exact hne (by simpa using this.symm)
  refine ⟨h', ch', e, W', ?_, ?_, ?_, ?_, e1, RH⟩
  · rw [RH.children q (fun hab => by
      have := hab.2.1; rw [ht'] at this; exact hne (by simpa using this.symm))]
    simp
  · intro hl
    rw [RH.children p (fun hab => hl hab.1)]
    simp [upd_apply, hqp]
  · refine RH.subtree ?_
    have h1 : SubtreeAt (upd ch p (l1 ++ l2)) n T := hT.upd (W.toFShape.not_desc_parent hm)
    refine h1.upd ?_
    rw [← h1.mem_nodes_iff]; exact hqT
  · intro x hx
    simp only [Heap.memTree, RH.moved x hx]
    cases h.mem x <;> rfl

/-- C15 for every position of the moved node among its siblings: everything is as C15 says, except
possibly the links to previous siblings (`ForwardWF`), of which at most one is wrong: that of the first
of the remaining siblings, if the last of several has left. -/
theorem C15_move_forward (W : WF h ch) (hs : ch p = l1 ++ n :: l2) (hT : SubtreeAt ch n T)
    (ht : h.memTree n = some t)
    (hd : DestSplit ch dest q m1 m2) (hq : h.alive q = true) (ht' : h.memTree q = some t')
    (hne : t ≠ t') (hlocks : LocksCounted h t) (hgrant : 0 ≤ h.grants t')
    (hmax : h.grants t' + h.grants t ≤ Lock.isizeMax) :
    ∃ h' ch', h.detachInsert n dest = .ok (h', .ok ()) ∧ ForwardWF h' ch' ∧
      ch' q = m1 ++ n :: m2 ∧ (¬ LastHandlesLeave h T.nodes t → ch' p = l1 ++ l2) ∧
      SubtreeAt ch' n T ∧ (∀ x ∈ T.nodes, h'.memTree x = some t') ∧ h'.root t' = h.root t' ∧
      Rehomed h h' (upd (upd ch p (l1 ++ l2)) q (m1 ++ n :: m2)) ch' T.nodes t t' (h.grants t') ∧
      ∀ x l a r, ch' x = l ++ a :: r → ¬ (l2 = [] ∧ l1.head? = some a) → h'.prevLink a = .ok l.getLast? := by
  have hm : n ∈ ch p := by simp [hs]
  have ha := W.alive_of_mem hm
  have g1 := hlocks.subtree W ha hT ht
  obtain ⟨h0, h', ch', e, sim, W', RH, ⟨e1, -, -⟩, -⟩ := moveOther_wide W hs hT ht hd hq ht' hne g1 hgrant
    (Int.le_trans (Int.add_le_add_left g1 _) hmax)
  have hmp : h.memTree p = some t := by
    rw [← W.tree.child n p ha (W.parent_of_mem hm)]; exact ht
  have hqp : p ≠ q := by
    rintro rfl; rw [hmp] at ht'; exact hne (by simpa using ht')
  have hqT : q ∉ T.nodes := by
    intro e
    have := W.tree.desc_memTree W.toFShape ((hT.mem_nodes_iff q).1 e)
    rw [ht, ht'] at this; exact hne (by simpa using this.symm)
  have sy := sim.symm
  have RH' := RH.sim sim
  refine ⟨h0, ch', e, ⟨sy.fshape W'.toFShape, sy.numOK W'.num, sy.treeWF W'.tree, sy.refWF W'.refs⟩, ?_, ?_, ?_, ?_, ?_, RH', ?_⟩
  · rw [RH.children q (fun hab => by
      have := hab.2.1; rw [ht'] at this; exact hne (by simpa using this.symm))]
    simp
  · intro hl
    rw [RH.children p (fun hab => hl hab.1)]
    simp [upd_apply, hqp]
  · refine RH.subtree ?_
    have h1 : SubtreeAt (upd ch p (l1 ++ l2)) n T := hT.upd (W.toFShape.not_desc_parent hm)
    refine h1.upd ?_
    rw [← h1.mem_nodes_iff]; exact hqT
  · intro x hx
    simp only [Heap.memTree, RH'.moved x hx]
    cases h.mem x <;> rfl
  · rw [← e1, ← sim.root]
  · intro x l a r hx hna
    rw [← sim.prevLink (n := a) hna]
    exact W'.toShape.prevLink_at hx

/-- C16 fails in the code: moving node 2 below its own child 4 succeeds and creates a cycle of
parents, so that no parent chain from these nodes ever ends. -/
theorem C16_move_below_itself_violation :
    ∃ (h : Heap Nat) (ch : NodeId → List NodeId) (n d : NodeId) (h' : Heap Nat),
      WF h ch ∧ d ∈ ch n ∧ h.detachInsert n (.firstChildOf d) = .ok (h', .ok ()) ∧
      h'.parentLink n = some d ∧ h'.parentLink d = some n ∧ h'.firstChildLink d = some n ∧
      h'.firstChildLink n = some d :=
  ⟨Demo.heap, Demo.ch, 2, 4, _, Demo.wf, by decide, rfl, rfl, rfl, rfl, rfl⟩

theorem insertFirst_new {held : List NodeId} {e : HierarchyError} :
    h.insertFirst held n true p ≠ .ok (h', .error e) := by
  intro hh
  simp only [Heap.insertFirst, Heap.loopCheck, bind, Except.bind, pure, Except.pure, if_true,
    Bool.false_eq_true, if_false] at hh
  split at hh
  · cases hh
  split at hh
  · cases hh
  split at hh
  · cases hh
  simp at hh

theorem insertLast_new {held : List NodeId} {e : HierarchyError} :
    h.insertLast held n true p ≠ .ok (h', .error e) := by
  intro hh
  simp only [Heap.insertLast, Heap.loopCheck, bind, Except.bind, pure, Except.pure, if_true,
    Bool.false_eq_true, if_false] at hh
  split at hh
  · cases hh
  split at hh
  · cases hh
  simp at hh

theorem newByUnlink_isNew {held : List NodeId} {h1 : Heap α} {b : Bool} (hr : h.isRoot n = false)
    (he : h.newByUnlink held n = .ok (h1, b)) : b = true := by
  simp only [Heap.newByUnlink, hr, Bool.false_eq_true, if_false, bind, Except.bind, pure,
    Except.pure] at he
  split at he
  · cases he
  split at he
  · cases he
  split at he
  · cases he
  split at he
  · cases he
  split at he
  · cases he
  split at he
  · cases he
  split at he
  · cases he
  split at he
  · cases he
  simp at he; exact he.2

/-- A failed insertion of an unlinked node. -/
theorem insert_error {held : List NodeId} {e : HierarchyError}
    (he : h.insert held n true dest = .ok (h', .error e)) :
    e = .siblingsWithoutParent ∧ h' = h ∧
      (dest = .previousSiblingOf dest.anchor ∨ dest = .nextSiblingOf dest.anchor) ∧
      h.parentLink dest.anchor = none := by
  cases dest with
  | firstChildOf a => exact absurd he insertFirst_new
  | lastChildOf a => exact absurd he insertLast_new
  | previousSiblingOf a =>
    simp only [Heap.insert] at he
    split at he
    · rename_i h1
      simp only [Except.ok.injEq, Prod.mk.injEq, Except.error.injEq] at he
      exact ⟨he.2.symm, he.1.symm, .inl rfl, h1⟩
    · exfalso
      simp only [bind, Except.bind, pure, Except.pure] at he
      split at he
      · simp at he
      split at he
      · split at he
        · cases he
        split at he
        · cases he
        split at he
        · cases he
        simp at he
      · split at he
        · cases he
        rename_i v hv
        obtain ⟨g, r⟩ := v
        simp only at he
        split at he
        · cases he
        simp only [Except.ok.injEq, Prod.mk.injEq] at he
        rw [he.2] at hv
        exact insertFirst_new hv
  | nextSiblingOf a =>
    simp only [Heap.insert] at he
    split at he
    · rename_i h1
      simp only [Except.ok.injEq, Prod.mk.injEq, Except.error.injEq] at he
      exact ⟨he.2.symm, he.1.symm, .inr rfl, h1⟩
    · exfalso
      simp only [bind, Except.bind, pure, Except.pure] at he
      split at he
      · split at he
        · cases he
        split at he
        · cases he
        split at he
        · cases he
        simp at he
      · split at he
        · cases he
        rename_i v hv
        obtain ⟨g, r⟩ := v
        simp only at he
        split at he
        · cases he
        simp only [Except.ok.injEq, Prod.mk.injEq] at he
        rw [he.2] at hv
        exact insertLast_new hv

/-- A failed move inside a tree. -/
theorem move_error {e : HierarchyError} (hsame : h.belongsToSameTree n dest.anchor = true)
    (hh : h.detachInsert n dest = .ok (h', .error e)) :
    e = .siblingsWithoutParent ∧ (dest = .previousSiblingOf dest.anchor ∨ dest = .nextSiblingOf dest.anchor) := by
  unfold Heap.detachInsert at hh
  rw [if_pos hsame] at hh
  unfold Heap.moveSame at hh
  cases hr : h.isRoot n with
  | true => rw [hr] at hh; simp at hh
  | false =>
    rw [hr] at hh
    simp only [Bool.false_eq_true, if_false, bind, Except.bind] at hh
    split at hh
    · cases hh
    rename_i v hv
    obtain ⟨h1, b⟩ := v
    have := newByUnlink_isNew hr hv
    subst this
    obtain ⟨e1, -, e2, -⟩ := insert_error hh
    exact ⟨e1, e2⟩

/-- C16: the documented error never occurs: for every state, node and destination in the same tree,
`try_detach_insert_subtree` does not return `AncestorDescendantLoop`. -/
theorem C16_loop_error_never_returned (hsame : h.belongsToSameTree n dest.anchor = true) :
    h.detachInsert n dest ≠ .ok (h', .error .ancestorDescendantLoop) :=
  fun hh => by cases (move_error hsame hh).1

/-- C16 (partial: the moved node is a root): no cycle is created, the memory is unchanged; but the
call reports success instead of the documented error. -/
theorem C16_move_root_below_itself_partial (W : WF h ch) (ha : h.alive n = true)
    (hroot : ∀ p, n ∉ ch p) (hsame : h.belongsToSameTree n dest.anchor = true) :
    h.detachInsert n dest = .ok (h, .ok ()) := by
  have hp : h.parent n = none := by
    cases hp : h.parent n with
    | none => rfl
    | some q => exact absurd (W.mem_of_parent ha hp) (hroot q)
  have : h.isRoot n = true := by simp [Heap.isRoot, W.toFShape.parentLink ha, hp]
  simp [Heap.detachInsert, hsame, Heap.moveSame, this]

/-- C17 fails in the code: moving node 2 next to the root returns `SiblingsWithoutParent`, but node 2
is no longer a child of its parent, while still being a member of its tree. -/
theorem C17_failed_move_violation :
    ∃ (h : Heap Nat) (ch : NodeId → List NodeId) (n r : NodeId) (h' : Heap Nat),
      WF h ch ∧ ch r = [1] ++ n :: [3] ∧
      h.detachInsert n (.previousSiblingOf r) = .ok (h', .error .siblingsWithoutParent) ∧
      h'.parentLink n = none ∧ h'.nextLink 1 = some 3 ∧ h'.nodeTree n = h'.nodeTree r ∧
      h'.nodeRoot n = .ok r :=
  ⟨Demo.heap, Demo.ch, 2, 0, _, Demo.wf, rfl, rfl, rfl, rfl, rfl, rfl⟩

/-- C17 (partial: child destinations in the same tree): such a move never fails, in any state. -/
theorem C17_failed_move_partial {e : HierarchyError}
    (hsame : h.belongsToSameTree n q = true) :
    h.detachInsert n (.firstChildOf q) ≠ .ok (h', .error e) ∧
    h.detachInsert n (.lastChildOf q) ≠ .ok (h', .error e) := by
  constructor
  · intro hh
    rcases (move_error (dest := .firstChildOf q) hsame hh).2 with h1 | h1 <;> cases h1
  · intro hh
    rcases (move_error (dest := .lastChildOf q) hsame hh).2 with h1 | h1 <;> cases h1

theorem exists_of_toOption {β γ : Type} {r : Except Fault β} {f : β → γ} {b : γ}
    (hh : r.toOption.map f = some b) : ∃ x, r = .ok x ∧ f x = b := by
  cases r with
  | error e => simp [Except.toOption] at hh
  | ok x => exact ⟨x, rfl, by simpa [Except.toOption] using hh⟩

/-- C18 fails in the code: moving the root 6 of the tree 6 → [7] below node 0 of another tree, with
handles to both nodes, destroys the moved subtree: 6 has no first child afterwards, although it
still counts one, 7 is still alive and 6 is its parent. -/
theorem C18_move_whole_tree_violation :
    ∃ (h : Heap Nat) (ch : NodeId → List NodeId) (n c q : NodeId) (h' : Heap Nat),
      WF h ch ∧ ch n = [c] ∧ (∀ p, n ∉ ch p) ∧ h.nodeTree n ≠ h.nodeTree q ∧
      h.detachInsert n (.lastChildOf q) = .ok (h', .ok ()) ∧
      h'.firstChildLink n = none ∧ h'.numCh n = 1 ∧ h'.alive c = true ∧ h'.parentLink c = some n :=
  by
  obtain ⟨⟨h', r⟩, e1, f1⟩ := exists_of_toOption
    (r := Demo.heap.detachInsert 6 (.lastChildOf 0))
    (f := fun x => (x.2.toBool, x.1.firstChildLink 6, x.1.numCh 6, x.1.alive 7, x.1.parentLink 7))
    (b := (true, none, 1, true, some 6)) (by decide +kernel)
  simp only [Prod.mk.injEq] at f1
  have hr : r = .ok () := by
    cases r with
    | ok _ => rfl
    | error _ => simp [Except.toBool] at f1
  subst hr
  exact ⟨Demo.heap, Demo.ch, 6, 7, 0, h', Demo.wf, rfl, by
      intro p hp; have := Demo.wf.parent_of_mem hp
      simp [show Demo.heap.parent 6 = none from rfl] at this, by
      intro e
      have : Except.ok (1 : TreeId) = (Except.ok 0 : Except Fault TreeId) := e
      simp at this, e1, f1.2.1, f1.2.2.1, f1.2.2.2.1, f1.2.2.2.2⟩

/-- C18 fails in the code: if a `Tree` handle keeps the emptied tree alive during the move, dropping
that handle later dismantles the moved subtree and, with it, the whole destination tree: afterwards
the destination's root has no child. -/
theorem C18_drop_emptied_tree_violation :
    ∃ (h : Heap Nat) (ch : NodeId → List NodeId) (n q : NodeId) (h' h'' : Heap Nat),
      WF h ch ∧ (∀ p, n ∉ ch p) ∧ ch q = [1, 2, 3] ∧ h.treeRc 1 = 1 ∧
      h.detachInsert n (.firstChildOf q) = .ok (h', .ok ()) ∧ h'.relTree [] 1 = .ok h'' ∧
      h'.firstChildLink q = some n ∧ h''.firstChildLink q = none ∧ h''.nodeRoot n = .ok q :=
  by
  obtain ⟨h', e1, f1⟩ := exists_of_toOption
    (r := (Demo.heap.acqTree 1).detachInsert 6 (.firstChildOf 0))
    (f := fun x => (x.2.toBool, x.1.firstChildLink 0,
      (x.1.relTree [] 1).toOption.map (fun y => (y.firstChildLink 0, (y.nodeRoot 6).toOption))))
    (b := (true, some 6, some (none, some 0))) (by decide +kernel)
  obtain ⟨h', r⟩ := h'
  simp only [Prod.mk.injEq] at f1
  obtain ⟨h'', e2, f2⟩ := exists_of_toOption f1.2.2
  simp only [Prod.mk.injEq] at f2
  have hr : r = .ok () := by
    cases r with
    | ok _ => rfl
    | error _ => simp [Except.toBool] at f1
  have hq : h''.nodeRoot 6 = .ok 0 := by
    cases e : h''.nodeRoot 6 with
    | ok v => rw [e] at f2; simpa [Except.toOption] using f2.2
    | error _ => rw [e] at f2; simp [Except.toOption] at f2
  subst hr
  exact ⟨Demo.heap.acqTree 1, Demo.ch, 6, 0, h', h'', acqTree_wf Demo.wf 1, by
      intro p hp; have := Demo.wf.parent_of_mem hp
      simp [show Demo.heap.parent 6 = none from rfl] at this, rfl, rfl, e1, e2, f1.2.1, f2.1, hq⟩

/-- The hypotheses of C14 and C15 are met: node 2 of the demo moves in front of its sibling 1, and
below node 6 of the other tree. -/
example : WF Demo.heap Demo.ch ∧ Demo.ch 0 = [1] ++ 2 :: [3] ∧
    SubtreeAt Demo.ch 2 (.node 2 [.node 4 [], .node 5 []]) ∧
    DestSplit (upd Demo.ch 0 ([1] ++ [3])) (.previousSiblingOf 1) 0 [] [1, 3] ∧
    Demo.heap.nodeTree 2 = Demo.heap.nodeTree 0 ∧
    DestSplit Demo.ch (.lastChildOf 6) 6 [7] [] ∧ Demo.heap.memTree 2 = some 0 ∧
    Demo.heap.memTree 6 = some 1 ∧ LocksCounted Demo.heap 0 ∧ 0 ≤ Demo.heap.grants 1 ∧
    Demo.heap.grants 1 + Demo.heap.grants 0 ≤ Lock.isizeMax :=
  ⟨Demo.wf, rfl, ⟨rfl, rfl, ⟨rfl, trivial⟩, ⟨rfl, trivial⟩, trivial⟩,
    .prev (l1 := []) (l2 := [3]) rfl, rfl, .last 6, rfl, rfl, Demo.locksCounted 0, by decide, by decide⟩

/-- The forward theorems also cover a last child with a predecessor: node 3, the last of [1, 2, 3],
moved to the front of node 1's children (same tree) or under node 6 (another tree). -/
example : WF Demo.heap Demo.ch ∧ Demo.ch 0 = [1, 2] ++ 3 :: [] ∧ SubtreeAt Demo.ch 3 (.node 3 []) ∧
    DestSplit (upd Demo.ch 0 ([1, 2] ++ [])) (.firstChildOf 1) 1 [] [] ∧
    Demo.heap.nodeTree 3 = Demo.heap.nodeTree 1 ∧ DestSplit Demo.ch (.lastChildOf 6) 6 [7] [] ∧
    Demo.heap.memTree 3 = some 0 ∧ Demo.heap.memTree 6 = some 1 :=
  ⟨Demo.wf, rfl, ⟨rfl, rfl, trivial⟩, .first 1, rfl, .last 6, rfl, rfl⟩

end Dendron
