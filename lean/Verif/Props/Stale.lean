import Verif.Proofs.StaleAll
import Verif.Props.Move
import Verif.Props.Replace

/-!
# C10, C12, C14, C15: what goes wrong with the last of several children, in every state

`last_child` of the old parent is read from a pointer stored in its first child, which none of these
calls updates.
-/

set_option autoImplicit false

namespace Dendron
open RTree
variable {α : Type} {h : Heap α} {ch : NodeId → List NodeId} {n p q : NodeId}
  {t t' : TreeId} {T : RTree NodeId} {l m1 m2 : List NodeId} {rc lk : Nat} {dest : InsertAs NodeId}

/-- C12 fails in the code in EVERY consistent state, for every last child `n` with preceding siblings
whose old tree stays alive: the detachment succeeds, `n` is a root afterwards, and `last_child` of the
old parent, which has the other children, returns `n`. -/
theorem C12_always_violated (W : WF h ch) (hs : ch p = l ++ [n]) (hl : l ≠ [])
    (hhandle : h.mem n = .strong t rc lk) (hlocks : LocksCounted h t)
    (hmax : h.grants t ≤ Lock.isizeMax) (hT : SubtreeAt ch n T)
    (hkept : ¬ LastHandlesLeave h T.nodes t) :
    ∃ h', h.detachSubtree n = .ok h' ∧ h'.numCh p = l.length ∧ h'.firstChildLink p = l.head? ∧
      h'.parentLink n = none ∧ h'.lastChildLink p = .ok (some n) := by
  obtain ⟨f, l1, rfl⟩ : ∃ f l1, l = f :: l1 := by
    cases l with
    | nil => exact absurd rfl hl
    | cons f l1 => exact ⟨f, l1, rfl⟩
  obtain ⟨h', ch', e, F, hr, -, -, hp, RH⟩ := C13_detach_forward W hs hT hhandle hlocks hmax
  have hp := hp hkept
  rw [List.append_nil] at hp
  have hna := (F.tree.root _ _ hr).1
  have hpa : h'.alive p = true := F.alive_parent (c := f) (by rw [hp]; simp)
  refine ⟨h', e, ?_, ?_, ?_, stale_last F.toFShape hp (detach_stale W hs e) hna⟩
  · rw [F.num p hpa, hp]
  · rw [Heap.firstChildLink, F.first p hpa, hp]
  · rw [F.parentLink hna, (F.tree.root _ _ hr).2.2]

/-- C10 fails in the code in EVERY consistent state, for every childless last child `n` with preceding
siblings whose old tree stays alive: the replacement succeeds, `n` is a root afterwards, and
`last_child` of the old parent, which has the other children, returns `n`. -/
theorem C10_always_violated (W : WF h ch) (hs : ch p = l ++ [n]) (hl : l ≠ []) (hc : ch n = [])
    (hhandle : h.mem n = .strong t rc lk) (hlocks : LocksCounted h t)
    (hkept : ¬ LastHandlesLeave h [n] t) :
    ∃ h', h.replaceWithChildren n = .ok (h', .ok ()) ∧ h'.numCh p = l.length ∧
      h'.firstChildLink p = l.head? ∧ h'.parentLink n = none ∧ h'.lastChildLink p = .ok (some n) := by
  obtain ⟨f, l1, rfl⟩ : ∃ f l1, l = f :: l1 := by
    cases l with
    | nil => exact absurd rfl hl
    | cons f l1 => exact ⟨f, l1, rfl⟩
  obtain ⟨h', ch', e, F, hr, -, hp, RH⟩ := C10_replace_forward W hs hhandle hlocks
  have hp := hp hkept
  rw [hc, List.append_nil, List.append_nil] at hp
  have hna := (F.tree.root _ _ hr).1
  have hpa : h'.alive p = true := F.alive_parent (c := f) (by rw [hp]; simp)
  refine ⟨h', e, ?_, ?_, ?_, stale_last F.toFShape hp (replace_stale W hs hc e) hna⟩
  · rw [F.num p hpa, hp]
  · rw [Heap.firstChildLink, F.first p hpa, hp]
  · rw [F.parentLink hna, (F.tree.root _ _ hr).2.2]

/-- C14 fails in the code in EVERY consistent state, for every last child `n` with preceding siblings
and every destination in the same tree outside the moved subtree (the place between `m1` and `m2` among
the children of `q` other than `n`).  The call succeeds, `n` is a child of `q` afterwards, and
`last_child` of the old parent `p` returns `n`, even if `q` is not `p` or `n` has a next sibling.  The
remaining case is the end of the list of `p` itself, where nothing should change: `n` becomes its own
next sibling, and the child before it has none. -/
theorem C14_always_violated (W : WF h ch) (hs : ch p = l ++ [n]) (hl : l ≠ [])
    (hT : SubtreeAt ch n T) (hd : DestSplit (upd ch p l) dest q m1 m2) (hq : h.alive q = true)
    (hout : q ∉ T.nodes) (hsame : h.nodeTree n = h.nodeTree q) :
    ∃ h', h.detachInsert n dest = .ok (h', .ok ()) ∧ h'.parentLink n = some q ∧
      h'.lastChildLink p = .ok (some n) ∧
      (¬ (q = p ∧ m2 = []) → h'.nextLink n = m2.head?) ∧
      (q = p → m2 = [] → h'.nextLink n = some n ∧ h'.nextLink (l.getLast hl) = none) := by
  obtain ⟨f, l1, rfl⟩ : ∃ f l1, l = f :: l1 := by
    cases l with
    | nil => exact absurd rfl hl
    | cons f l1 => exact ⟨f, l1, rfl⟩
  have hm : n ∈ ch p := by simp [hs]
  have ha := W.alive_of_mem hm
  have hnd : ¬ Desc ch n q := by rw [← hT.mem_nodes_iff]; exact hout
  have hmt : h.memTree n = h.memTree q := by
    obtain ⟨u, hu, -⟩ := W.tree.live q hq
    obtain ⟨v, hv, -⟩ := W.tree.live n ha
    rw [(W.tree.treeCore_iff ha (t := v)).2 hv |> fun e => (show h.nodeTree n = .ok v from e),
      show h.nodeTree q = .ok u from (W.tree.treeCore_iff hq).2 hu] at hsame
    rw [hu, hv]; simpa using hsame
  obtain ⟨h', e, e1, e2, e3, e4⟩ := moveSame_stale W hs hd hq hnd hmt
  exact ⟨h', e, e1, e2, e3, fun a b => ⟨(e4 a b).1, (e4 a b).2 _ (List.getLast?_eq_some_getLast hl)⟩⟩

/-- C15 fails in the code in EVERY consistent state, for every last child `n` with preceding siblings
whose old tree stays alive and every destination in another tree: the move succeeds, `n` is a child of
`q` afterwards, and `last_child` of the old parent, a node of another tree, returns `n`. -/
theorem C15_always_violated (W : WF h ch) (hs : ch p = l ++ [n]) (hl : l ≠ [])
    (hT : SubtreeAt ch n T) (ht : h.memTree n = some t)
    (hd : DestSplit ch dest q m1 m2) (hq : h.alive q = true) (ht' : h.memTree q = some t')
    (hne : t ≠ t') (hlocks : LocksCounted h t) (hgrant : 0 ≤ h.grants t')
    (hmax : h.grants t' + h.grants t ≤ Lock.isizeMax) (hkept : ¬ LastHandlesLeave h T.nodes t) :
    ∃ h', h.detachInsert n dest = .ok (h', .ok ()) ∧ h'.parentLink n = some q ∧
      h'.numCh p = l.length ∧ h'.firstChildLink p = l.head? ∧ h'.lastChildLink p = .ok (some n) := by
  obtain ⟨f, l1, rfl⟩ : ∃ f l1, l = f :: l1 := by
    cases l with
    | nil => exact absurd rfl hl
    | cons f l1 => exact ⟨f, l1, rfl⟩
  have ha := W.alive_of_mem (p := p) (c := n) (by simp [hs])
  have g1 := hlocks.subtree W ha hT ht
  obtain ⟨h', ch', e, F, hq', hp, -, -, -, -, -⟩ := C15_move_forward W hs hT ht hd hq ht' hne hlocks hgrant hmax
  have hp := hp hkept
  rw [List.append_nil] at hp
  have hnq : n ∈ ch' q := by rw [hq']; simp
  have hna := F.alive_of_mem hnq
  have hpa : h'.alive p = true := F.alive_parent (c := f) (by rw [hp]; simp)
  refine ⟨h', e, ?_, ?_, ?_, stale_last F.toFShape hp (moveOther_stale W hs hT ht hd hq ht' hne g1 hgrant
    (Int.le_trans (Int.add_le_add_left g1 _) hmax) e) hna⟩
  · rw [F.parentLink hna, F.parent_of_mem hnq]
  · rw [F.num p hpa, hp]
  · rw [Heap.firstChildLink, F.first p hpa, hp]

/-- The hypotheses are met by node 3 of the demo, the last of the three children of the root 0, moved to
the front of the children of 2, to the end of its own list, and into the tree of root 6. -/
example : WF Demo.heap Demo.ch ∧ Demo.ch 0 = [1, 2] ++ [3] ∧ Demo.ch 3 = [] ∧
    Demo.heap.mem 3 = .strong 0 1 0 ∧ SubtreeAt Demo.ch 3 (.node 3 []) ∧
    ¬ LastHandlesLeave Demo.heap (RTree.nodes (.node 3 [])) 0 ∧
    DestSplit (upd Demo.ch 0 [1, 2]) (.firstChildOf 2) 2 [] [4, 5] ∧
    DestSplit (upd Demo.ch 0 [1, 2]) (.lastChildOf 0) 0 [1, 2] [] ∧
    DestSplit Demo.ch (.firstChildOf 6) 6 [] [7] ∧ Demo.heap.memTree 6 = some 1 ∧
    LocksCounted Demo.heap 0 ∧ 0 ≤ Demo.heap.grants 1 ∧
    Demo.heap.grants 1 + Demo.heap.grants 0 ≤ Lock.isizeMax :=
  ⟨Demo.wf, rfl, rfl, rfl, ⟨rfl, rfl, trivial⟩,
    fun e => e.2 2 1 0 (by decide) rfl, .first 2, .last 0, .first 6, rfl, Demo.locksCounted 0,
    by decide, by decide⟩

end Dendron
