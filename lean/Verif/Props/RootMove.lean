import Verif.Proofs.RootLeaf
import Verif.Props.Detach

/-!
# C18: moving the root of a tree into another tree

`try_detach_insert_subtree` on the root of a tree, for every state.  If a `Tree` handle of the moved
tree exists, that tree keeps a root that has a parent.  If there is none, the links of the moved
subtree are destroyed.  The call is right exactly when there is no `Tree` handle and the moved node has no
children.
-/

set_option linter.unusedSimpArgs false
set_option linter.unusedVariables false

set_option autoImplicit false

namespace Dendron
open RTree
variable {α : Type} {h : Heap α} {ch : NodeId → List NodeId} {n q : NodeId} {t t' : TreeId}
  {m1 m2 : List NodeId} {dest : InsertAs NodeId}

/-- The situation of C18: `n` is the root of tree `t`, somebody has a handle to it, the destination is a
place in the child list of a living node `q` of another tree `t'`, and the lock counts leave room. -/
structure MovesRoot (h : Heap α) (ch : NodeId → List NodeId) (n : NodeId) (t t' : TreeId)
    (dest : InsertAs NodeId) (q : NodeId) (m1 m2 : List NodeId) : Prop where
  wf : WF h ch
  alive : h.alive n = true
  root : ∀ p, n ∉ ch p
  handle : ∃ u rc l, h.mem n = .strong u rc l
  tree : h.memTree n = some t
  place : DestSplit ch dest q m1 m2
  destAlive : h.alive q = true
  destTree : h.memTree q = some t'
  other : t ≠ t'
  locks : LocksCounted h t
  locks' : 0 ≤ h.grants t'
  room : h.grants t' + h.grants t ≤ Lock.isizeMax

theorem MovesRoot.goes (M : MovesRoot h ch n t t' dest q m1 m2) :
    ∃ T, RootGoes h ch n T t t' dest q m1 m2 := by
  obtain ⟨T, hT⟩ := M.wf.toFShape.exists_subtree n
  exact ⟨T, ⟨M.wf, M.alive, M.root, hT, M.tree, M.handle, M.place, M.destAlive, M.destTree, M.other,
    M.locks, M.locks', M.room⟩⟩

/-- C18 fails for every moved tree with a `Tree` handle: the call succeeds and links the subtree at its
place, all nodes become members of the destination's tree, but the old tree still exists and says that
its root is `n`, which has a parent now. -/
theorem C18_tree_held_always_violated (M : MovesRoot h ch n t t' dest q m1 m2) (hrc : 0 < h.treeRc t) :
    ∃ h', h.detachInsert n dest = .ok (h', .ok ()) ∧ Shape h' (upd ch q (m1 ++ n :: m2)) ∧
      h'.data = h.data ∧ (∀ x, Desc ch n x → h'.memTree x = some t') ∧
      h'.root t = some n ∧ h'.parentLink n = some q ∧ h'.treeRc = h.treeRc := by
  obtain ⟨T, G⟩ := M.goes
  obtain ⟨h', e, S, d, r, p, c, m⟩ := G.held hrc
  refine ⟨h', e, S, d, ?_, ?_, ?_, c⟩
  · intro x hx
    rw [m, if_pos ((G.sub.mem_nodes_iff x).2 hx)]
  · rw [r]; exact M.wf.tree.top n t M.alive G.parent M.tree
  · have hq : h'.alive q = true := by
      have := M.destAlive
      simp only [Heap.alive, d] at this ⊢; exact this
    simp [Heap.parentLink, p, Heap.upgrade, Option.filter, hq]

/-- C18 fails for every moved tree without a `Tree` handle: the call succeeds, but the old tree is
destroyed during the call.  Descendants without handles are freed; the others are alive, but no node of
the moved subtree has any children, though it still counts as many as before.  Outside of the moved
subtree the children are right. -/
theorem C18_links_always_destroyed (M : MovesRoot h ch n t t' dest q m1 m2) (hrc : h.treeRc t = 0) :
    ∃ h', h.detachInsert n dest = .ok (h', .ok ()) ∧
      h'.parentLink n = some q ∧ h'.treeAlive t = false ∧
      (∀ d, Desc ch n d → (h'.alive d = true ↔ ∃ u rc l, h.mem d = .strong u rc l)) ∧
      (∀ d, Desc ch n d → h'.alive d = true → h'.data d = h.data d ∧ h'.memTree d = some t' ∧
        h'.firstChildLink d = none ∧ h'.numCh d = (ch d).length ∧
        (d ≠ n → h'.nextLink d = none)) ∧
      (∀ x, ¬ Desc ch n x → h'.alive x = h.alive x) ∧
      (∀ x, ¬ Desc ch n x → h.alive x = true →
        h'.firstChildLink x = (upd ch q (m1 ++ n :: m2) x).head? ∧
        Seg h'.next (upd ch q (m1 ++ n :: m2) x) none ∧
        h'.numCh x = (upd ch q (m1 ++ n :: m2) x).length) := by
  obtain ⟨T, G⟩ := M.goes
  obtain ⟨k3, h', e, S, s, p, rfl⟩ := G.drop hrc
  have C := G.ctx
  have hnT := C.n_mem
  have hqT := G.qT
  have hT := G.sub.mem_nodes_iff
  obtain ⟨k2, hk2⟩ : ∃ k2, k2 = (h.acqTree t').cleared T.nodes t t' := ⟨_, rfl⟩
  rw [← hk2] at s e
  have hal : ∀ x, k3.alive x = k2.alive x := fun x => s.alive x
  have hka : ∀ x ∈ T.nodes, (k2.alive x = true ↔ ∃ u rc l, h.mem x = .strong u rc l) := by
    intro x hx
    rw [hk2, cleared_alive hx (C.alive_mem hx), mem_handlesIn]
    exact ⟨fun h1 => h1.2, fun h1 => ⟨hx, h1⟩⟩
  have hout : ∀ x, x ∉ T.nodes → k2.alive x = h.alive x := by
    intro x hx; rw [hk2, cleared_alive_out hx]; rfl
  refine ⟨_, e, ?_, ?_, ?_, ?_, ?_, ?_⟩
  · have h1 : (k3.graft (T.nodes.filter (· ≠ n)) T.nodes k2).parent n = some q := by
      simp [Heap.graft, p]
    have h2 : (k3.graft (T.nodes.filter (· ≠ n)) T.nodes k2).alive q = true := by
      show k3.alive q = true
      rw [hal, hout q hqT]; exact M.destAlive
    show (k3.graft (T.nodes.filter (· ≠ n)) T.nodes k2).upgrade
      ((k3.graft (T.nodes.filter (· ≠ n)) T.nodes k2).parent n) = some q
    rw [h1]
    simp only [Heap.upgrade, Option.filter, h2, if_true]
  · show (k3.root t).isSome = false
    rw [s.root, hk2, cleared_root, upd_same]; rfl
  · intro d hd
    show k3.alive d = true ↔ _
    rw [hal]; exact hka d ((hT d).2 hd)
  · intro d hd ha
    have hdT := (hT d).2 hd
    have hk : k2.alive d = true := by rw [← hal]; exact ha
    have hh : d ∈ (h.acqTree t').handlesIn T.nodes :=
      (cleared_alive hdT (C.alive_mem hdT)).1 (by rw [hk2] at hk; exact hk)
    obtain ⟨-, -, e3, e4, e5⟩ := cleared_kept (t := t) (t' := t') hh
    have hdq : d ≠ q := by rintro rfl; exact hqT hdT
    refine ⟨?_, ?_, ?_, ?_, ?_⟩
    · show k3.data d = _; rw [s.data, hk2, e5]; rfl
    · show k3.memTree d = _
      rw [s.memTree, hk2, Heap.memTree, e4]
      cases (h.acqTree t').mem d <;> rfl
    · show k3.firstChild d = none
      rw [S.first d ha, upd_ne _ _ hdq]; simp [hdT]
    · show (if d ∈ T.nodes then k2.numCh d else k3.numCh d) = _
      rw [if_pos hdT, hk2, e3]; exact M.wf.num d (C.alive_mem hdT)
    · intro hdn
      show k3.next d = none
      refine S.rootNext d ha ?_
      rw [p, if_neg hdn, if_pos hdT]
  · intro x hx
    show k3.alive x = _
    rw [hal]; exact hout x (fun h1 => hx ((hT x).1 h1))
  · intro x hx ha
    have hxT : x ∉ T.nodes := fun h1 => hx ((hT x).1 h1)
    have hka : k3.alive x = true := by rw [hal, hout x hxT]; exact ha
    have hcx : upd (fun x => if x ∈ T.nodes then [] else ch x) q (m1 ++ n :: m2) x
        = upd ch q (m1 ++ n :: m2) x := by
      simp only [upd_apply, hxT, if_false]
    refine ⟨?_, ?_, ?_⟩
    · show k3.firstChild x = _; rw [S.first x hka, hcx]
    · have := S.seg x; rw [hcx] at this; exact this
    · show (if x ∈ T.nodes then k2.numCh x else k3.numCh x) = _
      rw [if_neg hxT, S.num x hka, hcx]

/-- The part of C18 that holds: a root without children and without `Tree` handle moves rightly, and its
old tree goes away. -/
theorem C18_childless_root_partial (M : MovesRoot h ch n t t' dest q m1 m2) (hrc : h.treeRc t = 0)
    (hl : ch n = []) :
    ∃ h', h.detachInsert n dest = .ok (h', .ok ()) ∧ WF h' (upd ch q (m1 ++ n :: m2)) ∧
      h'.data = h.data ∧ h'.memTree n = some t' ∧ (∀ x, x ≠ n → h'.mem x = h.mem x) ∧
      h'.root = upd h.root t none := by
  have G : RootGoes h ch n (.node n []) t t' dest q m1 m2 :=
    ⟨M.wf, M.alive, M.root, leaf_subtree hl, M.tree, M.handle, M.place, M.destAlive, M.destTree, M.other,
      M.locks, M.locks', M.room⟩
  obtain ⟨h', e, W, d, -, m, r, -⟩ := G.leafMoves hrc
  refine ⟨h', e, W, d, ?_, ?_, r⟩
  · rw [Heap.memTree, m, upd_same]; cases h.mem n <;> rfl
  · intro x hx; rw [m, upd_ne _ _ hx]

/-- The call always succeeds, and it leaves a consistent memory exactly if there is no `Tree` handle of
the moved tree and the moved node has no children. -/
theorem C18_consistent_iff (M : MovesRoot h ch n t t' dest q m1 m2) :
    ∃ h', h.detachInsert n dest = .ok (h', .ok ()) ∧
      ((∃ ch', WF h' ch') ↔ h.treeRc t = 0 ∧ ch n = []) := by
  rcases Nat.eq_zero_or_pos (h.treeRc t) with hrc | hrc
  · by_cases hl : ch n = []
    · obtain ⟨h', e, W, -⟩ := C18_childless_root_partial M hrc hl
      exact ⟨h', e, fun _ => ⟨hrc, hl⟩, fun _ => ⟨_, W⟩⟩
    · obtain ⟨h', e, -, -, h1, h2, -⟩ := C18_links_always_destroyed M hrc
      refine ⟨h', e, ?_, fun h3 => absurd h3.2 hl⟩
      rintro ⟨ch', W⟩
      have ha := (h1 n (.refl n)).2 M.handle
      obtain ⟨-, -, h3, h4, -⟩ := h2 n (.refl n) ha
      have h5 := W.num n ha
      have h6 := W.first n ha
      have h7 : h'.firstChild n = none := h3
      rw [h7] at h6
      have h8 : ch' n = [] := List.head?_eq_none_iff.1 h6.symm
      rw [h8, h4] at h5
      exact absurd (List.length_eq_zero_iff.1 h5) hl
  · obtain ⟨h', e, S, d, -, h1, h2, -⟩ := C18_tree_held_always_violated M hrc
    refine ⟨h', e, ?_, fun h3 => by omega⟩
    rintro ⟨ch', W⟩
    obtain ⟨h3, -, h4⟩ := W.tree.root t n h1
    simp [Heap.parentLink, h4, Heap.upgrade] at h2

/-- The hypotheses are met: node 6, the root of the demo's tree 1 with child 7, moves below node 0 of
tree 0. -/
theorem Demo.movesRoot : MovesRoot Demo.heap Demo.ch 6 1 0 (.lastChildOf 0) 0 [1, 2, 3] [] :=
  ⟨Demo.wf, rfl, by
    intro p hp
    have := Demo.wf.parent_of_mem hp
    simp [show Demo.heap.parent 6 = none from rfl] at this, ⟨_, _, _, rfl⟩, rfl, .last 0, rfl, rfl, by decide,
    Demo.locksCounted 1, by decide, by decide⟩

example : MovesRoot Demo.heap Demo.ch 6 1 0 (.lastChildOf 0) 0 [1, 2, 3] [] ∧ Demo.heap.treeRc 1 = 0 ∧
    Demo.ch 6 = [7] := ⟨Demo.movesRoot, rfl, rfl⟩

/-- With a `Tree` handle of tree 1, moving in front of node 1. -/
example : MovesRoot (Demo.heap.acqTree 1) Demo.ch 6 1 0 (.previousSiblingOf 1) 0 [] [1, 2, 3] ∧
    0 < (Demo.heap.acqTree 1).treeRc 1 :=
  ⟨⟨acqTree_wf Demo.wf 1, rfl, Demo.movesRoot.root, ⟨_, _, _, rfl⟩, rfl, .prev (l1 := []) (l2 := [2, 3]) rfl, rfl,
    rfl, by decide, Demo.locksCounted 1, by decide, by decide⟩, by decide⟩

/-- A new tree with the single node 8 moves behind node 7 of tree 1. -/
example : MovesRoot (Demo.heap.newTreeRoot 18).1 Demo.ch 8 2 1 (.nextSiblingOf 7) 6 [7] [] ∧
    (Demo.heap.newTreeRoot 18).1.treeRc 2 = 0 ∧ Demo.ch 8 = [] := by
  refine ⟨⟨Demo.new_wf Demo.wf 18, rfl, ?_, ⟨_, _, _, rfl⟩, rfl, .next (l1 := []) (l2 := []) rfl, rfl,
    rfl, by decide, ?_, by decide, by decide⟩, rfl, rfl⟩
  · intro p hp
    have := (Demo.new_wf Demo.wf 18).parent_of_mem hp
    rw [show (Demo.heap.newTreeRoot 18).1.parent 8 = none from rfl] at this
    cases this
  · intro D _ _
    have : (Demo.heap.newTreeRoot 18).1.locked = fun _ => false := by
      funext x
      match x with
      | 0 => rfl
      | 1 => rfl
      | 2 => rfl
      | 3 => rfl
      | 4 => rfl
      | 5 => rfl
      | 6 => rfl
      | 7 => rfl
      | 8 => rfl
      | x + 9 => rfl
    have h3 : D.filter (Demo.heap.newTreeRoot 18).1.locked = [] := by rw [this]; simp
    rw [Heap.lockedIn, h3]; decide

end Dendron
