import Verif.Proofs.StrictWF

/-! The specifications of the edits in consistent memories. -/

set_option linter.unusedSimpArgs false
set_option linter.unusedVariables false

set_option autoImplicit false

namespace Dendron
open RTree
variable {α : Type} {h h1 h2 h' : Heap α} {ch ch1 : NodeId → List NodeId} {n p r q c : NodeId}
  {t t' : TreeId} {T R : RTree NodeId} {l1 l2 m1 m2 : List NodeId}

theorem WF.move_other_eq {dest : InsertAs NodeId} (W : WF h ch) (hs : ch p = l1 ++ n :: l2)
    (hT : SubtreeAt ch n T)
    (ht : h.memTree n = some t) (hd : DestSplit ch dest q m1 m2) (hq : h.alive q = true)
    (ht' : h.memTree q = some t') (hne : t ≠ t')
    (g1 : (h.lockedIn T.nodes : Int) ≤ h.grants t) (g2 : 0 ≤ h.grants t')
    (g3 : h.grants t' + h.lockedIn T.nodes ≤ Lock.isizeMax) :
    h.detachInsert n dest = h.detachInsertL n dest := by
  have hm : n ∈ ch p := by simp [hs]
  have hda : h.alive dest.anchor = true ∧ h.memTree dest.anchor = some t' := by
    rcases hd.anchor with e | e
    · rw [e]; exact ⟨hq, ht'⟩
    · have := W.alive_of_mem e
      exact ⟨this, (W.tree.child _ q this (W.parent_of_mem e)).trans ht'⟩
  refine W.detachInsert_other (W.alive_of_mem hm) hda.1 ?_
  intro t1 h1 b h2 e0 e1 e2
  rw [(W.tree.treeCore_iff hda.1), hda.2] at e0
  cases e0
  exact .inl (moveOther_ready W hs hT ht hd hq ht' hne g1 g2 g3 e1 e2)

theorem nodeCreate_eq (W : WF h ch) (ha : h.alive n = true) (ht : h.memTree n = some t) (d : α)
    (as : AdoptAs) : h.nodeCreate n d as = h.tryCreateNodeAsL n t d as := by
  rw [W.nodeCreate_eq ha]
  exact nodeCreate_eqL W ha ht d as

theorem nodeCreate_ok {as : AdoptAs} {l1 l2 : List NodeId} (W : WF h ch)
    (hd : DestSplit ch (as.at n) p l1 l2) (ha : h.alive n = true) (ht : h.memTree n = some t)
    (d : α) :
    ∃ h', h.nodeCreate n d as = .ok (h', .ok h.nNode) ∧
      Created h h' h.nNode d t ∧ WF h' (upd ch p (l1 ++ h.nNode :: l2)) ∧
      (∀ x, h'.parent x = if x = h.nNode then some p else h.parent x) := by
  rw [W.nodeCreate_eq ha]
  exact nodeCreate_okL W hd ha ht d

theorem detach_wide (W : WF h ch) (hs : ch p = l1 ++ n :: l2) (hT : SubtreeAt ch n T)
    {rc lk : Nat} (hmem : h.mem n = .strong t rc lk)
    (g1 : (h.lockedIn T.nodes : Int) ≤ h.grants t)
    (g2 : (h.lockedIn T.nodes : Int) ≤ Lock.isizeMax) :
    ∃ h0 h' ch', h.detachSubtree n = .ok h0 ∧ Sim (StaleHead l1 l2) h0 h' ∧ WF h' ch' ∧
      Rehomed h h' (upd ch p (l1 ++ l2)) ch' T.nodes t h.nTree 0 ∧
      h'.root h.nTree = some n ∧ h'.treeRc h.nTree = 0 ∧ h'.nTree = h.nTree + 1 := by
  rw [W.detachSubtree_eq (W.alive_of_mem (p := p) (by simp [hs]))]
  exact detach_wideL W hs hT hmem g1 g2

theorem detach_spec (W : WF h ch) (hs : ch p = l1 ++ n :: l2) (hT : SubtreeAt ch n T)
    {rc lk : Nat} (hmem : h.mem n = .strong t rc lk)
    (g1 : (h.lockedIn T.nodes : Int) ≤ h.grants t)
    (g2 : (h.lockedIn T.nodes : Int) ≤ Lock.isizeMax) :
    ∃ h' ch', h.detachSubtree n = .ok h' ∧ FShape h' ch' ∧ NumOK h' ch' ∧ TreeWF h' ∧ RefWF h' ∧
      ((l1 = [] ∨ l2 ≠ []) → BackOK h' ch') ∧
      Rehomed h h' (upd ch p (l1 ++ l2)) ch' T.nodes t h.nTree 0 ∧
      h'.root h.nTree = some n ∧ h'.treeRc h.nTree = 0 ∧ h'.nTree = h.nTree + 1 := by
  rw [W.detachSubtree_eq (W.alive_of_mem (p := p) (by simp [hs]))]
  exact detach_specL W hs hT hmem g1 g2

theorem moveOther_wide {dest : InsertAs NodeId} (W : WF h ch) (hs : ch p = l1 ++ n :: l2)
    (hT : SubtreeAt ch n T)
    (ht : h.memTree n = some t) (hd : DestSplit ch dest q m1 m2) (hq : h.alive q = true)
    (ht' : h.memTree q = some t') (hne : t ≠ t')
    (g1 : (h.lockedIn T.nodes : Int) ≤ h.grants t) (g2 : 0 ≤ h.grants t')
    (g3 : h.grants t' + h.lockedIn T.nodes ≤ Lock.isizeMax) :
    ∃ h0 h' ch', h.detachInsert n dest = .ok (h0, .ok ()) ∧ Sim (StaleHead l1 l2) h0 h' ∧ WF h' ch' ∧
      Rehomed h h' (upd (upd ch p (l1 ++ l2)) q (m1 ++ n :: m2)) ch' T.nodes t t' (h.grants t') ∧
      (h'.root t' = h.root t' ∧ h'.treeRc t' = h.treeRc t' ∧ h'.nTree = h.nTree) ∧
      ∃ g1 g2 k c, (h.acqTree t').newByUnlinkL n = .ok (g1, true) ∧
        g1.setMemberships n t' = .ok (some g2) ∧ Sim (StaleHead l1 l2) g2 k ∧ Shape k c ∧
        k.alive q = true ∧ c q = ch q ∧ k.parent n = none ∧ k.parent q = h.parent q ∧
        k.memTree n = some t' ∧ k.root t' = h.root t' ∧ k.treeRc t' = h.treeRc t' + 1 ∧
        (∀ x rc l, h.mem x = .strong t' rc l → k.mem x = .strong t' rc l) ∧ k.nNode = h.nNode ∧
        k.alive n = true ∧ TreeWFe k (fun x => x = n) := by
  rw [W.move_other_eq hs hT ht hd hq ht' hne g1 g2 g3]
  exact moveOther_wideL W hs hT ht hd hq ht' hne g1 g2 g3

theorem moveOther_spec {dest : InsertAs NodeId} (W : WF h ch) (hs : ch p = l1 ++ n :: l2)
    (hpos : l1 = [] ∨ l2 ≠ []) (hT : SubtreeAt ch n T)
    (ht : h.memTree n = some t) (hd : DestSplit ch dest q m1 m2) (hq : h.alive q = true)
    (ht' : h.memTree q = some t') (hne : t ≠ t')
    (g1 : (h.lockedIn T.nodes : Int) ≤ h.grants t) (g2 : 0 ≤ h.grants t')
    (g3 : h.grants t' + h.lockedIn T.nodes ≤ Lock.isizeMax) :
    ∃ h' ch', h.detachInsert n dest = .ok (h', .ok ()) ∧ WF h' ch' ∧
      Rehomed h h' (upd (upd ch p (l1 ++ l2)) q (m1 ++ n :: m2)) ch' T.nodes t t' (h.grants t') ∧
      h'.root t' = h.root t' ∧ h'.treeRc t' = h.treeRc t' ∧ h'.nTree = h.nTree := by
  rw [W.move_other_eq hs hT ht hd hq ht' hne g1 g2 g3]
  exact moveOther_specL W hs hpos hT ht hd hq ht' hne g1 g2 g3

theorem interruptParent_nonroot (W : WF h ch) (hs : ch p = l1 ++ n :: l2)
    (ht : h.memTree n = some t) (d : α) :
    ∃ h', h.createInterruptingParent n d = .ok (h', h.nNode) ∧
      Created h h' h.nNode d t ∧
      WF h' (upd (upd ch p (l1 ++ h.nNode :: l2)) h.nNode [n]) := by
  rw [W.createInterruptingParent_eq (W.alive_of_mem (p := p) (by simp [hs]))]
  exact interruptParent_nonrootL W hs ht d

theorem interruptParent_root (W : WF h ch) (ha : h.alive n = true) (hpn : h.parent n = none)
    (ht : h.memTree n = some t) (d : α) :
    ∃ h', h.createInterruptingParent n d = .ok (h', h.nNode) ∧
      Created h { h' with root := h.root } h.nNode d t ∧ h'.root = upd h.root t (some h.nNode) ∧
      WF h' (upd ch h.nNode [n]) := by
  rw [W.createInterruptingParent_eq ha]
  exact interruptParent_rootL W ha hpn ht d

theorem interruptChild_spec (W : WF h ch) (ha : h.alive n = true)
    (ht : h.memTree n = some t) (d : α) :
    ∃ h', h.createInterruptingChild n d = .ok (h', h.nNode) ∧
      Created h h' h.nNode d t ∧ WF h' (upd (upd ch n [h.nNode]) h.nNode (ch n)) := by
  rw [W.createInterruptingChild_eq ha]
  exact interruptChild_specL W ha ht d

theorem replace_nonroot_wide {rc lk : Nat} (W : WF h ch) (hs : ch p = l1 ++ n :: l2)
    (hm : h.mem n = .strong t rc lk) (g1 : (h.lockedIn [n] : Int) ≤ h.grants t) :
    ∃ h0 h' ch', h.replaceWithChildren n = .ok (h0, .ok ()) ∧
      Sim (fun x => ch n = [] ∧ StaleHead l1 l2 x) h0 h' ∧ WF h' ch' ∧
      Rehomed h h' (upd (upd ch p (l1 ++ (ch n ++ l2))) n []) ch' [n] t h.nTree 0 ∧
      h'.root h.nTree = some n ∧ h'.treeRc h.nTree = 0 ∧ h'.nTree = h.nTree + 1 := by
  rw [W.replaceWithChildren_eq (W.alive_of_mem (p := p) (by simp [hs]))]
  exact replace_nonroot_wideL W hs hm g1

theorem replace_nonroot_spec {rc lk : Nat} (W : WF h ch) (hs : ch p = l1 ++ n :: l2)
    (hm : h.mem n = .strong t rc lk) (g1 : (h.lockedIn [n] : Int) ≤ h.grants t) :
    ∃ h' ch', h.replaceWithChildren n = .ok (h', .ok ()) ∧ FShape h' ch' ∧ NumOK h' ch' ∧
      (ch n ≠ [] ∨ l1 = [] ∨ l2 ≠ [] → BackOK h' ch') ∧ TreeWF h' ∧ RefWF h' ∧
      Rehomed h h' (upd (upd ch p (l1 ++ (ch n ++ l2))) n []) ch' [n] t h.nTree 0 ∧
      h'.root h.nTree = some n ∧ h'.treeRc h.nTree = 0 ∧ h'.nTree = h.nTree + 1 := by
  rw [W.replaceWithChildren_eq (W.alive_of_mem (p := p) (by simp [hs]))]
  exact replace_nonroot_specL W hs hm g1

theorem replace_root_spec {rc lk : Nat} (W : WF h ch) (hs : ch n = [c]) (hpn : h.parent n = none)
    (hm : h.mem n = .strong t rc lk) (g1 : (h.lockedIn [n] : Int) ≤ h.grants t) :
    ∃ h' ch', h.replaceWithChildren n = .ok (h', .ok ()) ∧ WF h' ch' ∧
      Rehomed (h.setRoot t (some c)) h' (upd ch n []) ch' [n] t h.nTree 0 ∧
      h'.root h.nTree = some n ∧ h'.treeRc h.nTree = 0 ∧ h'.nTree = h.nTree + 1 := by
  rw [W.replaceWithChildren_eq (W.refs.alive _ _ _ _ hm)]
  exact replace_root_specL W hs hpn hm g1

theorem replace_root_fail {rc lk : Nat} (W : WF h ch) (hpn : h.parent n = none)
    (hm : h.mem n = .strong t rc lk) (hl : (ch n).length ≠ 1) :
    h.replaceWithChildren n = .ok (h, .error
      (if ch n = [] then .emptyTree else .siblingsWithoutParent)) := by
  rw [W.replaceWithChildren_eq (W.refs.alive _ _ _ _ hm)]
  exact replace_root_failL W hpn hm hl

end Dendron
