import Verif.Model.NodeApi
import Verif.Proofs.Own
import Verif.Proofs.Nav

/-! The empty memory and `Node::new_tree`. -/

set_option linter.unusedSimpArgs false
set_option linter.unusedVariables false

set_option autoImplicit false

namespace Dendron
variable {α : Type} {h h' : Heap α} {ch : NodeId → List NodeId} {n p : NodeId} {t : TreeId} {d : α}

theorem WF.empty : WF (Heap.empty : Heap α) (fun _ => []) := by
  refine { dead := ?_, first := ?_, nodup := ?_, mem := ?_, seg := ?_, rootNext := ?_,
           acyc := ⟨fun _ => 0, by simp⟩, bound := ?_, num := ?_, back := ⟨?_, ?_⟩, tree := ⟨?_, ?_, ?_, ?_, ?_⟩,
           refs := ⟨?_, ?_, ?_⟩ } <;> intros <;> simp_all [Heap.empty, Heap.alive, Heap.treeAlive, Seg, PSeg, NumOK]

theorem newTreeRoot_wf (W : WF h ch) (d : α) (hnt : h.treeAlive h.nTree = false) :
    ∃ h', h.newTreeRoot d = (h', h.nNode) ∧ WF h' ch ∧
      h'.data = upd h.data h.nNode (some d) ∧ h'.memTree h.nNode = some h.nTree ∧
      h'.root = upd h.root h.nTree (some h.nNode) ∧
      h'.mem = upd h.mem h.nNode (.strong h.nTree 1 0) ∧
      h'.grants = upd h.grants h.nTree 0 ∧
      h'.treeRc = upd h.treeRc h.nTree 0 ∧ h'.nNode = h.nNode + 1 ∧ h'.nTree = h.nTree + 1 ∧
      h'.parent = upd h.parent h.nNode none ∧ h'.mutB = upd h.mutB h.nNode false := by
  have hfresh := W.fresh_not_alive
  have hne : ∀ x, h.alive x = true → x ≠ h.nNode := by
    rintro x hx rfl; rw [hx] at hfresh; simp at hfresh
  have hch : ch h.nNode = [] := W.dead _ hfresh
  have hnm : ∀ q, h.nNode ∉ ch q := fun q => W.not_mem_dead hfresh
  obtain ⟨h', hh⟩ : ∃ h', h' = (h.newTreeRoot d).1 := ⟨_, rfl⟩
  refine ⟨h', by rw [hh]; rfl, ?_, by rw [hh]; rfl, ?_, by rw [hh]; rfl, ?_, ?_, ?_, by rw [hh]; rfl,
    by rw [hh]; rfl, by rw [hh]; rfl, by rw [hh]; rfl⟩
  rotate_left
  · rw [hh]; simp [Heap.memTree, Heap.setMem, Heap.newTreeRoot, Heap.allocTree, Heap.allocNode]
  · funext x
    rw [hh]
    simp only [Heap.newTreeRoot, Heap.setMem, Heap.setTreeRc, Heap.allocTree, Heap.allocNode, upd_apply]
    split <;> rfl
  · rw [hh]; rfl
  · funext x
    rw [hh]
    simp only [Heap.newTreeRoot, Heap.setMem, Heap.setTreeRc, Heap.allocTree, Heap.allocNode, upd_apply]
    split <;> rfl
  simp only [Heap.newTreeRoot, Heap.setMem, Heap.setTreeRc, Heap.allocTree, Heap.allocNode] at hh
  have hal : ∀ x, h'.alive x = (decide (x = h.nNode) || h.alive x) := by
    intro x; subst hh; simp only [Heap.alive, upd_apply]
    by_cases e : x = h.nNode <;> simp [e]
  have hpar : ∀ x, h'.parent x = if x = h.nNode then none else h.parent x := by
    intro x; subst hh; rfl
  have hfc : ∀ x, h'.firstChild x = if x = h.nNode then none else h.firstChild x := by
    intro x; subst hh; rfl
  have hnx : ∀ x, h'.next x = if x = h.nNode then none else h.next x := by
    intro x; subst hh; rfl
  have hpv : ∀ x, h'.prevCyc x = if x = h.nNode then some h.nNode else h.prevCyc x := by
    intro x; subst hh; rfl
  have hnu : ∀ x, h'.numCh x = if x = h.nNode then 0 else h.numCh x := by
    intro x; subst hh; rfl
  have hme : ∀ x, h'.mem x = if x = h.nNode then .strong h.nTree 1 0 else h.mem x := by
    intro x; subst hh; simp only [upd_apply]; split <;> rfl
  have hro : ∀ x, h'.root x = if x = h.nTree then some h.nNode else h.root x := by
    intro x; subst hh; rfl
  have hrc : ∀ x, h'.treeRc x = if x = h.nTree then 0 else h.treeRc x := by
    intro x; subst hh; simp only [upd_apply]; split <;> rfl
  have hnN : h'.nNode = h.nNode + 1 := by subst hh; rfl
  have hnT : h'.nTree = h.nTree + 1 := by subst hh; rfl
  have hta : ∀ x, h'.treeAlive x = (decide (x = h.nTree) || h.treeAlive x) := by
    intro x; simp only [Heap.treeAlive, hro]
    by_cases e : x = h.nTree <;> simp [e]
  have hmt : ∀ x, h'.memTree x = if x = h.nNode then some h.nTree else h.memTree x := by
    intro x; simp only [Heap.memTree, hme]
    by_cases e : x = h.nNode <;> simp [e]
  clear hh
  have hold : ∀ x, x ≠ h.nNode → h'.alive x = true → h.alive x = true := by
    intro x e hx; rw [hal] at hx; simpa [e] using hx
  refine { dead := ?_, first := ?_, nodup := W.nodup, mem := ?_, seg := ?_, rootNext := ?_,
           acyc := W.acyc, bound := ?_, num := ?_, back := ⟨?_, ?_⟩, tree := ⟨?_, ?_, ?_, ?_, ?_⟩,
           refs := ⟨?_, ?_, ?_⟩ }
  · intro q hq; rw [hal] at hq; simp only [Bool.or_eq_false_iff] at hq; exact W.dead q hq.2
  · intro q hq
    rw [hfc]
    by_cases e : q = h.nNode
    · simp [e, hch]
    · simp only [e, if_false]; exact W.first q (hold q e hq)
  · intro q c
    rw [hal, hpar]
    by_cases e : c = h.nNode
    · subst e; simp [hnm]
    · simp [e, W.mem q c]
  · intro q
    refine (Seg.congr ?_).1 (W.seg q)
    intro x hx
    rw [hnx, if_neg (hne x (W.alive_of_mem hx))]
  · intro c hc hp
    rw [hpar] at hp; rw [hnx]
    by_cases e : c = h.nNode
    · simp [e]
    · simp only [e, if_false] at hp ⊢; exact W.rootNext c (hold c e hc) hp
  · intro x hx
    rw [hnN]
    by_cases e : x = h.nNode
    · exact e ▸ Nat.lt_succ_self _
    · exact Nat.lt_succ_of_lt (W.bound x (hold x e hx))
  · intro q hq
    rw [hnu]
    by_cases e : q = h.nNode
    · simp [e, hch]
    · simp only [e, if_false]; exact W.num q (hold q e hq)
  · intro q
    refine (PSeg.congr ?_).1 (W.back.pseg q)
    intro x hx
    rw [hpv, if_neg (hne x (W.alive_of_mem hx))]
  · intro c hc hp
    rw [hpar] at hp; rw [hpv]
    by_cases e : c = h.nNode
    · simp [e]
    · simp only [e, if_false] at hp ⊢; exact W.back.rootPrev c (hold c e hc) hp
  · intro x hx
    rw [hmt]
    by_cases e : x = h.nNode
    · exact ⟨h.nTree, by simp [e], by simp [hta]⟩
    · obtain ⟨t, h1, h2⟩ := W.tree.live x (hold x e hx)
      exact ⟨t, by simp [e, h1], by simp [hta, h2]⟩
  · intro t r hr
    rw [hro] at hr
    by_cases e : t = h.nTree
    · simp only [e, if_true, Option.some.injEq] at hr
      subst hr
      simp [hal, hmt, hpar, e]
    · simp only [e, if_false] at hr
      obtain ⟨h1, h2, h3⟩ := W.tree.root t r hr
      simp [hal, hmt, hpar, hne r h1, h1, h2, h3]
  · intro c q hc hq
    rw [hpar] at hq
    by_cases e : c = h.nNode
    · simp [e] at hq
    · simp only [e, if_false] at hq
      have hca := hold c e hc
      have hqa := W.alive_parent (W.mem_of_parent hca hq)
      rw [hmt, hmt, if_neg e, if_neg (hne q hqa)]
      exact W.tree.child c q hca hq
  · intro x t hx hp hm
    rw [hpar] at hp; rw [hmt] at hm; rw [hro]
    by_cases e : x = h.nNode
    · simp only [e, if_true, Option.some.injEq] at hm; simp [hm.symm, e]
    · simp only [e, if_false] at hp hm
      have hr := W.tree.top x t (hold x e hx) hp hm
      have et : t ≠ h.nTree := by
        rintro rfl
        rw [Heap.treeAlive, hr] at hnt; simp at hnt
      simp [et, hr]
  · intro t ht
    rw [hta] at ht
    rw [hnT]
    by_cases e : t = h.nTree
    · exact e ▸ Nat.lt_succ_self _
    · simp only [e, decide_false, Bool.false_or] at ht
      exact Nat.lt_succ_of_lt (W.tree.bound t ht)
  · intro x t rc l hm
    rw [hme] at hm; rw [hal]
    by_cases e : x = h.nNode
    · simp [e]
    · simp only [e, if_false] at hm; simp [W.refs.alive _ _ _ _ hm]
  · intro x t rc l hm
    rw [hme] at hm
    by_cases e : x = h.nNode
    · simp only [e, if_true, Membership.strong.injEq] at hm; omega
    · simp only [e, if_false] at hm; exact W.refs.pos _ _ _ _ hm
  · intro t ht
    rw [hta] at ht
    by_cases e : t = h.nTree
    · right; exact ⟨h.nNode, 1, 0, by simp [hme, e]⟩
    · simp only [e, decide_false, Bool.false_or] at ht
      rcases W.refs.held t ht with h1 | ⟨x, rc, l, hm⟩
      · left; rw [hrc, if_neg e]; exact h1
      · right
        exact ⟨x, rc, l, by rw [hme, if_neg (hne x (W.refs.alive _ _ _ _ hm))]; exact hm⟩

theorem TreeWF.fresh_tree (T : TreeWF h) : h.treeAlive h.nTree = false := by
  cases hh : h.treeAlive h.nTree with
  | false => rfl
  | true => exact absurd (T.bound _ hh) (Nat.lt_irrefl _)

/-! ### Creating a node next to another one -/

theorem tryCreate_ok {as : AdoptAs} {l1 l2 : List NodeId} (W : WF h ch)
    (hd : DestSplit ch (as.at n) p l1 l2) (ha : h.alive n = true) (ht : h.memTree n = some t)
    (hp : h.alive p = true) (htp : h.memTree p = some t) (d : α) :
    ∃ h', h.tryCreateNodeAsL n t d as = .ok (h', .ok h.nNode) ∧
      Created h h' h.nNode d t ∧ WF h' (upd ch p (l1 ++ h.nNode :: l2)) ∧
      (∀ x, h'.parent x = if x = h.nNode then some p else h.parent x) := by
  obtain ⟨h1, h', h0, hi, hc, hW, hpar⟩ := create_insert W hd hp htp d
  refine ⟨h', ?_, hc, hW, hpar⟩
  cases as with
  | firstChild =>
    simp only [AdoptAs.at, Heap.insertL] at hi
    have := createAndProcess_ok (f := fun h m => h.insertFirstL m true n) h0 hi
    simp only [Heap.tryCreateNodeAsL, Heap.createFirstL, checkBelongs_ok ht, bind, Except.bind, this,
      Heap.expectOk, pure, Except.pure]
  | lastChild =>
    simp only [AdoptAs.at, Heap.insertL] at hi
    have := createAndProcess_ok (f := fun h m => h.insertLastL m true n) h0 hi
    simp only [Heap.tryCreateNodeAsL, Heap.createLastL, checkBelongs_ok ht, bind, Except.bind, this,
      Heap.expectOk, pure, Except.pure]
  | previousSibling =>
    have := createAndProcess_ok (f := fun h m => h.insertL m true (.previousSiblingOf n)) h0 hi
    simp only [Heap.tryCreateNodeAsL, Heap.createPrevL, checkBelongs_ok ht, bind, Except.bind, this]
  | nextSibling =>
    have := createAndProcess_ok (f := fun h m => h.insertL m true (.nextSiblingOf n)) h0 hi
    simp only [Heap.tryCreateNodeAsL, Heap.createNextL, checkBelongs_ok ht, bind, Except.bind, this]

theorem tryCreate_root {as : AdoptAs} (W : WF h ch) (ha : h.alive n = true)
    (ht : h.memTree n = some t) (hroot : ∀ p, n ∉ ch p)
    (has : as = .previousSibling ∨ as = .nextSibling) (d : α) :
    ∃ h', h.tryCreateNodeAsL n t d as = .ok (h', .error .siblingsWithoutParent) ∧
      SameLive h h' := by
  have hta := W.tree_alive ha ht
  obtain ⟨h1, h0, hc, hS, hpar⟩ := newOrphan_spec W.toShape hta d
  have hn : n ≠ h.nNode := by
    have := W.fresh_not_alive
    rintro rfl; rw [ha] at this; simp at this
  have hpn : h1.parentLink n = none := by
    simp [Heap.parentLink, hpar, hn, W.parent_none ha hroot, Heap.upgrade]
  rcases has with rfl | rfl
  · obtain ⟨h', h2, h3⟩ := createAndProcess_err
      (f := fun h m => h.insertL m true (.previousSiblingOf n)) (e := .siblingsWithoutParent) W hta h0
      (by simp only [Heap.insertL, hpn])
    refine ⟨h', ?_, h3⟩
    simp only [Heap.tryCreateNodeAsL, Heap.createPrevL, checkBelongs_ok ht, bind, Except.bind, h2]
  · obtain ⟨h', h2, h3⟩ := createAndProcess_err
      (f := fun h m => h.insertL m true (.nextSiblingOf n)) (e := .siblingsWithoutParent) W hta h0
      (by simp only [Heap.insertL, hpn])
    refine ⟨h', ?_, h3⟩
    simp only [Heap.tryCreateNodeAsL, Heap.createNextL, checkBelongs_ok ht, bind, Except.bind, h2]

theorem FShape.destSplit_parent (S : FShape h ch) {as : AdoptAs} {l1 l2 : List NodeId}
    (hd : DestSplit ch (as.at n) p l1 l2) :
    (p = n) ∨ (n ∈ ch p) := by
  cases as <;> simp only [AdoptAs.at] at hd <;> cases hd <;> simp_all

theorem nodeCreate_eqL (W : WF h ch) (ha : h.alive n = true) (ht : h.memTree n = some t) (d : α)
    (as : AdoptAs) : h.nodeCreateL n d as = h.tryCreateNodeAsL n t d as := by
  simp only [Heap.nodeCreateL, W.tree.treeCore ha ht, bind, Except.bind]

/-- Creating a node next to another one. -/
theorem nodeCreate_okL {as : AdoptAs} {l1 l2 : List NodeId} (W : WF h ch)
    (hd : DestSplit ch (as.at n) p l1 l2) (ha : h.alive n = true) (ht : h.memTree n = some t)
    (d : α) :
    ∃ h', h.nodeCreateL n d as = .ok (h', .ok h.nNode) ∧
      Created h h' h.nNode d t ∧ WF h' (upd ch p (l1 ++ h.nNode :: l2)) ∧
      (∀ x, h'.parent x = if x = h.nNode then some p else h.parent x) := by
  have hpp : h.alive p = true ∧ h.memTree p = some t := by
    rcases W.destSplit_parent hd with rfl | hm
    · exact ⟨ha, ht⟩
    · exact ⟨W.alive_parent hm, by rw [← W.tree.child n p ha (W.parent_of_mem hm)]; exact ht⟩
  rw [nodeCreate_eqL W ha ht]
  exact tryCreate_ok W hd ha ht hpp.1 hpp.2 d

end Dendron
