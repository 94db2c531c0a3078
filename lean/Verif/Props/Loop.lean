import Verif.Proofs.Loop
import Verif.Spec.World

/-!
# C16, C17: what becomes of moves that cannot be made, in every state
-/

set_option autoImplicit false

namespace Dendron
open RTree
variable {α : Type} {h h' : Heap α} {ch : NodeId → List NodeId} {n p q a : NodeId}
  {t t' : TreeId} {T : RTree NodeId} {l1 l2 m1 m2 : List NodeId} {dest : InsertAs NodeId}

/-- `n` is one of its own proper ancestors. -/
def OwnAncestor (h : Heap α) (n : NodeId) : Prop :=
  Relation.TransGen (fun a b => h.parentLink a = some b) n n

private theorem same_of_desc (W : WF h ch) (ha : h.alive n = true) (hd : DestSplit ch dest q m1 m2) (hq : Desc ch n q) :
    h.belongsToSameTree n dest.anchor = true := by
  have h1 : h.memTree q = h.memTree n := W.tree.desc_memTree W.toFShape hq
  have h2 : h.memTree dest.anchor = h.memTree q := by
    rcases hd.anchor with e | e
    · rw [e]
    · exact W.tree.child _ q (W.alive_of_mem e) (W.parent_of_mem e)
  simp [Heap.belongsToSameTree, h2, h1]

/-- C16, violated in every state: whenever a node with a parent is moved to a place below itself (as a
child of `q`, where `q` is the node or one of its descendants), the call succeeds and the node becomes
one of its own proper ancestors. -/
theorem C16_always_violated (W : WF h ch) (hm : n ∈ ch p) (hT : SubtreeAt ch n T) (hq : q ∈ T.nodes)
    (hd : DestSplit ch dest q m1 m2) :
    ∃ h', h.detachInsert n dest = .ok (h', .ok ()) ∧ h'.parentLink n = some q ∧ OwnAncestor h' n ∧
      SameNonLink h h' := by
  have hq' := (hT.mem_nodes_iff q).1 hq
  obtain ⟨l1, l2, hs⟩ := List.append_of_mem hm
  have ha := W.alive_of_mem hm
  obtain ⟨h', e, s, hp⟩ := moveBelow W.toShape hs hd hq'
  refine ⟨h', ?_, ?_, hq'.up W.toFShape hm hp s.alive, s⟩
  · have hsame := same_of_desc W ha hd hq'
    have hda : h.alive dest.anchor = true := by
      rcases hd.anchor with e | e
      · rw [e]; exact W.toFShape.desc_alive ha hq'
      · exact W.alive_of_mem e
    rw [W.detachInsert_same ha hda hsame]
    unfold Heap.detachInsertL
    rw [if_pos hsame]; exact e
  · have := W.toFShape.desc_alive ha hq'
    simp [Heap.parentLink, hp, Heap.upgrade, s.alive, this]

private theorem parentLink_none_iff (S : FShape h ch) (ha : h.alive n = true) :
    h.parentLink n = none ↔ ∀ p, n ∉ ch p := by
  rw [S.parentLink ha]
  constructor
  · intro e p hp; rw [S.parent_of_mem hp] at e; cases e
  · intro e
    cases hp : h.parent n with
    | none => rfl
    | some p => exact absurd (S.mem_of_parent ha hp) (e p)

private theorem dest_cases (hs : dest.isSibling = true) :
    dest = .previousSiblingOf dest.anchor ∨ dest = .nextSiblingOf dest.anchor := by
  cases dest <;> simp [InsertAs.isSibling, InsertAs.anchor] at hs ⊢

private theorem moveSame_fails (W : WF h ch) (hs : ch p = l1 ++ n :: l2) (ha : h.alive dest.anchor = true)
    (hsame : h.belongsToSameTree n dest.anchor = true) (hsib : dest.isSibling = true)
    (htop : dest.anchor = n ∨ ∀ q, dest.anchor ∉ ch q) :
    ∃ h', h.detachInsert n dest = .ok (h', .error .siblingsWithoutParent) ∧
      FShape h' (upd ch p (l1 ++ l2)) ∧ SameNonLink h h' := by
  have hm : n ∈ ch p := by simp [hs]
  obtain ⟨h', e, s, F, -, hp, -⟩ := unlink_forward W.toShape hs
  refine ⟨h', ?_, F, s⟩
  have hpl : h'.parentLink dest.anchor = none := by
    rcases htop with e | e
    · rw [e]; simp [Heap.parentLink, Heap.upgrade, hp]
    · rw [parentLink_none_iff F (by rw [s.alive]; exact ha)]
      intro q hq
      refine e q ?_
      by_cases eq : q = p
      · subst eq
        rw [upd_same] at hq; rw [hs]
        simp only [List.mem_append, List.mem_cons] at hq ⊢
        rcases hq with h1 | h1
        · exact .inl h1
        · exact .inr (.inr h1)
      · rwa [upd_ne _ _ eq] at hq
  have : h.isRoot n = false := isRoot_false W.toFShape hm
  rw [W.detachInsert_same (W.alive_of_mem hm) ha hsame]
  simp only [Heap.detachInsertL, hsame, if_true, Heap.moveSameL, this, Bool.false_eq_true, if_false, bind,
    Except.bind, e, insert_no_parentL true (dest_cases hsib) hpl]

/-- C17: which moves inside a tree fail: those of a node with a parent to a place beside itself or
beside the root. -/
theorem C17_fails_iff (W : WF h ch) (hn : h.alive n = true) (ha : h.alive dest.anchor = true)
    (hsame : h.belongsToSameTree n dest.anchor = true) :
    (∃ h' e, h.detachInsert n dest = .ok (h', .error e)) ↔
      (∃ p, n ∈ ch p) ∧ dest.isSibling = true ∧ (dest.anchor = n ∨ ∀ q, dest.anchor ∉ ch q) := by
  constructor
  · rintro ⟨h', e, he⟩
    rw [W.detachInsert_same hn ha hsame] at he
    unfold Heap.detachInsertL at he
    rw [if_pos hsame] at he
    unfold Heap.moveSameL at he
    cases hr : h.isRoot n with
    | true => rw [hr] at he; simp at he
    | false =>
      obtain ⟨p, hm⟩ : ∃ p, n ∈ ch p := by
        have : h.parentLink n ≠ none := by
          intro e; simp [Heap.isRoot, e] at hr
        rw [ne_eq, parentLink_none_iff W.toFShape hn] at this
        exact Classical.byContradiction fun hc => this fun p hp => hc ⟨p, hp⟩
      obtain ⟨l1, l2, hs⟩ := List.append_of_mem hm
      obtain ⟨h1, e1, s, F, -, hp, -⟩ := unlink_forward W.toShape hs
      rw [hr] at he
      simp only [Bool.false_eq_true, if_false, bind, Except.bind, e1] at he
      obtain ⟨-, -, hd, hpl⟩ := insert_errorL he
      refine ⟨⟨p, hm⟩, ?_, ?_⟩
      · rcases hd with e | e <;> rw [e] <;> rfl
      · rw [parentLink_none_iff F (by rw [s.alive]; exact ha)] at hpl
        by_cases e : dest.anchor = n
        · exact .inl e
        · refine .inr fun q hq => ?_
          refine hpl q ?_
          by_cases eq : q = p
          · subst eq
            rw [upd_same]; rw [hs] at hq
            simp only [List.mem_append, List.mem_cons] at hq ⊢
            rcases hq with h1 | h1 | h1
            · exact .inl h1
            · exact absurd h1 e
            · exact .inr h1
          · rwa [upd_ne _ _ eq]
  · rintro ⟨⟨p, hm⟩, hsib, htop⟩
    obtain ⟨l1, l2, hs⟩ := List.append_of_mem hm
    obtain ⟨h', e, -⟩ := moveSame_fails W hs ha hsame hsib htop
    exact ⟨h', _, e⟩

/-- C17, violated in every case inside a tree: whenever the move fails, the node has been taken out of
the children of its parent, and is still a member of the tree. -/
theorem C17_always_violated (W : WF h ch) (hn : h.alive n = true) (ha : h.alive dest.anchor = true)
    (hsame : h.belongsToSameTree n dest.anchor = true) {e : HierarchyError}
    (he : h.detachInsert n dest = .ok (h', .error e)) :
    ∃ p l1 l2, ch p = l1 ++ n :: l2 ∧ FShape h' (upd ch p (l1 ++ l2)) ∧ h'.parentLink n = none ∧
      SameNonLink h h' := by
  obtain ⟨⟨p, hm⟩, hsib, htop⟩ := (C17_fails_iff W hn ha hsame).1 ⟨h', e, he⟩
  obtain ⟨l1, l2, hs⟩ := List.append_of_mem hm
  obtain ⟨h1, e1, F, s⟩ := moveSame_fails W hs ha hsame hsib htop
  rw [e1] at he
  simp only [Except.ok.injEq, Prod.mk.injEq] at he
  obtain ⟨rfl, -⟩ := he
  refine ⟨p, l1, l2, hs, F, ?_, s⟩
  rw [parentLink_none_iff F (by rw [s.alive]; exact hn)]
  intro q hq
  have hnd := W.nodup p
  rw [hs] at hnd
  by_cases eq : q = p
  · subst eq
    rw [upd_same] at hq
    rw [nodup_mid] at hnd
    simp only [List.mem_append] at hq
    rcases hq with h1 | h1
    · exact hnd.1 h1
    · exact hnd.2.1 h1
  · rw [upd_ne _ _ eq] at hq
    exact eq (W.unique_parent hq hm)

/-- C17, violated in every case between trees: moving a node with a parent to a place beside the root
`a` of another tree fails, but the node has no parent afterwards, and has become a member of the other
tree, whose root is still `a`. -/
theorem C17_other_tree_violated (W : WF h ch) (hm : n ∈ ch p) (ht : h.memTree n = some t)
    (hsib : dest.isSibling = true) (hda : dest.anchor = a) (ha : h.alive a = true) (htop : ∀ q, a ∉ ch q)
    (ht' : h.memTree a = some t') (hne : t ≠ t') (hlocks : LocksCounted h t) (hgrant : 0 ≤ h.grants t')
    (hmax : h.grants t' + h.grants t ≤ Lock.isizeMax) :
    ∃ h' ch', h.detachInsert n dest = .ok (h', .error .siblingsWithoutParent) ∧ FShape h' ch' ∧
      h'.alive n = true ∧ (∀ q, n ∉ ch' q) ∧ h'.memTree n = some t' ∧ h'.root t' = some a ∧ a ≠ n := by
  obtain ⟨l1, l2, hs⟩ := List.append_of_mem hm
  have hna := W.alive_of_mem hm
  obtain ⟨T, hT⟩ := W.toFShape.exists_subtree n
  have g1 := hlocks.subtree W hna hT ht
  obtain ⟨h0, hf, cf, -, sf, -, RH, ⟨-, -, -⟩, g, g2, k, c, e1, e2, sim, Sk, hka, hcq, kp, kq, km, kr, kc, ks, kN, hnk, -⟩ :=
    moveOther_wide W hs hT ht (.last a) ha ht' hne g1 hgrant (Int.le_trans (Int.add_le_add_left g1 _) hmax)
  have hra : h.root t' = some a := by
    have hp : h.parent a = none := by
      have := (parentLink_none_iff W.toFShape ha).2 htop
      rwa [W.toFShape.parentLink ha] at this
    exact W.tree.top a t' ha hp ht'
  have han : a ≠ n := by rintro rfl; exact htop p hm
  have hp2 : g2.parentLink a = none := by
    rw [← sim.parentLink, Sk.toFShape.parentLink hka, kq, ← W.toFShape.parentLink ha]
    exact (parentLink_none_iff W.toFShape ha).2 htop
  have hta : h.treeAlive t' = true := by rw [Heap.treeAlive, hra]; rfl
  have hrel : g2.relTree [] t' = .ok (g2.setTreeRc t' (g2.treeRc t' - 1)) := by
    unfold Heap.relTree
    refine maybeDropTree_held ?_
    rcases W.refs.held t' hta with h1 | ⟨x, rc, l, hx⟩
    · left
      simp only [Heap.setTreeRc, upd_same]
      rw [← sim.treeRc, kc]; omega
    · right
      have hx2 : g2.mem x = .strong t' rc l := by rw [← sim.mem]; exact ks _ _ _ hx
      exact ⟨x, rc, l, hx2, by
        show x < g2.nNode
        rw [← sim.nNode, kN]; exact W.bound x (W.refs.alive _ _ _ _ hx)⟩
  have hbt : h.belongsToSameTree n a = false := by
    simp [Heap.belongsToSameTree, Ne.symm han, ht, ht', hne]
  have htc : h.treeCore a = .ok t' := W.tree.treeCore ha ht'
  have F2 : FShape g2 c := sim.symm.fshape Sk.toFShape
  refine ⟨g2.setTreeRc t' (g2.treeRc t' - 1), c, ?_, ?_, ?_, ?_, ?_, ?_, han⟩
  · subst hda
    rw [W.detachInsert_other hna ha (fun t1 h1 b h2 f0 f1 f2 => by
      rw [htc] at f0; cases f0
      rw [e1] at f1; cases f1
      rw [e2] at f2; cases f2
      exact .inr ⟨hsib, hp2⟩)]
    simp only [Heap.detachInsertL, hbt, Bool.false_eq_true, if_false, htc, bind, Except.bind, Heap.moveOtherL, e1, e2,
      insert_no_parentL true (dest_cases hsib) hp2, hrel, pure, Except.pure]
  · exact ⟨F2.dead, F2.first, F2.nodup, F2.mem, F2.seg, F2.rootNext, F2.acyc, F2.bound⟩
  · show g2.alive n = true
    rw [← sim.alive]; exact hnk
  · intro q hq
    have := Sk.toFShape.parent_of_mem hq
    rw [kp] at this; cases this
  · show g2.memTree n = some t'
    rw [← sim.memTree]; exact km
  · show g2.root t' = some a
    rw [← sim.root, kr]; exact hra

/-- The hypotheses are met: in the demo, node 2 can be moved below its child 4, beside itself or beside
the root 0, and beside the root 6 of the other tree. -/
example : WF Demo.heap Demo.ch ∧ 2 ∈ Demo.ch 0 ∧ SubtreeAt Demo.ch 2 (.node 2 [.node 4 [], .node 5 []]) ∧
    4 ∈ (RTree.node 2 [.node 4 [], .node 5 []]).nodes ∧ DestSplit Demo.ch (.firstChildOf 4) 4 [] [] ∧
    DestSplit Demo.ch (.nextSiblingOf 4) 2 [4] [5] ∧
    Demo.heap.belongsToSameTree 2 0 = true ∧ (∀ q, 0 ∉ Demo.ch q) ∧
    Demo.heap.memTree 2 = some 0 ∧ Demo.heap.memTree 6 = some 1 ∧ Demo.heap.alive 6 = true ∧ (∀ q, 6 ∉ Demo.ch q) ∧
    LocksCounted Demo.heap 0 ∧ 0 ≤ Demo.heap.grants 1 ∧ Demo.heap.grants 1 + Demo.heap.grants 0 ≤ Lock.isizeMax :=
  ⟨Demo.wf, by decide, ⟨rfl, rfl, ⟨rfl, trivial⟩, ⟨rfl, trivial⟩, trivial⟩, by simp [RTree.nodes, RTree.nodesL],
    .first 4, .next (l1 := []) (l2 := [5]) rfl, by decide, fun q hq => by
      have := Demo.wf.parent_of_mem hq
      simp [show Demo.heap.parent 0 = none from rfl] at this, rfl, rfl, rfl, fun q hq => by
      have := Demo.wf.parent_of_mem hq
      simp [show Demo.heap.parent 6 = none from rfl] at this, Demo.locksCounted 0, by decide, by decide⟩

end Dendron
