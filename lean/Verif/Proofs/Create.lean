import Verif.Proofs.LinkOps

/-! Creation of nodes. -/

set_option linter.unusedSimpArgs false
set_option linter.unusedVariables false

set_option autoImplicit false

namespace Dendron
variable {α : Type} {h h' : Heap α} {ch : NodeId → List NodeId} {n p : NodeId}
  {l1 l2 : List NodeId} {d : α} {t : TreeId}

theorem Created.trans_link {h1 : Heap α} (c : Created h h1 n d t) (s : SameNonLink h1 h') :
    Created h h' n d t :=
  ⟨s.data.trans c.data, s.mutB.trans c.mutB, s.mem.trans c.mem, s.root.trans c.root,
   s.grants.trans c.grants, s.treeRc.trans c.treeRc, s.nNode.trans c.nNode, s.nTree.trans c.nTree⟩

theorem Created.alive (c : Created h h' n d t) (x : NodeId) :
    h'.alive x = (decide (x = n) || h.alive x) := by
  simp only [Heap.alive, c.data, upd_apply]
  by_cases e : x = n <;> simp [e]

open Heap in
theorem newOrphan_spec (S : Shape h ch) (ht : h.treeAlive t = true) (d : α) :
    ∃ h1, h.newOrphan d t = .ok (h1, h.nNode) ∧ Created h h1 h.nNode d t ∧ Shape h1 ch ∧
      (∀ x, h1.parent x = if x = h.nNode then none else h.parent x) := by
  have hfresh := S.fresh_not_alive
  have hne : ∀ q, h.nNode ∉ ch q := fun q => S.not_mem_dead hfresh
  have hnp : ∀ c, h.alive c = true → c ≠ h.nNode := by
    rintro c hc rfl; rw [hc] at hfresh; simp at hfresh
  have hch : ch h.nNode = [] := S.dead _ hfresh
  unfold newOrphan allocNode incRef treeAlive
  rw [treeAlive] at ht
  simp only [upd_same, Option.filter, treeAlive, ht, if_true]
  refine ⟨_, rfl, ?_, ?_, ?_⟩
  · constructor <;> first | rfl | (funext x; simp [setMem, upd_apply]) 
    split <;> rfl
  · have hal : ∀ x, (Heap.alive { h with
        data := upd h.data h.nNode (some d), mutB := upd h.mutB h.nNode false,
        parent := upd h.parent h.nNode none, firstChild := upd h.firstChild h.nNode none,
        next := upd h.next h.nNode none, prevCyc := upd h.prevCyc h.nNode (some h.nNode),
        numCh := upd h.numCh h.nNode 0, mem := upd h.mem h.nNode (.weak (some t)),
        nNode := h.nNode + 1 } x) = (decide (x = h.nNode) || h.alive x) := by
      intro x
      simp only [Heap.alive, upd_apply]
      by_cases e : x = h.nNode <;> simp [e]
    simp only [Heap.alive] at hal
    refine { toFShape := ⟨?_, ?_, S.nodup, ?_, ?_, ?_, S.acyc, ?_⟩, num := ?_, back := ⟨?_, ?_⟩ }
    · intro q hq
      simp only [setMem, Heap.alive, hal] at hq
      exact S.dead q (by simp only [Bool.or_eq_false_iff] at hq; exact hq.2)
    · intro q hq
      simp only [setMem, Heap.alive, hal] at hq ⊢
      by_cases e : q = h.nNode
      · subst e; simp [hch]
      · simp only [e, decide_false, Bool.false_or] at hq
        simp [e, S.first q hq]
    · intro q c
      simp only [setMem, Heap.alive, hal]
      by_cases e : c = h.nNode
      · subst e; simp [hne]
      · simp [e, S.mem q c, Heap.alive]
    · intro q
      refine (Seg.congr ?_).1 (S.seg q)
      intro x hx
      have : x ≠ h.nNode := hnp x (S.alive_of_mem hx)
      simp [setMem, this]
    · intro c hc hpc
      simp only [setMem, Heap.alive, hal] at hc hpc ⊢
      by_cases e : c = h.nNode
      · subst e; simp
      · simp only [e, decide_false, Bool.false_or, upd_ne _ _ e] at hc hpc ⊢
        exact S.rootNext c hc hpc
    · intro x hx
      simp only [setMem, Heap.alive, hal] at hx
      show x < h.nNode + 1
      by_cases e : x = h.nNode
      · exact e ▸ Nat.lt_succ_self _
      · simp only [e, decide_false, Bool.false_or] at hx
        exact Nat.lt_succ_of_lt (S.bound x hx)
    · intro q hq
      simp only [setMem, Heap.alive, hal] at hq ⊢
      by_cases e : q = h.nNode
      · subst e; simp [hch]
      · simp only [e, decide_false, Bool.false_or] at hq
        simp [e, S.num q hq]
    · intro q
      refine (PSeg.congr ?_).1 (S.back.pseg q)
      intro x hx
      have : x ≠ h.nNode := hnp x (S.alive_of_mem hx)
      simp [setMem, this]
    · intro c hc hpc
      simp only [setMem, Heap.alive, hal] at hc hpc ⊢
      by_cases e : c = h.nNode
      · subst e; simp
      · simp only [e, decide_false, Bool.false_or, upd_ne _ _ e] at hc hpc ⊢
        exact S.back.rootPrev c hc hpc
  · intro x
    simp [setMem, upd_apply]

theorem memTree_created (c : Created h h' n d t) (x : NodeId) :
    h'.memTree x = if x = n then some t else h.memTree x := by
  simp only [Heap.memTree, c.mem, upd_apply]
  by_cases e : x = n <;> simp [e]

theorem treeAlive_created (c : Created h h' n d t) (x : TreeId) :
    h'.treeAlive x = h.treeAlive x := by
  simp [Heap.treeAlive, c.root]

/-- Memberships stay consistent when a new node is linked below a node of its tree. -/
theorem TreeWF.created (W : TreeWF h) (c : Created h h' n d t) (hfresh : h.alive n = false)
    (hnr : ∀ q, h.parent q = some n → h.alive q = false)
    (ht : h.treeAlive t = true) (hp : h.memTree p = some t) (hpn : p ≠ n)
    (hpar : ∀ x, h'.parent x = if x = n then some p else h.parent x) : TreeWF h' := by
  constructor
  · intro x hx
    rw [c.alive] at hx
    rw [memTree_created c]
    by_cases e : x = n
    · simp only [e, if_true]; exact ⟨t, rfl, by rw [treeAlive_created c]; exact ht⟩
    · simp only [e, decide_false, Bool.false_or] at hx
      obtain ⟨u, h1, h2⟩ := W.live x hx
      simp only [e, if_false]
      exact ⟨u, h1, by rw [treeAlive_created c]; exact h2⟩
  · intro u r hr
    rw [c.root] at hr
    obtain ⟨h1, h2, h3⟩ := W.root u r hr
    have e : r ≠ n := by rintro rfl; rw [h1] at hfresh; simp at hfresh
    rw [c.alive, memTree_created c, hpar]
    simp [e, h1, h2, h3]
  · intro x q hx hq
    rw [c.alive] at hx
    rw [hpar] at hq
    rw [memTree_created c, memTree_created c]
    by_cases e : x = n
    · simp only [e, if_true, Option.some.injEq] at hq ⊢
      subst hq
      simp [hpn, hp]
    · simp only [e, decide_false, Bool.false_or, if_false] at hx hq ⊢
      have hqn : q ≠ n := by
        rintro rfl
        rw [hnr x hq] at hx; simp at hx
      simp only [hqn, if_false]
      exact W.child x q hx hq
  · intro x u hx hq hu
    rw [c.alive] at hx
    rw [hpar] at hq
    rw [memTree_created c] at hu
    rw [c.root]
    by_cases e : x = n
    · simp [e] at hq
    · simp only [e, decide_false, Bool.false_or, if_false] at hx hq hu
      exact W.top x u hx hq hu
  · intro u hu
    rw [treeAlive_created c] at hu
    rw [c.nTree]; exact W.bound u hu

theorem RefWF.created (W : RefWF h) (c : Created h h' n d t) (hfresh : h.alive n = false) :
    RefWF h' := by
  have hmem : ∀ x, h'.mem x = if x = n then .strong t 1 0 else h.mem x := by
    intro x; simp [c.mem, upd_apply]
  constructor
  · intro x u rc l hx
    rw [hmem] at hx
    rw [c.alive]
    by_cases e : x = n
    · simp [e]
    · simp only [e, if_false] at hx
      simp [W.alive x u rc l hx]
  · intro x u rc l hx
    rw [hmem] at hx
    by_cases e : x = n
    · simp only [e, if_true, Membership.strong.injEq] at hx; omega
    · simp only [e, if_false] at hx
      exact W.pos x u rc l hx
  · intro u hu
    rw [treeAlive_created c] at hu
    rcases W.held u hu with h1 | ⟨x, rc, l, hx⟩
    · left; rw [c.treeRc]; exact h1
    · right
      refine ⟨x, rc, l, ?_⟩
      rw [hmem]
      have e : x ≠ n := by
        rintro rfl; rw [W.alive _ _ _ _ hx] at hfresh; simp at hfresh
      simp [e, hx]

theorem WF.parent_alive (W : WF h ch) {x q : NodeId} (hq : h.parent x = some q)
    (hx : h.alive q = false) : h.alive x = false := by
  cases hx' : h.alive x with
  | false => rfl
  | true =>
    rw [W.alive_parent (W.mem_of_parent hx' hq)] at hx; simp at hx

/-- Result of creating a node at a destination. -/
theorem create_insert {dest : InsertAs NodeId} (W : WF h ch) (hd : DestSplit ch dest p l1 l2)
    (hp : h.alive p = true) (htp : h.memTree p = some t) (d : α) :
    ∃ h1 h', h.newOrphan d t = .ok (h1, h.nNode) ∧
      h1.insertL h.nNode true dest = .ok (h', .ok ()) ∧
      Created h h' h.nNode d t ∧ WF h' (upd ch p (l1 ++ h.nNode :: l2)) ∧
      (∀ x, h'.parent x = if x = h.nNode then some p else h.parent x) := by
  have hta : h.treeAlive t = true := by
    obtain ⟨u, h1, h2⟩ := W.tree.live p hp
    rw [htp] at h1; cases h1; exact h2
  have hfresh := W.fresh_not_alive
  obtain ⟨h1, he, hc, hS, hpar⟩ := newOrphan_spec W.toShape hta d
  have hpn : p ≠ h.nNode := by rintro rfl; rw [hp] at hfresh; simp at hfresh
  have hnd : ¬ Desc ch h.nNode p := by
    exact fun hD => hpn (hD.leaf (W.dead _ hfresh))
  obtain ⟨h', hi, hsame, hS', hpar'⟩ := insert_shape hS (n := h.nNode) (by rw [hc.alive]; simp)
    (by simp [hpar]) (p := p) (by rw [hc.alive]; simp [hp]) hnd hd true
  have hC := hc.trans_link hsame
  have hpar'' : ∀ x, h'.parent x = if x = h.nNode then some p else h.parent x := by
    intro x; rw [hpar', hpar]; split <;> rfl
  refine ⟨h1, h', he, hi, hC, { toShape := hS', tree := ?_, refs := W.refs.created hC hfresh }, hpar''⟩
  exact W.tree.created hC hfresh (fun q hq => W.parent_alive hq hfresh) hta htp hpn hpar''

end Dendron
