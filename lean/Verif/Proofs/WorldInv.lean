import Verif.Spec.World
import Verif.Proofs.DropLink

/-! The invariant of all reachable program states, and the operations on a single handle. -/

set_option linter.unusedSimpArgs false
set_option linter.unusedVariables false

set_option autoImplicit false

namespace Dendron
variable {α : Type} {h h' : Heap α} {w w' : World α} {ch ch' : NodeId → List NodeId} {n : NodeId}
  {t : TreeId} {k : Kind}

/-- Only grants are held for tree `t`, and the counter is their number. -/
def GrantMode (w : World α) (t : TreeId) (L : List NodeId) : Prop :=
  w.prohTok t = 0 ∧ (∀ n, w.heap.memTree n = some t → w.held .frozen n = 0) ∧
    w.heap.grants t = w.grantTok t + L.length

/-- Only prohibitions are held for tree `t`, and the counter is minus their number. -/
def ProhMode (w : World α) (t : TreeId) (L : List NodeId) : Prop :=
  w.grantTok t = 0 ∧ (∀ n, w.heap.memTree n = some t → w.held .hot n = 0) ∧
    w.heap.grants t = -((w.prohTok t : Int) + L.length)

/-- The lock counter of tree `t` is right; `L` are the members with a hot or frozen handle. -/
def LockOK (w : World α) (t : TreeId) : Prop :=
  ∃ L : List NodeId, L.Nodup ∧
    (∀ n, n ∈ L ↔ w.heap.memTree n = some t ∧ 0 < w.held .hot n + w.held .frozen n) ∧
    (GrantMode w t L ∨ ProhMode w t L) ∧
    Lock.isizeMin ≤ w.heap.grants t ∧ w.heap.grants t ≤ Lock.isizeMax

structure Inv (w : World α) (ch : NodeId → List NodeId) : Prop where
  wf : WF w.heap ch
  strong : ∀ n t rc l, w.heap.mem n = .strong t rc l →
    rc = w.held .plain n + w.held .hot n + w.held .frozen n ∧ l = w.held .hot n + w.held .frozen n
  weak : ∀ n o, w.heap.mem n = .weak o → ∀ k, w.held k n = 0
  treeRc : ∀ t, w.heap.treeRc t = w.trees t
  treesAlive : ∀ t, 0 < w.trees t → w.heap.treeAlive t = true
  toks : ∀ t, 0 < w.grantTok t + w.prohTok t → t < w.heap.nTree
  locks : ∀ t, w.heap.treeAlive t = true → LockOK w t

/-- What a call leaves alone: nodes outside the trees `U` keep their place, all nodes except `X` keep
their data and their borrow state. -/
structure Keeps (h h' : Heap α) (ch ch' : NodeId → List NodeId) (U : TreeId → Prop)
    (X : NodeId → Prop) : Prop where
  stay : ∀ n t, h.alive n = true → h.memTree n = some t → ¬ U t → h'.alive n = true →
    h'.memTree n = some t ∧ ch' n = ch n
  noJoin : ∀ n t, h'.alive n = true → h'.memTree n = some t → ¬ U t → t < h.nTree →
    h.alive n = true ∧ h.memTree n = some t
  died : ∀ n t, h.alive n = true → h'.alive n = false → h.memTree n = some t →
    h'.treeAlive t = false
  data : ∀ n, h.alive n = true → h'.alive n = true → ¬ X n → h'.data n = h.data n
  mutB : ∀ n, h.alive n = true → h'.alive n = true → ¬ X n → h'.mutB n = h.mutB n
  nodes : h.nNode ≤ h'.nNode
  trees : h.nTree ≤ h'.nTree
  fresh : ∀ n, n < h.nNode → h.alive n = false → h'.alive n = false
  freshTree : ∀ t, t < h.nTree → h.treeAlive t = false → h'.treeAlive t = false

/-- Only reference counts and lock counts differ. -/
structure Still (h h' : Heap α) : Prop where
  data : h'.data = h.data
  mutB : h'.mutB = h.mutB
  parent : h'.parent = h.parent
  firstChild : h'.firstChild = h.firstChild
  next : h'.next = h.next
  prevCyc : h'.prevCyc = h.prevCyc
  numCh : h'.numCh = h.numCh
  memTree : ∀ n, h'.memTree n = h.memTree n
  root : h'.root = h.root
  nNode : h'.nNode = h.nNode
  nTree : h'.nTree = h.nTree

theorem Still.refl (h : Heap α) : Still h h := ⟨rfl, rfl, rfl, rfl, rfl, rfl, rfl, fun _ => rfl, rfl, rfl, rfl⟩

theorem Still.trans {h'' : Heap α} (s : Still h h') (s' : Still h' h'') : Still h h'' :=
  ⟨s'.data.trans s.data, s'.mutB.trans s.mutB, s'.parent.trans s.parent,
    s'.firstChild.trans s.firstChild, s'.next.trans s.next, s'.prevCyc.trans s.prevCyc,
    s'.numCh.trans s.numCh, fun n => (s'.memTree n).trans (s.memTree n), s'.root.trans s.root,
    s'.nNode.trans s.nNode, s'.nTree.trans s.nTree⟩

theorem Still.alive (s : Still h h') (n : NodeId) : h'.alive n = h.alive n := by
  simp [Heap.alive, s.data]

theorem Still.treeAlive (s : Still h h') (t : TreeId) : h'.treeAlive t = h.treeAlive t := by
  simp [Heap.treeAlive, s.root]

theorem Still.keeps (s : Still h h') (ch : NodeId → List NodeId) (U : TreeId → Prop)
    (X : NodeId → Prop) : Keeps h h' ch ch U X where
  stay n t _ hm _ _ := ⟨(s.memTree n).trans hm, rfl⟩
  noJoin n t ha hm _ _ := ⟨(s.alive n).symm.trans ha, (s.memTree n).symm.trans hm⟩
  died n t ha hd _ := by rw [s.alive, ha] at hd; cases hd
  data n _ _ _ := by rw [s.data]
  mutB n _ _ _ := by rw [s.mutB]
  nodes := Nat.le_of_eq s.nNode.symm
  trees := Nat.le_of_eq s.nTree.symm
  fresh n _ hd := (s.alive n).trans hd
  freshTree t _ hd := (s.treeAlive t).trans hd

theorem Keeps.still {h'' : Heap α} {U : TreeId → Prop} {X : NodeId → Prop}
    (K : Keeps h h' ch ch' U X) (s : Still h' h'') : Keeps h h'' ch ch' U X where
  stay n t ha hm hu ha' := by
    rw [s.alive] at ha'; rw [s.memTree]; exact K.stay n t ha hm hu ha'
  noJoin n t ha hm hu hb := by
    rw [s.alive] at ha; rw [s.memTree] at hm; exact K.noJoin n t ha hm hu hb
  died n t ha hd hm := by
    rw [s.alive] at hd; rw [s.treeAlive]; exact K.died n t ha hd hm
  data n ha ha' hx := by rw [s.alive] at ha'; rw [s.data]; exact K.data n ha ha' hx
  mutB n ha ha' hx := by rw [s.alive] at ha'; rw [s.mutB]; exact K.mutB n ha ha' hx
  nodes := Nat.le_trans K.nodes (Nat.le_of_eq s.nNode.symm)
  trees := Nat.le_trans K.trees (Nat.le_of_eq s.nTree.symm)
  fresh n hb hd := (s.alive n).trans (K.fresh n hb hd)
  freshTree t hb hd := (s.treeAlive t).trans (K.freshTree t hb hd)

theorem Still.keeps_trans {h'' : Heap α} {U : TreeId → Prop} {X : NodeId → Prop}
    (s : Still h h') (K : Keeps h' h'' ch ch' U X) : Keeps h h'' ch ch' U X where
  stay n t ha hm hu ha' := K.stay n t ((s.alive n).trans ha) ((s.memTree n).trans hm) hu ha'
  noJoin n t ha hm hu hb := by
    have := K.noJoin n t ha hm hu (s.nTree ▸ hb)
    rwa [s.alive, s.memTree] at this
  died n t ha hd hm := K.died n t ((s.alive n).trans ha) hd ((s.memTree n).trans hm)
  data n ha ha' hx := by rw [K.data n ((s.alive n).trans ha) ha' hx, s.data]
  mutB n ha ha' hx := by rw [K.mutB n ((s.alive n).trans ha) ha' hx, s.mutB]
  nodes := s.nNode ▸ K.nodes
  trees := s.nTree ▸ K.trees
  fresh n hb hd := K.fresh n (s.nNode ▸ hb) ((s.alive n).trans hd)
  freshTree t hb hd := K.freshTree t (s.nTree ▸ hb) ((s.treeAlive t).trans hd)

theorem WF.still (W : WF h ch) (s : Still h h') (R : RefWF h') : WF h' ch := by
  refine { toShape := ?_, tree := ?_, refs := R }
  · have e : ∀ x, h'.alive x = h.alive x := s.alive
    constructor
    · constructor
      · intro p hp; exact W.dead p ((e p).symm.trans hp)
      · intro p hp; rw [s.firstChild]; exact W.first p ((e p).symm.trans hp)
      · exact W.nodup
      · intro p c; rw [W.mem, e, s.parent]
      · rw [s.next]; exact W.seg
      · intro c hc; rw [s.next, s.parent]; exact W.rootNext c ((e c).symm.trans hc)
      · exact W.acyc
      · intro x hx; rw [s.nNode]; exact W.bound x ((e x).symm.trans hx)
    · intro p hp; rw [s.numCh]; exact W.num p ((e p).symm.trans hp)
    · constructor
      · rw [s.prevCyc]; exact W.back.pseg
      · intro c hc; rw [s.prevCyc, s.parent]; exact W.back.rootPrev c ((e c).symm.trans hc)
  · constructor
    · intro x hx
      obtain ⟨u, h1, h2⟩ := W.tree.live x ((s.alive x).symm.trans hx)
      exact ⟨u, (s.memTree x).trans h1, (s.treeAlive u).trans h2⟩
    · intro u r hr
      rw [s.root] at hr
      obtain ⟨h1, h2, h3⟩ := W.tree.root u r hr
      exact ⟨(s.alive r).trans h1, (s.memTree r).trans h2, by rw [s.parent]; exact h3⟩
    · intro c p hc hp
      rw [s.parent] at hp
      rw [s.memTree, s.memTree]
      exact W.tree.child c p ((s.alive c).symm.trans hc) hp
    · intro x u hx hp hm
      rw [s.parent] at hp; rw [s.memTree] at hm; rw [s.root]
      exact W.tree.top x u ((s.alive x).symm.trans hx) hp hm
    · intro u hu
      rw [s.nTree]; exact W.tree.bound u ((s.treeAlive u).symm.trans hu)

/-! ### Reading the invariant -/

theorem Inv.tree_of_held (I : Inv w ch) (hk : 0 < w.held k n) :
    ∃ t rc l, w.heap.mem n = .strong t rc l ∧ w.heap.alive n = true ∧ w.heap.treeAlive t = true := by
  cases hm : w.heap.mem n with
  | weak o => have := I.weak n o hm k; omega
  | strong t rc l =>
    have ha := I.wf.refs.alive _ _ _ _ hm
    exact ⟨t, rc, l, rfl, ha, I.wf.tree_alive ha (by simp [Heap.memTree, hm])⟩

theorem memTree_strong {rc l : Nat} (hm : h.mem n = .strong t rc l) : h.memTree n = some t := by
  simp [Heap.memTree, hm]

theorem LockOK.grantMode (I : LockOK w t) (hg : 0 ≤ w.heap.grants t) :
    ∃ L : List NodeId, L.Nodup ∧
      (∀ n, n ∈ L ↔ w.heap.memTree n = some t ∧ 0 < w.held .hot n + w.held .frozen n) ∧
      GrantMode w t L := by
  obtain ⟨L, h1, h2, h3, -⟩ := I
  refine ⟨L, h1, h2, ?_⟩
  rcases h3 with h3 | ⟨a, b, c⟩
  · exact h3
  · have hL : L = [] := List.eq_nil_of_length_eq_zero (by omega)
    refine ⟨by omega, fun m hm => ?_, by omega⟩
    have := h2 m
    rw [hL] at this
    simp [hm] at this
    exact this.2

theorem LockOK.prohMode (I : LockOK w t) (hg : w.heap.grants t ≤ 0) :
    ∃ L : List NodeId, L.Nodup ∧
      (∀ n, n ∈ L ↔ w.heap.memTree n = some t ∧ 0 < w.held .hot n + w.held .frozen n) ∧
      ProhMode w t L := by
  obtain ⟨L, h1, h2, h3, -⟩ := I
  refine ⟨L, h1, h2, ?_⟩
  rcases h3 with ⟨a, b, c⟩ | h3
  · have hL : L = [] := List.eq_nil_of_length_eq_zero (by omega)
    refine ⟨by omega, fun m hm => ?_, by omega⟩
    have := h2 m
    rw [hL] at this
    simp [hm] at this
    exact this.1
  · exact h3

/-- A tree about which nothing relevant changes keeps a right lock counter. -/
theorem LockOK.congr (I : LockOK w t) (hg : w'.heap.grants t = w.heap.grants t)
    (h1 : w'.grantTok t = w.grantTok t) (h2 : w'.prohTok t = w.prohTok t)
    (hm : ∀ n, 0 < w'.held .hot n + w'.held .frozen n → w'.heap.memTree n = some t →
      w.heap.memTree n = some t ∧ (w'.held .hot n = 0 ↔ w.held .hot n = 0) ∧
        (w'.held .frozen n = 0 ↔ w.held .frozen n = 0))
    (hm' : ∀ n, 0 < w.held .hot n + w.held .frozen n → w.heap.memTree n = some t →
      w'.heap.memTree n = some t ∧ (w'.held .hot n = 0 ↔ w.held .hot n = 0) ∧
        (w'.held .frozen n = 0 ↔ w.held .frozen n = 0)) : LockOK w' t := by
  obtain ⟨L, a, b, c, d⟩ := I
  refine ⟨L, a, ?_, ?_, by rw [hg]; exact d⟩
  · intro n
    rw [b]
    constructor
    · rintro ⟨x, y⟩
      obtain ⟨p, q, r⟩ := hm' n y x
      exact ⟨p, by omega⟩
    · rintro ⟨x, y⟩
      obtain ⟨p, q, r⟩ := hm n y x
      exact ⟨p, by omega⟩
  · rcases c with ⟨c1, c2, c3⟩ | ⟨c1, c2, c3⟩
    · refine .inl ⟨by omega, fun n hn => ?_, by omega⟩
      by_cases h0 : 0 < w'.held .hot n + w'.held .frozen n
      · obtain ⟨p, q, r⟩ := hm n h0 hn
        exact r.2 (c2 n p)
      · omega
    · refine .inr ⟨by omega, fun n hn => ?_, by omega⟩
      by_cases h0 : 0 < w'.held .hot n + w'.held .frozen n
      · obtain ⟨p, q, r⟩ := hm n h0 hn
        exact q.2 (c2 n p)
      · omega

/-- One node gets another number of handles, and the lock counter of its tree is adjusted. -/
theorem Inv.node {rc l : Nat} {g : Int} (I : Inv w ch) (ha : w.heap.alive n = true)
    (ht : w.heap.memTree n = some t)
    (hheap : w'.heap = (w.heap.setGrants t g).setMem n (.strong t rc l))
    (hheld : ∀ k m, m ≠ n → w'.held k m = w.held k m) (hpos : 0 < rc)
    (hrc : rc = w'.held .plain n + w'.held .hot n + w'.held .frozen n)
    (hl : l = w'.held .hot n + w'.held .frozen n)
    (e1 : w'.trees = w.trees) (e2 : w'.grantTok = w.grantTok) (e3 : w'.prohTok = w.prohTok)
    (hlock : LockOK w' t) : Inv w' ch ∧ Still w.heap w'.heap := by
  have hmt : ∀ x, w'.heap.memTree x = w.heap.memTree x := by
    intro x
    rw [hheap]
    by_cases hx : x = n
    · subst hx; simp [Heap.memTree, Heap.setMem]; exact ht.symm
    · simp [Heap.memTree, Heap.setMem, Heap.setGrants, upd_ne _ _ hx]
  have hmem : ∀ x, w'.heap.mem x = if x = n then .strong t rc l else w.heap.mem x := by
    intro x; rw [hheap]; rfl
  have hgr : ∀ u, u ≠ t → w'.heap.grants u = w.heap.grants u := by
    intro u hu; rw [hheap]; simp [Heap.setMem, Heap.setGrants, hu]
  have S : Still w.heap w'.heap := by
    constructor
    all_goals first | exact hmt | (rw [hheap]; rfl)
  have hta := I.wf.tree_alive ha ht
  refine ⟨?_, S⟩
  constructor
  · refine I.wf.still S ?_
    constructor
    · intro x u a b hx
      rw [hmem] at hx
      rw [S.alive]
      split at hx
      · rename_i e; rw [e]; exact ha
      · exact I.wf.refs.alive _ _ _ _ hx
    · intro x u a b hx
      rw [hmem] at hx
      split at hx
      · simp at hx; omega
      · exact I.wf.refs.pos _ _ _ _ hx
    · intro u hu
      rw [S.treeAlive] at hu
      by_cases hut : u = t
      · exact .inr ⟨n, rc, l, by rw [hmem, if_pos rfl, hut]⟩
      · rcases I.wf.refs.held u hu with h1 | ⟨x, a, b, h1⟩
        · left; rw [hheap]; exact h1
        · refine .inr ⟨x, a, b, ?_⟩
          rw [hmem, if_neg, h1]
          rintro rfl
          rw [memTree_strong h1] at ht
          exact hut (by simpa using ht)
  · intro x u a b hx
    rw [hmem] at hx
    split at hx
    · rename_i e
      rw [e]
      simp at hx
      omega
    · rename_i e
      rw [hheld _ _ e, hheld _ _ e, hheld _ _ e]
      exact I.strong _ _ _ _ hx
  · intro x o hx k
    rw [hmem] at hx
    split at hx
    · simp at hx
    · rename_i e
      rw [hheld _ _ e]; exact I.weak _ _ hx k
  · intro u; rw [e1, hheap]; exact I.treeRc u
  · intro u hu; rw [e1] at hu; rw [S.treeAlive]; exact I.treesAlive u hu
  · intro u hu; rw [e2, e3] at hu; rw [S.nTree]; exact I.toks u hu
  · intro u hu
    rw [S.treeAlive] at hu
    by_cases hut : u = t
    · rw [hut]; exact hlock
    · refine (I.locks u hu).congr (hgr u hut) (by rw [e2]) (by rw [e3]) ?_ ?_
      · intro x h0 hx
        rw [hmt] at hx
        have hxn : x ≠ n := by rintro rfl; rw [ht] at hx; exact hut (by simpa using hx.symm)
        rw [hheld _ _ hxn, hheld _ _ hxn]
        exact ⟨hx, Iff.rfl, Iff.rfl⟩
      · intro x h0 hx
        have hxn : x ≠ n := by rintro rfl; rw [ht] at hx; exact hut (by simpa using hx.symm)
        rw [hmt, hheld _ _ hxn, hheld _ _ hxn]
        exact ⟨hx, Iff.rfl, Iff.rfl⟩

end Dendron
