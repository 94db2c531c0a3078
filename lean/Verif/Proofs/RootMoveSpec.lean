import Verif.Proofs.RootMove
import Verif.Proofs.Graft
import Verif.Proofs.MoveMore
import Verif.Proofs.DropLink
import Verif.Proofs.StaleAll

/-!
`try_detach_insert_subtree` of the root of a tree, to another tree.
-/

set_option linter.unusedSimpArgs false
set_option linter.unusedVariables false

set_option autoImplicit false

namespace Dendron
open RTree
variable {α : Type} {h h' k : Heap α} {ch c : NodeId → List NodeId} {n p q : NodeId} {t t' : TreeId}
  {T : RTree NodeId} {m1 m2 : List NodeId}

/-- The root `n` of tree `t`, held by a handle, moves into the child list of node `q` of tree `t'`. -/
structure RootGoes (h : Heap α) (ch : NodeId → List NodeId) (n : NodeId) (T : RTree NodeId)
    (t t' : TreeId) (dest : InsertAs NodeId) (q : NodeId) (m1 m2 : List NodeId) : Prop where
  wf : WF h ch
  alive : h.alive n = true
  top : ∀ p, n ∉ ch p
  sub : SubtreeAt ch n T
  memb : h.memTree n = some t
  strong : IsStrong h n
  split : DestSplit ch dest q m1 m2
  qalive : h.alive q = true
  memb' : h.memTree q = some t'
  ne : t ≠ t'
  locks : LocksCounted h t
  grants' : 0 ≤ h.grants t'
  room : h.grants t' + h.grants t ≤ Lock.isizeMax

variable {dest : InsertAs NodeId}

theorem RootGoes.parent (G : RootGoes h ch n T t t' dest q m1 m2) : h.parent n = none := by
  cases e : h.parent n with
  | none => rfl
  | some p => exact absurd (G.wf.mem_of_parent G.alive e) (G.top p)

theorem RootGoes.mem_iff (G : RootGoes h ch n T t t' dest q m1 m2) (x : NodeId) :
    x ∈ T.nodes ↔ h.alive x = true ∧ h.memTree x = some t := by
  obtain ⟨r, R, hr, hR, hx⟩ := G.wf.tree_nodes (G.wf.tree_alive G.alive G.memb)
  have := G.wf.tree.top n t G.alive G.parent G.memb
  rw [hr] at this
  cases this
  rw [G.sub.mem_nodes_iff, ← hR.mem_nodes_iff]; exact hx x

theorem RootGoes.qT (G : RootGoes h ch n T t t' dest q m1 m2) : q ∉ T.nodes := by
  intro e
  have := ((G.mem_iff q).1 e).2
  rw [G.memb'] at this
  exact G.ne (by simpa using this.symm)

theorem RootGoes.closed (G : RootGoes h ch n T t t' dest q m1 m2) {x y : NodeId} (hy : y ∈ ch x) :
    y ∈ T.nodes ↔ x ∈ T.nodes := by
  rw [G.mem_iff, G.mem_iff]
  have h1 := G.wf.alive_of_mem hy
  have h2 := G.wf.alive_parent hy
  have h3 := G.wf.tree.child y x h1 (G.wf.parent_of_mem hy)
  simp [h1, h2, h3]

theorem RootGoes.anchor (G : RootGoes h ch n T t t' dest q m1 m2) :
    h.alive dest.anchor = true ∧ h.memTree dest.anchor = some t' := by
  rcases G.split.anchor with e | e
  · rw [e]; exact ⟨G.qalive, G.memb'⟩
  · have := G.wf.alive_of_mem e
    exact ⟨this, by rw [G.wf.tree.child _ q this (G.wf.parent_of_mem e)]; exact G.memb'⟩

theorem RootGoes.anchorT (G : RootGoes h ch n T t t' dest q m1 m2) : dest.anchor ∉ T.nodes := by
  rw [G.mem_iff, G.anchor.2]
  rintro ⟨-, e⟩
  exact G.ne (by simpa using e.symm)

theorem RootGoes.ctx (G : RootGoes h ch n T t t' dest q m1 m2) :
    RootCtx (h.acqTree t') ch n T t t' := by
  have W := acqTree_wf G.wf t'
  have hl := G.locks.subtree G.wf G.alive G.sub G.memb
  have hta := G.wf.tree_alive G.alive G.memb
  refine { shape := W.toFShape, sub := G.sub, alive := G.alive, memb := ?_, ne := G.ne,
           grantsPos := hl, grantsPos' := G.grants', grantsMax := ?_, tbound := G.wf.tree.bound t hta,
           root := G.wf.tree.top n t G.alive G.parent G.memb, rpar := G.parent, rroot := ?_,
           salive := G.wf.refs.alive, strong := G.strong, all := ?_ }
  · intro x hx; exact ((G.mem_iff x).1 hx).2
  · have := G.room
    show h.grants t' + (h.lockedIn T.nodes : Int) ≤ _
    omega
  · intro x hx u hu
    have hu' : h.root u = some x := hu
    have h1 := (G.wf.tree.root u x hu').2.1
    rw [((G.mem_iff x).1 hx).2] at h1
    cases h1
    have h2 := G.wf.tree.top n t G.alive G.parent G.memb
    rw [hu'] at h2
    exact ⟨rfl, by simpa using h2⟩
  · intro x rc l hx
    have hx' : h.mem x = .strong t rc l := hx
    exact (G.mem_iff x).2 ⟨G.wf.refs.alive _ _ _ _ hx', by simp [Heap.memTree, hx']⟩

/-- The call, once the membership loop is known. -/
theorem RootGoes.run (G : RootGoes h ch n T t t' dest q m1 m2) {k2 k3 : Heap α}
    (hm : (h.acqTree t').setMemberships n t' = .ok (some k2)) (R : ReadyToInsert k2 n dest)
    (hi : k2.insertL n false dest = .ok (k3, .ok ())) (hst : ∃ rc l, k3.mem n = .strong t' rc l)
    (hb : n < k3.nNode) (hrc : k3.treeRc t' = h.treeRc t' + 1) :
    h.detachInsert n dest = .ok (k3.setTreeRc t' (h.treeRc t'), .ok ()) := by
  have hbt : h.belongsToSameTree n dest.anchor = false := by
    have h1 : n ≠ dest.anchor := by
      intro e
      have := G.anchor.2
      rw [← e, G.memb] at this; exact G.ne (by simpa using this)
    simp [Heap.belongsToSameTree, h1, G.memb, G.anchor.2, G.ne]
  have htc : h.treeCore dest.anchor = .ok t' := G.wf.tree.treeCore G.anchor.1 G.anchor.2
  have hroot : (h.acqTree t').isRoot n = true := by
    have : h.isRoot n = true := by
      simp [Heap.isRoot, Heap.parentLink, G.parent, Heap.upgrade]
    exact this
  unfold Heap.detachInsert
  simp only [hbt, Bool.false_eq_true, if_false, htc, bind, Except.bind]
  have hmo : (h.acqTree t').moveOther n dest t' = .ok (k3, .ok ()) := by
    unfold Heap.moveOther Heap.newByUnlink
    simp only [hroot, if_true, bind, Except.bind, hm]
    rw [R.strict, hi]
  simp only [hmo]
  have hrel : k3.relTree [] t' = .ok (k3.setTreeRc t' (h.treeRc t')) := by
    unfold Heap.relTree
    rw [hrc, Nat.add_sub_cancel]
    apply maybeDropTree_held
    obtain ⟨rc, l, hx⟩ := hst
    exact .inr ⟨n, rc, l, hx, hb⟩
  simp only [hrel, pure, Except.pure]


theorem moveTo_strong {m : Membership} (hm : ∃ t rc l, m = .strong t rc l) :
    ∃ rc l, m.moveTo t' = .strong t' rc l := by
  obtain ⟨u, rc, l, rfl⟩ := hm
  exact ⟨rc, l, rfl⟩

/-- If somebody holds a `Tree` of the moved tree, that tree keeps the moved node as its root. -/
theorem RootGoes.held (G : RootGoes h ch n T t t' dest q m1 m2) (hrc : 0 < h.treeRc t) :
    ∃ h', h.detachInsert n dest = .ok (h', .ok ()) ∧ Shape h' (upd ch q (m1 ++ n :: m2)) ∧
      h'.data = h.data ∧ h'.root = h.root ∧ h'.parent n = some q ∧ h'.treeRc = h.treeRc ∧
      (∀ x, h'.memTree x = if x ∈ T.nodes then some t' else h.memTree x) := by
  have C := G.ctx
  obtain ⟨k2, hk2⟩ : ∃ k2, k2 = (h.acqTree t').relabel T.nodes t t' := ⟨_, rfl⟩
  have hm := C.memb_held (by
    show 0 < upd h.treeRc t' _ t
    rw [upd_ne _ _ G.ne]; exact hrc)
  rw [← hk2] at hm
  have W := acqTree_wf G.wf t'
  have S2 : Shape k2 ch := by
    have S := W.toShape
    subst hk2
    exact { dead := S.dead, first := S.first, nodup := S.nodup, mem := S.mem,
            seg := S.seg, rootNext := S.rootNext, acyc := S.acyc, bound := S.bound,
            num := S.num, back := ⟨S.back.pseg, S.back.rootPrev⟩ }
  have hal : ∀ x, k2.alive x = h.alive x := by intro x; subst hk2; rfl
  have hpar : k2.parent n = none := by subst hk2; exact G.parent
  have hR : ReadyToInsert k2 n dest := by
    refine ⟨⟨?_, ?_⟩, by rw [hal]; exact G.alive, S2.rootNext n (by rw [hal]; exact G.alive) hpar, 
      S2.insertOK (by rw [hal]; exact G.anchor.1)⟩
    · intro x hx
      rw [hal] at hx
      refine .inr ?_
      have := referenced_iff.1 (W.referenced hx)
      refine referenced_iff.2 (this.imp ?_ ?_)
      · intro e; subst hk2; exact relabel_strong.2 e
      · intro e; subst hk2; exact e
    · intro x hx
      rw [hal] at hx
      subst hk2; exact G.wf.bound x hx
  have hndq : ¬ Desc ch n q := by
    intro e; exact G.qT ((G.sub.mem_nodes_iff q).2 e)
  obtain ⟨k3, hi, s3, S3, p3⟩ := insert_shape (dest := dest) S2 (by rw [hal]; exact G.alive) hpar
    (by rw [hal]; exact G.qalive) hndq G.split false
  have hnT := C.n_mem
  have hmn : ∃ rc l, k3.mem n = .strong t' rc l := by
    obtain ⟨rc, l, e⟩ := moveTo_strong (t' := t') G.strong
    refine ⟨rc, l, ?_⟩
    rw [s3.mem, hk2]
    simp only [Heap.relabel, hnT, if_true]; exact e
  have hr := G.run hm hR hi hmn (by
    rw [s3.nNode, hk2]; exact G.wf.bound n G.alive) (by
    rw [s3.treeRc, hk2]; show upd h.treeRc t' _ t' = _; rw [upd_same])
  refine ⟨_, hr, ?_, ?_, ?_, ?_, ?_, ?_⟩
  · exact { dead := S3.dead, first := S3.first, nodup := S3.nodup, mem := S3.mem,
            seg := S3.seg, rootNext := S3.rootNext, acyc := S3.acyc, bound := S3.bound,
            num := S3.num, back := ⟨S3.back.pseg, S3.back.rootPrev⟩ }
  · show k3.data = _; rw [s3.data, hk2]; rfl
  · show k3.root = _; rw [s3.root, hk2]; rfl
  · show k3.parent n = _; rw [p3, if_pos rfl]
  · show upd k3.treeRc t' _ = _
    rw [s3.treeRc, hk2]
    funext u
    show upd (upd h.treeRc t' _) t' _ u = _
    by_cases e : u = t'
    · subst e; rw [upd_same]
    · rw [upd_ne _ _ e, upd_ne _ _ e]
  · intro x
    show k3.memTree x = _
    rw [s3.memTree, hk2, relabel_memTree]; rfl

/-- Nodes of `A` have no parent, no siblings and no children. -/
def Heap.single (k : Heap α) (A : List NodeId) : Heap α :=
  { k with
    parent := fun x => if x ∈ A then none else k.parent x
    prevCyc := fun x => if x ∈ A then some x else k.prevCyc x
    numCh := fun x => if x ∈ A then 0 else k.numCh x }

theorem cleared_alive_out {A : List NodeId} {x : NodeId} (hx : x ∉ A) :
    (h.cleared A t t').alive x = h.alive x := by
  simp [Heap.alive, Heap.cleared, Heap.setGrants, Heap.setRoot, Heap.wipe, hx, Heap.relabel]

theorem cleared_next_in {A : List NodeId} {x : NodeId} (hx : x ∈ A) :
    (h.cleared A t t').next x = none := by
  simp [Heap.cleared, Heap.setGrants, Heap.setRoot, Heap.wipe, hx]

theorem cleared_first_in {A : List NodeId} {x : NodeId} (hx : x ∈ A) :
    (h.cleared A t t').firstChild x = none := by
  simp [Heap.cleared, Heap.setGrants, Heap.setRoot, Heap.wipe, hx]

theorem cleared_next_out {A : List NodeId} {x : NodeId} (hx : x ∉ A) :
    (h.cleared A t t').next x = h.next x := by
  simp [Heap.cleared, Heap.setGrants, Heap.setRoot, Heap.wipe, hx, Heap.relabel]

theorem cleared_first_out {A : List NodeId} {x : NodeId} (hx : x ∉ A) :
    (h.cleared A t t').firstChild x = h.firstChild x := by
  simp [Heap.cleared, Heap.setGrants, Heap.setRoot, Heap.wipe, hx, Heap.relabel]

theorem cleared_parent_out {A : List NodeId} {x : NodeId} (hx : x ∉ A) :
    (h.cleared A t t').parent x = h.parent x := by
  simp [Heap.cleared, Heap.setGrants, Heap.setRoot, Heap.wipe, hx, Heap.relabel]

theorem cleared_prev_out {A : List NodeId} {x : NodeId} (hx : x ∉ A) :
    (h.cleared A t t').prevCyc x = h.prevCyc x := by
  simp [Heap.cleared, Heap.setGrants, Heap.setRoot, Heap.wipe, hx, Heap.relabel]

theorem cleared_num_out {A : List NodeId} {x : NodeId} (hx : x ∉ A) :
    (h.cleared A t t').numCh x = h.numCh x := by
  simp [Heap.cleared, Heap.setGrants, Heap.setRoot, Heap.wipe, hx, Heap.relabel]

theorem cleared_mem_out {A : List NodeId} {x : NodeId} (hx : x ∉ A) :
    (h.cleared A t t').mem x = h.mem x := by
  simp [Heap.cleared, Heap.setGrants, Heap.setRoot, Heap.wipe, hx, Heap.relabel]

theorem cleared_root {A : List NodeId} : (h.cleared A t t').root = upd h.root t none := rfl

/-- What the moved nodes with handles keep. -/
theorem cleared_kept {A : List NodeId} {x : NodeId} (hx : x ∈ h.handlesIn A) :
    (h.cleared A t t').parent x = h.parent x ∧ (h.cleared A t t').prevCyc x = h.prevCyc x ∧
    (h.cleared A t t').numCh x = h.numCh x ∧ (h.cleared A t t').mem x = (h.mem x).moveTo t' ∧
    (h.cleared A t t').data x = h.data x := by
  have := (mem_handlesIn.1 hx).1
  simp [Heap.cleared, Heap.setGrants, Heap.setRoot, Heap.wipe, hx, Heap.relabel, this]

theorem seg_congr {nx nx' : NodeId → Option NodeId} : ∀ {l : List NodeId} {e : Option NodeId},
    (∀ x ∈ l, nx' x = nx x) → Seg nx l e → Seg nx' l e
  | [], _, _, _ => trivial
  | a :: l, e, hx, hs => ⟨by rw [hx a (by simp)]; exact hs.1,
      seg_congr (fun x hm => hx x (List.mem_cons_of_mem _ hm)) hs.2⟩

theorem pseg_congr {nx nx' : NodeId → Option NodeId} : ∀ {l : List NodeId} {e : Option NodeId},
    (∀ x ∈ l, nx' x = nx x) → PSeg nx l e → PSeg nx' l e
  | [], _, _, _ => trivial
  | a :: l, e, hx, hs => ⟨by rw [hx a (by simp)]; exact hs.1,
      pseg_congr (fun x hm => hx x (List.mem_cons_of_mem _ hm)) hs.2⟩

theorem single_shape {A : List NodeId} (S : Shape h ch)
    (hcl : ∀ x y, y ∈ ch x → (y ∈ A ↔ x ∈ A)) :
    Shape ((h.cleared A t t').single A) (fun x => if x ∈ A then [] else ch x) := by
  have hal : ∀ x, ((h.cleared A t t').single A).alive x = (h.cleared A t t').alive x := fun _ => rfl
  have hout : ∀ x y, y ∈ ch x → x ∉ A → y ∉ A := fun x y hy hx hyA => hx ((hcl x y hy).1 hyA)
  refine { dead := ?_, first := ?_, nodup := ?_, mem := ?_, seg := ?_, rootNext := ?_, acyc := ?_,
           bound := ?_, num := ?_, back := ⟨?_, ?_⟩ }
  · intro p hp
    rw [hal] at hp
    by_cases e : p ∈ A
    · simp [e]
    · rw [cleared_alive_out e] at hp; simp only [e, if_false]; exact S.dead p hp
  · intro p hp
    rw [hal] at hp
    show (h.cleared A t t').firstChild p = _
    by_cases e : p ∈ A
    · rw [cleared_first_in e]; simp [e]
    · rw [cleared_alive_out e] at hp; rw [cleared_first_out e]; simp only [e, if_false]; exact S.first p hp
  · intro p; by_cases e : p ∈ A
    · simp [e]
    · simp only [e, if_false]; exact S.nodup p
  · intro p c
    rw [hal]
    show _ ↔ _ ∧ (if c ∈ A then none else (h.cleared A t t').parent c) = some p
    by_cases e : p ∈ A
    · simp only [e, if_true, List.not_mem_nil, false_iff, not_and]
      intro hc
      by_cases e2 : c ∈ A
      · simp [e2]
      · simp only [e2, if_false]
        rw [cleared_parent_out e2]
        rw [cleared_alive_out e2] at hc
        intro hp
        exact e2 ((hcl p c ((S.mem p c).2 ⟨hc, hp⟩)).2 e)
    · simp only [e, if_false]
      by_cases e2 : c ∈ A
      · simp only [e2, if_true, reduceCtorEq, and_false, iff_false]
        intro hc; exact hout p c hc e e2
      · simp only [e2, if_false]
        rw [cleared_parent_out e2, cleared_alive_out e2]; exact S.mem p c
  · intro p
    by_cases e : p ∈ A
    · simp only [e, if_true]; trivial
    · simp only [e, if_false]
      refine seg_congr (fun x hx => ?_) (S.seg p)
      exact cleared_next_out (hout p x hx e)
  · intro c hc hp
    rw [hal] at hc
    show (h.cleared A t t').next c = none
    by_cases e : c ∈ A
    · exact cleared_next_in e
    · rw [cleared_next_out e]
      rw [cleared_alive_out e] at hc
      have hp' : (if c ∈ A then none else (h.cleared A t t').parent c) = none := hp
      rw [if_neg e, cleared_parent_out e] at hp'
      exact S.rootNext c hc hp'
  · obtain ⟨ht, hh⟩ := S.acyc
    refine ⟨ht, fun p c hc => ?_⟩
    by_cases e : p ∈ A
    · simp [e] at hc
    · simp only [e, if_false] at hc; exact hh p c hc
  · intro x hx
    rw [hal] at hx
    apply S.bound x
    by_cases e : x ∈ A
    · have : (h.cleared A t t').alive x = ((h.relabel A t t').wipe A (h.handlesIn A)).alive x := rfl
      rw [this, Heap.wipe_alive] at hx
      split at hx
      · cases hx
      · exact hx
    · rwa [cleared_alive_out e] at hx
  · intro p hp
    rw [hal] at hp
    show (if p ∈ A then 0 else (h.cleared A t t').numCh p) = _
    by_cases e : p ∈ A
    · simp [e]
    · simp only [e, if_false]; rw [cleared_alive_out e] at hp; rw [cleared_num_out e]; exact S.num p hp
  · intro p
    by_cases e : p ∈ A
    · simp only [e, if_true]; trivial
    · simp only [e, if_false]
      refine pseg_congr (fun x hx => ?_) (S.back.pseg p)
      have := hout p x hx e
      show (if x ∈ A then some x else (h.cleared A t t').prevCyc x) = _
      rw [if_neg this, cleared_prev_out this]
  · intro c hc hp
    rw [hal] at hc
    show (if c ∈ A then some c else (h.cleared A t t').prevCyc c) = _
    by_cases e : c ∈ A
    · simp [e]
    · rw [if_neg e, cleared_prev_out e]
      rw [cleared_alive_out e] at hc
      have hp' : (if c ∈ A then none else (h.cleared A t t').parent c) = none := hp
      rw [if_neg e, cleared_parent_out e] at hp'
      exact S.back.rootPrev c hc hp'

theorem graft_insertOK {A B : List NodeId} {k0 : Heap α} (S : Shape k c) (hd : DestSplit c dest q m1 m2)
    (hq : k.alive q = true) (hch : ∀ x ∈ c q, x ∉ A) : InsertOK (k.graft A B k0) dest := by
  have hfst : ∀ f, k.firstChild q = some f → f ∉ A := by
    intro f hf
    rw [S.first q hq] at hf
    exact hch f (List.mem_of_mem_head? hf)
  have hln : LastNext (k.graft A B k0) q := by
    intro f l e
    rw [graft_firstLast hfst] at e
    exact S.lastNext hq f l e
  cases hd with
  | first => exact hq
  | last => exact ⟨hq, hln⟩
  | prev hs => trivial
  | @next _ a l1 l2 hs =>
    have hm : a ∈ c q := by simp [hs]
    refine ⟨S.alive_of_mem hm, fun p hp _ => ?_⟩
    rw [graft_parentLink (hch a hm), S.parentLink (S.alive_of_mem hm), S.parent_of_mem hm] at hp
    cases hp
    exact hln

/-- Without a `Tree` of the moved tree, its links are gone afterwards. -/
theorem RootGoes.drop (G : RootGoes h ch n T t t' dest q m1 m2) (hrc : h.treeRc t = 0) :
    ∃ k3 h', h.detachInsert n dest = .ok (h', .ok ()) ∧
      Shape k3 (upd (fun x => if x ∈ T.nodes then [] else ch x) q (m1 ++ n :: m2)) ∧
      SameNonLink ((h.acqTree t').cleared T.nodes t t') k3 ∧
      (∀ x, k3.parent x = if x = n then some q else
        if x ∈ T.nodes then none else h.parent x) ∧
      h' = (k3.graft (T.nodes.filter (· ≠ n)) T.nodes ((h.acqTree t').cleared T.nodes t t')).setTreeRc t' (h.treeRc t') := by
  have C := G.ctx
  have hnT := C.n_mem
  have hnh : n ∈ (h.acqTree t').handlesIn T.nodes := mem_handlesIn.2 ⟨hnT, G.strong⟩
  have W := acqTree_wf G.wf t'
  obtain ⟨hA, hhA⟩ : ∃ hA, hA = h.acqTree t' := ⟨_, rfl⟩
  have hm := C.memb_drop (by
    show upd h.treeRc t' _ t = 0
    rw [upd_ne _ _ G.ne]; exact hrc)
  have S1 := single_shape (t := t) (t' := t') (A := T.nodes) W.toShape (fun x y hy => G.closed hy)
  rw [← hhA] at hm W S1 hnh C ⊢
  obtain ⟨e1, e2, -, e4, e5⟩ := cleared_kept (t := t) (t' := t') hnh
  have hAal : ∀ x, hA.alive x = h.alive x := by intro x; rw [hhA]; rfl
  have hAp : ∀ x, hA.parent x = h.parent x := by intro x; rw [hhA]; rfl
  have hAmt : ∀ x, hA.memTree x = h.memTree x := by intro x; rw [hhA]; rfl
  obtain ⟨k2, hk2⟩ : ∃ k2, k2 = hA.cleared T.nodes t t' := ⟨_, rfl⟩
  have kout : ∀ x, x ∉ T.nodes → k2.alive x = h.alive x := by
    intro x hx; rw [hk2, cleared_alive_out hx, hAal]
  have kan : k2.alive n = true := by
    rw [hk2]; exact (cleared_alive hnT (by rw [hAal]; exact G.alive)).2 hnh
  have kpn : k2.parent n = none := by rw [hk2, e1, hAp]; exact G.parent
  have kst : ∃ rc l, k2.mem n = .strong t' rc l := by
    obtain ⟨rc, l, e⟩ := moveTo_strong (t' := t') G.strong
    refine ⟨rc, l, ?_⟩
    rw [hk2, e4, hhA]; exact e
  have kbound : ∀ x, k2.alive x = true → x < k2.nNode := by
    intro x hx; rw [hk2] at hx ⊢; exact S1.bound x hx
  have kref : RefBut [n] k2 := by
    refine ⟨fun x hx => .inr ?_, kbound⟩
    by_cases e : x ∈ T.nodes
    · rw [hk2] at hx ⊢
      exact (cleared_strong ((cleared_alive e (C.alive_mem e)).1 hx)).referenced
    · have hx' := hx
      rw [kout x e] at hx'
      cases hp : h.parent x with
      | some p =>
        have hc := G.wf.mem_of_parent hx' hp
        have hpT : p ∉ T.nodes := fun e2 => e ((G.closed hc).2 e2)
        have := S1.toFShape.referenced_child (p := p) (n := x) (by simp only [hpT, if_false]; exact hc)
        rw [hk2]
        exact this
      | none =>
        obtain ⟨u, hu, hua⟩ := G.wf.tree.live x hx'
        have hne : u ≠ t := fun e3 => e ((G.mem_iff x).2 ⟨hx', by rw [hu, e3]⟩)
        refine referenced_iff.2 (.inr (.inl ⟨u, ?_, ?_⟩))
        · rw [hk2, hhA]; exact G.wf.tree.bound u hua
        · rw [hk2, cleared_root, upd_ne _ _ hne, hhA]; exact G.wf.tree.top x u hx' hp hu
  rw [← hk2] at hm S1 ⊢
  have hgr : (k2.single T.nodes).graft (T.nodes.filter (· ≠ n)) T.nodes k2 = k2 := by
    have hp : ∀ x, (if x ∈ T.nodes.filter (· ≠ n) then k2.parent x else
        if x ∈ T.nodes then none else k2.parent x) = k2.parent x := by
      intro x
      by_cases e : x = n
      · subst e; simp [kpn]
      · simp only [List.mem_filter, ne_eq, e, not_false_eq_true, decide_true, and_true]; split <;> simp_all
    have hv : ∀ x, (if x ∈ T.nodes.filter (· ≠ n) then k2.prevCyc x else
        if x ∈ T.nodes then some x else k2.prevCyc x) = k2.prevCyc x := by
      intro x
      have hvn : k2.prevCyc n = some n := by
        rw [hk2, e2, hhA]; exact G.wf.back.rootPrev n G.alive G.parent
      by_cases e : x = n
      · subst e; simp [hvn, hnT]
      · simp only [List.mem_filter, ne_eq, e, not_false_eq_true, decide_true, and_true]; split <;> simp_all
    have hn : ∀ x, (if x ∈ T.nodes then k2.numCh x else
        if x ∈ T.nodes then 0 else k2.numCh x) = k2.numCh x := by
      intro x; split <;> simp_all
    unfold Heap.graft Heap.single
    simp only [hp, hv, hn]
  have hqT := G.qT
  have hqc : (fun x => if x ∈ T.nodes then [] else ch x) q = ch q := by simp [hqT]
  have hd := G.split.congr (ch' := fun x => if x ∈ T.nodes then [] else ch x) hqc
  have hndq : ¬ Desc (fun x => if x ∈ T.nodes then [] else ch x) n q := by
    intro e
    cases e with
    | refl => exact hqT hnT
    | step hnm hm =>
      rename_i m
      by_cases e : m ∈ T.nodes
      · simp [e] at hm
      · simp only [e, if_false] at hm
        have : ∀ y, Desc (fun x => if x ∈ T.nodes then [] else ch x) n y → y ∈ T.nodes := by
          intro y hy
          induction hy with
          | refl => exact hnT
          | step _ hm2 ih => simp [ih] at hm2
        exact e (this m hnm)
  have hsub : ∀ x, x ∉ T.nodes → x ∉ T.nodes.filter (· ≠ n) := by
    intro x hx h1; exact hx (List.mem_filter.1 h1).1
  obtain ⟨k3, hi, s3, S3, p3⟩ := insert_shape (dest := dest) S1 kan
    (show (if n ∈ T.nodes then none else k2.parent n) = none by rw [if_pos hnT])
    (show k2.alive q = true by rw [kout q hqT]; exact G.qalive) hndq hd false
  have hanc : ∀ x, Desc (fun x => if x ∈ T.nodes then [] else ch x) x q → x ∉ T.nodes := by
    intro x hx
    generalize hz : q = z at hx
    have hzT : z ∉ T.nodes := hz ▸ hqT
    clear hz
    induction hx with
    | refl => exact hzT
    | @step m d _ hd ih =>
      apply ih
      intro e; simp [e] at hd
  have hchq : ∀ x ∈ (fun x => if x ∈ T.nodes then [] else ch x) q, x ∉ T.nodes.filter (· ≠ n) := by
    intro x hx
    rw [hqc] at hx
    exact hsub x (fun e => hqT ((G.closed hx).1 e))
  have hi2 := graft_insert (A := T.nodes.filter (· ≠ n)) (B := T.nodes) (k0 := k2) S1 hd
    (show k2.alive q = true by rw [kout q hqT]; exact G.qalive) (by simp) hqT
    (fun x hx => hsub x (hanc x hx)) hchq hi
  have hio := graft_insertOK (A := T.nodes.filter (· ≠ n)) (B := T.nodes) (k0 := k2) S1 hd
    (show k2.alive q = true by rw [kout q hqT]; exact G.qalive) hchq
  rw [hgr] at hi2 hio
  have hR : ReadyToInsert k2 n dest := ⟨kref, kan, by rw [hk2]; exact cleared_next_in hnT, hio⟩
  have hr := G.run (by rw [← hhA]; exact hm) hR hi2 (by
    obtain ⟨rc, l, e⟩ := kst
    exact ⟨rc, l, by show k3.mem n = _; rw [s3.mem]; exact e⟩) (by
    show n < k3.nNode; rw [s3.nNode]; exact kbound n kan) (by
    show k3.treeRc t' = _; rw [s3.treeRc, hk2, hhA]
    show upd h.treeRc t' _ t' = _; rw [upd_same])
  refine ⟨k3, _, hr, S3, ⟨s3.data, s3.mutB, s3.mem, s3.root, s3.grants, s3.treeRc, s3.nNode, s3.nTree⟩, ?_, rfl⟩
  intro x
  rw [p3]
  by_cases e : x = n
  · simp [e]
  · simp only [e, if_false]
    show (if x ∈ T.nodes then none else k2.parent x) = _
    by_cases e2 : x ∈ T.nodes
    · simp [e2]
    · simp only [e2, if_false]; rw [hk2, cleared_parent_out e2, hAp]

end Dendron
