import Verif.Proofs.Init
import Verif.Proofs.WideLink

/-! Interrupting parents and children. -/

set_option linter.unusedSimpArgs false
set_option linter.unusedVariables false

set_option autoImplicit false

namespace Dendron
variable {α : Type} {h h' : Heap α} {ch : NodeId → List NodeId} {n p : NodeId} {t : TreeId}
  {l1 l2 : List NodeId} {d : α}

theorem SameNonLink.memTree (s : SameNonLink h h') (x : NodeId) : h'.memTree x = h.memTree x := by
  simp [Heap.memTree, s.mem]

theorem SameNonLink.treeAlive (s : SameNonLink h h') (x : TreeId) :
    h'.treeAlive x = h.treeAlive x := by simp [Heap.treeAlive, s.root]

/-- Memberships stay consistent when links change inside the trees. -/
theorem TreeWF.relink (T : TreeWF h) (s : SameNonLink h h')
    (hroot : ∀ x, h.alive x = true → (h'.parent x = none ↔ h.parent x = none))
    (hpar : ∀ x q, h.alive x = true → h'.parent x = some q → h.memTree x = h.memTree q) :
    TreeWF h' := by
  constructor
  · intro x hx
    rw [s.alive] at hx; rw [s.memTree]
    obtain ⟨u, h1, h2⟩ := T.live x hx
    exact ⟨u, h1, by rw [s.treeAlive]; exact h2⟩
  · intro u r hr
    rw [s.root] at hr
    obtain ⟨h1, h2, h3⟩ := T.root u r hr
    rw [s.alive, s.memTree]
    exact ⟨h1, h2, (hroot r h1).2 h3⟩
  · intro c q hc hq
    rw [s.alive] at hc
    rw [s.memTree, s.memTree]; exact hpar c q hc hq
  · intro x u hx hp hm
    rw [s.alive] at hx; rw [s.memTree] at hm; rw [s.root]
    exact T.top x u hx ((hroot x hx).1 hp) hm
  · intro u hu
    rw [s.treeAlive] at hu; rw [s.nTree]; exact T.bound u hu

theorem RefWF.relink (R : RefWF h) (s : SameNonLink h h') : RefWF h' := by
  constructor
  · intro x u rc l hm; rw [s.mem] at hm; rw [s.alive]; exact R.alive _ _ _ _ hm
  · intro x u rc l hm; rw [s.mem] at hm; exact R.pos _ _ _ _ hm
  · intro u hu; rw [s.treeAlive] at hu; rw [s.treeRc, s.mem]; exact R.held u hu

/-- Descendants of `n` do not see a change of the child list of a node that is no descendant of `n`. -/
theorem Desc.of_upd {l : List NodeId} {x : NodeId} (hnd : ¬ Desc ch n p) :
    Desc (upd ch p l) n x ↔ Desc ch n x := by
  constructor
  · intro hd
    induction hd with
    | refl => exact .refl n
    | @step m d hm hc ih =>
      by_cases e : m = p
      · subst e; exact absurd ih hnd
      · rw [upd_ne _ _ e] at hc; exact .step ih hc
  · intro hd
    induction hd with
    | refl => exact .refl n
    | @step m d hm hc ih =>
      have e : m ≠ p := by rintro rfl; exact hnd hm
      exact .step ih (by rw [upd_ne _ _ e]; exact hc)

theorem FShape.not_desc_parent (S : FShape h ch) (hm : n ∈ ch p) : ¬ Desc ch n p := by
  intro hd
  have := S.desc_antisymm hd (Desc.child hm)
  subst this
  exact S.not_self hm

/-- Moving a node inside its tree, links only; `h'` is the memory with the pointer repaired that may be
stale afterwards. -/
theorem moveSame_wide {dest : InsertAs NodeId} {q : NodeId} {m1 m2 : List NodeId}
    (S : Shape h ch) (hs : ch p = l1 ++ n :: l2)
    (hend : l2 = [] → l1 ≠ [] → q = p → m1 ≠ [] ∧ m2 ≠ [])
    (hd : DestSplit (upd ch p (l1 ++ l2)) dest q m1 m2) (hq : h.alive q = true)
    (hnd : ¬ Desc ch n q) :
    ∃ h0 h', h.moveSameL n dest = .ok (h0, .ok ()) ∧ Sim (StaleHead l1 l2) h0 h' ∧ SameNonLink h h' ∧
      Shape h' (upd (upd ch p (l1 ++ l2)) q (m1 ++ n :: m2)) ∧
      (∀ x, h'.parent x = if x = n then some q else h.parent x) := by
  have hm : n ∈ ch p := by simp [hs]
  have ha := S.alive_of_mem hm
  obtain ⟨hx, h1, he, sim, s1, S1, p1⟩ := unlink_wide S hs
  have hpn : h1.parent n = none := by simp [p1]
  have hnp := S.not_desc_parent hm
  obtain ⟨h2, hi, s2, S2, p2⟩ := insert_shape S1 (n := n) (by rw [s1.alive]; exact ha) hpn
    (p := q) (by rw [s1.alive]; exact hq) (by rw [Desc.of_upd hnp]; exact hnd) hd true
  have hDp : ∀ x, StaleHead l1 l2 x → x ∈ upd ch p (l1 ++ l2) p := by
    rintro x ⟨rfl, hx⟩
    rw [upd_same]; exact List.mem_append_left _ (List.mem_of_head? hx)
  obtain ⟨h0, e0, sim0⟩ := SimP.get (hi ▸ SimP.flip (sim.symm.insertL (n := n) (b := true) (dest := dest)
    (InsReads.of_shape S1 (by rw [s1.alive]; exact hq) hd (by
      intro x hxm hx
      have hqp := S1.unique_parent hxm (hDp x hx)
      obtain ⟨rfl, hx⟩ := hx
      rw [hqp, upd_same, List.append_nil]; exact hx) (by
      intro he x hxh hx
      have hqp := S1.unique_parent (List.mem_of_head? hxh) (hDp x hx)
      obtain ⟨e1, e2⟩ := hend hx.1 (by rintro rfl; simp [StaleHead] at hx) hqp
      rcases he with h1 | h1
      · exact e1 h1
      · exact e2 h1))))
  refine ⟨h0, h2, ?_, sim0, s1.trans s2, S2, ?_⟩
  · simp only [Heap.moveSameL, S.isRoot_false hm, Bool.false_eq_true, if_false, bind, Except.bind, he,
      e0]
  · intro x
    rw [p2]
    by_cases e : x = n
    · simp [e]
    · simp [e, p1]

/-- Moving a node that is not the last of several siblings inside its tree, links only. -/
theorem moveSame_shape {dest : InsertAs NodeId} {q : NodeId} {m1 m2 : List NodeId}
    (S : Shape h ch) (hs : ch p = l1 ++ n :: l2) (hpos : l1 = [] ∨ l2 ≠ [])
    (hd : DestSplit (upd ch p (l1 ++ l2)) dest q m1 m2) (hq : h.alive q = true)
    (hnd : ¬ Desc ch n q) :
    ∃ h', h.moveSameL n dest = .ok (h', .ok ()) ∧ SameNonLink h h' ∧
      Shape h' (upd (upd ch p (l1 ++ l2)) q (m1 ++ n :: m2)) ∧
      (∀ x, h'.parent x = if x = n then some q else h.parent x) := by
  obtain ⟨h0, h', e, s, r⟩ := moveSame_wide S hs (by
    intro e1 e2
    rcases hpos with h1 | h1
    · exact absurd h1 e2
    · exact absurd e1 h1) hd hq hnd
  obtain rfl := s.eq_of_not (fun x hx => hx.elim hpos)
  exact ⟨h', e, r⟩

/-- Effect of `create_as_interrupting_parent` on a node with a parent. -/
theorem interruptParent_nonrootL (W : WF h ch) (hs : ch p = l1 ++ n :: l2)
    (ht : h.memTree n = some t) (d : α) :
    ∃ h', h.createInterruptingParentL n d = .ok (h', h.nNode) ∧
      Created h h' h.nNode d t ∧
      WF h' (upd (upd ch p (l1 ++ h.nNode :: l2)) h.nNode [n]) := by
  have hm : n ∈ ch p := by simp [hs]
  have ha := W.alive_of_mem hm
  have hp := W.alive_parent hm
  have hpar := W.parent_of_mem hm
  have htp : h.memTree p = some t := by rw [← W.tree.child n p ha hpar]; exact ht
  have hfresh := W.fresh_not_alive
  have hne : ∀ x, h.alive x = true → x ≠ h.nNode := by
    rintro x hx rfl; rw [hx] at hfresh; simp at hfresh
  obtain ⟨h1, h2, h0, hi, hc, W2, hpar2⟩ := create_insert W (.next hs) hp htp d
  have hs2 : (upd ch p (l1 ++ [n] ++ h.nNode :: l2)) p = l1 ++ n :: (h.nNode :: l2) := by simp
  have hS1 := newOrphan_spec W.toShape (W.tree_alive hp htp) d
  have hchnew : ch h.nNode = [] := W.dead _ hfresh
  have hnd2 : ¬ Desc (upd ch p (l1 ++ [n] ++ h.nNode :: l2)) n h.nNode := by
    rw [Desc.of_upd (W.not_desc_parent hm)]
    intro hd
    have := W.desc_alive ha hd
    rw [hfresh] at this; simp at this
  have key : (upd (upd ch p (l1 ++ [n] ++ h.nNode :: l2)) p (l1 ++ h.nNode :: l2))
      = upd ch p (l1 ++ h.nNode :: l2) := by
    funext x; simp only [upd_apply]; split <;> rfl
  obtain ⟨h3, hmv, s3, S3, p3⟩ := moveSame_shape (dest := .lastChildOf h.nNode) W2.toShape hs2
    (.inr (by simp)) (.last _) (by rw [hc.alive]; simp) hnd2
  rw [key, upd_ne _ _ (Ne.symm (hne p hp)), hchnew] at S3
  have hpro : h1.interruptParentL n t h.nNode = .ok (h3, .ok ()) := by
    obtain ⟨h1', h0', hc1, S1, hpar1⟩ := hS1
    rw [h0] at h0'; obtain rfl : h1 = h1' := by simpa using h0'
    have hpl : h1.parentLink n = some p := by
      rw [S1.parentLink (S1.alive_of_mem hm)]; exact S1.parent_of_mem hm
    unfold Heap.interruptParentL
    simp only [Heap.insertL, hpl] at hi
    simp only [hpl]
    cases hnx : h1.nextLink n with
    | some b =>
      rw [hnx] at hi
      simp only [bind, Except.bind] at hi ⊢
      cases hb : h1.insertBetweenL h.nNode p n b with
      | error e => rw [hb] at hi; simp at hi
      | ok h2' =>
        rw [hb] at hi
        simp only [pure, Except.pure, Except.ok.injEq, Prod.mk.injEq, and_true] at hi
        subst hi
        simp only [hmv, Heap.expectOk, pure, Except.pure]
    | none =>
      rw [hnx] at hi
      simp only at hi
      simp only [bind, Except.bind, hi, Heap.expectOk, hmv, pure, Except.pure]
  refine ⟨h3, ?_, hc.trans_link s3, { toShape := S3, tree := ?_, refs := W2.refs.relink s3 }⟩
  · have := createAndProcess_ok (f := fun h m => h.interruptParentL n t m) h0 hpro
    simp only [Heap.createInterruptingParentL, W.tree.treeCore ha ht, bind, Except.bind, this,
      Heap.expectOk]
  · refine W2.tree.relink s3 ?_ ?_
    · intro x hx
      rw [p3, hpar2]
      by_cases e : x = n
      · subst e; simp [hne x ha, hpar]
      · simp [e]
    · intro x q hx hq
      rw [p3] at hq
      by_cases e : x = n
      · simp only [e, if_true, Option.some.injEq] at hq
        subst hq; rw [e, memTree_created hc, memTree_created hc]
        simp [hne n ha, ht]
      · simp only [e, if_false] at hq
        exact W2.tree.child x q hx hq

/-- Effect of `create_as_interrupting_parent` on a root. -/
theorem interruptParent_rootL (W : WF h ch) (ha : h.alive n = true) (hpn : h.parent n = none)
    (ht : h.memTree n = some t) (d : α) :
    ∃ h', h.createInterruptingParentL n d = .ok (h', h.nNode) ∧
      Created h { h' with root := h.root } h.nNode d t ∧ h'.root = upd h.root t (some h.nNode) ∧
      WF h' (upd ch h.nNode [n]) := by
  have hfresh := W.fresh_not_alive
  have hne : ∀ x, h.alive x = true → x ≠ h.nNode := by
    rintro x hx rfl; rw [hx] at hfresh; simp at hfresh
  have hta := W.tree_alive ha ht
  obtain ⟨h1, h0, hc, S1, hpar1⟩ := newOrphan_spec W.toShape hta d
  have hchnew : ch h.nNode = [] := W.dead _ hfresh
  have hn1 : h1.alive n = true := by rw [hc.alive]; simp [ha]
  have hp1 : h1.alive h.nNode = true := by rw [hc.alive]; simp
  have hpn1 : h1.parent n = none := by rw [hpar1]; simp [hne n ha, hpn]
  have hpnew1 : h1.parent h.nNode = none := by rw [hpar1]; simp
  have hnd : ¬ Desc ch n h.nNode := by
    intro hd
    have := W.desc_alive ha hd
    rw [hfresh] at this; simp at this
  have hpl : h1.parentLink n = none := by rw [S1.parentLink hn1]; exact hpn1
  obtain ⟨h2, hh2⟩ : ∃ h2, h2 = ((((h1.setRoot t (some h.nNode)).setPrev h.nNode (some h.nNode)).setFirst
    h.nNode (some n)).setParent n (some h.nNode)).numAdd h.nNode 1 := ⟨_, rfl⟩
  have hpro : h1.interruptParentL n t h.nNode = .ok (h2, .ok ()) := by
    unfold Heap.interruptParentL
    rw [hpl, hh2]
  have hal : ∀ x, h2.alive x = h1.alive x := by intro x; rw [hh2]; rfl
  have hpar : ∀ x, h2.parent x = if x = n then some h.nNode else h1.parent x := by
    intro x; rw [hh2]; rfl
  have hfc : ∀ x, h2.firstChild x = if x = h.nNode then some n else h1.firstChild x := by
    intro x; rw [hh2]; rfl
  have hnx : ∀ x, h2.next x = h1.next x := by intro x; rw [hh2]; rfl
  have hpv : ∀ x, h2.prevCyc x = if x = h.nNode then some h.nNode else h1.prevCyc x := by
    intro x; rw [hh2]; rfl
  have hnu : ∀ x, h2.numCh x = if x = h.nNode then h1.numCh h.nNode + 1 else h1.numCh x := by
    intro x; rw [hh2]; rfl
  have hro : h2.root = upd h.root t (some h.nNode) := by rw [hh2, ← hc.root]; rfl
  have hC : Created h { h2 with root := h.root } h.nNode d t := by
    rw [hh2]
    exact ⟨hc.data, hc.mutB, hc.mem, rfl, hc.grants, hc.treeRc, hc.nNode, hc.nTree⟩
  have hmem2 : h2.mem = h1.mem := by rw [hh2]; rfl
  have hrc2 : h2.treeRc = h1.treeRc := by rw [hh2]; rfl
  have hnT2 : h2.nTree = h1.nTree := by rw [hh2]; rfl
  have hnN2 : h2.nNode = h1.nNode := by rw [hh2]; rfl
  clear hh2
  have hmt : ∀ x, h2.memTree x = if x = h.nNode then some t else h.memTree x := by
    intro x
    rw [← memTree_created hc x]
    simp [Heap.memTree, hmem2]
  have htal : ∀ u, h2.treeAlive u = h.treeAlive u := by
    intro u; simp only [Heap.treeAlive, hro, upd_apply]
    split
    · subst_vars; simpa [Heap.treeAlive] using hta.symm
    · rfl
  have halh : ∀ x, h2.alive x = (decide (x = h.nNode) || h.alive x) := by
    intro x; rw [hal, hc.alive]
  have hparh : ∀ x, x ≠ n → x ≠ h.nNode → h2.parent x = h.parent x := by
    intro x e1 e2; rw [hpar, if_neg e1, hpar1, if_neg e2]
  have hnn := S1.rootNext n hn1 hpn1
  refine ⟨h2, ?_, hC, hro, ?_⟩
  · have := createAndProcess_ok (f := fun h m => h.interruptParentL n t m) h0 hpro
    simp only [Heap.createInterruptingParentL, W.tree.treeCore ha ht, bind, Except.bind, this,
      Heap.expectOk]
  · refine { toFShape := S1.insertAt (l1 := []) (l2 := []) (by simp [hchnew]) hn1 hpn1 hnd hp1 hal
               hpar ?_ ?_ hnN2
             num := S1.num.insertAt (l1 := []) (l2 := []) (by simp [hchnew]) hal hnu
             back := BackOK.insertAt S1 (l1 := []) (l2 := []) (by simp [hchnew]) hpn1 hal hpar ?_
             tree := ?_
             refs := ?_ }
    · intro x; rw [hfc]; simp
    · intro x; rw [hnx]; by_cases e : x = n
      · subst e; simpa using hnn
      · simp [e]
    · intro x
      rw [hpv]
      by_cases e : x = n
      · subst e; simp [hne x ha, S1.back.rootPrev x hn1 hpn1]
      · by_cases e2 : x = h.nNode
        · subst e2; simp [e, S1.back.rootPrev _ hp1 hpnew1]
        · simp [e, e2]
    · constructor
      · intro x hx
        rw [halh] at hx; rw [hmt]
        by_cases e : x = h.nNode
        · exact ⟨t, by simp [e], by rw [htal]; exact hta⟩
        · simp only [e, decide_false, Bool.false_or] at hx
          obtain ⟨u, h1, h2⟩ := W.tree.live x hx
          exact ⟨u, by simp [e, h1], by rw [htal]; exact h2⟩
      · intro u r hr
        rw [hro] at hr
        simp only [upd_apply] at hr
        by_cases e : u = t
        · simp only [e, if_true, Option.some.injEq] at hr
          subst hr
          rw [halh, hmt, hpar, if_neg (Ne.symm (hne n ha)), hpnew1]
          simp [e]
        · simp only [e, if_false] at hr
          obtain ⟨h1, h2, h3⟩ := W.tree.root u r hr
          have ern : r ≠ n := by rintro rfl; rw [ht] at h2; exact e (by simpa using h2.symm)
          rw [halh, hmt, hparh r ern (hne r h1)]
          simp [h1, h2, h3, hne r h1]
      · intro c q hcx hq
        rw [halh] at hcx
        rw [hmt, hmt]
        by_cases e : c = n
        · subst e
          rw [hpar] at hq
          simp only [if_true, Option.some.injEq] at hq
          subst hq; simp [hne c ha, ht]
        · by_cases e2 : c = h.nNode
          · subst e2; rw [hpar, if_neg e, hpnew1] at hq; simp at hq
          · simp only [e2, decide_false, Bool.false_or] at hcx
            rw [hparh c e e2] at hq
            have hqa := W.alive_parent (W.mem_of_parent hcx hq)
            simp only [e2, hne q hqa, if_false]
            exact W.tree.child c q hcx hq
      · intro x u hx hq hu
        rw [halh] at hx
        rw [hmt] at hu
        rw [hro]
        by_cases e2 : x = h.nNode
        · simp only [e2, if_true, Option.some.injEq] at hu
          simp [← hu, e2]
        · simp only [e2, decide_false, Bool.false_or, if_false] at hx hu
          have e : x ≠ n := by rintro rfl; rw [hpar] at hq; simp at hq
          rw [hparh x e e2] at hq
          have hr := W.tree.top x u hx hq hu
          have : u ≠ t := by
            rintro rfl
            have := W.tree.top n u ha hpn ht
            rw [hr] at this; exact e (by simpa using this)
          simp [this, hr]
      · intro u hu
        rw [htal] at hu; rw [hnT2, hc.nTree]; exact W.tree.bound u hu
    · have R := W.refs.created hc hfresh
      constructor
      · intro x u rc l hm; rw [hmem2] at hm; rw [hal]; exact R.alive _ _ _ _ hm
      · intro x u rc l hm; rw [hmem2] at hm; exact R.pos _ _ _ _ hm
      · intro u hu; rw [htal, ← treeAlive_created hc] at hu; rw [hrc2, hmem2]; exact R.held u hu

/-- The loop that gives all nodes of a sibling list a new parent. -/
theorem reparentLoop_spec (q : NodeId) : ∀ (l : List NodeId) (f : Nat) (h : Heap α),
    Seg h.next l none → l.length < f →
    Heap.reparentLoopL f l.head? q h
      = .ok { h with parent := fun x => if x ∈ l then some q else h.parent x } := by
  intro l
  induction l with
  | nil =>
    intro f h _ hf
    cases f <;> simp [Heap.reparentLoopL]
  | cons a l ih =>
    intro f h hseg hf
    cases f with
    | zero => simp at hf
    | succ f =>
      simp only [Seg, Option.or_none] at hseg
      simp only [List.head?_cons, Heap.reparentLoopL, Heap.nextLink, hseg.1]
      rw [ih f (h.setParent a (some q)) hseg.2 (by simpa using hf)]
      congr 2
      funext x
      simp only [Heap.setParent, upd_apply, List.mem_cons]
      by_cases e : x = a <;> by_cases e2 : x ∈ l <;> simp [e, e2]

theorem FShape.length_lt (S : FShape h ch) (n : NodeId) : (ch n).length < h.nNode + 1 :=
  Nat.lt_succ_of_le (nodup_length_le _ _ (S.nodup n) (fun x hx => S.bound x (S.alive_of_mem hx)))

/-- Effect of `create_as_interrupting_child`. -/
theorem interruptChild_specL (W : WF h ch) (ha : h.alive n = true)
    (ht : h.memTree n = some t) (d : α) :
    ∃ h', h.createInterruptingChildL n d = .ok (h', h.nNode) ∧
      Created h h' h.nNode d t ∧ WF h' (upd (upd ch n [h.nNode]) h.nNode (ch n)) := by
  have hfresh := W.fresh_not_alive
  have hne : ∀ x, h.alive x = true → x ≠ h.nNode := by
    rintro x hx rfl; rw [hx] at hfresh; simp at hfresh
  have hta := W.tree_alive ha ht
  obtain ⟨h1, h0, hc, S1, hpar1⟩ := newOrphan_spec W.toShape hta d
  have hchnew : ch h.nNode = [] := W.dead _ hfresh
  have hn1 : h1.alive n = true := by rw [hc.alive]; simp [ha]
  have hp1 : h1.alive h.nNode = true := by rw [hc.alive]; simp
  have hpnew1 : h1.parent h.nNode = none := by rw [hpar1]; simp
  obtain ⟨h2, hh2⟩ : ∃ h2 : Heap α, h2 = (({((h1.setFirst n (some h.nNode)).setParent h.nNode (some n)).setFirst
      h.nNode (ch n).head? with
        parent := fun x => if x ∈ ch n then some h.nNode else upd h1.parent h.nNode (some n) x } : Heap α).setNum
          h.nNode (h1.numCh n)).setNum n 1 := ⟨_, rfl⟩
  have hpro : h1.interruptChildL n h.nNode = .ok (h2, .ok ()) := by
    unfold Heap.interruptChildL
    have hf : h1.firstChildLink n = (ch n).head? := S1.first n hn1
    simp only [hf]
    have := reparentLoop_spec h.nNode (ch n) (h1.nNode + 1) (((h1.setFirst n (some h.nNode)).setParent
      h.nNode (some n)).setFirst h.nNode (ch n).head?) (S1.seg n) (S1.length_lt n)
    have e1 : (((h1.setFirst n (some h.nNode)).setParent h.nNode (some n)).setFirst h.nNode
      (ch n).head?).nNode = h1.nNode := rfl
    rw [e1]
    simp only [bind, Except.bind, this, pure, Except.pure]
    rw [hh2]
    rfl
  have hal : ∀ x, h2.alive x = h1.alive x := by intro x; rw [hh2]; rfl
  have hpar : ∀ x, h2.parent x = if x ∈ ch n then some h.nNode else if x = h.nNode then some n
      else h1.parent x := by intro x; rw [hh2]; rfl
  have hfc : ∀ x, h2.firstChild x = if x = h.nNode then (ch n).head? else if x = n then some h.nNode
      else h1.firstChild x := by intro x; rw [hh2]; rfl
  have hnx : ∀ x, h2.next x = h1.next x := by intro x; rw [hh2]; rfl
  have hpv : ∀ x, h2.prevCyc x = h1.prevCyc x := by intro x; rw [hh2]; rfl
  have hnu : ∀ x, h2.numCh x = if x = n then 1 else if x = h.nNode then h1.numCh n
      else h1.numCh x := by intro x; rw [hh2]; rfl
  have hs : SameNonLink h1 h2 := by
    rw [hh2]; exact ⟨rfl, rfl, rfl, rfl, rfl, rfl, rfl, rfl⟩
  clear hh2
  have hnew : ∀ q, h.nNode ∉ ch q := fun q => W.not_mem_dead hfresh
  have hnn : n ≠ h.nNode := hne n ha
  have hCh : ∀ q, (upd (upd ch n [h.nNode]) h.nNode (ch n)) q
      = if q = h.nNode then ch n else if q = n then [h.nNode] else ch q := by
    intro q; rfl
  have hnnx : h1.next h.nNode = none := S1.rootNext _ hp1 hpnew1
  have hnpv : h1.prevCyc h.nNode = some h.nNode := S1.back.rootPrev _ hp1 hpnew1
  refine ⟨h2, ?_, hc.trans_link hs, ?_⟩
  · have := createAndProcess_ok (f := fun h m => h.interruptChildL n m) h0 hpro
    simp only [Heap.createInterruptingChildL, W.tree.treeCore ha ht, bind, Except.bind, this,
      Heap.expectOk]
  · refine { dead := ?_, first := ?_, nodup := ?_, mem := ?_, seg := ?_, rootNext := ?_,
             acyc := ?_, bound := ?_, num := ?_, back := ⟨?_, ?_⟩, tree := ?_,
             refs := (W.refs.created hc hfresh).relink hs }
    · intro q hq; rw [hal] at hq
      rw [hCh]
      by_cases e1 : q = h.nNode
      · subst e1; rw [hp1] at hq; simp at hq
      · by_cases e2 : q = n
        · subst e2; rw [hn1] at hq; simp at hq
        · simp [e1, e2, S1.dead q hq]
    · intro q hq; rw [hal] at hq
      rw [hCh, hfc]
      by_cases e1 : q = h.nNode
      · simp [e1]
      · by_cases e2 : q = n
        · simp [e1, e2, hnn]
        · simp [e1, e2, S1.first q hq]
    · intro q; rw [hCh]
      split
      · exact S1.nodup n
      · split
        · simp
        · exact S1.nodup q
    · intro q c
      rw [hal, hpar, hCh]
      by_cases ec : c ∈ ch n
      · have hca := S1.alive_of_mem ec
        have ecn : c ≠ h.nNode := by rintro rfl; exact hnew _ ec
        by_cases e1 : q = h.nNode
        · simp [e1, ec, hca]
        · by_cases e2 : q = n
          · simp [e1, e2, ec, hnn, ecn, Ne.symm hnn]
          · simp only [e1, e2, ec, if_false, if_true]
            constructor
            · intro hq; exact absurd (S1.unique_parent hq ec) e2
            · rintro ⟨_, hq⟩; exact absurd (by simpa using hq.symm) e1
      · by_cases e0 : c = h.nNode
        · subst e0
          by_cases e1 : q = h.nNode
          · simp [e1, ec, hnn]
          · by_cases e2 : q = n
            · simp [e1, e2, ec, hnn, hp1]
            · simp only [e1, e2, ec, if_false, if_true, hnew, false_iff]
              rintro ⟨_, hq⟩; exact e2 (by simpa using hq.symm)
        · by_cases e1 : q = h.nNode
          · have := S1.mem h.nNode c
            rw [hchnew] at this
            simp only [e1, ec, e0, if_true, if_false]
            simpa using this
          · by_cases e2 : q = n
            · have := S1.mem n c
              simp only [e1, e2, hnn, ec, e0, if_true, if_false] at this ⊢
              simpa [e0] using this
            · simp [e1, e2, ec, e0, S1.mem q c]
    · intro q; rw [hCh]
      have hsg : ∀ l e, Seg h1.next l e → Seg h2.next l e :=
        fun l e hl => (Seg.congr (fun x _ => (hnx x).symm)).1 hl
      split
      · exact hsg _ _ (S1.seg n)
      · split
        · simp [Seg, hnx, hnnx]
        · exact hsg _ _ (S1.seg q)
    · intro c hcx hq
      rw [hal] at hcx; rw [hpar] at hq; rw [hnx]
      by_cases ec : c ∈ ch n
      · simp [ec] at hq
      · by_cases e0 : c = h.nNode
        · simp [ec, e0, hnew] at hq
        · simp only [ec, e0, if_false] at hq; exact S1.rootNext c hcx hq
    · obtain ⟨ht, hh⟩ := S1.acyc
      refine ⟨fun x => if x = h.nNode then 2 * ht n + 1 else 2 * ht x + 2, ?_⟩
      intro q c hc
      rw [hCh] at hc
      by_cases e1 : q = h.nNode
      · simp only [e1, if_true] at hc
        have ecn : c ≠ h.nNode := by rintro rfl; exact hnew _ hc
        have := hh n c hc
        simp only [e1, ecn, if_true, if_false]; omega
      · by_cases e2 : q = n
        · subst e2
          simp only [e1, if_true, if_false, List.mem_singleton] at hc
          simp [e1, hc]
        · simp only [e1, e2, if_false] at hc
          have ecn : c ≠ h.nNode := by rintro rfl; exact hnew _ hc
          have := hh q c hc
          simp only [e1, ecn, if_false]; omega
    · intro x hx; rw [hal] at hx; rw [hs.nNode]; exact S1.bound x hx
    · intro q hq; rw [hal] at hq
      rw [hCh, hnu]
      by_cases e1 : q = h.nNode
      · subst e1; simp [Ne.symm hnn, S1.num n hn1]
      · by_cases e2 : q = n
        · subst e2; simp [e1]
        · simp [e1, e2, S1.num q hq]
    · intro q; rw [hCh]
      have hsg : ∀ l e, PSeg h1.prevCyc l e → PSeg h2.prevCyc l e :=
        fun l e hl => (PSeg.congr (fun x _ => (hpv x).symm)).1 hl
      split
      · exact hsg _ _ (S1.back.pseg n)
      · split
        · simp [PSeg, hpv, hnpv]
        · exact hsg _ _ (S1.back.pseg q)
    · intro c hcx hq
      rw [hal] at hcx; rw [hpar] at hq; rw [hpv]
      by_cases ec : c ∈ ch n
      · simp [ec] at hq
      · by_cases e0 : c = h.nNode
        · simp [ec, e0, hnew] at hq
        · simp only [ec, e0, if_false] at hq; exact S1.back.rootPrev c hcx hq
    · have hC := hc.trans_link hs
      have hparh : ∀ x, h2.parent x = if x ∈ ch n then some h.nNode else if x = h.nNode then some n
          else h.parent x := by
        intro x; rw [hpar, hpar1]
        by_cases e : x = h.nNode <;> simp [e]
      constructor
      · intro x hx
        rw [hC.alive] at hx
        rw [memTree_created hC]
        by_cases e : x = h.nNode
        · simp only [e, if_true]; exact ⟨t, rfl, by rw [treeAlive_created hC]; exact hta⟩
        · simp only [e, decide_false, Bool.false_or] at hx
          obtain ⟨u, h1, h2⟩ := W.tree.live x hx
          simp only [e, if_false]
          exact ⟨u, h1, by rw [treeAlive_created hC]; exact h2⟩
      · intro u r hr
        rw [hC.root] at hr
        obtain ⟨h1, h2, h3⟩ := W.tree.root u r hr
        have e := hne r h1
        have er : r ∉ ch n := W.not_mem_of_root h3 n
        rw [hC.alive, memTree_created hC, hparh]
        simp [e, er, h1, h2, h3]
      · intro x q hx hq
        rw [hC.alive] at hx
        rw [hparh] at hq
        rw [memTree_created hC, memTree_created hC]
        by_cases ec : x ∈ ch n
        · have hxa := W.alive_of_mem ec
          simp only [ec, if_true, Option.some.injEq] at hq
          subst hq
          simp only [hne x hxa, if_true, if_false]
          rw [W.tree.child x n hxa (W.parent_of_mem ec)]; exact ht
        · by_cases e : x = h.nNode
          · simp only [ec, e, hnew, if_true, if_false, Option.some.injEq] at hq
            subst hq
            simp [e, hnn, ht]
          · simp only [ec, e, decide_false, Bool.false_or, if_false] at hx hq ⊢
            have hqa := W.alive_parent (W.mem_of_parent hx hq)
            simp only [hne q hqa, if_false]
            exact W.tree.child x q hx hq
      · intro x u hx hq hu
        rw [hC.alive] at hx
        rw [hparh] at hq
        rw [memTree_created hC] at hu
        rw [hC.root]
        by_cases ec : x ∈ ch n
        · simp [ec] at hq
        · by_cases e : x = h.nNode
          · simp [e, hnew] at hq
          · simp only [ec, e, decide_false, Bool.false_or, if_false] at hx hq hu
            exact W.tree.top x u hx hq hu
      · intro u hu
        rw [treeAlive_created hC] at hu
        rw [hC.nTree]; exact W.tree.bound u hu

end Dendron
