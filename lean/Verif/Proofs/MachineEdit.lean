import Verif.Proofs.MachineStep

/-! Every call is a step of the abstract machine: edits of the hierarchy. -/

set_option linter.unusedSimpArgs false
set_option linter.unusedVariables false

set_option autoImplicit false

namespace Dendron
variable {α : Type} {h h' h2 : Heap α} {w w' v : World α} {a b : Forest α} {ch ch' ch1 : NodeId → List NodeId}
  {n m r p q : NodeId} {t t' : TreeId} {k : Kind} {op : Op α} {au : Auth} {l1 l2 m1 m2 : List NodeId}

/-- The end of a creation. -/
theorem Inv.play_created {d : α} {R : TreeId → Option NodeId} (I : Inv w ch)
    (I1 : Inv (({ w with heap := h' }).give .plain w.heap.nNode) ch')
    (hdata : h'.data = upd w.heap.data w.heap.nNode (some d))
    (hmut : h'.mutB = upd w.heap.mutB w.heap.nNode false)
    (hmem : h'.mem = upd w.heap.mem w.heap.nNode (.strong t 1 0))
    (hroot : h'.root = R) (hnn : h'.nNode = w.heap.nNode + 1) (hnt : h'.nTree = w.heap.nTree)
    (hg : h'.grants = w.heap.grants) (hr : Room w.heap) (hta : w.heap.treeAlive t = true) (hp : 0 < w.heap.grants t)
    (he : w.exec op = ({ w with heap := h' } : World α).created au.kind w.heap.nNode)
    (st : (w.view ch).Step op (.node (some w.heap.nNode))
      { data := upd w.heap.data w.heap.nNode (some d)
        borrowed := upd (w.view ch).borrowed w.heap.nNode false
        children := ch'
        tree := upd (w.view ch).tree w.heap.nNode (some t)
        root := R
        newNode := w.heap.nNode + 1
        newTree := w.heap.nTree
        held := (w.give au.kind w.heap.nNode).held
        trees := w.trees
        grantTok := w.grantTok
        prohTok := w.prohTok }) : Plays w ch op := by
  obtain ⟨r1, r2⟩ := hr t hta
  obtain ⟨h2, e2, I2, S2⟩ := I1.created (k := au.kind) (t := t) (by simp [Heap.memTree, hmem]) (by
    cases au <;> simp only [Auth.kind, Lockable, hg, Lock.isizeMax] <;> omega)
  exact .of I2 (he.trans e2) (I.shows_created hdata hmut hmem hroot hnn hnt I2.wf.toFShape S2) st

theorem Inv.play_create {d : α} {as : AdoptAs} (I : Inv w ch) (ha : w.HasAuth n au)
    (hf : TokenFits w.heap n au) (hr : Room w.heap) : Plays w ch (.create au n d as) := by
  have hal := I.held_alive ha.holds
  obtain ⟨t, ht, hta⟩ := I.wf.tree.live n hal
  have hgp := I.auth_grants ha hf ht
  have hfit : (w.view ch).Fits n au := (I.view.fits hal).2 hf
  have htv : (w.view ch).tree n = some t := by rw [I.view.tree_of hal]; exact ht
  have main : ∀ p l1 l2, DestSplit ch (as.at n) p l1 l2 → Plays w ch (.create au n d as) := by
    intro p l1 l2 hd
    obtain ⟨h', e, C, W, -⟩ := nodeCreate_ok I.wf hd hal ht d
    have hpt : w.heap.memTree p = some t := by
      rcases I.wf.toFShape.destSplit_parent hd with rfl | hm
      · exact ht
      · rw [← I.wf.tree.child n p hal (I.wf.parent_of_mem hm)]; exact ht
    obtain ⟨I1, K⟩ := I.createdPlain (d := d) W hta C.data C.mutB C.mem
      (fun u => by simp [Heap.treeAlive, C.root]) C.grants C.treeRc C.nNode C.nTree (by
        intro x _ hx
        have : x ≠ p := by rintro rfl; exact hx hpt
        simp [this])
    refine I.play_created (au := au) I1 C.data C.mutB C.mem C.root C.nNode C.nTree C.grants hr hta hgp ?_
      (.create hfit htv hd)
    simp only [World.exec, checkAuth_ok hf, bind, Except.bind, e]
  have hsib : as = .previousSibling ∨ as = .nextSibling → Plays w ch (.create au n d as) := by
    intro has
    by_cases hm : ∃ p, n ∈ ch p
    · obtain ⟨p, hp⟩ := hm
      obtain ⟨l1, l2, e⟩ := List.append_of_mem hp
      rcases has with rfl | rfl
      · exact main p _ _ (.prev e)
      · exact main p _ _ (.next e)
    · obtain ⟨h', e, S⟩ := tryCreate_root I.wf hal ht (fun p hp => hm ⟨p, hp⟩) has d
      obtain ⟨I1, K⟩ := I.sameLive S
      have e0 : w.heap.nodeCreate n d as = .ok (h', .error .siblingsWithoutParent) := by
        rw [nodeCreate_eq I.wf hal ht]; exact e
      have hnn := (made_create e0).1.nNode
      have halx : ∀ x, h'.alive x = w.heap.alive x := fun x => by simp [Heap.alive, S.data]
      refine .of I1 (r := .err .siblingsWithoutParent) (a' := { w.view ch with newNode := w.heap.nNode + 1 }) ?_
        ⟨I1.wf.toFShape, S.data.symm, ?_, ?_, S.root.symm, hnn.symm, S.nTree.symm, rfl, rfl, rfl, rfl⟩
        (.createFails hfit (fun p hp => hm ⟨p, hp⟩) has)
      · simp only [World.exec, checkAuth_ok hf, bind, Except.bind, e0]
        rfl
      · intro x
        show (w.heap.alive x && w.heap.mutB x) = (h'.alive x && h'.mutB x)
        rw [halx]
        cases hx : w.heap.alive x with
        | false => rfl
        | true => rw [S.mutB x hx]
      · intro x
        show (if w.heap.alive x then w.heap.memTree x else none) = if h'.alive x then h'.memTree x else none
        rw [halx]
        cases hx : w.heap.alive x with
        | false => rfl
        | true => simp [Heap.memTree, S.mem x hx]
  cases as with
  | firstChild => exact main n _ _ (.first n)
  | lastChild => exact main n _ _ (.last n)
  | previousSibling => exact hsib (.inl rfl)
  | nextSibling => exact hsib (.inr rfl)

theorem Inv.play_createParent {d : α} (I : Inv w ch) (ha : w.HasAuth n au)
    (hf : TokenFits w.heap n au) (hr : Room w.heap) : Plays w ch (.createParent au n d) := by
  have hal := I.held_alive ha.holds
  obtain ⟨t, ht, hta⟩ := I.wf.tree.live n hal
  have hgp := I.auth_grants ha hf ht
  have hfit : (w.view ch).Fits n au := (I.view.fits hal).2 hf
  have htv : (w.view ch).tree n = some t := by rw [I.view.tree_of hal]; exact ht
  have hfresh := I.wf.toFShape.fresh_not_alive
  by_cases hm : ∃ p, n ∈ ch p
  · obtain ⟨p, hp⟩ := hm
    obtain ⟨l1, l2, hs⟩ := List.append_of_mem hp
    obtain ⟨h', e, C, W⟩ := interruptParent_nonroot I.wf hs ht d
    have hpt : w.heap.memTree p = some t := by
      rw [← I.wf.tree.child n p hal (I.wf.parent_of_mem hp)]; exact ht
    obtain ⟨I1, K⟩ := I.createdPlain (d := d) W hta C.data C.mutB C.mem
      (fun u => by simp [Heap.treeAlive, C.root]) C.grants C.treeRc C.nNode C.nTree (by
        intro x hx hxt
        have h1 : x ≠ p := by rintro rfl; exact hxt hpt
        have h2 : x ≠ w.heap.nNode := by rintro rfl; rw [hfresh] at hx; cases hx
        simp [h1, h2])
    refine I.play_created (au := au) I1 C.data C.mutB C.mem C.root C.nNode C.nTree C.grants hr hta hgp ?_
      (.createParent hfit htv hs)
    simp only [World.exec, checkAuth_ok hf, bind, Except.bind, e]
  · have hpn := I.wf.toFShape.parent_none hal (fun p hp => hm ⟨p, hp⟩)
    obtain ⟨h', e, C, hroot, W⟩ := interruptParent_root I.wf hal hpn ht d
    obtain ⟨I1, K⟩ := I.createdPlain (d := d) W hta C.data C.mutB C.mem
      (fun u => by
        simp only [Heap.treeAlive, hroot, upd_apply]
        split
        · rename_i e; subst e; simp only [Heap.treeAlive] at hta; rw [hta]; rfl
        · rfl) C.grants C.treeRc C.nNode C.nTree (by
        intro x hx hxt
        have h2 : x ≠ w.heap.nNode := by rintro rfl; rw [hfresh] at hx; cases hx
        simp [h2])
    refine I.play_created (au := au) I1 C.data C.mutB C.mem hroot C.nNode C.nTree C.grants hr hta hgp ?_
      (.createRoot hfit htv (fun p hp => hm ⟨p, hp⟩))
    simp only [World.exec, checkAuth_ok hf, bind, Except.bind, e]

theorem Inv.play_createChild {d : α} (I : Inv w ch) (ha : w.HasAuth n au)
    (hf : TokenFits w.heap n au) (hr : Room w.heap) : Plays w ch (.createChild au n d) := by
  have hal := I.held_alive ha.holds
  obtain ⟨t, ht, hta⟩ := I.wf.tree.live n hal
  have hgp := I.auth_grants ha hf ht
  have hfit : (w.view ch).Fits n au := (I.view.fits hal).2 hf
  have htv : (w.view ch).tree n = some t := by rw [I.view.tree_of hal]; exact ht
  have hfresh := I.wf.toFShape.fresh_not_alive
  obtain ⟨h', e, C, W⟩ := interruptChild_spec I.wf hal ht d
  obtain ⟨I1, K⟩ := I.createdPlain (d := d) W hta C.data C.mutB C.mem
    (fun u => by simp [Heap.treeAlive, C.root]) C.grants C.treeRc C.nNode C.nTree (by
      intro x hx hxt
      have h1 : x ≠ n := by rintro rfl; exact hxt ht
      have h2 : x ≠ w.heap.nNode := by rintro rfl; rw [hfresh] at hx; cases hx
      simp [h1, h2])
  refine I.play_created (au := au) I1 C.data C.mutB C.mem C.root C.nNode C.nTree C.grants hr hta hgp ?_
    (.createChild hfit htv)
  simp only [World.exec, checkAuth_ok hf, bind, Except.bind, e]

theorem rehome_tree (a : Forest α) {P : NodeId → Prop} {D : List NodeId} (hP : ∀ x, x ∈ D ↔ P x) (x : NodeId) :
    (a.rehome P t).tree x = if x ∈ D then some t else a.tree x := by
  simp only [Forest.rehome, ← hP]

theorem Inv.play_detach (I : Inv w ch) (ha : w.HasAuth n au) (hf : TokenFits w.heap n au) :
    Plays w ch (.detach au n) := by
  have hal := I.held_alive ha.holds
  have hfit : (w.view ch).Fits n au := (I.view.fits hal).2 hf
  obtain ⟨t, rc, lk, hm, -, hta⟩ := I.tree_of_held ha.holds
  have ht := memTree_strong hm
  have hgp := I.auth_grants ha hf ht
  by_cases hm' : ∃ p, n ∈ ch p
  · obtain ⟨p, hp⟩ := hm'
    obtain ⟨l1, l2, hs⟩ := List.append_of_mem hp
    obtain ⟨T, hT⟩ := I.wf.exists_subtree n
    have hDm : ∀ x ∈ T.nodes, w.heap.alive x = true ∧ w.heap.memTree x = some t := by
      intro x hx
      have hd := (hT.mem_nodes_iff x).1 hx
      exact ⟨I.wf.toFShape.desc_alive hal hd, (I.wf.tree.desc_memTree I.wf.toFShape hd).trans ht⟩
    have hD := hT.nodup I.wf.toFShape
    have hb : w.heap.grants t ≤ Lock.isizeMax := by
      obtain ⟨_, _, _, _, hb⟩ := I.locks t hta; exact hb.2
    have hl := I.locksCounted hta (by omega) _ hD (fun x hx => (hDm x hx).2)
    obtain ⟨h0, h', ch', e, sim, W, R, e1, e2, e3⟩ :=
      detach_wide I.wf hs hT hm hl (by omega)
    have hpt : w.heap.memTree p = some t := by
      rw [← I.wf.tree.child n p hal (I.wf.parent_of_mem hp)]; exact ht
    have R' : Rehomed (w.heap.setRoot t (w.heap.root t)) h' (upd ch p (l1 ++ l2)) ch' T.nodes t w.heap.nTree 0 := by
      rw [setRoot_self]; exact R
    obtain ⟨I', K⟩ := I.rehomedNew (r0 := w.heap.root t) W R' hta hta
      (by omega) hD hDm (by rw [e1]; rfl) e2 e3 (by
        intro x hx
        have : x ≠ p := by rintro rfl; exact hx hpt
        simp [this])
    have hne : t ≠ w.heap.nTree := Nat.ne_of_lt (I.wf.tree.bound t hta)
    refine ⟨{ w with heap := h0 }, .unit, { w with heap := h' }, StaleHead l1 l2, _, ?_, (SimW.refl w).withHeap sim,
      I.shows_rehomed I' R' hne (fun x hx => (hDm x hx).1) (b :=
        (((w.view ch).rehome (Desc ch n) w.heap.nTree).addTree n).setChildren p (l1 ++ l2)) rfl rfl rfl
        (rehome_tree _ hT.mem_nodes_iff) ?_ ?_ ?_ rfl e3.symm rfl rfl rfl rfl, .detach hfit hs⟩
    · simp only [World.exec, checkAuth_ok hf, bind, Except.bind, e, pure, Except.pure]
    · rw [e1]; exact upd_same _ _ _
    · exact upd_ne _ _ hne
    · intro u _ hu; exact upd_ne _ _ hu
  · have hpn := I.wf.toFShape.parent_none hal (fun p hp => hm' ⟨p, hp⟩)
    have hrt : w.heap.isRoot n = true := (I.wf.toFShape.isRoot_iff hal).2 hpn
    refine .of I (r := .unit) ?_ I.view (.detachRoot hfit (fun p hp => hm' ⟨p, hp⟩))
    simp only [World.exec, checkAuth_ok hf, bind, Except.bind, Heap.detachSubtree, hrt, if_true, pure,
      Except.pure]

theorem Inv.play_replace (I : Inv w ch) (ha : w.HasAuth n au) (hf : TokenFits w.heap n au) :
    Plays w ch (.replace au n) := by
  have hal := I.held_alive ha.holds
  have hfit : (w.view ch).Fits n au := (I.view.fits hal).2 hf
  obtain ⟨t, rc, lk, hm, -, hta⟩ := I.tree_of_held ha.holds
  have ht := memTree_strong hm
  have htv : (w.view ch).tree n = some t := by rw [I.view.tree_of hal]; exact ht
  have hgp := I.auth_grants ha hf ht
  have hDm : ∀ x ∈ [n], w.heap.alive x = true ∧ w.heap.memTree x = some t := by
    intro x hx; rw [List.mem_singleton] at hx; subst hx; exact ⟨hal, ht⟩
  have hD : [n].Nodup := by simp
  have hl := I.locksCounted hta (by omega) _ hD (fun x hx => (hDm x hx).2)
  have hne : t ≠ w.heap.nTree := Nat.ne_of_lt (I.wf.tree.bound t hta)
  by_cases hm' : ∃ p, n ∈ ch p
  · obtain ⟨p, hp⟩ := hm'
    obtain ⟨l1, l2, hs⟩ := List.append_of_mem hp
    obtain ⟨h0, h', ch', e, sim, W, R, e1, e2, e3⟩ := replace_nonroot_wide I.wf hs hm hl
    have hpt : w.heap.memTree p = some t := by
      rw [← I.wf.tree.child n p hal (I.wf.parent_of_mem hp)]; exact ht
    have R' : Rehomed (w.heap.setRoot t (w.heap.root t)) h' (upd (upd ch p (l1 ++ (ch n ++ l2))) n []) ch' [n] t
        w.heap.nTree 0 := by
      rw [setRoot_self]; exact R
    obtain ⟨I', K⟩ := I.rehomedNew (r0 := w.heap.root t) W R' hta hta
      (by omega) hD hDm (by rw [e1]; rfl) e2 e3 (by
        intro x hx
        have h1 : x ≠ p := by rintro rfl; exact hx hpt
        have h2 : x ≠ n := by rintro rfl; exact hx ht
        simp [h1, h2])
    refine ⟨{ w with heap := h0 }, .unit, { w with heap := h' }, _, _, ?_, (SimW.refl w).withHeap sim,
      I.shows_rehomed I' R' hne (fun x hx => (hDm x hx).1) (b :=
        ((((w.view ch).rehome (· = n) w.heap.nTree).addTree n).setChildren p (l1 ++ ch n ++ l2)).setChildren n [])
        ?_ rfl rfl (rehome_tree _ (by simp)) ?_ ?_ ?_ rfl e3.symm rfl rfl rfl rfl, .replace hfit hs⟩
    · simp only [World.exec, checkAuth_ok hf, bind, Except.bind, e, pure, Except.pure]
    · show upd (upd ch p (l1 ++ ch n ++ l2)) n [] = _
      rw [List.append_assoc]
    · rw [e1]; exact upd_same _ _ _
    · exact upd_ne _ _ hne
    · intro u _ hu; exact upd_ne _ _ hu
  · have hpn := I.wf.toFShape.parent_none hal (fun p hp => hm' ⟨p, hp⟩)
    have htop : (w.view ch).IsTop n := fun p hp => hm' ⟨p, hp⟩
    by_cases hl1 : (ch n).length = 1
    · obtain ⟨c, hc⟩ : ∃ c, ch n = [c] := List.length_eq_one_iff.1 hl1
      obtain ⟨h', ch', e, W, R, e1, e2, e3⟩ := replace_root_spec I.wf hc hpn hm hl
      obtain ⟨I', K⟩ := I.rehomedNew (r0 := some c) W R rfl hta
        (by omega) hD hDm (by rw [e1]; rfl) e2 e3 (by
          intro x hx
          have h2 : x ≠ n := by rintro rfl; exact hx ht
          simp [h2])
      refine .of I' (r := .unit) ?_ (I.shows_rehomed I' R hne (fun x hx => (hDm x hx).1) (b :=
        ((((w.view ch).rehome (· = n) w.heap.nTree).setRoot t c).addTree n).setChildren n [])
        rfl rfl rfl (rehome_tree _ (by simp)) ?_ ?_ ?_ rfl e3.symm rfl rfl rfl rfl) (.replaceRoot hfit htop hc htv)
      · simp only [World.exec, checkAuth_ok hf, bind, Except.bind, e, pure, Except.pure]
      · rw [e1]; exact upd_same _ _ _
      · exact (upd_ne _ _ hne).trans (upd_same _ _ _)
      · intro u hu hu'; exact (upd_ne _ _ hu').trans (upd_ne _ _ hu)
    · have e := replace_root_fail I.wf hpn hm hl1
      refine .of I (r := .err (if ch n = [] then .emptyTree else .siblingsWithoutParent)) ?_ I.view ?_
      · simp only [World.exec, checkAuth_ok hf, bind, Except.bind, e, pure, Except.pure]
      · split
        · rename_i e0; exact .replaceEmpty hfit htop e0
        · rename_i e0
          refine .replaceSeveral hfit htop ?_
          show 1 < (ch n).length
          have := List.length_pos_iff.2 e0
          omega

theorem Inv.play_move {dest : InsertAs NodeId} (I : Inv w ch) (ha : w.HasAuth n au)
    (hf : TokenFits w.heap n au) (hd : 0 < w.held .hot dest.anchor)
    (hs : MoveFits w.heap ch n dest) (hr : Room w.heap) : Plays w ch (.move au n dest) := by
  have hal := I.held_alive ha.holds
  have hfit : (w.view ch).Fits n au := (I.view.fits hal).2 hf
  have hala := I.held_alive hd
  obtain ⟨t, rc, lk, hm, -, hta⟩ := I.tree_of_held ha.holds
  have ht := memTree_strong hm
  have htv : (w.view ch).tree n = some t := by rw [I.view.tree_of hal]; exact ht
  have hgp := I.auth_grants ha hf ht
  rcases hs with ⟨hroot, hsame⟩ | ⟨⟨p, hp⟩, hnd, hsib, hlast⟩ | lonely
  · have hpn := I.wf.toFShape.parent_none hal hroot
    have hrt : w.heap.isRoot n = true := (I.wf.toFShape.isRoot_iff hal).2 hpn
    have hb : w.heap.belongsToSameTree n dest.anchor = true := by
      simp [Heap.belongsToSameTree, hsame]
    refine .of I (r := .unit) ?_ I.view (.moveRoot hfit hroot ?_)
    · simp only [World.exec, checkAuth_ok hf, bind, Except.bind, Heap.detachInsert, hb, Heap.moveSame,
        hrt, if_true, pure, Except.pure]
    · rw [I.view.tree_of hal, I.view.tree_of hala]; exact hsame
  · obtain ⟨l1, l2, hs⟩ := List.append_of_mem hp
    have herase := I.wf.toFShape.erase_eq hs
    have hpt : w.heap.memTree p = some t := by
      rw [← I.wf.tree.child n p hal (I.wf.parent_of_mem hp)]; exact ht
    have hne : dest.anchor ≠ n := fun e => hnd (e ▸ .refl _)
    by_cases hsame : w.heap.memTree n = w.heap.memTree dest.anchor
    · -- inside one tree
      have hsib1 : dest.isSibling = true → ∃ q, dest.anchor ∈ upd ch p (l1 ++ l2) q := by
        intro e
        obtain ⟨q, hq⟩ := hsib e
        refine ⟨q, ?_⟩
        by_cases eq : q = p
        · subst eq
          rw [hs] at hq
          simp only [upd_same]
          simp only [List.mem_append, List.mem_cons] at hq ⊢
          rcases hq with h1 | h1 | h1
          · exact .inl h1
          · exact absurd h1 hne
          · exact .inr h1
        · rw [upd_ne _ _ eq]; exact hq
      obtain ⟨q, m1, m2, hds, hq⟩ := exists_destSplit hsib1
      have hq' : q = dest.anchor ∨ dest.anchor ∈ ch q := by
        rcases hq with h1 | h1
        · exact .inl h1
        · right
          by_cases eq : q = p
          · subst eq
            simp only [upd_same] at h1
            rw [hs]
            simp only [List.mem_append, List.mem_cons] at h1 ⊢
            rcases h1 with h1 | h1
            · exact .inl h1
            · exact .inr (.inr h1)
          · rwa [upd_ne _ _ eq] at h1
      have hqa : w.heap.alive q = true := by
        rcases hq' with h1 | h1
        · rw [h1]; exact hala
        · exact I.wf.alive_parent h1
      have hqt : w.heap.memTree q = some t := by
        rcases hq' with h1 | h1
        · rw [h1, ← hsame]; exact ht
        · rw [← I.wf.tree.child _ q hala (I.wf.parent_of_mem h1), ← hsame]; exact ht
      have hqd : ¬ Desc ch n q := by
        intro hc
        rcases hq' with h1 | h1
        · rw [h1] at hc; exact hnd hc
        · exact hnd (.step hc h1)
      have hend : l2 = [] → l1 ≠ [] → q = p → m1 ≠ [] ∧ m2 ≠ [] := by
        intro h2 h1 eq
        have h3 := hlast p (lastOf_of hs h2 h1)
        rw [herase] at h3
        refine ⟨fun e => h3 ?_, fun e => h3 ?_⟩
        · exact ⟨m1, m2, eq ▸ hds, .inl e⟩
        · exact ⟨m1, m2, eq ▸ hds, .inr e⟩
      obtain ⟨h0, h', e, sim, S, W⟩ := moveSame_wideSpec I.wf hs hend hds hqa hqd (ht.trans hqt.symm)
      obtain ⟨I', K⟩ := S.inv (t := t) I W (by
        intro x hx
        have h1 : x ≠ p := by rintro rfl; exact hx hpt
        have h2 : x ≠ q := by rintro rfl; exact hx hqt
        simp [h1, h2])
      have halx : ∀ x, h'.alive x = w.heap.alive x := fun x => by simp [Heap.alive, S.data]
      refine ⟨{ w with heap := h0 }, .unit, { w with heap := h' }, StaleHead l1 l2, _, ?_, (SimW.refl w).withHeap sim,
        I'.shows_sweep (b := (((w.view ch).rehome (Desc ch n) t).setChildren p (l1 ++ l2)).setChildren q
          (m1 ++ n :: m2)) rfl rfl rfl rfl S.nNode.symm S.nTree.symm ?_ ?_ ?_,
        .move (t := t) hfit hs (by rw [I.view.tree_of hala, ← hsame]; exact ht) hnd hds⟩
      · simp only [World.exec, checkAuth_ok hf, bind, Except.bind, e, pure, Except.pure]
      · intro x hx
        replace hx : h'.alive x = true := hx
        rw [halx] at hx
        refine ⟨congrFun S.data.symm x, ?_, rfl, ?_⟩
        · show (w.heap.alive x && w.heap.mutB x) = h'.mutB x
          rw [hx, S.mutB]; rfl
        · show ((w.view ch).rehome (Desc ch n) t).tree x = h'.memTree x
          rw [S.memTree]
          simp only [Forest.rehome]
          split
          · rename_i hdx
            exact (ht.symm.trans (I.wf.tree.desc_memTree I.wf.toFShape hdx).symm)
          · rw [I.view.tree_of hx]
      · intro x u hx hu
        replace hx : h'.alive x = false := hx
        rw [halx] at hx
        exfalso
        replace hu : ((w.view ch).rehome (Desc ch n) t).tree x = some u := hu
        simp only [Forest.rehome] at hu
        split at hu
        · rename_i hdx
          rw [I.wf.toFShape.desc_alive hal hdx] at hx; cases hx
        · rw [(I.view.tree_some hu).1] at hx; cases hx
      · intro u _; exact congrFun S.root.symm u
    · -- to another tree
      obtain ⟨q, m1, m2, hds, hq⟩ := exists_destSplit hsib
      have hqa : w.heap.alive q = true := by
        rcases hq with h1 | h1
        · rw [h1]; exact hala
        · exact I.wf.alive_parent h1
      obtain ⟨t', ht'', hta'⟩ := I.wf.tree.live _ hala
      have hqt : w.heap.memTree q = some t' := by
        rcases hq with h1 | h1
        · rw [h1]; exact ht''
        · rw [← I.wf.tree.child _ q hala (I.wf.parent_of_mem h1)]; exact ht''
      have htt : t ≠ t' := by
        rintro rfl; exact hsame (ht.trans ht''.symm)
      have hgp' := I.hot_grants hd ht''
      obtain ⟨T, hT⟩ := I.wf.exists_subtree n
      have hDm : ∀ x ∈ T.nodes, w.heap.alive x = true ∧ w.heap.memTree x = some t := by
        intro x hx
        have hd := (hT.mem_nodes_iff x).1 hx
        exact ⟨I.wf.toFShape.desc_alive hal hd, (I.wf.tree.desc_memTree I.wf.toFShape hd).trans ht⟩
      have hD := hT.nodup I.wf.toFShape
      have hl := I.locksCounted hta (by omega) _ hD (fun x hx => (hDm x hx).2)
      obtain ⟨r1, r2⟩ := hr t hta
      obtain ⟨r3, r4⟩ := hr t' (I.wf.tree_alive (I.held_alive hd) ht'')
      have hmax : w.heap.grants t' + w.heap.lockedIn T.nodes ≤ Lock.isizeMax := by
        simp only [Lock.isizeMax]; omega
      obtain ⟨h0, h', ch', e, sim, W, R, ⟨e1, e2, e3⟩, -⟩ :=
        moveOther_wide I.wf hs hT ht hds hqa hqt htt hl (by omega) hmax
      obtain ⟨L', hL', hmem', G'⟩ := (I.locks t' hta').grantMode (by omega)
      have R' : Rehomed (w.heap.setRoot t (w.heap.root t)) h' (upd (upd ch p (l1 ++ l2)) q (m1 ++ n :: m2)) ch'
          T.nodes t t' (w.heap.grants t') := by
        rw [setRoot_self]; exact R
      obtain ⟨I', K⟩ := I.rehomed (r0 := w.heap.root t) (L' := L') W R'
        hta hta (by omega) htt hD hDm (by rw [e1]; exact hta') (by rw [e2]; exact I.treeRc t')
        (.inl hta') hL' hmem' G'.1 G'.2.1 G'.2.2 hmax (Nat.le_of_eq e3.symm)
        (by rw [e3]; exact I.wf.tree.bound _ hta') (by
          intro x hx hx'
          have h1 : x ≠ p := by rintro rfl; exact hx hpt
          have h2 : x ≠ q := by rintro rfl; exact hx' hqt
          simp [h1, h2])
      have hpq : p ≠ q := by
        rintro rfl
        rw [hpt] at hqt; exact htt (by simpa using hqt)
      have hds' : DestSplit (upd ch p (l1 ++ l2)) dest q m1 m2 := by
        have e1 : upd ch p (l1 ++ l2) q = ch q := upd_ne _ _ (Ne.symm hpq)
        cases hds with
        | first => rw [← e1]; exact .first _
        | last => rw [← e1]; exact .last _
        | prev hs => exact .prev (e1.trans hs)
        | next hs => exact .next (e1.trans hs)
      refine ⟨{ w with heap := h0 }, .unit, { w with heap := h' }, StaleHead l1 l2, _, ?_, (SimW.refl w).withHeap sim,
        I.shows_rehomed I' R' htt (fun x hx => (hDm x hx).1) (b :=
          (((w.view ch).rehome (Desc ch n) t').setChildren p (l1 ++ l2)).setChildren q (m1 ++ n :: m2)) rfl rfl rfl
          (rehome_tree _ hT.mem_nodes_iff) e1.symm rfl (fun _ _ _ => rfl) rfl e3.symm rfl rfl rfl rfl,
        .move hfit hs (by rw [I.view.tree_of hala]; exact ht'') hnd hds'⟩
      · simp only [World.exec, checkAuth_ok hf, bind, Except.bind, e, pure, Except.pure]
  · -- the only node of its tree
    obtain ⟨q, m1, m2, t', G, hanc, hta', hrc⟩ := I.rootGoes ha hf hd lonely hr ht
    obtain ⟨h', e, W, -, -, -, e1, e2, -, e3, -, R⟩ := G.leafMoves hrc
    have hgp' := G.grants'
    obtain ⟨L', hL', hmem', G'⟩ := (I.locks t' hta').grantMode G.grants'
    have hmax : w.heap.grants t' + w.heap.lockedIn [n] ≤ Lock.isizeMax := by
      have h1 := G.locks [n] (by simp) (by simp [ht])
      have := G.room
      omega
    have R' : Rehomed (w.heap.setRoot t (w.heap.root t)) h' (upd ch q (m1 ++ n :: m2)) (upd ch q (m1 ++ n :: m2))
        [n] t t' (w.heap.grants t') := by
      rw [setRoot_self]; exact R
    obtain ⟨I', K⟩ := I.rehomed (r0 := w.heap.root t) (L' := L') W R'
      hta hta (by omega) G.ne (by simp) (by simp [hal, ht]) (by rw [e1, upd_ne _ _ G.ne.symm]; exact hta')
      (by rw [e2]; exact I.treeRc t') (.inl hta') hL' hmem' G'.1 G'.2.1 G'.2.2 hmax (Nat.le_of_eq e3.symm)
      (by rw [e3]; exact I.wf.tree.bound _ hta') (by
        intro x hx hx'
        have h2 : x ≠ q := by rintro rfl; exact hx' G.memb'
        simp [h2])
    have hdesc : ∀ x, x ∈ [n] ↔ Desc ch n x := by
      intro x
      rw [List.mem_singleton]
      constructor
      · rintro rfl; exact .refl _
      · intro hx
        induction hx with
        | refl => rfl
        | step _ h2 ih => subst ih; rw [lonely.2.1] at h2; simp at h2
    refine .of I' (r := .unit) ?_ (I.shows_rehomed I' R' G.ne (fun x hx => by
        rw [List.mem_singleton] at hx; subst hx; exact hal) (b :=
          ((w.view ch).rehome (Desc ch n) t').setChildren q (m1 ++ n :: m2)) rfl rfl rfl
          (rehome_tree _ hdesc) ?_ rfl (fun _ _ _ => rfl) rfl e3.symm rfl rfl rfl rfl)
        (.moveWhole hfit lonely.1 htv ?_ (by rw [I.view.tree_of hala]; exact hanc) G.ne G.split)
    · simp only [World.exec, checkAuth_ok hf, bind, Except.bind, e, pure, Except.pure]
    · rw [e1, upd_ne _ _ G.ne.symm]; rfl
    · show w.trees t = 0
      rw [← I.treeRc t]; exact hrc

/-- Every call of a program is a step of the abstract machine. -/
theorem Inv.plays (I : Inv w ch) (ha : w.Allowed op) (hs : CallFits w.heap ch op)
    (hr : Room w.heap) (hf : TokenOK w.heap op) : Plays w ch op := by
  cases op with
  | newTree hot d => exact I.play_newTree
  | clone k n => exact I.play_clone ha
  | drop k n => exact I.play_drop ha
  | nav k q n => exact I.play_nav ha hr
  | upgrade n => exact I.play_upgrade
  | plainOf k n => exact I.play_plainOf ha.2
  | bundle k n => exact I.play_bundle ha.1 ha.2 hr
  | bundleWith k n t => exact I.play_bundleWith ha.1 ha.2 hr hf
  | treeOf k n => exact I.play_treeOf ha
  | cloneTree t => exact I.play_cloneTree ha
  | dropTree t => exact I.play_dropTree ha
  | treeRoot t => exact I.play_treeRoot ha
  | upgradeTree t => exact I.play_upgradeTree
  | acquire b t => exact I.play_acquire ha hr
  | cloneTok b t => exact I.play_cloneTok ha hr
  | dropTok b t => exact I.play_dropTok ha
  | extract b n => exact I.play_extract ha hr
  | create a n d as => exact I.play_create ha hf hr
  | createParent a n d => exact I.play_createParent ha hf hr
  | createChild a n d => exact I.play_createChild ha hf hr
  | detach a n => exact I.play_detach ha hf
  | replace a n => exact I.play_replace ha hf
  | move a n dest => exact I.play_move ha.1 hf ha.2 hs hr
  | write n d => exact I.play_write ha
  | borrowMut n b => exact I.play_borrowMut ha

theorem Shows.simW {D : NodeId → Prop} (s : SimW D w v) (S : Shows w a) : Shows v a where
  children := s.heap.fshape S.children
  data := by rw [S.data, s.heap.data]
  borrowed n := by rw [S.borrowed, s.heap.alive, s.heap.mutB]
  tree n := by rw [S.tree, s.heap.alive, s.heap.memTree]
  root := by rw [S.root, s.heap.root]
  newNode := by rw [S.newNode, s.heap.nNode]
  newTree := by rw [S.newTree, s.heap.nTree]
  held := by rw [S.held, s.held]
  trees := by rw [S.trees, s.trees]
  grantTok := by rw [S.grantTok, s.grantTok]
  prohTok := by rw [S.prohTok, s.prohTok]

/-- A call in a state with stale pointers. -/
theorem Wide.plays (W : Wide w v ch) (S : Shows w a) (ha : w.Allowed op) (hs : CallFits w.heap ch op)
    (hu : ∀ p, UsesLast ch op p → LastRight w.heap ch p) (hr : Room w.heap) (hf : TokenOK w.heap op) :
    ∃ w' r a', w.exec op = .ok (w', r) ∧ Shows w' a' ∧ a.Step op r a' := by
  have s := W.sim
  have I := W.inv
  have hU : ∀ p, UsesLast ch op p → ∀ x, (ch p).head? = some x →
      ¬ (w.heap.prevCyc x ≠ v.heap.prevCyc x) := by
    intro p hp x hx hd; exact hd (W.lastRight (hu p hp) hx)
  have R := I.opReads (s.allowed ha) (s.room hr) (s.heap.tokenOK hf) (s.heap.callFits hs) W.heads hU
  obtain ⟨v1, r, v', D', a', e, s1, S', st⟩ :=
    I.plays (s.allowed ha) (s.heap.callFits hs) (s.room hr) (s.heap.tokenOK hf)
  have R2 := s.symm.exec R
    (I.opEq (D := fun _ => False) (s.allowed ha) (s.room hr) (s.heap.tokenOK hf) (s.heap.callFits hs)
      (fun _ hx => hx.elim) (fun _ _ _ _ hx => hx) (Sim.refl _))
    (I.opEq (s.allowed ha) (s.room hr) (s.heap.tokenOK hf) (s.heap.callFits hs) W.heads hU s.heap.symm)
  rw [e] at R2
  obtain ⟨⟨w', r'⟩, e', s2, er⟩ := (Rel.flip (Q := fun a b => SimR _ b a) R2 fun _ _ h => h).get
  simp only at s2 er
  subst er
  have hv := (S.simW s).eq_view I.wf.toFShape
  rw [← hv] at st
  exact ⟨w', r, a', e', (S'.simW s1.symm).simW s2, st⟩

end Dendron
