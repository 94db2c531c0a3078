import Verif.Proofs.WorldStep
import Verif.Proofs.RootLeaf

/-! Every call keeps the invariant: edits of the hierarchy. -/

set_option linter.unusedSimpArgs false
set_option linter.unusedVariables false

set_option autoImplicit false

namespace Dendron
variable {α : Type} {h h' : Heap α} {w w' : World α} {ch ch' : NodeId → List NodeId} {n m r p q : NodeId}
  {t t' : TreeId} {k : Kind} {op : Op α} {a : Auth} {l1 l2 : List NodeId}

theorem nodup_length_le_of_subset {D L : List NodeId} (hD : D.Nodup) (hL : L.Nodup)
    (hs : ∀ x ∈ D, x ∈ L) : D.length ≤ L.length := by
  have h1 : (L.filter (fun x => decide (x ∈ D))).Perm D := by
    refine (List.perm_ext_iff_of_nodup (hL.filter _) hD).2 ?_
    intro x
    simp only [List.mem_filter, decide_eq_true_eq]
    exact ⟨fun e => e.2, fun e => ⟨hs x e, e⟩⟩
  rw [← h1.length_eq]
  exact List.length_filter_le _ _

/-- In a tree whose counter is not negative, the hot nodes are counted. -/
theorem Inv.locksCounted (I : Inv w ch) (hta : w.heap.treeAlive t = true)
    (hg : 0 ≤ w.heap.grants t) : LocksCounted w.heap t := by
  obtain ⟨L, hL, hmem, G⟩ := (I.locks t hta).grantMode hg
  intro D hD hm
  have : (D.filter w.heap.locked).length ≤ L.length := by
    refine nodup_length_le_of_subset (hD.filter _) hL ?_
    intro x hx
    rw [List.mem_filter] at hx
    exact (hmem x).2 ⟨hm x hx.1, (locked_iff I x).1 hx.2⟩
  have := G.2.2
  simp only [Heap.lockedIn]; omega

theorem checkAuth_ok (hf : TokenFits w.heap n a) : w.checkAuth a n = .ok () := by
  cases a with
  | hot => rfl
  | token t =>
    have : w.heap.memTree n = some t := hf
    simp [World.checkAuth, Heap.belongsTo, this]

theorem Keeps.dropFresh {U U' : TreeId → Prop} {X : NodeId → Prop} (K : Keeps h h' ch ch' U X)
    (W : WF h ch) (hU : ∀ t, U t → U' t ∨ h.nTree ≤ t) : Keeps h h' ch ch' U' X where
  stay n t a b c d := by
    refine K.stay n t a b (fun e => ?_) d
    rcases hU t e with h1 | h1
    · exact c h1
    · exact absurd (W.tree.bound t (W.tree_alive a b)) (Nat.not_lt.2 h1)
  noJoin n t a b c d := by
    refine K.noJoin n t a b (fun e => ?_) d
    rcases hU t e with h1 | h1
    · exact c h1
    · exact absurd d (Nat.not_lt.2 h1)
  died := K.died
  data := K.data
  mutB := K.mutB
  nodes := K.nodes
  trees := K.trees
  fresh := K.fresh
  freshTree := K.freshTree

/-- After a successful creation. -/
theorem Inv.afterCreate (I : Inv w ch) (I1 : Inv (({ w with heap := h' }).give .plain n) ch')
    (K : Keeps w.heap h' ch ch' (fun u => u = t) NoNode) (ht : h'.memTree n = some t)
    (hg : h'.grants = w.heap.grants) (hr : Room w.heap) (hta : w.heap.treeAlive t = true) (hp : 0 < w.heap.grants t) :
    ∃ w' r, ({ w with heap := h' } : World α).created a.kind n = .ok (w', r) ∧ Inv w' ch' ∧
      Keeps w.heap w'.heap ch ch' (fun u => u = t) NoNode := by
  obtain ⟨r1, r2⟩ := hr t hta
  obtain ⟨h2, e2, I2, S2⟩ := I1.created (k := a.kind) ht (by
    cases a <;> simp only [Auth.kind, Lockable, hg, Lock.isizeMax] <;> omega)
  exact ⟨_, _, e2, I2, K.still S2⟩

theorem Rehomed.stays {ch1 : NodeId → List NodeId} {D : List NodeId} {g : Int} {x : NodeId}
    (R : Rehomed h h' ch1 ch' D t t' g) (hmt : h.memTree x = h.memTree q) (hcl : x ∈ D → q ∈ D)
    (ha : h'.alive x = true) : ch' q = ch1 q := by
  refine R.children q fun hab => ?_
  have : h'.alive x = false := R.freed x ⟨hab.1, hmt.trans hab.2.1, fun hx => hab.2.2 (hcl hx)⟩
  rw [ha] at this; cases this

theorem head?_append_eq {x : NodeId} {l l' l'' : List NodeId} (hl : l ≠ []) (e : (l ++ l').head? = some x) :
    (l ++ l'').head? = some x := by
  cases l with
  | nil => exact absurd rfl hl
  | cons a l => exact e

theorem FShape.erase_eq (S : FShape h ch) (hs : ch p = l1 ++ n :: l2) :
    (fun q => (ch q).erase n) = upd ch p (l1 ++ l2) := by
  funext q
  have hm : n ∈ ch p := by simp [hs]
  by_cases e : q = p
  · subst e
    have hnd := S.nodup q
    rw [hs, nodup_mid] at hnd
    simp only [upd_same, hs]
    rw [List.erase_append_right _ hnd.1, List.erase_cons_head]
  · simp only [upd_ne _ _ e]
    exact List.erase_of_not_mem fun hq => e (S.unique_parent hq hm)

theorem lastOf_of (hs : ch p = l1 ++ n :: l2) (h2 : l2 = []) (h1 : l1 ≠ []) : LastOf ch n p := by
  subst h2
  rcases List.eq_nil_or_concat l1 with e | ⟨l, x, e⟩
  · exact absurd e h1
  · exact ⟨l, x, by rw [hs, e]; simp⟩

theorem StaleHead.ne_nil {x : NodeId} (s : StaleHead l1 l2 x) : l1 ≠ [] := by
  rintro rfl; simp [StaleHead] at s

theorem StaleHead.head {x : NodeId} (s : StaleHead l1 l2 x) (l : List NodeId) : (l1 ++ l).head? = some x :=
  head?_append_eq (l' := []) s.ne_nil (by rw [List.append_nil]; exact s.2)

/-- A child of a node of the subtree of `n` is in the subtree. -/
theorem FShape.desc_parent {x : NodeId} (S : FShape h ch) (hd : Desc ch n x) (hx : x ∈ ch q) (hne : x ≠ n) :
    Desc ch n q := by
  cases hd with
  | refl => exact absurd rfl hne
  | step h1 h2 => rw [S.unique_parent hx h2]; exact h1

theorem WF.memTree_child {x : NodeId} (W : WF h ch) (hx : x ∈ ch q) : h.memTree x = h.memTree q :=
  W.tree.child x q (W.alive_of_mem hx) (W.parent_of_mem hx)

theorem Inv.step_create {d : α} {as : AdoptAs} (I : Inv w ch) (ha : w.HasAuth n a)
    (hf : TokenFits w.heap n a) (hr : Room w.heap) : StepOK w ch (.create a n d as) := by
  have hal := I.held_alive ha.holds
  obtain ⟨t, ht, hta⟩ := I.wf.tree.live n hal
  have hgp := I.auth_grants ha hf ht
  have main : ∀ p l1 l2, DestSplit ch (as.at n) p l1 l2 → StepOK w ch (.create a n d as) := by
    intro p l1 l2 hd
    obtain ⟨h', e, C, W, -⟩ := nodeCreate_ok I.wf hd hal ht d
    have hpt : w.heap.memTree p = some t := by
      rcases I.wf.toFShape.destSplit_parent hd with rfl | hm
      · exact ht
      · rw [← I.wf.tree.child n p hal (I.wf.parent_of_mem hm)]; exact ht
    obtain ⟨I1, K⟩ := I.createdPlain (d := d) W hta C.data C.mutB C.mem
      (fun u => by simp [Heap.treeAlive, C.root]) C.grants C.treeRc C.nNode C.nTree (by
        intro x _ hx
        have : x ≠ p := by rintro rfl; exact hx hpt
        simp [this])
    obtain ⟨w', r, e', I2, K2⟩ := I.afterCreate (a := a) I1 K (by simp [Heap.memTree, C.mem]) C.grants hr hta hgp
    refine .mk (w' := w') (r := r) ?_ I2 (K2.mono ?_ (fun _ e => e.elim)) ?_
    · simp only [World.exec, checkAuth_ok hf, bind, Except.bind, e]; exact e'
    · rintro u rfl; exact ht
    · intro q x hx _ hun
      refine ⟨q, ?_, .inl rfl⟩
      by_cases eq : q = p
      · subst eq
        rw [upd_same]
        have h1 : l1 ≠ [] := fun e => hun q ⟨l1, l2, hd, .inl e⟩ hx
        rw [hd.eq] at hx
        exact head?_append_eq h1 hx
      · rw [upd_ne _ _ eq]; exact hx
  have hsib : as = .previousSibling ∨ as = .nextSibling → StepOK w ch (.create a n d as) := by
    intro has
    by_cases hm : ∃ p, n ∈ ch p
    · obtain ⟨p, hp⟩ := hm
      obtain ⟨l1, l2, e⟩ := List.append_of_mem hp
      rcases has with rfl | rfl
      · exact main p _ _ (.prev e)
      · exact main p _ _ (.next e)
    · obtain ⟨h', e, S⟩ := tryCreate_root I.wf hal ht (fun p hp => hm ⟨p, hp⟩) has d
      obtain ⟨I1, K⟩ := I.sameLive S
      refine .of_keeps I (r := .err .siblingsWithoutParent) ?_ I1 K
      simp only [World.exec, checkAuth_ok hf, bind, Except.bind, nodeCreate_eq I.wf hal ht, e]
      rfl
  cases as with
  | firstChild => exact main n _ _ (.first n)
  | lastChild => exact main n _ _ (.last n)
  | previousSibling => exact hsib (.inl rfl)
  | nextSibling => exact hsib (.inr rfl)

theorem Inv.step_createParent {d : α} (I : Inv w ch) (ha : w.HasAuth n a)
    (hf : TokenFits w.heap n a) (hr : Room w.heap) : StepOK w ch (.createParent a n d) := by
  have hal := I.held_alive ha.holds
  obtain ⟨t, ht, hta⟩ := I.wf.tree.live n hal
  have hgp := I.auth_grants ha hf ht
  have hfresh := I.wf.toFShape.fresh_not_alive
  have fin : ∀ h' ch', w.heap.createInterruptingParent n d = .ok (h', w.heap.nNode) →
      Inv (({ w with heap := h' }).give .plain w.heap.nNode) ch' →
      Keeps w.heap h' ch ch' (fun u => u = t) NoNode → h'.memTree w.heap.nNode = some t →
      h'.grants = w.heap.grants →
      (∀ q x, (ch q).head? = some x → (∀ p, UsesLast ch (.createParent a n d : Op α) p → (ch p).head? ≠ some x) →
        ∃ q', (ch' q').head? = some x ∧ (q' = q ∨ w.heap.nNode ≤ q')) → StepOK w ch (.createParent a n d) := by
    intro h' ch' e I1 K hm hg hk
    obtain ⟨w', r, e', I2, K2⟩ := I.afterCreate (a := a) I1 K hm hg hr hta hgp
    refine .mk (w' := w') (r := r) ?_ I2 (K2.mono ?_ (fun _ e => e.elim)) (fun q x hx _ hun => hk q x hx hun)
    · simp only [World.exec, checkAuth_ok hf, bind, Except.bind, e]; exact e'
    · rintro u rfl; exact ht
  have hnew : ∀ q x, (ch q).head? = some x → q ≠ w.heap.nNode := by
    rintro q x hx rfl
    rw [I.wf.dead _ hfresh] at hx; simp at hx
  by_cases hm : ∃ p, n ∈ ch p
  · obtain ⟨p, hp⟩ := hm
    obtain ⟨l1, l2, hs⟩ := List.append_of_mem hp
    obtain ⟨h', e, C, W⟩ := interruptParent_nonroot I.wf hs ht d
    have hpt : w.heap.memTree p = some t := by
      rw [← I.wf.tree.child n p hal (I.wf.parent_of_mem hp)]; exact ht
    obtain ⟨I1, K⟩ := I.createdPlain (d := d) W hta C.data C.mutB C.mem
      (fun u => by simp [Heap.treeAlive, C.root]) C.grants C.treeRc C.nNode C.nTree (by
        intro x hx hxt
        have h1 : x ≠ p := by rintro rfl; exact hxt hpt
        have h2 : x ≠ w.heap.nNode := by rintro rfl; rw [hfresh] at hx; cases hx
        simp [h1, h2])
    refine fin h' _ e I1 K (by simp [Heap.memTree, C.mem]) C.grants ?_
    intro q x hx hun
    refine ⟨q, ?_, .inl rfl⟩
    rw [upd_ne _ _ (hnew q x hx)]
    by_cases eq : q = p
    · subst eq
      rw [upd_same]
      have h1 : l1 ≠ [] := by
        rintro rfl
        have : (ch q).head? = some n := by rw [hs]; rfl
        exact hun q (.inl this) hx
      rw [hs] at hx
      exact head?_append_eq h1 hx
    · rw [upd_ne _ _ eq]; exact hx
  · have hpn := I.wf.toFShape.parent_none hal (fun p hp => hm ⟨p, hp⟩)
    obtain ⟨h', e, C, hroot, W⟩ := interruptParent_root I.wf hal hpn ht d
    obtain ⟨I1, K⟩ := I.createdPlain (d := d) W hta C.data C.mutB C.mem
      (fun u => by
        simp only [Heap.treeAlive, hroot, upd_apply]
        split
        · rename_i e; subst e; simp only [Heap.treeAlive] at hta; rw [hta]; rfl
        · rfl) C.grants C.treeRc C.nNode C.nTree (by
        intro x hx hxt
        have h2 : x ≠ w.heap.nNode := by rintro rfl; rw [hfresh] at hx; cases hx
        simp [h2])
    have hmem : h'.mem = upd w.heap.mem w.heap.nNode (.strong t 1 0) := C.mem
    exact fin h' _ e I1 K (by simp [Heap.memTree, hmem]) C.grants
      (fun q x hx _ => ⟨q, by rw [upd_ne _ _ (hnew q x hx)]; exact hx, .inl rfl⟩)

theorem Inv.step_createChild {d : α} (I : Inv w ch) (ha : w.HasAuth n a)
    (hf : TokenFits w.heap n a) (hr : Room w.heap) : StepOK w ch (.createChild a n d) := by
  have hal := I.held_alive ha.holds
  obtain ⟨t, ht, hta⟩ := I.wf.tree.live n hal
  have hgp := I.auth_grants ha hf ht
  have hfresh := I.wf.toFShape.fresh_not_alive
  obtain ⟨h', e, C, W⟩ := interruptChild_spec I.wf hal ht d
  obtain ⟨I1, K⟩ := I.createdPlain (d := d) W hta C.data C.mutB C.mem
    (fun u => by simp [Heap.treeAlive, C.root]) C.grants C.treeRc C.nNode C.nTree (by
      intro x hx hxt
      have h1 : x ≠ n := by rintro rfl; exact hxt ht
      have h2 : x ≠ w.heap.nNode := by rintro rfl; rw [hfresh] at hx; cases hx
      simp [h1, h2])
  obtain ⟨w', r, e', I2, K2⟩ := I.afterCreate (a := a) I1 K (by simp [Heap.memTree, C.mem]) C.grants hr hta hgp
  refine .mk (w' := w') (r := r) ?_ I2 (K2.mono ?_ (fun _ e => e.elim)) ?_
  · simp only [World.exec, checkAuth_ok hf, bind, Except.bind, e]; exact e'
  · rintro u rfl; exact ht
  · intro q x hx _ _
    by_cases eq : q = n
    · subst eq
      exact ⟨w.heap.nNode, by rw [upd_same]; exact hx, .inr (Nat.le_refl _)⟩
    · refine ⟨q, ?_, .inl rfl⟩
      have : q ≠ w.heap.nNode := by
        rintro rfl
        rw [I.wf.dead _ hfresh] at hx; simp at hx
      rw [upd_ne _ _ this, upd_ne _ _ eq]; exact hx

theorem not_lastOfSeveral (hn : ¬ LastOfSeveral ch n) (hs : ch p = l1 ++ n :: l2) :
    l1 = [] ∨ l2 ≠ [] := by
  by_cases e : l2 = []
  · left
    subst e
    rcases List.eq_nil_or_concat l1 with e | ⟨l, x, e⟩
    · exact e
    · exact absurd ⟨p, l, x, by rw [hs, e]; simp⟩ hn
  · exact .inr e

/-- Rehoming into a brand-new tree. -/
theorem Inv.rehomedNew {r0 : Option NodeId} {ch1 : NodeId → List NodeId} {D : List NodeId}
    (I : Inv w ch) (W : WF h' ch')
    (R : Rehomed (w.heap.setRoot t r0) h' ch1 ch' D t w.heap.nTree 0) (hr0 : r0.isSome = true)
    (hta : w.heap.treeAlive t = true) (hg : 0 ≤ w.heap.grants t)
    (hD : D.Nodup) (hDm : ∀ x ∈ D, w.heap.alive x = true ∧ w.heap.memTree x = some t)
    (hroot' : (h'.root w.heap.nTree).isSome = true) (hrc' : h'.treeRc w.heap.nTree = 0)
    (hnt : h'.nTree = w.heap.nTree + 1)
    (hch1 : ∀ x, w.heap.memTree x ≠ some t → ch1 x = ch x) :
    Inv { w with heap := h' } ch' ∧ Keeps w.heap h' ch ch' (fun u => u = t) NoNode := by
  obtain ⟨z1, z2, z3⟩ := I.fresh_tok (t := w.heap.nTree) (Nat.le_refl _)
  have hne : t ≠ w.heap.nTree := by
    rintro rfl; rw [I.wf.tree.fresh_tree] at hta; cases hta
  have hnone : ∀ x k, w.heap.memTree x = some w.heap.nTree → w.held k x = 0 := by
    intro x k hm
    cases ha : w.heap.alive x with
    | false => exact I.held_dead ha
    | true =>
      have := I.wf.tree_alive ha hm
      rw [I.wf.tree.fresh_tree] at this; cases this
  have hb : w.heap.grants t ≤ Lock.isizeMax := by
    obtain ⟨_, _, _, _, hb⟩ := I.locks t hta; exact hb.2
  have hl := I.locksCounted hta hg D hD (fun x hx => (hDm x hx).2)
  obtain ⟨I', K⟩ := I.rehomed (L' := []) W R hr0 hta hg hne hD hDm hroot' (by rw [hrc', z3])
    (.inr (Nat.le_refl _)) List.nodup_nil
    (by
      intro x; simp only [List.not_mem_nil, false_iff, not_and]
      intro hx; simp [hnone x _ hx])
    z2 (fun x hx => hnone x _ hx) (by simp [z1]) (by omega)
    (by rw [hnt]; exact Nat.le_succ _) (by rw [hnt]; exact Nat.lt_succ_self _)
    (fun x hx _ => hch1 x hx)
  refine ⟨I', K.dropFresh I.wf ?_⟩
  rintro u (rfl | rfl)
  · exact .inl rfl
  · exact .inr (Nat.le_refl _)

theorem Inv.step_detach (I : Inv w ch) (ha : w.HasAuth n a) (hf : TokenFits w.heap n a) : StepOK w ch (.detach a n) := by
  have hal := I.held_alive ha.holds
  obtain ⟨t, rc, lk, hm, -, hta⟩ := I.tree_of_held ha.holds
  have ht := memTree_strong hm
  have hgp := I.auth_grants ha hf ht
  by_cases hm' : ∃ p, n ∈ ch p
  · obtain ⟨p, hp⟩ := hm'
    obtain ⟨l1, l2, hs⟩ := List.append_of_mem hp
    obtain ⟨T, hT⟩ := I.wf.exists_subtree n
    have hDm : ∀ x ∈ T.nodes, w.heap.alive x = true ∧ w.heap.memTree x = some t := by
      intro x hx
      have hd := (hT.mem_nodes_iff x).1 hx
      exact ⟨I.wf.toFShape.desc_alive hal hd, (I.wf.tree.desc_memTree I.wf.toFShape hd).trans ht⟩
    have hD := hT.nodup I.wf.toFShape
    have hb : w.heap.grants t ≤ Lock.isizeMax := by
      obtain ⟨_, _, _, _, hb⟩ := I.locks t hta; exact hb.2
    have hl := I.locksCounted hta (by omega) _ hD (fun x hx => (hDm x hx).2)
    obtain ⟨h0, h', ch', e, sim, W, R, e1, e2, e3⟩ :=
      detach_wide I.wf hs hT hm hl (by omega)
    have hpt : w.heap.memTree p = some t := by
      rw [← I.wf.tree.child n p hal (I.wf.parent_of_mem hp)]; exact ht
    obtain ⟨I', K⟩ := I.rehomedNew (r0 := w.heap.root t) W (by rw [setRoot_self]; exact R) hta hta
      (by omega) hD hDm (by rw [e1]; rfl) e2 e3 (by
        intro x hx
        have : x ≠ p := by rintro rfl; exact hx hpt
        simp [this])
    have hkeep : ∀ q x, x ∈ ch q → x ≠ n → h'.alive x = true → ch' q = upd ch p (l1 ++ l2) q := by
      intro q x hx hxn hxa
      refine R.stays (I.wf.memTree_child hx) ?_ hxa
      rw [hT.mem_nodes_iff, hT.mem_nodes_iff]
      exact fun hd => I.wf.desc_parent hd hx hxn
    refine ⟨{ w with heap := h0 }, .unit, _, ch', StaleHead l1 l2, ?_, (SimW.refl w).withHeap sim, I',
      K.mono ?_ (fun _ e => e.elim), ?_, ?_⟩
    · simp only [World.exec, checkAuth_ok hf, bind, Except.bind, e, pure, Except.pure]
    · rintro u rfl; exact ht
    · intro q x hx hxa hun
      have hxn : x ≠ n := by rintro rfl; exact hun q hx hx
      refine ⟨q, ?_, .inl rfl⟩
      rw [hkeep q x (List.mem_of_head? hx) hxn hxa]
      by_cases eq : q = p
      · subst eq
        rw [upd_same]
        have h1 : l1 ≠ [] := by
          rintro rfl
          rw [hs] at hx
          exact hxn (by simpa using hx.symm)
        rw [hs] at hx
        exact head?_append_eq h1 hx
      · rw [upd_ne _ _ eq]; exact hx
    · intro x hx
      have hxm : x ∈ l1 := List.mem_of_head? hx.2
      have hxp : x ∈ ch p := by rw [hs]; exact List.mem_append_left _ hxm
      have hxn : x ≠ n := by
        rintro rfl
        have := I.wf.nodup p
        rw [hs, nodup_mid] at this
        exact this.1 hxm
      refine ⟨?_, p, lastOf_of hs hx.1 hx.ne_nil, by rw [hs]; exact hx.head _, fun hxa => ?_⟩
      · show x < h'.nNode
        rw [R.nNode]; exact I.wf.bound x (I.wf.alive_of_mem hxp)
      · rw [hkeep p x hxp hxn hxa, upd_same]; exact hx.head _
  · have hpn := I.wf.toFShape.parent_none hal (fun p hp => hm' ⟨p, hp⟩)
    have hrt : w.heap.isRoot n = true := (I.wf.toFShape.isRoot_iff hal).2 hpn
    refine .of_still (w' := w) (r := .unit) ?_ I (Still.refl _)
    simp only [World.exec, checkAuth_ok hf, bind, Except.bind, Heap.detachSubtree, hrt, if_true, pure,
      Except.pure]

theorem Inv.step_replace (I : Inv w ch) (ha : w.HasAuth n a) (hf : TokenFits w.heap n a) : StepOK w ch (.replace a n) := by
  have hal := I.held_alive ha.holds
  obtain ⟨t, rc, lk, hm, -, hta⟩ := I.tree_of_held ha.holds
  have ht := memTree_strong hm
  have hgp := I.auth_grants ha hf ht
  have hDm : ∀ x ∈ [n], w.heap.alive x = true ∧ w.heap.memTree x = some t := by
    intro x hx; rw [List.mem_singleton] at hx; subst hx; exact ⟨hal, ht⟩
  have hD : [n].Nodup := by simp
  have hl := I.locksCounted hta (by omega) _ hD (fun x hx => (hDm x hx).2)
  by_cases hm' : ∃ p, n ∈ ch p
  · obtain ⟨p, hp⟩ := hm'
    obtain ⟨l1, l2, hs⟩ := List.append_of_mem hp
    obtain ⟨h0, h', ch', e, sim, W, R, e1, e2, e3⟩ := replace_nonroot_wide I.wf hs hm hl
    have hpt : w.heap.memTree p = some t := by
      rw [← I.wf.tree.child n p hal (I.wf.parent_of_mem hp)]; exact ht
    obtain ⟨I', K⟩ := I.rehomedNew (r0 := w.heap.root t) W (by rw [setRoot_self]; exact R) hta hta
      (by omega) hD hDm (by rw [e1]; rfl) e2 e3 (by
        intro x hx
        have h1 : x ≠ p := by rintro rfl; exact hx hpt
        have h2 : x ≠ n := by rintro rfl; exact hx ht
        simp [h1, h2])
    have hnp := (I.wf.toFShape.spliceFacts hs).np
    have hkeep : ∀ q x, x ∈ ch q → x ≠ n → h'.alive x = true →
        ch' q = upd (upd ch p (l1 ++ (ch n ++ l2))) n [] q := by
      intro q x hx hxn hxa
      refine R.stays (I.wf.memTree_child hx) ?_ hxa
      intro hd
      exact absurd (by simpa using hd) hxn
    refine ⟨{ w with heap := h0 }, .unit, _, ch', _, ?_, (SimW.refl w).withHeap sim, I',
      K.mono ?_ (fun _ e => e.elim), ?_, ?_⟩
    · simp only [World.exec, checkAuth_ok hf, bind, Except.bind, e, pure, Except.pure]
    · rintro u rfl; exact ht
    · intro q x hx hxa hun
      have hxn : x ≠ n := by rintro rfl; exact hun q (.inr hx) hx
      have hqn : q ≠ n := by rintro rfl; exact hun q (.inl rfl) hx
      refine ⟨q, ?_, .inl rfl⟩
      rw [hkeep q x (List.mem_of_head? hx) hxn hxa, upd_ne _ _ hqn]
      by_cases eq : q = p
      · subst eq
        rw [upd_same]
        have h1 : l1 ≠ [] := by
          rintro rfl
          rw [hs] at hx
          exact hxn (by simpa using hx.symm)
        rw [hs] at hx
        exact head?_append_eq h1 hx
      · rw [upd_ne _ _ eq]; exact hx
    · rintro x ⟨hcn, hx⟩
      have hxm : x ∈ l1 := List.mem_of_head? hx.2
      have hxp : x ∈ ch p := by rw [hs]; exact List.mem_append_left _ hxm
      have hxn : x ≠ n := by
        rintro rfl
        have := I.wf.nodup p
        rw [hs, nodup_mid] at this
        exact this.1 hxm
      refine ⟨?_, p, ⟨hcn, lastOf_of hs hx.1 hx.ne_nil⟩, by rw [hs]; exact hx.head _, fun hxa => ?_⟩
      · show x < h'.nNode
        rw [R.nNode]; exact I.wf.bound x (I.wf.alive_of_mem hxp)
      · rw [hkeep p x hxp hxn hxa, upd_ne _ _ (Ne.symm hnp), upd_same]; exact hx.head _
  · have hpn := I.wf.toFShape.parent_none hal (fun p hp => hm' ⟨p, hp⟩)
    by_cases hl1 : (ch n).length = 1
    · obtain ⟨c, hc⟩ : ∃ c, ch n = [c] := List.length_eq_one_iff.1 hl1
      obtain ⟨h', ch', e, W, R, e1, e2, e3⟩ := replace_root_spec I.wf hc hpn hm hl
      obtain ⟨I', K⟩ := I.rehomedNew (r0 := some c) W R rfl hta
        (by omega) hD hDm (by rw [e1]; rfl) e2 e3 (by
          intro x hx
          have h2 : x ≠ n := by rintro rfl; exact hx ht
          simp [h2])
      refine .mk (w' := { w with heap := h' }) (r := .unit) ?_ I' (K.mono ?_ (fun _ e => e.elim)) ?_
      · simp only [World.exec, checkAuth_ok hf, bind, Except.bind, e, pure, Except.pure]
      · rintro u rfl; exact ht
      · intro q x hx hxa hun
        have hxn : x ≠ n := by rintro rfl; exact hm' ⟨q, List.mem_of_head? hx⟩
        have hqn : q ≠ n := by rintro rfl; exact hun q (.inl rfl) hx
        refine ⟨q, ?_, .inl rfl⟩
        rw [R.stays (q := q) (I.wf.memTree_child (List.mem_of_head? hx)) (fun hd => absurd (by simpa using hd) hxn) hxa,
          upd_ne _ _ hqn]
        exact hx
    · have e := replace_root_fail I.wf hpn hm hl1
      refine .of_still (w' := w) (r := .err (if ch n = [] then .emptyTree else .siblingsWithoutParent)) ?_ I (Still.refl _)
      simp only [World.exec, checkAuth_ok hf, bind, Except.bind, e, pure, Except.pure]

theorem SameNonLink.inv (I : Inv w ch) (s : SameNonLink w.heap h') (W : WF h' ch')
    (hch : ∀ x, w.heap.memTree x ≠ some t → ch' x = ch x) :
    Inv { w with heap := h' } ch' ∧ Keeps w.heap h' ch ch' (fun u => u = t) NoNode := by
  have hmt := s.memTree
  have hta := s.treeAlive
  have hal : ∀ x, h'.alive x = w.heap.alive x := fun x => by simp [Heap.alive, s.data]
  constructor
  · refine { wf := W, strong := ?_, weak := ?_, treeRc := ?_, treesAlive := ?_, toks := ?_, locks := ?_ }
    · intro x u rc l hx; simp only [s.mem] at hx; exact I.strong x u rc l hx
    · intro x o hx; simp only [s.mem] at hx; exact I.weak x o hx
    · intro u; simp only [s.treeRc]; exact I.treeRc u
    · intro u hu; simp only [hta]; exact I.treesAlive u hu
    · intro u hu; simp only [s.nTree]; exact I.toks u hu
    · intro u hu
      simp only [hta] at hu
      refine (I.locks u hu).congr (by simp [s.grants]) rfl rfl ?_ ?_
      · intro x h0 hx
        exact ⟨(hmt x).symm.trans hx, Iff.rfl, Iff.rfl⟩
      · intro x h0 hx
        exact ⟨(hmt x).trans hx, Iff.rfl, Iff.rfl⟩
  · constructor
    · intro x u _ hx hu _
      refine ⟨(hmt x).trans hx, hch x ?_⟩
      intro hc; rw [hx] at hc; exact hu (by simpa using hc)
    · intro x u ha hx _ _
      exact ⟨(hal x).symm.trans ha, (hmt x).symm.trans hx⟩
    · intro x u ha hd _; rw [hal, ha] at hd; cases hd
    · intro x _ _ _; rw [s.data]
    · intro x _ _ _; rw [s.mutB]
    · exact Nat.le_of_eq s.nNode.symm
    · exact Nat.le_of_eq s.nTree.symm
    · intro x _ hd; exact (hal x).trans hd
    · intro u _ hd; exact (hta u).trans hd

/-- The place a safe move leads to, in any hierarchy in which the anchor still has its place. -/
theorem exists_destSplit {ch1 : NodeId → List NodeId} {dest : InsertAs NodeId}
    (hd : dest.isSibling = true → ∃ q, dest.anchor ∈ ch1 q) :
    ∃ q m1 m2, DestSplit ch1 dest q m1 m2 ∧ (q = dest.anchor ∨ dest.anchor ∈ ch1 q) := by
  cases dest with
  | firstChildOf x => exact ⟨x, _, _, .first x, .inl rfl⟩
  | lastChildOf x => exact ⟨x, _, _, .last x, .inl rfl⟩
  | previousSiblingOf x =>
    obtain ⟨q, hq⟩ := hd rfl
    obtain ⟨l1, l2, e⟩ := List.append_of_mem hq
    exact ⟨q, _, _, .prev e, .inr hq⟩
  | nextSiblingOf x =>
    obtain ⟨q, hq⟩ := hd rfl
    obtain ⟨l1, l2, e⟩ := List.append_of_mem hq
    exact ⟨q, _, _, .next e, .inr hq⟩

/-- The situation of a move of the only node of a tree. -/
theorem Inv.rootGoes {dest : InsertAs NodeId} (I : Inv w ch) (ha : w.HasAuth n a)
    (hf : TokenFits w.heap n a) (hd : 0 < w.held .hot dest.anchor)
    (hl : LonelyRoot w.heap ch n dest) (hr : Room w.heap) (ht : w.heap.memTree n = some t) :
    ∃ q m1 m2 t', RootGoes w.heap ch n (.node n []) t t' dest q m1 m2 ∧
      w.heap.memTree dest.anchor = some t' ∧ w.heap.treeAlive t' = true ∧ w.heap.treeRc t = 0 := by
  obtain ⟨hroot, hleaf, hsame, hrc, hsib⟩ := hl
  have hal := I.held_alive ha.holds
  have hala := I.held_alive hd
  obtain ⟨u, rc, lk, hm, -, hta⟩ := I.tree_of_held ha.holds
  obtain rfl : u = t := by
    have := memTree_strong hm
    rw [ht] at this; simpa using this.symm
  have hgp := I.auth_grants ha hf ht
  obtain ⟨q, m1, m2, hds, hq⟩ := exists_destSplit hsib
  have hqa : w.heap.alive q = true := by
    rcases hq with h1 | h1
    · rw [h1]; exact hala
    · exact I.wf.alive_parent h1
  obtain ⟨t', ht'', hta'⟩ := I.wf.tree.live _ hala
  have hqt : w.heap.memTree q = some t' := by
    rcases hq with h1 | h1
    · rw [h1]; exact ht''
    · rw [← I.wf.tree.child _ q hala (I.wf.parent_of_mem h1)]; exact ht''
  have htt : u ≠ t' := by
    rintro rfl; exact hsame (ht.trans ht''.symm)
  have hgp' := I.hot_grants hd ht''
  obtain ⟨r1, r2⟩ := hr u hta
  obtain ⟨r3, r4⟩ := hr t' hta'
  exact ⟨q, m1, m2, t', ⟨I.wf, hal, hroot, leaf_subtree hleaf, ht, ⟨_, _, _, hm⟩, hds, hqa, hqt, htt,
    I.locksCounted hta (by omega), by omega, by simp only [Lock.isizeMax]; omega⟩, ht'', hta', hrc u ht⟩

theorem Inv.step_move {dest : InsertAs NodeId} (I : Inv w ch) (ha : w.HasAuth n a)
    (hf : TokenFits w.heap n a) (hd : 0 < w.held .hot dest.anchor)
    (hs : MoveFits w.heap ch n dest) (hr : Room w.heap) : StepOK w ch (.move a n dest) := by
  have hal := I.held_alive ha.holds
  have hala := I.held_alive hd
  obtain ⟨t, rc, lk, hm, -, hta⟩ := I.tree_of_held ha.holds
  have ht := memTree_strong hm
  have hgp := I.auth_grants ha hf ht
  rcases hs with ⟨hroot, hsame⟩ | ⟨⟨p, hp⟩, hnd, hsib, hlast⟩ | lonely
  · have hpn := I.wf.toFShape.parent_none hal hroot
    have hrt : w.heap.isRoot n = true := (I.wf.toFShape.isRoot_iff hal).2 hpn
    have hb : w.heap.belongsToSameTree n dest.anchor = true := by
      simp [Heap.belongsToSameTree, hsame]
    refine .of_still (w' := w) (r := .unit) ?_ I (Still.refl _)
    simp only [World.exec, checkAuth_ok hf, bind, Except.bind, Heap.detachInsert, hb, Heap.moveSame,
      hrt, if_true, pure, Except.pure]
  · obtain ⟨l1, l2, hs⟩ := List.append_of_mem hp
    have herase := I.wf.toFShape.erase_eq hs
    have hpt : w.heap.memTree p = some t := by
      rw [← I.wf.tree.child n p hal (I.wf.parent_of_mem hp)]; exact ht
    have hne : dest.anchor ≠ n := fun e => hnd (e ▸ .refl _)
    by_cases hsame : w.heap.memTree n = w.heap.memTree dest.anchor
    · -- inside one tree
      have hsib1 : dest.isSibling = true → ∃ q, dest.anchor ∈ upd ch p (l1 ++ l2) q := by
        intro e
        obtain ⟨q, hq⟩ := hsib e
        refine ⟨q, ?_⟩
        by_cases eq : q = p
        · subst eq
          rw [hs] at hq
          simp only [upd_same]
          simp only [List.mem_append, List.mem_cons] at hq ⊢
          rcases hq with h1 | h1 | h1
          · exact .inl h1
          · exact absurd h1 hne
          · exact .inr h1
        · rw [upd_ne _ _ eq]; exact hq
      obtain ⟨q, m1, m2, hds, hq⟩ := exists_destSplit hsib1
      have hq' : q = dest.anchor ∨ dest.anchor ∈ ch q := by
        rcases hq with h1 | h1
        · exact .inl h1
        · right
          by_cases eq : q = p
          · subst eq
            simp only [upd_same] at h1
            rw [hs]
            simp only [List.mem_append, List.mem_cons] at h1 ⊢
            rcases h1 with h1 | h1
            · exact .inl h1
            · exact .inr (.inr h1)
          · rwa [upd_ne _ _ eq] at h1
      have hqa : w.heap.alive q = true := by
        rcases hq' with h1 | h1
        · rw [h1]; exact hala
        · exact I.wf.alive_parent h1
      have hqt : w.heap.memTree q = some t := by
        rcases hq' with h1 | h1
        · rw [h1, ← hsame]; exact ht
        · rw [← I.wf.tree.child _ q hala (I.wf.parent_of_mem h1), ← hsame]; exact ht
      have hqd : ¬ Desc ch n q := by
        intro hc
        rcases hq' with h1 | h1
        · rw [h1] at hc; exact hnd hc
        · exact hnd (.step hc h1)
      have hend : l2 = [] → l1 ≠ [] → q = p → m1 ≠ [] ∧ m2 ≠ [] := by
        intro h2 h1 eq
        have h3 := hlast p (lastOf_of hs h2 h1)
        rw [herase] at h3
        refine ⟨fun e => h3 ?_, fun e => h3 ?_⟩
        · exact ⟨m1, m2, eq ▸ hds, .inl e⟩
        · exact ⟨m1, m2, eq ▸ hds, .inr e⟩
      obtain ⟨h0, h', e, sim, S, W⟩ := moveSame_wideSpec I.wf hs hend hds hqa hqd (ht.trans hqt.symm)
      obtain ⟨I', K⟩ := S.inv (t := t) I W (by
        intro x hx
        have h1 : x ≠ p := by rintro rfl; exact hx hpt
        have h2 : x ≠ q := by rintro rfl; exact hx hqt
        simp [h1, h2])
      refine ⟨{ w with heap := h0 }, .unit, _, _, StaleHead l1 l2, ?_, (SimW.refl w).withHeap sim, I',
        K.mono ?_ (fun _ e => e.elim), ?_, ?_⟩
      · simp only [World.exec, checkAuth_ok hf, bind, Except.bind, e, pure, Except.pure]
      · rintro u rfl; exact .inl ht
      · intro r x hx _ hun
        have hxn : x ≠ n := by rintro rfl; exact hun r (.inl hx) hx
        refine ⟨r, ?_, .inl rfl⟩
        have h1 : (upd ch p (l1 ++ l2) r).head? = some x := by
          by_cases er : r = p
          · subst er
            rw [upd_same]
            rw [hs] at hx
            have : l1 ≠ [] := by rintro rfl; exact hxn (by simpa using hx.symm)
            exact head?_append_eq this hx
          · rw [upd_ne _ _ er]; exact hx
        by_cases er : r = q
        · subst er
          rw [upd_same]
          have hm1 : m1 ≠ [] := fun e => hun r (.inr (by rw [herase]; exact ⟨m1, m2, hds, .inl e⟩)) hx
          rw [hds.eq] at h1
          exact head?_append_eq hm1 h1
        · rw [upd_ne _ _ er]; exact h1
      · intro x hx
        have hxm : x ∈ l1 := List.mem_of_head? hx.2
        have hxp : x ∈ ch p := by rw [hs]; exact List.mem_append_left _ hxm
        refine ⟨?_, p, lastOf_of hs hx.1 hx.ne_nil, by rw [hs]; exact hx.head _, fun _ => ?_⟩
        · show x < h'.nNode
          rw [S.nNode]; exact I.wf.bound x (I.wf.alive_of_mem hxp)
        · by_cases er : p = q
          · have hm1 := (hend hx.1 hx.ne_nil er.symm).1
            have h1 : (upd ch p (l1 ++ l2) p).head? = some x := by rw [upd_same]; exact hx.head _
            subst er
            rw [hds.eq] at h1
            rw [upd_same]
            exact head?_append_eq hm1 h1
          · rw [upd_ne _ _ er, upd_same]; exact hx.head _
    · -- to another tree
      obtain ⟨q, m1, m2, hds, hq⟩ := exists_destSplit hsib
      have hqa : w.heap.alive q = true := by
        rcases hq with h1 | h1
        · rw [h1]; exact hala
        · exact I.wf.alive_parent h1
      obtain ⟨t', ht'', hta'⟩ := I.wf.tree.live _ hala
      have hqt : w.heap.memTree q = some t' := by
        rcases hq with h1 | h1
        · rw [h1]; exact ht''
        · rw [← I.wf.tree.child _ q hala (I.wf.parent_of_mem h1)]; exact ht''
      have htt : t ≠ t' := by
        rintro rfl; exact hsame (ht.trans ht''.symm)
      have hgp' := I.hot_grants hd ht''
      obtain ⟨T, hT⟩ := I.wf.exists_subtree n
      have hDm : ∀ x ∈ T.nodes, w.heap.alive x = true ∧ w.heap.memTree x = some t := by
        intro x hx
        have hd := (hT.mem_nodes_iff x).1 hx
        exact ⟨I.wf.toFShape.desc_alive hal hd, (I.wf.tree.desc_memTree I.wf.toFShape hd).trans ht⟩
      have hD := hT.nodup I.wf.toFShape
      have hl := I.locksCounted hta (by omega) _ hD (fun x hx => (hDm x hx).2)
      obtain ⟨r1, r2⟩ := hr t hta
      obtain ⟨r3, r4⟩ := hr t' (I.wf.tree_alive (I.held_alive hd) ht'')
      have hmax : w.heap.grants t' + w.heap.lockedIn T.nodes ≤ Lock.isizeMax := by
        simp only [Lock.isizeMax]; omega
      obtain ⟨h0, h', ch', e, sim, W, R, ⟨e1, e2, e3⟩, -⟩ :=
        moveOther_wide I.wf hs hT ht hds hqa hqt htt hl (by omega) hmax
      obtain ⟨L', hL', hmem', G'⟩ := (I.locks t' hta').grantMode (by omega)
      obtain ⟨I', K⟩ := I.rehomed (r0 := w.heap.root t) (L' := L') W (by rw [setRoot_self]; exact R)
        hta hta (by omega) htt hD hDm (by rw [e1]; exact hta') (by rw [e2]; exact I.treeRc t')
        (.inl hta') hL' hmem' G'.1 G'.2.1 G'.2.2 hmax (Nat.le_of_eq e3.symm)
        (by rw [e3]; exact I.wf.tree.bound _ hta') (by
          intro x hx hx'
          have h1 : x ≠ p := by rintro rfl; exact hx hpt
          have h2 : x ≠ q := by rintro rfl; exact hx' hqt
          simp [h1, h2])
      have hpq : p ≠ q := by
        rintro rfl
        rw [hpt] at hqt; exact htt (by simpa using hqt)
      have hkeep : ∀ r x, x ∈ ch r → x ≠ n → h'.alive x = true →
          ch' r = upd (upd ch p (l1 ++ l2)) q (m1 ++ n :: m2) r := by
        intro r x hx hxn hxa
        refine R.stays (I.wf.memTree_child hx) ?_ hxa
        rw [hT.mem_nodes_iff, hT.mem_nodes_iff]
        exact fun hd => I.wf.desc_parent hd hx hxn
      refine ⟨{ w with heap := h0 }, .unit, _, ch', StaleHead l1 l2, ?_, (SimW.refl w).withHeap sim, I',
        K.mono ?_ (fun _ e => e.elim), ?_, ?_⟩
      · simp only [World.exec, checkAuth_ok hf, bind, Except.bind, e, pure, Except.pure]
      · rintro u (rfl | rfl)
        · exact .inl ht
        · exact .inr ht''
      · intro r x hx hxa hun
        have hxn : x ≠ n := by rintro rfl; exact hun r (.inl hx) hx
        refine ⟨r, ?_, .inl rfl⟩
        rw [hkeep r x (List.mem_of_head? hx) hxn hxa]
        by_cases er : r = q
        · subst er
          rw [upd_same]
          have hds' : DestSplit (upd ch p (l1 ++ l2)) dest r m1 m2 := by
            have e1 : upd ch p (l1 ++ l2) r = ch r := upd_ne _ _ (Ne.symm hpq)
            cases hds with
            | first => rw [← e1]; exact .first _
            | last => rw [← e1]; exact .last _
            | prev hs => exact .prev (e1.trans hs)
            | next hs => exact .next (e1.trans hs)
          have hm1 : m1 ≠ [] := fun e => hun r (.inr (by rw [herase]; exact ⟨m1, m2, hds', .inl e⟩)) hx
          rw [hds.eq] at hx
          exact head?_append_eq hm1 hx
        · rw [upd_ne _ _ er]
          by_cases er : r = p
          · subst er
            rw [upd_same]
            rw [hs] at hx
            have : l1 ≠ [] := by rintro rfl; exact hxn (by simpa using hx.symm)
            exact head?_append_eq this hx
          · rw [upd_ne _ _ er]; exact hx
      · intro x hx
        have hxm : x ∈ l1 := List.mem_of_head? hx.2
        have hxp : x ∈ ch p := by rw [hs]; exact List.mem_append_left _ hxm
        have hxn : x ≠ n := by
          rintro rfl
          have := I.wf.nodup p
          rw [hs, nodup_mid] at this
          exact this.1 hxm
        refine ⟨?_, p, lastOf_of hs hx.1 hx.ne_nil, by rw [hs]; exact hx.head _, fun hxa => ?_⟩
        · show x < h'.nNode
          rw [R.nNode]; exact I.wf.bound x (I.wf.alive_of_mem hxp)
        · rw [hkeep p x hxp hxn hxa, upd_ne _ _ hpq, upd_same]; exact hx.head _
  · -- the only node of its tree
    obtain ⟨q, m1, m2, t', G, hanc, hta', hrc⟩ := I.rootGoes ha hf hd lonely hr ht
    obtain ⟨h', e, W, -, -, -, e1, e2, -, e3, -, R⟩ := G.leafMoves hrc
    have hgp' := G.grants'
    obtain ⟨L', hL', hmem', G'⟩ := (I.locks t' hta').grantMode G.grants'
    have hmax : w.heap.grants t' + w.heap.lockedIn [n] ≤ Lock.isizeMax := by
      have h1 := G.locks [n] (by simp) (by simp [ht])
      have := G.room
      omega
    obtain ⟨I', K⟩ := I.rehomed (r0 := w.heap.root t) (L' := L') W (by rw [setRoot_self]; exact R)
      hta hta (by omega) G.ne (by simp) (by simp [hal, ht]) (by rw [e1, upd_ne _ _ G.ne.symm]; exact hta')
      (by rw [e2]; exact I.treeRc t') (.inl hta') hL' hmem' G'.1 G'.2.1 G'.2.2 hmax (Nat.le_of_eq e3.symm)
      (by rw [e3]; exact I.wf.tree.bound _ hta') (by
        intro x hx hx'
        have h2 : x ≠ q := by rintro rfl; exact hx' G.memb'
        simp [h2])
    refine ⟨{ w with heap := h' }, .unit, _, _, fun _ => False, ?_, SimW.refl _, I',
      K.mono ?_ (fun _ e => e.elim), ?_, ?_⟩
    · simp only [World.exec, checkAuth_ok hf, bind, Except.bind, e, pure, Except.pure]
    · rintro u (rfl | rfl)
      · exact .inl ht
      · exact .inr hanc
    · intro r x hx _ hun
      refine ⟨r, ?_, .inl rfl⟩
      by_cases er : r = q
      · subst er
        rw [upd_same]
        have hm1 : m1 ≠ [] := by
          intro e
          refine hun r (.inr ?_) hx
          have : (fun q => (ch q).erase n) = ch := by
            funext z; exact List.erase_of_not_mem (lonely.1 z)
          rw [this]
          exact ⟨m1, m2, G.split, .inl e⟩
        rw [G.split.eq] at hx
        exact head?_append_eq hm1 hx
      · rw [upd_ne _ _ er]; exact hx
    · intro x hx; exact hx.elim

/-- Every call of a program succeeds, unless it uses a token of another tree, and keeps the
invariant. -/
theorem Inv.step (I : Inv w ch) (ha : w.Allowed op) (hs : CallFits w.heap ch op)
    (hr : Room w.heap) (hf : TokenOK w.heap op) : StepOK w ch op := by
  cases op with
  | newTree hot d => exact I.step_newTree
  | clone k n => exact I.step_clone ha
  | drop k n => exact I.step_drop ha
  | nav k q n => exact I.step_nav ha hr
  | upgrade n => exact I.step_upgrade
  | plainOf k n => exact I.step_plainOf ha.2
  | bundle k n => exact I.step_bundle ha.1 ha.2 hr
  | bundleWith k n t => exact I.step_bundleWith ha.1 ha.2 hr hf
  | treeOf k n => exact I.step_treeOf ha
  | cloneTree t => exact I.step_cloneTree ha
  | dropTree t => exact I.step_dropTree ha
  | treeRoot t => exact I.step_treeRoot ha
  | upgradeTree t => exact I.step_upgradeTree
  | acquire b t => exact I.step_acquire ha hr
  | cloneTok b t => exact I.step_cloneTok ha hr
  | dropTok b t => exact I.step_dropTok ha
  | extract b n => exact I.step_extract ha hr
  | create a n d as => exact I.step_create ha hf hr
  | createParent a n d => exact I.step_createParent ha hf hr
  | createChild a n d => exact I.step_createChild ha hf hr
  | detach a n => exact I.step_detach ha hf
  | replace a n => exact I.step_replace ha hf
  | move a n dest => exact I.step_move ha.1 hf ha.2 hs hr
  | write n d => exact I.step_write ha
  | borrowMut n b => exact I.step_borrowMut

/-- A call with a token of another tree panics. -/
theorem World.bad_token (hf : ¬ TokenOK w.heap op) : ∃ m, w.exec op = .error (.panic m) := by
  have key : ∀ a n, ¬ TokenFits w.heap n a → ∃ m, w.checkAuth a n = .error (.panic m) := by
    intro a n h1
    cases a with
    | hot => exact absurd trivial h1
    | token t =>
      refine ⟨"the grant is not valid for the node of interest", ?_⟩
      have : ¬ w.heap.memTree n = some t := h1
      simp [World.checkAuth, Heap.belongsTo, this]
  cases op <;> simp only [TokenOK, not_true_eq_false] at hf
  case bundleWith k n t =>
    refine ⟨"the token is not valid for the node of interest", ?_⟩
    simp [World.exec, Heap.belongsTo, hf]
  all_goals
    obtain ⟨m, hm⟩ := key _ _ hf
    exact ⟨m, by simp only [World.exec, hm, bind, Except.bind]⟩

theorem Inv.init : Inv (World.init : World α) (fun _ => []) := by
  refine { wf := WF.empty, strong := ?_, weak := ?_, treeRc := ?_, treesAlive := ?_, toks := ?_, locks := ?_ }
  · intro n t rc l hm; simp [World.init, Heap.empty] at hm
  · intros; rfl
  · intros; rfl
  · intro t ht; exact absurd ht (Nat.lt_irrefl _)
  · intro t ht; exact absurd ht (Nat.lt_irrefl _)
  · intro t ht; cases ht

theorem LastOf.several (hl : LastOf ch n p) : LastOfSeveral ch n := by
  obtain ⟨l, a, e⟩ := hl; exact ⟨p, l, a, e⟩

theorem SafeCall.fits (hs : SafeCall h ch op) : CallFits h ch op := by
  cases op with
  | move a n dest =>
    rcases hs with h1 | ⟨h1, h2, h3, h4⟩ | h1
    · exact .inl h1
    · exact .inr (.inl ⟨h1, h3, h4, fun p hp => absurd hp.several h2⟩)
    · exact .inr (.inr h1)
  | _ => trivial

theorem SafeCall.not_drops (hs : SafeCall h ch op) (hd : DropsLast ch op p) : False := by
  cases op with
  | detach a n => exact hs hd.several
  | replace a n =>
    rcases hs with h1 | h1
    · exact h1 hd.1
    · exact h1 hd.2.several
  | move a n dest =>
    have hd : LastOf ch n p := hd
    rcases hs with h1 | h1 | h1
    · obtain ⟨l, a, e⟩ := hd
      exact h1.1 p (by simp [e])
    · exact h1.2.1 hd.several
    · obtain ⟨l, a, e⟩ := hd
      exact h1.1 p (by simp [e])
  | _ => exact hd

theorem SimW.eq_of_not {D : NodeId → Prop} {v : World α} (s : SimW D w v) (hd : ∀ x, ¬ D x) : v = w := by
  obtain ⟨a, b, c, d, e⟩ := s
  have := a.eq_of_not hd
  cases w; cases v
  simp only at *
  subst b c d e this
  rfl

/-- A safe call leaves no stale pointer. -/
theorem Inv.stepSafe (I : Inv w ch) (ha : w.Allowed op) (hs : SafeCall w.heap ch op)
    (hr : Room w.heap) (hf : TokenOK w.heap op) :
    ∃ w' r ch', w.exec op = .ok (w', r) ∧ Inv w' ch' ∧
      Keeps w.heap w'.heap ch ch' (Edits w.heap op) (Writes op) := by
  obtain ⟨w1, r1, w2, ch', D, e, sim, I', K, -, St⟩ := I.step ha hs.fits hr hf
  have : w2 = w1 := sim.eq_of_not fun x hx => by
    obtain ⟨-, q, hq, -⟩ := St x hx
    exact hs.not_drops hq
  subst this
  exact ⟨w2, r1, ch', e, I', K⟩

/-- A step of a program keeps the invariant. -/
theorem World.Step.inv {r : Res} (s : w.Step op w' r) (I : Inv w ch) :
    ∃ ch', Inv w' ch' ∧ Keeps w.heap w'.heap ch ch' (Edits w.heap op) (Writes op) := by
  by_cases hf : TokenOK w.heap op
  · obtain ⟨w1, r1, ch', e, I', K⟩ := I.stepSafe s.allowed (s.safe ch I.wf.toFShape) s.room hf
    rw [s.run] at e
    simp only [Except.ok.injEq, Prod.mk.injEq] at e
    obtain ⟨rfl, rfl⟩ := e
    exact ⟨ch', I', K⟩
  · obtain ⟨m, e⟩ := World.bad_token hf
    rw [s.run] at e; cases e

theorem Reach.inv (hr : Reach w) : ∃ ch, Inv w ch := by
  induction hr with
  | init => exact ⟨_, Inv.init⟩
  | step _ s ih =>
    obtain ⟨ch, I⟩ := ih
    obtain ⟨ch', I', -⟩ := s.inv I
    exact ⟨ch', I'⟩

end Dendron
