import Verif.Proofs.Rehome
import Verif.Proofs.WideLink

/-! Detaching a subtree, moving it to another tree. -/

set_option linter.unusedSimpArgs false
set_option linter.unusedVariables false

set_option autoImplicit false

namespace Dendron
open RTree
variable {α : Type} {h h1 h2 h' : Heap α} {ch : NodeId → List NodeId} {n p r q : NodeId} {t t' : TreeId}
  {T R : RTree NodeId} {l1 l2 m1 m2 : List NodeId}

theorem settle_setTreeRc {A : List NodeId} (hne : t ≠ t') (v : Nat) :
    (h.settle t A).setTreeRc t' v = (h.setTreeRc t' v).settle t A := by
  have hst : (h.setTreeRc t' v).hasStrongMember t = h.hasStrongMember t := rfl
  have hta : (h.setTreeRc t' v).treeAlive t = h.treeAlive t := rfl
  have hrc : (h.setTreeRc t' v).treeRc t = h.treeRc t := by simp [Heap.setTreeRc, hne]
  unfold Heap.settle
  rw [hst, hta, hrc]
  split
  · rfl
  · rfl

theorem settle_mem {A : List NodeId} {x : NodeId} (hx : x ∉ A) :
    (h.settle t A).mem x = h.mem x := by
  unfold Heap.settle
  split
  · rw [dropped_mem, if_neg hx]
  · rfl

theorem settle_treeRc {A : List NodeId} : (h.settle t A).treeRc = h.treeRc := by
  unfold Heap.settle
  split <;> rfl

theorem settle_nNode {A : List NodeId} : (h.settle t A).nNode = h.nNode := by
  unfold Heap.settle
  split <;> rfl

theorem isRoot_false (S : FShape h ch) (hm : n ∈ ch p) : h.isRoot n = false := by
  simp [Heap.isRoot, S.parentLink (S.alive_of_mem hm), S.parent_of_mem hm]

/-- `detach_subtree` of a non-root node with a handle; `k` is the memory with the pointer repaired
that may be stale afterwards. -/
theorem detach_wideL (W : WF h ch) (hs : ch p = l1 ++ n :: l2) (hT : SubtreeAt ch n T)
    {rc lk : Nat} (hmem : h.mem n = .strong t rc lk)
    (g1 : (h.lockedIn T.nodes : Int) ≤ h.grants t)
    (g2 : (h.lockedIn T.nodes : Int) ≤ Lock.isizeMax) :
    ∃ h0 h' ch', h.detachSubtreeL n = .ok h0 ∧ Sim (StaleHead l1 l2) h0 h' ∧ WF h' ch' ∧
      Rehomed h h' (upd ch p (l1 ++ l2)) ch' T.nodes t h.nTree 0 ∧
      h'.root h.nTree = some n ∧ h'.treeRc h.nTree = 0 ∧ h'.nTree = h.nTree + 1 := by
  have hm : n ∈ ch p := by simp [hs]
  have ha := W.alive_of_mem hm
  have ht : h.memTree n = some t := by simp [Heap.memTree, hmem]
  have hta := W.tree_alive ha ht
  have htb := W.tree.bound t hta
  obtain ⟨r, hr⟩ := Option.isSome_iff_exists.1 hta
  obtain ⟨hx, h1, he, sim, s1, Sh1, p1⟩ := unlink_wide W.toShape hs
  have F1 := Sh1.toFShape
  have N1 := Sh1.num
  have B1 := Sh1.back
  obtain ⟨h2, hh2⟩ : ∃ h2, h2 = (h1.allocTree n).1 := ⟨_, rfl⟩
  have hne : t ≠ h.nTree := Nat.ne_of_lt htb
  have fresh : h.root h.nTree = none := by
    cases e : h.root h.nTree with
    | none => rfl
    | some x => have := W.tree.bound h.nTree (by simp [Heap.treeAlive, e]); exact absurd this (Nat.lt_irrefl _)
  have k : ∀ {ch'}, FShape h1 ch' → FShape h2 ch' := by
    intro ch' F; subst hh2
    exact ⟨F.dead, F.first, F.nodup, F.mem, F.seg, F.rootNext, F.acyc, F.bound⟩
  have k2 : ∀ {ch'}, BackOK h1 ch' → BackOK h2 ch' := by
    intro ch' F; subst hh2; exact ⟨F.pseg, F.rootPrev⟩
  have kr : ∀ u, h2.root u = if u = h.nTree then some n else h.root u := by
    intro u; subst hh2; simp [Heap.allocTree, upd_apply, s1.nTree, s1.root]
  have krc : ∀ u, h2.treeRc u = if u = h.nTree then 1 else h.treeRc u := by
    intro u; subst hh2; simp [Heap.allocTree, upd_apply, s1.nTree, s1.treeRc]
  have kg : ∀ u, h2.grants u = if u = h.nTree then 0 else h.grants u := by
    intro u; subst hh2; simp [Heap.allocTree, upd_apply, s1.nTree, s1.grants]
  have knt : h2.nTree = h.nTree + 1 := by subst hh2; simp [Heap.allocTree, s1.nTree]
  have halloc : h1.allocTree n = (h2, h.nTree) := by
    subst hh2; simp [Heap.allocTree, s1.nTree]
  have U : Unlinked h h2 ch n p l1 l2 t h.nTree :=
    { split := hs, memb := ht, ne := hne, shape := k F1
      num := by subst hh2; exact N1
      data := by subst hh2; exact s1.data
      mutB := by subst hh2; exact s1.mutB
      mem := by subst hh2; exact s1.mem
      nNode := by subst hh2; exact s1.nNode
      nTree := by rw [knt]; exact Nat.le_succ _
      parent := by subst hh2; exact p1
      root := by intro u hu; simp [kr, hu]
      root' := by intro x hx; rw [fresh] at hx; simp at hx
      root'' := by intro x hx; simp [kr] at hx; exact .inl hx.symm
      alive' := by simp [Heap.treeAlive, kr]
      bound' := by rw [knt]; exact Nat.lt_succ_self _
      treeRc := by intro u hu; simp [krc, hu]
      grants := by intro u hu; simp [kg, hu] }
  obtain ⟨R, hR⟩ := (k F1).exists_subtree r
  have C := U.ctx W.toFShape W.tree W.refs hT hr hR g1 (by simp [kg]) (by simpa [kg] using g2)
  have hnT : n ∈ T.nodes := (hT.mem_nodes_iff n).2 (.refl n)
  have hnR : n ∉ R.nodes := fun e => C.disj n e hnT
  obtain ⟨m, hmdef⟩ : ∃ m, m = (h2.relabel T.nodes t h.nTree).setTreeRc h.nTree 0 := ⟨_, rfl⟩
  have mmem : ∀ x, m.mem x = if x ∈ T.nodes then (h2.mem x).moveTo h.nTree else h2.mem x := by
    intro x; subst hmdef; rfl
  have mmt : ∀ x, m.memTree x = if x ∈ T.nodes then some h.nTree else h2.memTree x := by
    intro x; subst hmdef; exact relabel_memTree (t := t)
  have mn : m.mem n = .strong h.nTree rc lk := by
    rw [mmem, if_pos hnT, U.mem, hmem]; rfl
  have hcr : h1.createNewTree n = .ok (m.settle t R.nodes) := by
    simp only [Heap.createNewTree, halloc, C.setMemberships, Heap.relTree]
    have : ((h2.relabel T.nodes t h.nTree).settle t R.nodes).treeRc h.nTree - 1 = 0 := by
      rw [settle_treeRc]; simp [Heap.relabel, krc]
    rw [this, settle_setTreeRc hne, ← hmdef, maybeDropTree_held]
    refine .inr ⟨n, rc, lk, by rw [settle_mem hnR]; exact mn, ?_⟩
    rw [settle_nNode]; subst hmdef
    show n < h2.nNode
    rw [U.nNode]; exact W.bound n ha
  obtain ⟨h0, hcr0, sim0⟩ : ∃ h0, hx.createNewTree n = .ok h0 ∧
      Sim (StaleHead l1 l2) h0 (m.settle t R.nodes) := by
    have := sim.createNewTree n
    rw [hcr] at this
    exact this.get
  have hdet : h.detachSubtreeL n = .ok h0 := by
    simp only [Heap.detachSubtreeL, isRoot_false W.toFShape hm, Bool.false_eq_true, if_false, he,
      bind, Except.bind, hcr0]
  have mdata : m.data = h2.data := by subst hmdef; rfl
  have mparent : m.parent = h2.parent := by subst hmdef; rfl
  have mroot : m.root = h2.root := by subst hmdef; rfl
  have Fm : FShape m (upd ch p (l1 ++ l2)) := by
    have F := U.shape
    subst hmdef
    exact ⟨F.dead, F.first, F.nodup, F.mem, F.seg, F.rootNext, F.acyc, F.bound⟩
  have WE : TreeWFe m (fun _ => False) :=
    U.treeWF W.toFShape W.tree hT mdata mparent mroot (by subst hmdef; rfl) mmt
      (by intro _; simp [kr]) (.inr (by simp))
  have RE : RefWFe m t :=
    U.refWF W.toFShape W.tree W.refs hT mdata mroot
      (by intro u hu; subst hmdef; simp [Heap.setTreeRc, Heap.relabel, hu]) mmem
      (.inr ⟨n, rc, lk, mn⟩)
  have mr : m.root t = some r := by rw [mroot]; simp [kr, hne, hr]
  obtain ⟨f1, f2, f3, f4, f5⟩ := settle_wf Fm WE RE mr hR (by intro x hx; exact absurd hx id)
  refine ⟨_, _, _, hdet, sim0, { toFShape := f1, num := f2 ?_, back := f3 ?_, tree := f4.toTreeWF (fun _ => id), refs := f5 }, ?_, ?_, ?_, ?_⟩
  · have := U.num; subst hmdef; exact this
  · have := k2 B1; subst hmdef; exact ⟨this.pseg, this.rootPrev⟩
  · have := U.rehomed (m := m) (E := fun _ => False) W.toFShape W.tree W.refs hT hr hR C.disj mdata
      (by subst hmdef; rfl) mroot (by subst hmdef; rfl)
      (by intro u hu; subst hmdef; simp [Heap.setTreeRc, Heap.relabel, hu]) mmem
      (by intro u; subst hmdef; rfl) Fm WE (by intro x hx; exact absurd hx id)
    simpa [kg] using this
  · unfold Heap.settle
    split
    · rw [dropped_root, upd_ne _ _ hne.symm, mroot]; simp [kr]
    · rw [mroot]; simp [kr]
  · rw [settle_treeRc]; subst hmdef; simp [Heap.setTreeRc]
  · have : (m.settle t R.nodes).nTree = m.nTree := by unfold Heap.settle; split <;> rfl
    rw [this]; subst hmdef; exact knt

theorem Rehomed.sim {D : NodeId → Prop} {k : Heap α} {ch1 ch' : NodeId → List NodeId} {A : List NodeId} {g : Int}
    (R : Rehomed h k ch1 ch' A t t' g) (s : Sim D h' k) : Rehomed h h' ch1 ch' A t t' g := by
  obtain ⟨pv, rfl, ag⟩ := s
  exact ⟨R.freed, R.data, R.moved, R.others, R.children, R.grantsNew, R.grantsOld, R.grantsOther,
    R.rootOld, R.rootKept, R.rootOther, R.treeRc, R.nNode⟩

/-- `detach_subtree` of a non-root node with a handle. -/
theorem detach_specL (W : WF h ch) (hs : ch p = l1 ++ n :: l2) (hT : SubtreeAt ch n T)
    {rc lk : Nat} (hmem : h.mem n = .strong t rc lk)
    (g1 : (h.lockedIn T.nodes : Int) ≤ h.grants t)
    (g2 : (h.lockedIn T.nodes : Int) ≤ Lock.isizeMax) :
    ∃ h' ch', h.detachSubtreeL n = .ok h' ∧ FShape h' ch' ∧ NumOK h' ch' ∧ TreeWF h' ∧ RefWF h' ∧
      ((l1 = [] ∨ l2 ≠ []) → BackOK h' ch') ∧
      Rehomed h h' (upd ch p (l1 ++ l2)) ch' T.nodes t h.nTree 0 ∧
      h'.root h.nTree = some n ∧ h'.treeRc h.nTree = 0 ∧ h'.nTree = h.nTree + 1 := by
  obtain ⟨h0, h', ch', e, s, W', R, e1, e2, e3⟩ := detach_wideL W hs hT hmem g1 g2
  have s' := s.symm
  refine ⟨h0, ch', e, s'.fshape W'.toFShape, s'.numOK W'.num, s'.treeWF W'.tree, s'.refWF W'.refs, ?_,
    R.sim s, by rw [s'.root]; exact e1, by rw [s'.treeRc]; exact e2, by rw [s'.nTree]; exact e3⟩
  intro hpos
  obtain rfl := s.eq_of_not (fun x hx => hx.elim hpos)
  exact W'.back

theorem acqTree_wf (W : WF h ch) (t : TreeId) : WF (h.acqTree t) ch := by
  refine { toShape := ?_, tree := ?_, refs := ?_ }
  · exact { dead := W.dead, first := W.first, nodup := W.nodup, mem := W.mem, seg := W.seg,
            rootNext := W.rootNext, acyc := W.acyc, bound := W.bound, num := W.num,
            back := ⟨W.back.pseg, W.back.rootPrev⟩ }
  · exact ⟨W.tree.live, W.tree.root, W.tree.child, W.tree.top, W.tree.bound⟩
  · refine ⟨W.refs.alive, W.refs.pos, ?_⟩
    intro u hu
    rcases W.refs.held u hu with h1 | h1
    · refine .inl ?_
      simp only [Heap.acqTree, Heap.setTreeRc, upd_apply]
      by_cases e : u = t
      · simp [e]
      · simpa [e] using h1
    · exact .inr h1

theorem DestSplit.congr {ch' : NodeId → List NodeId} {dest : InsertAs NodeId}
    (hd : DestSplit ch dest q m1 m2) (he : ch' q = ch q) : DestSplit ch' dest q m1 m2 := by
  cases hd with
  | first => have := DestSplit.first (ch := ch') q; rwa [he] at this
  | last => have := DestSplit.last (ch := ch') q; rwa [he] at this
  | prev hs => exact .prev (he.trans hs)
  | next hs => exact .next (he.trans hs)

/-- The anchor is the parent or one of its children. -/
theorem DestSplit.anchor {dest : InsertAs NodeId} (hd : DestSplit ch dest q m1 m2) :
    dest.anchor = q ∨ dest.anchor ∈ ch q := by
  cases hd with
  | first => exact .inl rfl
  | last => exact .inl rfl
  | prev hs => exact .inr (by simp [InsertAs.anchor, hs])
  | next hs => exact .inr (by simp [InsertAs.anchor, hs])

/-- The unlinked node has been inserted again. -/
theorem TreeWFe.inserted (W : TreeWFe h (fun x => x = n)) (s : SameNonLink h h')
    (hpar : ∀ x, h'.parent x = if x = n then some q else h.parent x)
    (hnr : ∀ u, h.root u ≠ some n) (hmt : h.memTree n = h.memTree q) : TreeWF h' := by
  constructor
  · intro x hx
    rw [s.alive] at hx; rw [s.memTree]
    obtain ⟨u, h1, h2⟩ := W.live x hx
    exact ⟨u, h1, by rw [s.treeAlive]; exact h2⟩
  · intro u x hx
    rw [s.root] at hx
    obtain ⟨h1, h2, h3⟩ := W.root u x hx
    have : x ≠ n := by rintro rfl; exact hnr u hx
    rw [s.alive, s.memTree, hpar, if_neg this]
    exact ⟨h1, h2, h3⟩
  · intro c p hc hp
    rw [s.alive] at hc
    rw [hpar] at hp
    rw [s.memTree, s.memTree]
    by_cases e : c = n
    · subst e
      simp only [if_true, Option.some.injEq] at hp
      subst hp; exact hmt
    · simp only [e, if_false] at hp; exact W.child c p hc hp
  · intro x u hx hp hm
    rw [s.alive] at hx
    rw [hpar] at hp
    rw [s.memTree] at hm
    by_cases e : x = n
    · simp [e] at hp
    · simp only [e, if_false] at hp
      rw [s.root]; exact W.top x u e hx hp hm
  · intro u hu; rw [s.treeAlive] at hu; rw [s.nTree]; exact W.bound u hu

/-- `try_detach_insert_subtree` of a non-root node into another tree; `h'` is the memory with
the pointer repaired that may be stale afterwards. -/
theorem moveOther_wideL {dest : InsertAs NodeId} (W : WF h ch) (hs : ch p = l1 ++ n :: l2)
    (hT : SubtreeAt ch n T)
    (ht : h.memTree n = some t) (hd : DestSplit ch dest q m1 m2) (hq : h.alive q = true)
    (ht' : h.memTree q = some t') (hne : t ≠ t')
    (g1 : (h.lockedIn T.nodes : Int) ≤ h.grants t) (g2 : 0 ≤ h.grants t')
    (g3 : h.grants t' + h.lockedIn T.nodes ≤ Lock.isizeMax) :
    ∃ h0 h' ch', h.detachInsertL n dest = .ok (h0, .ok ()) ∧ Sim (StaleHead l1 l2) h0 h' ∧ WF h' ch' ∧
      Rehomed h h' (upd (upd ch p (l1 ++ l2)) q (m1 ++ n :: m2)) ch' T.nodes t t' (h.grants t') ∧
      (h'.root t' = h.root t' ∧ h'.treeRc t' = h.treeRc t' ∧ h'.nTree = h.nTree) ∧
      ∃ g1 g2 k c, (h.acqTree t').newByUnlinkL n = .ok (g1, true) ∧
        g1.setMemberships n t' = .ok (some g2) ∧ Sim (StaleHead l1 l2) g2 k ∧ Shape k c ∧
        k.alive q = true ∧ c q = ch q ∧ k.parent n = none ∧ k.parent q = h.parent q ∧
        k.memTree n = some t' ∧ k.root t' = h.root t' ∧ k.treeRc t' = h.treeRc t' + 1 ∧
        (∀ x rc l, h.mem x = .strong t' rc l → k.mem x = .strong t' rc l) ∧ k.nNode = h.nNode ∧
        k.alive n = true ∧ TreeWFe k (fun x => x = n) := by
  have hm : n ∈ ch p := by simp [hs]
  have ha := W.alive_of_mem hm
  have hanc : h.alive dest.anchor = true ∧ h.memTree dest.anchor = some t' := by
    rcases hd.anchor with e | e
    · rw [e]; exact ⟨hq, ht'⟩
    · have := W.alive_of_mem e
      exact ⟨this, by rw [W.tree.child _ q this (W.parent_of_mem e)]; exact ht'⟩
  have hbt : h.belongsToSameTree n dest.anchor = false := by
    have h1 : n ≠ dest.anchor := by
      intro e; rw [← e, ht] at hanc; exact hne (by simpa using hanc.2)
    simp [Heap.belongsToSameTree, h1, ht, hanc.2, hne]
  have htc : h.treeCore dest.anchor = .ok t' := W.tree.treeCore hanc.1 hanc.2
  have ht'a := W.tree_alive hq ht'
  have hta := W.tree_alive ha ht
  obtain ⟨r, hr⟩ := Option.isSome_iff_exists.1 hta
  obtain ⟨hA, hAdef⟩ : ∃ hA, hA = h.acqTree t' := ⟨_, rfl⟩
  have WA : WF hA ch := by subst hAdef; exact acqTree_wf W t'
  have hmA : hA.mem = h.mem := by subst hAdef; rfl
  have htA : hA.memTree n = some t := by subst hAdef; exact ht
  have hrcA : ∀ u, hA.treeRc u = if u = t' then h.treeRc t' + 1 else h.treeRc u := by
    intro u; subst hAdef; simp [Heap.acqTree, Heap.setTreeRc, upd_apply]
  have hlkA : ∀ D, hA.lockedIn D = h.lockedIn D := by intro D; subst hAdef; rfl
  obtain ⟨hx, h2, he, sim, s2, Sh2, p2⟩ := unlink_wide WA.toShape hs
  have F2 := Sh2.toFShape
  have N2 := Sh2.num
  have B2 := Sh2.back
  have rA : hA.root = h.root := by subst hAdef; rfl
  have gA : hA.grants = h.grants := by subst hAdef; rfl
  have U : Unlinked hA h2 ch n p l1 l2 t t' :=
    { split := hs, memb := htA, ne := hne, shape := F2, num := N2, data := s2.data
      mutB := s2.mutB, mem := s2.mem, nNode := s2.nNode, nTree := by rw [s2.nTree]; exact Nat.le_refl _
      parent := p2, root := by intro u hu; rw [s2.root]
      root' := by intro x hx; rw [s2.root]; exact hx
      root'' := by intro x hx; rw [s2.root] at hx; exact .inr hx
      alive' := by rw [s2.treeAlive]; simp only [Heap.treeAlive, rA]; exact ht'a
      bound' := by
        rw [s2.nTree]; subst hAdef; exact W.tree.bound t' ht'a
      treeRc := by intro u hu; rw [s2.treeRc]
      grants := by intro u hu; rw [s2.grants] }
  obtain ⟨R, hR⟩ := F2.exists_subtree r
  have hrA : hA.root t = some r := by rw [rA]; exact hr
  have C := U.ctx WA.toFShape WA.tree WA.refs hT hrA hR (by rw [hlkA, gA]; exact g1)
    (by rw [s2.grants, gA]; exact g2) (by rw [s2.grants, gA, hlkA]; exact g3)
  have hnT : n ∈ T.nodes := (hT.mem_nodes_iff n).2 (.refl n)
  have hnR : n ∉ R.nodes := fun e => C.disj n e hnT
  have hmp : h.memTree p = some t := by
    rw [← W.tree.child n p ha (W.parent_of_mem hm)]; exact ht
  have hqp : q ≠ p := by
    rintro rfl; rw [hmp] at ht'; exact hne (by simpa using ht')
  have hqT : q ∉ T.nodes := by
    intro e
    have := W.tree.desc_memTree W.toFShape ((hT.mem_nodes_iff q).1 e)
    rw [ht, ht'] at this; exact hne (by simpa using this.symm)
  have h2mt : ∀ x, h2.memTree x = h.memTree x := by
    intro x; simp [Heap.memTree, s2.mem, hmA]
  have hqR : q ∉ R.nodes := by
    intro e
    have := C.rmemb q e
    rw [h2mt, ht'] at this; exact hne (by simpa using this.symm)
  obtain ⟨m, hmdef⟩ : ∃ m, m = h2.relabel T.nodes t t' := ⟨_, rfl⟩
  have mmem : ∀ x, m.mem x = if x ∈ T.nodes then (h2.mem x).moveTo t' else h2.mem x := by
    intro x; subst hmdef; rfl
  have mmt : ∀ x, m.memTree x = if x ∈ T.nodes then some t' else h2.memTree x := by
    intro x; subst hmdef; exact relabel_memTree (t := t)
  have mdata : m.data = h2.data := by subst hmdef; rfl
  have mparent : m.parent = h2.parent := by subst hmdef; rfl
  have mroot : m.root = h2.root := by subst hmdef; rfl
  have mrc : m.treeRc = h2.treeRc := by subst hmdef; rfl
  have Fm : FShape m (upd ch p (l1 ++ l2)) := by
    have F := U.shape
    subst hmdef
    exact ⟨F.dead, F.first, F.nodup, F.mem, F.seg, F.rootNext, F.acyc, F.bound⟩
  have hnr : ∀ u, h2.root u ≠ some n := by
    intro u hu
    rw [s2.root, rA] at hu
    have := (W.tree.root u n hu).2.2
    rw [W.parent_of_mem hm] at this; simp at this
  have WE : TreeWFe m (fun x => x = n) :=
    U.treeWF WA.toFShape WA.tree hT mdata mparent mroot (by subst hmdef; rfl) mmt
      (by intro hh; exact absurd rfl hh) (.inl (hnr t'))
  have RE : RefWFe m t :=
    U.refWF WA.toFShape WA.tree WA.refs hT mdata mroot
      (by intro u hu; rw [mrc]) mmem
      (.inl (by rw [mrc, s2.treeRc, hrcA]; simp))
  have mr : m.root t = some r := by rw [mroot, s2.root]; exact hrA
  have hEt : ∀ x, x = n → m.memTree x ≠ some t := by
    rintro x rfl
    rw [mmt, if_pos hnT]; simp [hne.symm]
  obtain ⟨f1, f2, f3, f4, f5⟩ := settle_wf Fm WE RE mr hR hEt
  have RH := U.rehomed (m := m) (E := fun x => x = n) WA.toFShape WA.tree WA.refs hT hrA hR C.disj mdata
      (by subst hmdef; rfl) mroot (by subst hmdef; rfl)
      (by intro u hu; rw [mrc]) mmem
      (by intro u; subst hmdef; rfl) Fm WE hEt
  obtain ⟨c2, hc2⟩ : ∃ c2, c2 = settledCh m t R.nodes (upd ch p (l1 ++ l2)) := ⟨_, rfl⟩
  obtain ⟨k, hk⟩ : ∃ k, k = m.settle t R.nodes := ⟨_, rfl⟩
  rw [← hc2, ← hk] at f1 f2 f3 RH
  rw [← hk] at f4 f5
  have hc2q : c2 q = ch q := by
    subst hc2; unfold settledCh without
    split
    · simp [hqR, hqp]
    · simp [hqp]
  have Sk : Shape k c2 := { toFShape := f1
                            num := f2 (by have := U.num; subst hmdef; exact this)
                            back := f3 (by
                              have := B2; subst hmdef; exact ⟨this.pseg, this.rootPrev⟩) }
  have kal : ∀ x, x ∉ R.nodes → k.alive x = h.alive x := by
    intro x hx
    have : m.alive x = h.alive x := by simp [Heap.alive, mdata, s2.data]; subst hAdef; rfl
    rw [← this]; subst hk; unfold Heap.settle; split
    · rw [dropped_alive, if_neg hx]
    · rfl
  have kpar : k.parent n = none := by
    have : m.parent n = none := by rw [mparent, p2]; simp
    subst hk; unfold Heap.settle; split
    · rw [dropped_parent, if_neg hnR]; exact this
    · exact this
  have kmt : ∀ x, x ∉ R.nodes → k.memTree x = m.memTree x := by
    intro x hx; subst hk; unfold Heap.settle; split
    · rw [dropped_memTree, if_neg hx]
    · rfl
  have hndq : ¬ Desc c2 n q := by
    intro hdq
    apply hqT
    rw [hT.mem_nodes_iff]
    clear hqT hqR hqp hc2q hd hq ht'
    induction hdq with
    | refl => exact .refl n
    | @step a b _ hb ih =>
      refine .step ih ?_
      have hb' : b ∈ upd ch p (l1 ++ l2) a := by
        subst hc2; unfold settledCh without at hb
        split at hb
        · dsimp only at hb
          split at hb
          · simp at hb
          · exact hb
        · exact hb
      by_cases e : a = p
      · subst e; rw [upd_same] at hb'; rw [hs]
        simp at hb' ⊢; rcases hb' with h1 | h1 <;> simp [h1]
      · rwa [upd_ne _ _ e] at hb'
  obtain ⟨k2, hi, sk, Sk2, pk2⟩ := insert_shape (dest := dest) (p := q) (l1 := m1) (l2 := m2) (n := n) Sk
    (by rw [kal n hnR]; exact ha) kpar (by rw [kal q hqR]; exact hq) hndq (hd.congr hc2q) true
  have Tk2 : TreeWF k2 := by
    refine f4.inserted sk pk2 ?_ ?_
    · intro u hu
      rw [hk] at hu
      unfold Heap.settle at hu
      split at hu
      · rw [dropped_root, upd_apply] at hu
        split at hu
        · simp at hu
        · rw [mroot] at hu; exact hnr u hu
      · rw [mroot] at hu; exact hnr u hu
    · rw [kmt n hnR, kmt q hqR, mmt, mmt, if_pos hnT, if_neg hqT, h2mt, ht']
  have Rk2 := f5.relink sk
  have krc : ∀ u, k2.treeRc u = hA.treeRc u := by
    intro u; rw [sk.treeRc, hk, settle_treeRc, mrc, s2.treeRc]
  obtain ⟨h', hh'⟩ : ∃ h', h' = k2.setTreeRc t' (k2.treeRc t' - 1) := ⟨_, rfl⟩
  have hrc' : h'.treeRc = h.treeRc := by
    subst hh'
    funext u
    simp only [Heap.setTreeRc, upd_apply, krc, hrcA]
    by_cases e : u = t'
    · simp [e]
    · simp [e]
  have Q' : RefWF h' := by
    refine ⟨?_, ?_, ?_⟩
    · intro x u rc l hx; subst hh'; exact Rk2.alive _ _ _ _ hx
    · intro x u rc l hx; subst hh'; exact Rk2.pos _ _ _ _ hx
    · intro u hu
      have hu2 : k2.treeAlive u = true := by subst hh'; exact hu
      have hm2 : h'.mem = k2.mem := by subst hh'; rfl
      by_cases e : u = t'
      · subst e
        rw [hrc']
        rcases W.refs.held u ht'a with h1 | ⟨x, rc, l, hx⟩
        · exact .inl h1
        · refine .inr ⟨x, rc, l, ?_⟩
          have hxT : x ∉ T.nodes := by
            intro e
            have := W.tree.desc_memTree W.toFShape ((hT.mem_nodes_iff x).1 e)
            rw [ht] at this; simp [Heap.memTree, hx] at this; exact hne this.symm
          have hxR : x ∉ R.nodes := by
            intro e
            have := C.rmemb x e
            rw [h2mt] at this; simp [Heap.memTree, hx] at this; exact hne this.symm
          rw [hm2, sk.mem, hk, settle_mem hxR, mmem, if_neg hxT, s2.mem, hmA]; exact hx
      · rcases Rk2.held u hu2 with h1 | h1
        · rw [krc, hrcA, if_neg e] at h1
          exact .inl (by rw [hrc']; exact h1)
        · rw [hm2]; exact .inr h1
  have W' : WF h' (upd c2 q (m1 ++ n :: m2)) := by
    refine { toShape := ?_, tree := ?_, refs := Q' }
    · subst hh'
      exact { dead := Sk2.dead, first := Sk2.first, nodup := Sk2.nodup, mem := Sk2.mem,
              seg := Sk2.seg, rootNext := Sk2.rootNext, acyc := Sk2.acyc, bound := Sk2.bound,
              num := Sk2.num, back := ⟨Sk2.back.pseg, Sk2.back.rootPrev⟩ }
    · subst hh'; exact ⟨Tk2.live, Tk2.root, Tk2.child, Tk2.top, Tk2.bound⟩
  have hrest : h2.moveRest n true dest t' = .ok (k2, .ok ()) := by
    simp only [Heap.moveRest, bind, Except.bind, C.setMemberships, ← hmdef, ← hk, hi]
  have hrel : k2.relTree [] t' = .ok h' := by
    simp only [Heap.relTree, ← hh']
    rw [W'.maybeDropTree]
  obtain ⟨j2, ej, simj⟩ := SimP.get (hrest ▸ SimP.flip (sim.symm.moveRest (n := n) (t := t') (b := true) (dest := dest) (by
    intro h1 e1
    rw [C.setMemberships, ← hmdef, ← hk] at e1
    obtain rfl : k = h1 := by simpa using e1
    refine InsReads.of_shape Sk (by rw [kal q hqR]; exact hq) (hd.congr hc2q) ?_ ?_
    · rintro x hx ⟨-, hx'⟩
      rw [hc2q] at hx
      exact absurd (W.unique_parent hx (by rw [hs]; exact List.mem_append_left _ (List.mem_of_head? hx'))) hqp
    · rintro - x hx ⟨-, hx'⟩
      rw [hc2q] at hx
      exact absurd (W.unique_parent (List.mem_of_head? hx) (by rw [hs]; exact List.mem_append_left _ (List.mem_of_head? hx'))) hqp)))
  obtain ⟨h0, e0, sim0⟩ := (hrel ▸ simj.relTree [] t').get
  have hrun : h.detachInsertL n dest = .ok (h0, .ok ()) := by
    have hmo : hA.moveOtherL n dest t' = .ok (j2, .ok ()) := by
      unfold Heap.moveOtherL
      rw [he]
      exact ej
    simp only [Heap.detachInsertL, hbt, Bool.false_eq_true, if_false, htc, bind, Except.bind,
      ← hAdef, hmo, e0, pure, Except.pure]
  have hLH : ∀ D, LastHandlesLeave hA D t ↔ LastHandlesLeave h D t := by
    intro D; unfold LastHandlesLeave; rw [hmA, hrcA, if_neg hne]
  have hAb : ∀ D x, Abandoned hA D t x ↔ Abandoned h D t x := by
    intro D x; unfold Abandoned; rw [hLH]
    have : hA.memTree x = h.memTree x := by simp [Heap.memTree, hmA]
    rw [this]
  have dA : hA.data = h.data := by subst hAdef; rfl
  have bA : hA.mutB = h.mutB := by subst hAdef; rfl
  have e1 : h'.data = k.data := by subst hh'; exact sk.data
  have e2 : h'.mutB = k.mutB := by subst hh'; exact sk.mutB
  have e3 : h'.mem = k.mem := by subst hh'; exact sk.mem
  have e4 : h'.grants = k.grants := by subst hh'; exact sk.grants
  have e5 : h'.root = k.root := by subst hh'; exact sk.root
  have hmid : ∃ g1 g2 k c, (h.acqTree t').newByUnlinkL n = .ok (g1, true) ∧
      g1.setMemberships n t' = .ok (some g2) ∧ Sim (StaleHead l1 l2) g2 k ∧ Shape k c ∧
      k.alive q = true ∧ c q = ch q ∧ k.parent n = none ∧ k.parent q = h.parent q ∧
        k.memTree n = some t' ∧ k.root t' = h.root t' ∧ k.treeRc t' = h.treeRc t' + 1 ∧
        (∀ x rc l, h.mem x = .strong t' rc l → k.mem x = .strong t' rc l) ∧ k.nNode = h.nNode ∧
        k.alive n = true ∧ TreeWFe k (fun x => x = n) := by
    have hqn : q ≠ n := by rintro rfl; exact hqT hnT
    have hkq : k.parent q = h.parent q := by
      have : m.parent q = h.parent q := by rw [mparent, p2, if_neg hqn, hAdef]; rfl
      rw [← this]; rw [hk]; unfold Heap.settle; split
      · rw [dropped_parent, if_neg hqR]
      · rfl
    have hkn : k.memTree n = some t' := by rw [kmt n hnR, mmt, if_pos hnT]
    have hkr : k.root t' = h.root t' := by
      rw [hk]; unfold Heap.settle; split
      · rw [dropped_root, upd_ne _ _ hne.symm, mroot, s2.root, rA]
      · rw [mroot, s2.root, rA]
    have hkc : k.treeRc t' = h.treeRc t' + 1 := by
      rw [hk, settle_treeRc, mrc, s2.treeRc, hrcA, if_pos rfl]
    have hks : ∀ x rc l, h.mem x = .strong t' rc l → k.mem x = .strong t' rc l := by
      intro x rc l hx
      have hxT : x ∉ T.nodes := by
        intro e
        have := W.tree.desc_memTree W.toFShape ((hT.mem_nodes_iff x).1 e)
        rw [ht] at this; simp [Heap.memTree, hx] at this; exact hne this.symm
      have hxR : x ∉ R.nodes := by
        intro e
        have := C.rmemb x e
        rw [h2mt] at this; simp [Heap.memTree, hx] at this; exact hne this.symm
      rw [hk, settle_mem hxR, mmem, if_neg hxT, s2.mem, hmA]; exact hx
    have hkN : k.nNode = h.nNode := by
      rw [hk, settle_nNode, hmdef]
      show h2.nNode = _
      rw [s2.nNode, hAdef]; rfl
    have hsm : h2.setMemberships n t' = .ok (some k) := by rw [C.setMemberships, ← hmdef, ← hk]
    obtain ⟨o, eo, so⟩ := (hsm ▸ sim.setMemberships n t').get
    cases so with
    | some so => exact ⟨hx, _, k, c2, by rw [← hAdef]; exact he, eo, so, Sk, by rw [kal q hqR]; exact hq, hc2q,
      kpar, hkq, hkn, hkr, hkc, hks, hkN, by rw [kal n hnR]; exact ha, f4⟩
  refine ⟨h0, h', _, hrun, sim0, W', ?_, ⟨?_, by rw [hrc'], ?_⟩, hmid⟩
  · refine { freed := ?_, data := ?_, moved := ?_, others := ?_, children := ?_, grantsNew := ?_,
             grantsOld := ?_, grantsOther := ?_, rootOld := ?_,
             rootKept := ?_, rootOther := ?_, treeRc := ?_, nNode := ?_ }
    · intro x hx
      have := RH.freed x ((hAb _ x).2 hx)
      simpa [Heap.alive, e1] using this
    · intro x hx
      have := RH.data x (fun e => hx ((hAb _ x).1 e))
      rw [e1, e2, ← dA, ← bA]; exact this
    · intro x hx; rw [e3, ← hmA]; exact RH.moved x hx
    · intro x hx hx'
      rw [e3, ← hmA]; exact RH.others x hx (fun e => hx' ((hAb _ x).1 e))
    · intro x hx
      by_cases e : x = q
      · subst e; simp
      · rw [upd_ne _ _ e, upd_ne _ _ e]
        exact RH.children x (fun e => hx ((hAb _ x).1 e))
    · rw [e4, ← hlkA, ← gA, ← s2.grants]; exact RH.grantsNew
    · intro hh; rw [e4, ← hlkA, ← gA]; exact RH.grantsOld (fun e => hh ((hLH _).1 e))
    · intro u hu hu'; rw [e4, ← gA]; exact RH.grantsOther u hu hu'
    · rw [e5, ← hLH]; exact RH.rootOld
    · intro hh; rw [e5, ← rA]; exact RH.rootKept (fun e => hh ((hLH _).1 e))
    · intro u hu hu'; rw [e5, ← rA]; exact RH.rootOther u hu hu'
    · intro u hu; rw [hrc']
    · have : h'.nNode = k.nNode := by subst hh'; exact sk.nNode
      rw [this, RH.nNode]; subst hAdef; rfl
  · rw [e5, hk]
    unfold Heap.settle
    split
    · rw [dropped_root, upd_ne _ _ hne.symm, mroot, s2.root, rA]
    · rw [mroot, s2.root, rA]
  · have : h'.nTree = k.nTree := by subst hh'; exact sk.nTree
    rw [this, hk]
    have : (m.settle t R.nodes).nTree = m.nTree := by unfold Heap.settle; split <;> rfl
    rw [this]; subst hmdef
    show h2.nTree = _
    rw [s2.nTree]; subst hAdef; rfl

/-- `try_detach_insert_subtree` of a non-root node into another tree. -/
theorem moveOther_specL {dest : InsertAs NodeId} (W : WF h ch) (hs : ch p = l1 ++ n :: l2)
    (hpos : l1 = [] ∨ l2 ≠ []) (hT : SubtreeAt ch n T)
    (ht : h.memTree n = some t) (hd : DestSplit ch dest q m1 m2) (hq : h.alive q = true)
    (ht' : h.memTree q = some t') (hne : t ≠ t')
    (g1 : (h.lockedIn T.nodes : Int) ≤ h.grants t) (g2 : 0 ≤ h.grants t')
    (g3 : h.grants t' + h.lockedIn T.nodes ≤ Lock.isizeMax) :
    ∃ h' ch', h.detachInsertL n dest = .ok (h', .ok ()) ∧ WF h' ch' ∧
      Rehomed h h' (upd (upd ch p (l1 ++ l2)) q (m1 ++ n :: m2)) ch' T.nodes t t' (h.grants t') ∧
      h'.root t' = h.root t' ∧ h'.treeRc t' = h.treeRc t' ∧ h'.nTree = h.nTree := by
  obtain ⟨h0, h', ch', e, s, W', R, ⟨e1, e2, e3⟩, -⟩ := moveOther_wideL W hs hT ht hd hq ht' hne g1 g2 g3
  obtain rfl := s.eq_of_not (fun x hx => hx.elim hpos)
  exact ⟨h', ch', e, W', R, e1, e2, e3⟩

end Dendron
