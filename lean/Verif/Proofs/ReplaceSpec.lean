import Verif.Proofs.Isolated

/-! `try_replace_with_children`. -/

set_option linter.unusedSimpArgs false
set_option linter.unusedVariables false

set_option autoImplicit false

namespace Dendron
open RTree
variable {α : Type} {h h1 h2 h' : Heap α} {ch ch1 : NodeId → List NodeId} {n p r q c : NodeId}
  {t t' : TreeId} {T R : RTree NodeId} {l1 l2 : List NodeId}

/-- Acquiring and releasing an `Rc<TreeCore>` of a tree with a strong member. -/
theorem acq_rel {rc lk : Nat} (hm : h.mem n = .strong t rc lk) (hb : n < h.nNode) :
    (h.acqTree t).relTree [] t = .ok h := by
  have e : (h.acqTree t).setTreeRc t ((h.acqTree t).treeRc t - 1) = h := by
    have : upd (upd h.treeRc t (h.treeRc t + 1)) t (h.treeRc t) = h.treeRc := by
      funext u; simp only [upd_apply]; by_cases e : u = t <;> simp [e]
    simp [Heap.acqTree, Heap.setTreeRc, this]
  simp only [Heap.relTree, e]
  rw [maybeDropTree_held (.inr ⟨n, rc, lk, hm, hb⟩)]

/-- Replacing a node below the root by its children; `h'` is the memory with the pointer repaired
that may be stale afterwards. -/
theorem replace_nonroot_wideL {rc lk : Nat} (W : WF h ch) (hs : ch p = l1 ++ n :: l2)
    (hm : h.mem n = .strong t rc lk) (g1 : (h.lockedIn [n] : Int) ≤ h.grants t) :
    ∃ h0 h' ch', h.replaceWithChildrenL n = .ok (h0, .ok ()) ∧
      Sim (fun x => ch n = [] ∧ StaleHead l1 l2 x) h0 h' ∧ WF h' ch' ∧
      Rehomed h h' (upd (upd ch p (l1 ++ (ch n ++ l2))) n []) ch' [n] t h.nTree 0 ∧
      h'.root h.nTree = some n ∧ h'.treeRc h.nTree = 0 ∧ h'.nTree = h.nTree + 1 := by
  have hmp : n ∈ ch p := by simp [hs]
  have ha := W.alive_of_mem hmp
  have hpa := W.alive_parent hmp
  have hmt : h.memTree n = some t := by simp [Heap.memTree, hm]
  have htc : h.treeCore n = .ok t := W.tree.treeCore ha hmt
  have hta := W.tree_alive ha hmt
  obtain ⟨r, hr⟩ := Option.isSome_iff_exists.1 hta
  obtain ⟨hA, hAdef⟩ : ∃ hA, hA = h.acqTree t := ⟨_, rfl⟩
  have WA : WF hA ch := by subst hAdef; exact acqTree_wf W t
  obtain ⟨k, hk, s, kp, kf, kn, kv, kc⟩ := replaceNonRoot_eq WA.toShape hs
  have hnp := (W.toFShape.spliceFacts hs).np
  obtain ⟨i0, hi⟩ : ∃ i0, i0 = k.isolate n := ⟨_, rfl⟩
  rw [← hi] at s kp kf kn kv kc
  obtain ⟨i, simi, B1⟩ := exists_repaired (P := ch n ≠ [] ∨ l1 = [] ∨ l2 ≠ [])
    (ch' := spliced ch p n l1 l2) WA.toShape hs s.alive
    (fun hpos => BackOK.spliceAt WA.toShape hs hpos s.alive kp kv) (by
      intro hp
      simp only [not_or, ne_eq, Decidable.not_not] at hp
      obtain ⟨hc, hl1, hl2⟩ := hp
      refine ⟨hl2, hl1, ?_, ?_, ?_⟩
      · funext x
        rw [spliced_apply, hc, hl2, upd_apply]
        by_cases e : x = n
        · simp [e, hnp, hc]
        · simp [e]
      · intro x; rw [kp, hc]; simp
      · intro x; rw [kv, hc, hl2]; simp)
  have simi := simi.mono (D' := fun x => ch n = [] ∧ StaleHead l1 l2 x) (by
    rintro x ⟨h1, h2⟩
    refine ⟨?_, h2⟩
    by_cases e : ch n = []
    · exact e
    · exact absurd (.inl e) h1)
  replace s := simi.sameNonLink s
  replace kp : ∀ x, i.parent x = _ := fun x => (congrFun simi.parent x).trans (kp x)
  replace kf : ∀ x, i.firstChild x = _ := fun x => (congrFun simi.firstChild x).trans (kf x)
  replace kn : ∀ x, i.next x = _ := fun x => (congrFun simi.next x).trans (kn x)
  replace kc : ∀ x, i.numCh x = _ := fun x => (congrFun simi.numCh x).trans (kc x)
  have hal : ∀ x, i.alive x = hA.alive x := fun x => s.alive x
  have haA : hA.alive n = true := by subst hAdef; exact ha
  have F1 := WA.toFShape.spliceAt hs hal kp kf kn s.nNode
  have N1 := WA.num.spliceAt hs hnp haA hal kc
  have hmA : hA.mem = h.mem := by subst hAdef; rfl
  have hrA : hA.root = h.root := by subst hAdef; rfl
  have hgA : hA.grants = h.grants := by subst hAdef; rfl
  have hdA : hA.data = h.data := by subst hAdef; rfl
  have hbA : hA.mutB = h.mutB := by subst hAdef; rfl
  have hnA : hA.nNode = h.nNode := by subst hAdef; rfl
  have htA : hA.nTree = h.nTree := by subst hAdef; rfl
  have hcA : ∀ u, hA.treeRc u = if u = t then h.treeRc t + 1 else h.treeRc u := by
    intro u; subst hAdef; simp [Heap.acqTree, Heap.setTreeRc, upd_apply]
  have hnr : ∀ u, i.root u ≠ some n := by
    intro u hu
    rw [s.root] at hu
    have := (WA.tree.root u n hu).2.2
    rw [WA.parent_of_mem hmp] at this; simp at this
  have hpt : hA.memTree p = hA.memTree n := (WA.tree.child n p haA (WA.parent_of_mem hmp)).symm
  have WE : TreeWFe i (fun x => x = n) := by
    constructor
    · intro x hx
      rw [hal] at hx
      obtain ⟨u, h3, h4⟩ := WA.tree.live x hx
      exact ⟨u, by rw [s.memTree]; exact h3, by rw [s.treeAlive]; exact h4⟩
    · intro u x hx
      rw [s.root] at hx
      obtain ⟨h3, h4, h5⟩ := WA.tree.root u x hx
      refine ⟨by rw [hal]; exact h3, by rw [s.memTree]; exact h4, ?_⟩
      rw [kp]
      have h6 : x ≠ n := by
        rintro rfl; rw [WA.parent_of_mem hmp] at h5; simp at h5
      have h7 : x ∉ ch n := by
        intro h7; rw [WA.parent_of_mem h7] at h5; simp at h5
      simp [h6, h7, h5]
    · intro x q hx hq
      rw [hal] at hx
      rw [kp] at hq
      rw [s.memTree, s.memTree]
      by_cases e : x = n
      · simp [e] at hq
      · by_cases e2 : x ∈ ch n
        · simp only [e, e2, if_true, if_false, Option.some.injEq] at hq
          subst hq
          rw [hpt]; exact WA.tree.child x n hx (WA.parent_of_mem e2)
        · simp only [e, e2, if_false] at hq
          exact WA.tree.child x q hx hq
    · intro x u hxn hx hp hmx
      rw [hal] at hx
      rw [kp] at hp
      rw [s.memTree] at hmx
      rw [s.root]
      by_cases e2 : x ∈ ch n
      · simp [hxn, e2] at hp
      · simp only [hxn, e2, if_false] at hp
        exact WA.tree.top x u hx hp hmx
    · intro u hu; rw [s.treeAlive] at hu; rw [s.nTree]; exact WA.tree.bound u hu
  have hlk : i.lockedIn [n] = h.lockedIn [n] := by
    have : i.locked = h.locked := by funext x; simp [Heap.locked, s.mem, hmA]
    simp [Heap.lockedIn, this]
  obtain ⟨m, h', ch', z1, z2, z3, z4, z5, z6, z7, z8, z9⟩ :=
    isolated_new_tree (n := n) (t := t) (rc := rc) (lk := lk) (r := r) (h := h) (h1 := i)
      (P := True) F1 N1 (fun _ => B1)
      (by simp [spliced_apply]) (by simp [kp]) (by rw [hal]; exact haA) WE hnr
      (by rw [s.mem, hmA]; exact hm) (by rw [s.root, hrA]; exact hr)
      (by rw [hlk, s.grants, hgA]; exact g1) W.refs
      (s.data.trans hdA) (s.mutB.trans hbA) (s.mem.trans hmA) (s.root.trans hrA)
      (s.grants.trans hgA) (s.nNode.trans hnA) (s.nTree.trans htA)
      (by intro u; rw [s.treeRc]; exact hcA u)
  obtain ⟨m0, y1, simm⟩ := (z1 ▸ simi.createNewTree n).get
  obtain ⟨h0, y2, sim0⟩ := (z2 ▸ simm.relTree [] t).get
  refine ⟨h0, h', ch', ?_, sim0, { toFShape := z3, num := z4, back := z5 trivial, tree := z6, refs := z7 }, z8, z9⟩
  have hpl : hA.parentLink n = some p := by rw [WA.toFShape.parentLink haA]; exact WA.parent_of_mem hmp
  have hfc : hA.firstChildLink n = (ch n).head? := WA.first n haA
  unfold Heap.replaceWithChildrenL
  simp only [htc, bind, Except.bind, ← hAdef, hpl, hfc, hk, replaceTail_eq, ← hi, y1, y2, pure,
    Except.pure]

/-- Replacing a node below the root by its children. -/
theorem replace_nonroot_specL {rc lk : Nat} (W : WF h ch) (hs : ch p = l1 ++ n :: l2)
    (hm : h.mem n = .strong t rc lk) (g1 : (h.lockedIn [n] : Int) ≤ h.grants t) :
    ∃ h' ch', h.replaceWithChildrenL n = .ok (h', .ok ()) ∧ FShape h' ch' ∧ NumOK h' ch' ∧
      (ch n ≠ [] ∨ l1 = [] ∨ l2 ≠ [] → BackOK h' ch') ∧ TreeWF h' ∧ RefWF h' ∧
      Rehomed h h' (upd (upd ch p (l1 ++ (ch n ++ l2))) n []) ch' [n] t h.nTree 0 ∧
      h'.root h.nTree = some n ∧ h'.treeRc h.nTree = 0 ∧ h'.nTree = h.nTree + 1 := by
  obtain ⟨h0, h', ch', e, s, W', R, e1, e2, e3⟩ := replace_nonroot_wideL W hs hm g1
  have s' := s.symm
  refine ⟨h0, ch', e, s'.fshape W'.toFShape, s'.numOK W'.num, ?_, s'.treeWF W'.tree, s'.refWF W'.refs,
    R.sim s, by rw [s'.root]; exact e1, by rw [s'.treeRc]; exact e2, by rw [s'.nTree]; exact e3⟩
  intro hpos
  obtain rfl := s.eq_of_not (fun x hx => by
    rcases hpos with h1 | h1
    · exact h1 hx.1
    · exact hx.2.elim h1)
  exact W'.back

/-- Replacing the root by its only child. -/
theorem replace_root_specL {rc lk : Nat} (W : WF h ch) (hs : ch n = [c]) (hpn : h.parent n = none)
    (hm : h.mem n = .strong t rc lk) (g1 : (h.lockedIn [n] : Int) ≤ h.grants t) :
    ∃ h' ch', h.replaceWithChildrenL n = .ok (h', .ok ()) ∧ WF h' ch' ∧
      Rehomed (h.setRoot t (some c)) h' (upd ch n []) ch' [n] t h.nTree 0 ∧
      h'.root h.nTree = some n ∧ h'.treeRc h.nTree = 0 ∧ h'.nTree = h.nTree + 1 := by
  have hcm : c ∈ ch n := by simp [hs]
  have hca := W.alive_of_mem hcm
  have ha := W.alive_parent hcm
  have hmt : h.memTree n = some t := by simp [Heap.memTree, hm]
  have htc : h.treeCore n = .ok t := W.tree.treeCore ha hmt
  have hr : h.root t = some n := W.tree.top n t ha hpn hmt
  have hcn : c ≠ n := by
    rintro rfl; rw [W.parent_of_mem hcm] at hpn; simp at hpn
  obtain ⟨i, hi⟩ : ∃ i, i = (((h.acqTree t).setParent c none).setRoot t (some c)).isolate n :=
    ⟨_, rfl⟩
  have ip : ∀ x, i.parent x = if x = n then none else if x = c then none else h.parent x := by
    intro x; subst hi; simp [Heap.isolate, Heap.setParent, Heap.setRoot, Heap.setFirst,
      Heap.setPrev, Heap.setNext, Heap.setNum, Heap.acqTree, Heap.setTreeRc, upd_apply]
  have iff : ∀ x, i.firstChild x = if x = n then none else h.firstChild x := by
    intro x; subst hi; simp [Heap.isolate, Heap.setParent, Heap.setRoot, Heap.setFirst,
      Heap.setPrev, Heap.setNext, Heap.setNum, Heap.acqTree, Heap.setTreeRc, upd_apply]
  have inx : ∀ x, i.next x = if x = n then none else h.next x := by
    intro x; subst hi; simp [Heap.isolate, Heap.setParent, Heap.setRoot, Heap.setFirst,
      Heap.setPrev, Heap.setNext, Heap.setNum, Heap.acqTree, Heap.setTreeRc, upd_apply]
  have ipv : ∀ x, i.prevCyc x = if x = n then some n else h.prevCyc x := by
    intro x; subst hi; simp [Heap.isolate, Heap.setParent, Heap.setRoot, Heap.setFirst,
      Heap.setPrev, Heap.setNext, Heap.setNum, Heap.acqTree, Heap.setTreeRc, upd_apply]
  have inum : ∀ x, i.numCh x = if x = n then 0 else h.numCh x := by
    intro x; subst hi; simp [Heap.isolate, Heap.setParent, Heap.setRoot, Heap.setFirst,
      Heap.setPrev, Heap.setNext, Heap.setNum, Heap.acqTree, Heap.setTreeRc, upd_apply]
  have irt : ∀ u, i.root u = if u = t then some c else h.root u := by
    intro u; subst hi; simp [Heap.isolate, Heap.setParent, Heap.setRoot, Heap.setFirst,
      Heap.setPrev, Heap.setNext, Heap.setNum, Heap.acqTree, Heap.setTreeRc, upd_apply]
  have irc : ∀ u, i.treeRc u = if u = t then h.treeRc t + 1 else h.treeRc u := by
    intro u; subst hi; simp [Heap.isolate, Heap.setParent, Heap.setRoot, Heap.setFirst,
      Heap.setPrev, Heap.setNext, Heap.setNum, Heap.acqTree, Heap.setTreeRc, upd_apply]
  have e1 : i.data = h.data := by subst hi; rfl
  have e2 : i.mutB = h.mutB := by subst hi; rfl
  have e3 : i.mem = h.mem := by subst hi; rfl
  have e5 : i.grants = h.grants := by subst hi; rfl
  have e6 : i.nNode = h.nNode := by subst hi; rfl
  have e7 : i.nTree = h.nTree := by subst hi; rfl
  have hal : ∀ x, i.alive x = h.alive x := by intro x; simp [Heap.alive, e1]
  have imt : ∀ x, i.memTree x = h.memTree x := by intro x; simp [Heap.memTree, e3]
  have hcq : ∀ q, c ∈ ch q → q = n := fun q hq => W.toFShape.parent_unique hq hcm
  have F1 : FShape i (upd ch n []) := by
    constructor
    · intro x hx
      rw [hal] at hx
      rw [upd_apply]; split
      · rfl
      · exact W.dead x hx
    · intro x hx
      rw [hal] at hx
      rw [iff, upd_apply]; split
      · rfl
      · exact W.first x hx
    · intro x; rw [upd_apply]; split
      · exact List.nodup_nil
      · exact W.nodup x
    · intro q x
      rw [hal, ip, upd_apply]
      by_cases e : q = n
      · subst e
        simp only [if_true, List.not_mem_nil, false_iff]
        rintro ⟨h3, h4⟩
        by_cases e3 : x = q
        · simp [e3] at h4
        · by_cases e4 : x = c
          · simp [e4, hcn] at h4
          · simp only [e3, e4, if_false] at h4
            have := W.toFShape.mem_of_parent h3 h4
            rw [hs] at this; simp at this; exact e4 this
      · simp only [e, if_false]
        rw [W.mem]
        by_cases e3 : x = n
        · subst e3; simp [hpn]
        · by_cases e4 : x = c
          · subst e4
            simp only [hcn, if_true, if_false]
            constructor
            · rintro ⟨h3, h4⟩
              exact absurd (hcq q (W.toFShape.mem_of_parent h3 h4)) e
            · rintro ⟨_, h4⟩; simp at h4
          · simp [e3, e4]
    · intro q
      rw [upd_apply]
      split
      · exact True.intro
      · rename_i e
        refine (Seg.congr ?_).1 (W.seg q)
        intro x hx
        have : x ≠ n := by rintro rfl; rw [W.parent_of_mem hx] at hpn; simp at hpn
        rw [inx, if_neg this]
    · intro x hx hp
      rw [hal] at hx
      rw [inx]
      split
      · rfl
      · rename_i e
        rw [ip] at hp
        by_cases e4 : x = c
        · subst e4
          have := W.seg n
          rw [hs] at this
          simpa [Seg] using this.1
        · simp only [e, e4, if_false] at hp
          exact W.rootNext x hx hp
    · obtain ⟨ht, hh⟩ := W.acyc
      refine ⟨ht, ?_⟩
      intro q x hx
      rw [upd_apply] at hx
      split at hx
      · simp at hx
      · exact hh q x hx
    · intro x hx; rw [hal] at hx; rw [e6]; exact W.bound x hx
  have N1 : NumOK i (upd ch n []) := by
    intro q hq
    rw [hal] at hq
    rw [inum, upd_apply]; split
    · rfl
    · exact W.num q hq
  have B1 : BackOK i (upd ch n []) := by
    constructor
    · intro q
      rw [upd_apply]
      split
      · exact True.intro
      · rename_i e
        refine (PSeg.congr ?_).1 (W.back.pseg q)
        intro x hx
        have : x ≠ n := by rintro rfl; rw [W.parent_of_mem hx] at hpn; simp at hpn
        rw [ipv, if_neg this]
    · intro x hx hp
      rw [hal] at hx
      rw [ipv]
      split
      · rename_i e; rw [e]
      · rename_i e
        rw [ip] at hp
        by_cases e4 : x = c
        · subst e4
          have := W.back.pseg n
          rw [hs] at this
          simpa [PSeg] using this
        · simp only [e, e4, if_false] at hp
          exact W.back.rootPrev x hx hp
  have hcmt : h.memTree c = some t := by
    rw [W.tree.child c n hca (W.parent_of_mem hcm)]; exact hmt
  have WE : TreeWFe i (fun x => x = n) := by
    constructor
    · intro x hx
      rw [hal] at hx
      obtain ⟨u, h3, h4⟩ := W.tree.live x hx
      refine ⟨u, by rw [imt]; exact h3, ?_⟩
      simp only [Heap.treeAlive, irt]
      split
      · rfl
      · exact h4
    · intro u x hx
      rw [irt] at hx
      rw [hal, imt, ip]
      by_cases e : u = t
      · simp only [e, if_true, Option.some.injEq] at hx
        subst hx; simp [hca, hcmt, e]
      · simp only [e, if_false] at hx
        obtain ⟨h3, h4, h5⟩ := W.tree.root u x hx
        refine ⟨h3, h4, ?_⟩
        split
        · rfl
        · split
          · rfl
          · exact h5
    · intro x q hx hq
      rw [hal] at hx
      rw [ip] at hq
      rw [imt, imt]
      by_cases e3 : x = n
      · simp [e3] at hq
      · by_cases e4 : x = c
        · simp [e4, hcn] at hq
        · simp only [e3, e4, if_false] at hq; exact W.tree.child x q hx hq
    · intro x u hxn hx hp hmx
      rw [hal] at hx
      rw [ip] at hp
      rw [imt] at hmx
      rw [irt]
      by_cases e4 : x = c
      · subst e4; rw [hcmt] at hmx
        have : t = u := by simpa using hmx
        simp [this]
      · simp only [hxn, e4, if_false] at hp
        have := W.tree.top x u hx hp hmx
        have hu : u ≠ t := by
          rintro rfl; rw [hr] at this; simp at this; exact hxn this.symm
        simp [hu, this]
    · intro u hu
      rw [e7]
      by_cases e : u = t
      · subst e; exact W.tree.bound u (by simp [Heap.treeAlive, hr])
      · simp only [Heap.treeAlive, irt, e, if_false] at hu; exact W.tree.bound u hu
  have hnr : ∀ u, i.root u ≠ some n := by
    intro u hu
    rw [irt] at hu
    by_cases e : u = t
    · simp [e] at hu; exact hcn hu
    · simp only [e, if_false] at hu
      have := (W.tree.root u n hu).2.1
      rw [hmt] at this; simp at this; exact e this.symm
  have hlk : i.lockedIn [n] = h.lockedIn [n] := by
    have : i.locked = h.locked := by funext x; simp [Heap.locked, e3]
    simp [Heap.lockedIn, this]
  have Q : RefWF (h.setRoot t (some c)) := by
    refine ⟨W.refs.alive, W.refs.pos, ?_⟩
    intro u hu
    by_cases e : u = t
    · subst e; exact .inr ⟨n, rc, lk, hm⟩
    · refine W.refs.held u ?_
      simpa [Heap.treeAlive, Heap.setRoot, e] using hu
  obtain ⟨m, h', ch', z1, z2, z3, z4, z5, z6, z7, z8, z9⟩ :=
    isolated_new_tree (n := n) (t := t) (rc := rc) (lk := lk) (r := c) (h := h.setRoot t (some c))
      (h1 := i) (P := True) F1 N1 (fun _ => B1)
      (by simp) (by simp [ip]) (by rw [hal]; exact ha) WE hnr
      (by rw [e3]; exact hm) (by simp [irt])
      (by rw [hlk, e5]; exact g1) Q
      e1 e2 e3 (by funext u; rw [irt]; rfl) e5 e6 e7 irc
  refine ⟨h', ch', ?_, ?_, z8, z9⟩
  · have hpl : (h.acqTree t).parentLink n = none := by
      simp [Heap.parentLink, Heap.acqTree, Heap.setTreeRc, Heap.upgrade, hpn]
    have hfc : (h.acqTree t).firstChildLink n = some c := by
      have := W.first n ha
      rw [hs] at this; exact this
    have hnum : (h.acqTree t).numCh n = 1 := by
      have := W.num n ha
      rw [hs] at this; exact this
    unfold Heap.replaceWithChildrenL
    simp only [htc, bind, Except.bind, hpl, hfc, hnum, replaceTail_eq, ← hi, z1, z2, pure,
      Except.pure, if_true, Nat.one_ne_zero, if_false]
  · exact { toFShape := z3, num := z4, back := z5 True.intro, tree := z6, refs := z7 }

/-- Replacing a root that does not have exactly one child fails and changes nothing. -/
theorem replace_root_failL {rc lk : Nat} (W : WF h ch) (hpn : h.parent n = none)
    (hm : h.mem n = .strong t rc lk) (hl : (ch n).length ≠ 1) :
    h.replaceWithChildrenL n = .ok (h, .error
      (if ch n = [] then .emptyTree else .siblingsWithoutParent)) := by
  have ha := W.refs.alive _ _ _ _ hm
  have hmt : h.memTree n = some t := by simp [Heap.memTree, hm]
  have htc : h.treeCore n = .ok t := W.tree.treeCore ha hmt
  have hpl : (h.acqTree t).parentLink n = none := by
    simp [Heap.parentLink, Heap.acqTree, Heap.setTreeRc, Heap.upgrade, hpn]
  have hnum : (h.acqTree t).numCh n = (ch n).length := W.num n ha
  have hrel := acq_rel hm (W.bound n ha)
  unfold Heap.replaceWithChildrenL
  by_cases e : ch n = []
  · simp only [htc, bind, Except.bind, hpl, hnum, e, List.length_nil, if_true, hrel, pure,
      Except.pure]
  · have h0 : (ch n).length ≠ 0 := by simpa using e
    simp only [htc, bind, Except.bind, hpl, hnum, e, h0, hl, if_false, hrel, pure, Except.pure]

end Dendron
