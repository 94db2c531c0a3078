import Verif.Proofs.CascadeFacts
import Verif.Proofs.StrictWF

/-! Detaching a node whose handle is owned by the data left behind. -/

set_option linter.unusedSimpArgs false
set_option linter.unusedVariables false
set_option autoImplicit false

namespace Dendron
open RTree
variable {α : Type} {h h' h1 h2 : Heap α} {w : World α} {ch : NodeId → List NodeId} {n x p r : NodeId} {t u : TreeId}
  {k : Kind} {own : NodeId → List Asset} {as : List Asset} {f : Nat} {c : Nest} {dt : Dtor α}

/-- Dropping a handle of a node whose membership is borrowed. -/
theorem dropAsset_busy (hb : n ∈ c.busy) : h.dropAssetC dt c (.node k n) = .error Nest.nested := by
  have : c.busy.contains n = true := List.contains_iff_mem.2 hb
  cases k <;> simp [Heap.dropAssetC, Heap.dropHandleC, Heap.dropLinkC, Heap.decRefC, Heap.decLockC, hb, bind, Except.bind]

/-- Destroying a tree of one node, whose data owns such a handle. -/
theorem dropTree_busy {pins : List NodeId} (hr : h.root t = some p) (ha : h.alive p = true) (hb : p < h.nNode)
    (htb : t < h.nTree)
    (hp : h.parent p = none) (hf : h.firstChild p = none) (hn : h.next p = none) (hpin : p ∉ pins)
    (hm : ∀ u rc l, h.mem p ≠ .strong u rc l) (hru : ∀ u, u ≠ t → h.root u ≠ some p)
    (hrf : ∀ m, h.alive m = true → h.firstChild m ≠ some p ∧ h.next m ≠ some p)
    (hbusy : n ∈ c.busy) (ho : own p = .node k n :: as) :
    h.dropTreeC (Heap.dtor own (f + 1)) c pins t = .error Nest.nested := by
  have hpl : h.parentLink p = none := by simp [Heap.parentLink, Heap.upgrade, hp]
  have e1 : h.evNext (.opn p) = some (.cls p) := by simp [Heap.evNext, Heap.firstChildLink, hf]
  have e2 : h.evNext (.cls p) = none := by simp [Heap.evNext, Heap.nextLink, hn, hpl]
  have href : h.referenced p = true := referenced_iff.2 (.inr (.inl ⟨t, htb, hr⟩))
  have hrel : ∀ (c : Nest) g pins, Heap.releaseC (Heap.dtor own (f + 1)) c (g + 1) pins p h = .ok h := by
    intro c g pins; simp [Heap.releaseC, href]
  obtain ⟨N, hN⟩ : ∃ N, h.nNode = N + 1 := ⟨h.nNode - 1, (Nat.succ_pred_eq_of_pos (Nat.lt_of_le_of_lt (Nat.zero_le p) hb)).symm⟩
  unfold Heap.dropTreeC
  simp only [hr, Heap.relFuel, Heap.dropFuel, hN, Nat.mul_add, Nat.mul_one]
  simp only [Heap.dropLoopC, e1, hrel, e2, Heap.dropStepC, hpl]
  have hnr : ((h.setRoot t none).setGrants t 0).referenced p = false := by
    rw [Bool.eq_false_iff]
    intro hr2
    rcases referenced_iff.1 hr2 with ⟨u, rc, l, h3⟩ | ⟨u, -, h3⟩ | ⟨m, -, h3, h4⟩
    · exact hm u rc l h3
    · by_cases e : u = t
      · subst e; simp [Heap.setRoot, Heap.setGrants] at h3
      · refine hru u e ?_
        simpa [Heap.setRoot, Heap.setGrants, e] using h3
    · have := hrf m h3
      exact h4.elim this.1 this.2
  have hal2 : ((h.setRoot t none).setGrants t 0).alive p = true := ha
  have hfc2 : ((h.setRoot t none).setGrants t 0).firstChild p = none := hf
  have hnx2 : ((h.setRoot t none).setGrants t 0).next p = none := hn
  have hpin' : pins.contains p = false := by simpa using hpin
  have hfin : ∀ (c : Nest), n ∈ c.busy → ∀ g, Heap.releaseC (Heap.dtor own (f + 1)) c (g + 1) pins p
      ((h.setRoot t none).setGrants t 0) = .error Nest.nested := by
    intro c hc g
    have hdt : ∀ (c : Nest), n ∈ c.busy → ∀ q : Heap α, Heap.dtor own (f + 1) c p q = .error Nest.nested := by
      intro c hc q
      simp only [Heap.dtor, ho, Heap.dropAllC]
      rw [dropAsset_busy hc]
    unfold Heap.releaseC
    rw [if_neg (by rw [hal2, hpin', hnr]; simp)]
    simp only
    rw [hdt _ (by exact hc)]
  exact hfin _ (by exact hbusy) _

/-- The loop that changes the memberships destroys the old tree while the membership of `n` is borrowed. -/
theorem loop_busy {rc l : Nat} {t' : TreeId} (hm : h.mem n = .strong t rc l)
    (ho1 : ∀ x rc l, x ≠ n → h.mem x ≠ .strong t rc l) (hne : t' ≠ t) (hrt : h.root t = some p)
    (hpa : h.alive p = true) (hpb : p < h.nNode) (htb : t < h.nTree) (hpp : h.parent p = none)
    (hpf : h.firstChild p = none) (hpx : h.next p = none) (hpw : ∀ u rc l, h.mem p ≠ .strong u rc l)
    (hru : ∀ u, u ≠ t → h.root u ≠ some p)
    (hrf : ∀ m, h.alive m = true → h.firstChild m ≠ some p ∧ h.next m ≠ some p) (hna : h.alive n = true)
    (htr : h.treeRc t = 0)
    (hx : ∃ g, (if l ≠ 0 then h.transferLock t t' else .ok (some h)) = .ok (some { h with grants := g }))
    (ho : own p = .node k n :: as) (F : Nat) :
    Heap.setMembLoopC (Heap.dtor own (f + 1)) Nest.start (F + 1) n t' (some (.opn n)) h = .error Nest.nested := by
  have hpn : p ≠ n := fun e => hpw _ _ _ (e ▸ hm)
  obtain ⟨g, e3⟩ := hx
  obtain ⟨h4, hh4⟩ : ∃ h4, h4 = ({ h with grants := g } : Heap α).setMem n (.strong t' rc l) := ⟨_, rfl⟩
  have m4 : ∀ x, h4.mem x = if x = n then .strong t' rc l else h.mem x := by
    intro x; rw [hh4]; simp only [Heap.setMem, upd_apply]
  have hd : ∀ pins, p ∉ pins → h4.maybeDropTreeC (Heap.dtor own (f + 1)) ⟨[], [n], []⟩ pins t = .error Nest.nested := by
    intro pins hpin
    unfold Heap.maybeDropTreeC
    have hsm : h4.hasStrongMember t = false := by
      rw [Bool.eq_false_iff]
      intro hs
      obtain ⟨x, -, rc', l', h5⟩ := hasStrongMember_iff.1 hs
      rw [m4] at h5
      split at h5
      · simp only [Membership.strong.injEq] at h5; exact hne h5.1
      · rename_i hx; exact ho1 x rc' l' hx h5
    rw [if_pos]
    · refine dropTree_busy (n := n) (by rw [hh4]; exact hrt) (by rw [hh4]; exact hpa) (by rw [hh4]; exact hpb)
        (by rw [hh4]; exact htb) (by rw [hh4]; exact hpp) (by rw [hh4]; exact hpf) (by rw [hh4]; exact hpx) hpin
        ?_ (by rw [hh4]; exact hru) (by rw [hh4]; exact hrf) (by simp) ho
      intro u rc' l'; rw [m4, if_neg hpn]; exact hpw u rc' l'
    · simp only [Bool.and_eq_true, beq_iff_eq, hsm, Bool.not_false, and_true]
      refine ⟨?_, by rw [hh4]; exact htr⟩
      have : h4.root t = some p := by rw [hh4]; exact hrt
      rw [Heap.treeAlive, this]; rfl
  have hpin : p ∉ n :: (n :: (match h.evNext (.opn n) with | some e => [e.value] | none => []) ++ []) := by
    simp only [Heap.evNext, Heap.firstChildLink]
    cases hf : h.firstChild n with
    | none => simp [hpn, DftEvent.value]
    | some y =>
      have : p ≠ y := fun e => (hrf n hna).1 (e ▸ hf)
      simp [hpn, this, DftEvent.value]
  simp only [Heap.setMembLoopC]
  rw [if_neg (by simp)]
  unfold Heap.setTreeCoreC
  simp only [Nest.start, List.contains_nil, Bool.false_eq_true, if_false, hm, e3]
  rw [← hh4]
  have := hd _ hpin
  cases hev : h.evNext (.opn n) <;>
    simp only [hev, List.cons_append, List.nil_append, List.append_nil] at this ⊢ <;> rw [this]

/-- What unlinking the only child of a root leaves. -/
theorem unlink_only (W : WF h ch) (hp : ch p = [n]) (hroot : ∀ q, p ∉ ch q) {rc l : Nat}
    (hm : h.mem n = .strong t rc l) (ho1 : ∀ x rc l, x ≠ n → h.mem x ≠ .strong t rc l) (held : List NodeId) :
    ∃ h1, h.newByUnlink held n = .ok (h1, true) ∧ SameNonLink h h1 ∧ h.isRoot n = false ∧ h.root t = some p ∧
      h.alive p = true ∧ p < h.nNode ∧ t < h.nTree ∧ h.treeAlive t = true ∧ h1.parent p = none ∧
      h1.firstChild p = none ∧ h1.next p = none ∧ (∀ u rc l, h.mem p ≠ .strong u rc l) ∧
      (∀ u, u ≠ t → h.root u ≠ some p) ∧ h.alive n = true ∧
      (∀ m, h.alive m = true → h1.firstChild m ≠ some p ∧ h1.next m ≠ some p) := by
  have hmem : n ∈ ch p := by rw [hp]; simp
  have ha := W.toShape.alive_of_mem hmem
  have hpa := W.toShape.alive_parent hmem
  have hpar := W.toShape.parent_of_mem hmem
  have hnr : h.isRoot n = false := by
    simp [Heap.isRoot, Heap.parentLink, Heap.upgrade, hpar, hpa]
  have hmt := memTree_strong hm
  have hpt : h.memTree p = some t := by rw [← W.tree.child n p ha hpar]; exact hmt
  have hpn : p ≠ n := fun e => by
    have := hroot p
    rw [hp] at this
    exact this (by rw [e]; simp)
  have hta : h.treeAlive t = true := W.fwd.tree_alive ha hmt
  have htb := W.tree.bound t hta
  have hpp : h.parent p = none := by
    cases e : h.parent p with
    | none => rfl
    | some q => exact absurd ((W.mem q p).2 ⟨hpa, e⟩) (hroot q)
  have hrt : h.root t = some p := W.tree.top p t hpa hpp hpt
  have hpw : ∀ u rc l, h.mem p ≠ .strong u rc l := by
    intro u rc l e
    have : u = t := by rw [memTree_strong e] at hpt; simpa using hpt
    subst this
    exact ho1 p rc l hpn e
  obtain ⟨h1, e1, Sm, g1, g2, g3, -, -⟩ := newByUnlink_eq W.toShape (l1 := []) (l2 := []) (by rw [hp]; rfl)
  have hnp : h.next p = none := W.rootNext p hpa hpp
  refine ⟨h1, by rw [(newByUnlink_strict W.refBut ha (W.toShape.unlinkOK ha) held).1, e1], Sm, hnr, hrt, hpa,
    W.bound p hpa, htb, hta, by rw [g1, if_neg hpn]; exact hpp, by rw [g2, if_pos rfl]; rfl,
    by rw [g3, if_neg hpn]; simpa using hnp, hpw, ?_, ha, ?_⟩
  · intro u hu e
    have := (W.tree.root u p e).2.1
    rw [hpt] at this; exact hu (Option.some.inj this).symm
  · intro m hma
    refine ⟨?_, ?_⟩
    · rw [g2]
      split
      · simp
      · rw [W.first m hma]
        intro e; exact hroot m (List.mem_of_head? e)
    · rw [g3]
      split
      · simp
      · split
        · simp
        · intro e
          obtain ⟨q, -, h6⟩ := W.toFShape.dropShape.nextRef m p hma e
          exact hroot q h6

theorem detach_busy (W : WF h ch) (hp : ch p = [n]) (hroot : ∀ q, p ∉ ch q) {rc l : Nat}
    (hm : h.mem n = .strong t rc l) (ho1 : ∀ x rc l, x ≠ n → h.mem x ≠ .strong t rc l) (htr : h.treeRc t = 0)
    (hg : l ≠ 0 → h.grants t ≠ 0) (ho : own p = .node k n :: as) :
    h.detachSubtreeC (Heap.dtor own (f + 1)) Nest.start n = .error Nest.nested := by
  obtain ⟨h1, e1, Sm, hnr, hrt, hpa, hpb, htb, hta, hpp, hpf, hpx, hpw, hru, hna, hrf⟩ :=
    unlink_only W hp hroot hm ho1 []
  have hne : h.nTree ≠ t := fun e => Nat.lt_irrefl _ (e ▸ htb)
  unfold Heap.detachSubtreeC
  simp only [hnr, Bool.false_eq_true, if_false, bind, Except.bind]
  rw [e1]
  simp only
  unfold Heap.createNewTreeC
  obtain ⟨h2, hh2⟩ : ∃ h2, h2 = (h1.allocTree n).1 := ⟨_, rfl⟩
  have ht2 : (h1.allocTree n).2 = h.nTree := Sm.nTree
  simp only [← hh2, ht2]
  have hpn : p ≠ n := fun e => hpw _ _ _ (e ▸ hm)
  have al : ∀ x, h2.alive x = h.alive x := by intro x; rw [hh2]; simp [Heap.alive, Heap.allocTree, Sm.data]
  have a4 : h2.grants t = h.grants t ∧ h2.grants h.nTree = 0 := by
    rw [hh2]; simp [Heap.allocTree, Sm.nTree, hne.symm, Sm.grants]
  have hloop : Heap.setMembLoopC (Heap.dtor own (f + 1)) Nest.start (2 * h2.nNode + 1 + 1) n h.nTree (some (.opn n)) h2 =
      .error Nest.nested := by
    refine loop_busy (p := p) (t := t) (rc := rc) (l := l) ?_ ?_ hne ?_ (by rw [al]; exact hpa) ?_ ?_ ?_ ?_ ?_ ?_ ?_ ?_
      (by rw [al]; exact hna) ?_ ?_ ho _
    · rw [hh2]; show h1.mem n = _; rw [Sm.mem]; exact hm
    · intro x rc' l' hx; rw [hh2]; show h1.mem x ≠ _; rw [Sm.mem]; exact ho1 x rc' l' hx
    · rw [hh2]; simp [Heap.allocTree, Sm.nTree, hne.symm, Sm.root, hrt]
    · rw [hh2]; show p < h1.nNode; rw [Sm.nNode]; exact hpb
    · rw [hh2]; show t < h1.nTree + 1; rw [Sm.nTree]; exact Nat.lt_succ_of_lt htb
    · rw [hh2]; exact hpp
    · rw [hh2]; exact hpf
    · rw [hh2]; exact hpx
    · intro u rc' l'; rw [hh2]; show h1.mem p ≠ _; rw [Sm.mem]; exact hpw u rc' l'
    · intro u hu e
      rw [hh2] at e
      simp only [Heap.allocTree, Sm.nTree, upd_apply, Sm.root] at e
      split at e
      · exact hpn (Option.some.inj e).symm
      · exact hru u hu e
    · intro m hma; rw [al] at hma; rw [hh2]; exact hrf m hma
    · rw [hh2]; simp [Heap.allocTree, Sm.nTree, hne.symm, Sm.treeRc, htr]
    · by_cases hl : l = 0
      · exact ⟨h2.grants, by simp [hl]⟩
      · rw [if_pos hl]
        have hgn := hg hl
        unfold Heap.transferLock Lock.acquireGrant Lock.acquireProhibition
        rw [a4.1, a4.2]
        by_cases hgp : 0 < h.grants t
        · have c2 : ¬ Lock.isizeMax < (0 : Int) + 1 := by decide
          simp only [hgp, if_true, c2, if_false, show ¬ ((0 : Int) < 0) by decide]
          exact ⟨_, rfl⟩
        · have c2 : ¬ ((0 : Int) - 1 < Lock.isizeMin) := by decide
          simp only [hgp, hgn, if_false, c2, show ¬ ((0 : Int) < 0) by decide]
          exact ⟨_, rfl⟩
  have hN : 2 * h2.nNode + 2 = (2 * h2.nNode + 1) + 1 := rfl
  rw [hN, hloop]

theorem move_busy {dest : InsertAs NodeId} {t' : TreeId} (W : WF h ch) (hp : ch p = [n]) (hroot : ∀ q, p ∉ ch q) {rc l : Nat}
    (hm : h.mem n = .strong t rc l) (ho1 : ∀ x rc l, x ≠ n → h.mem x ≠ .strong t rc l) (htr : h.treeRc t = 0)
    (hg : 0 < h.grants t) (hd : h.memTree dest.anchor = some t') (hda : h.alive dest.anchor = true) (hne : t' ≠ t)
    (hg' : 0 < h.grants t') (hroom : Room h) (ho : own p = .node k n :: as) :
    h.detachInsertC (Heap.dtor own (f + 1)) Nest.start n dest = .error Nest.nested := by
  have hta' : h.treeAlive t' = true := W.fwd.tree_alive hda hd
  have hr' := hroom t' hta'
  have W1 : WF (h.acqTree t') ch := acqTree_wf W t'
  have hsame : h.belongsToSameTree n dest.anchor = false := by
    unfold Heap.belongsToSameTree
    rw [Bool.or_eq_false_iff]
    refine ⟨?_, ?_⟩
    · rw [beq_eq_false_iff_ne]; rintro e
      rw [← e, memTree_strong hm] at hd; exact hne (Option.some.inj hd).symm
    · rw [beq_eq_false_iff_ne, hd, memTree_strong hm]; intro e; exact hne (Option.some.inj e).symm
  have htc : h.treeCore dest.anchor = .ok t' := (W.tree.treeCore_iff hda).2 hd
  unfold Heap.detachInsertC
  simp only [hsame, Bool.false_eq_true, if_false, bind, Except.bind, htc]
  obtain ⟨h1, e1, Sm, hnr, hrt, hpa, hpb, htb, hta, hpp, hpf, hpx, hpw, hru, hna, hrf⟩ :=
    unlink_only W1 hp hroot hm ho1 [dest.anchor]
  unfold Heap.moveOtherC
  simp only [bind, Except.bind]
  rw [e1]
  simp only
  have al : ∀ x, h1.alive x = h.alive x := by intro x; simp [Heap.alive, Sm.data, Heap.acqTree, Heap.setTreeRc]
  have hloop : Heap.setMembLoopC (Heap.dtor own (f + 1)) Nest.start (2 * h1.nNode + 1 + 1) n t' (some (.opn n)) h1 =
      .error Nest.nested := by
    refine loop_busy (p := p) (t := t) (rc := rc) (l := l) ?_ ?_ hne ?_ (by rw [al]; exact hpa) ?_ ?_ hpp hpf hpx ?_ ?_ ?_
      (by rw [al]; exact hna) ?_ ?_ ho _
    · rw [Sm.mem]; exact hm
    · intro x rc' l' hx; rw [Sm.mem]; exact ho1 x rc' l' hx
    · rw [Sm.root]; exact hrt
    · rw [Sm.nNode]; exact hpb
    · rw [Sm.nTree]; exact htb
    · intro u rc' l'; rw [Sm.mem]; exact hpw u rc' l'
    · intro u hu; rw [Sm.root]; exact hru u hu
    · intro m hma; rw [al] at hma; exact hrf m hma
    · rw [Sm.treeRc]; simp [Heap.acqTree, Heap.setTreeRc, hne.symm, htr]
    · by_cases hl : l = 0
      · exact ⟨h1.grants, by simp [hl]⟩
      · rw [if_pos hl]
        unfold Heap.transferLock Lock.acquireGrant
        have b1 : h1.grants t = h.grants t := by rw [Sm.grants]; rfl
        have b2 : h1.grants t' = h.grants t' := by rw [Sm.grants]; rfl
        rw [b1, b2, if_pos hg]
        have hM : (2 : Int) ^ 62 = 4611686018427387904 := by decide
        have c1 : ¬ h.grants t' < 0 := by omega
        have c2 : ¬ Lock.isizeMax < h.grants t' + 1 := by
          have : Lock.isizeMax = 9223372036854775807 := by decide
          omega
        simp only [c1, c2, if_false]
        exact ⟨_, rfl⟩
  have hN : 2 * h1.nNode + 2 = (2 * h1.nNode + 1) + 1 := rfl
  rw [hN, hloop]

end Dendron
