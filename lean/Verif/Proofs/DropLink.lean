import Verif.Proofs.MoveMore

/-! Dropping node handles and `Tree` handles; cloning them. -/

set_option linter.unusedSimpArgs false
set_option linter.unusedVariables false

set_option autoImplicit false

namespace Dendron
open RTree
variable {α : Type} {h h1 h2 h' : Heap α} {ch : NodeId → List NodeId} {n p r q c : NodeId}
  {t t' : TreeId} {T R : RTree NodeId}

/-- The members of a tree, in pre-order. -/
theorem WF.tree_nodes (W : WF h ch) (hta : h.treeAlive t = true) :
    ∃ r R, h.root t = some r ∧ SubtreeAt ch r R ∧
      ∀ x, x ∈ R.nodes ↔ h.alive x = true ∧ h.memTree x = some t := by
  obtain ⟨r, hr⟩ := Option.isSome_iff_exists.1 hta
  obtain ⟨R, hR⟩ := W.toFShape.exists_subtree r
  refine ⟨r, R, hr, hR, ?_⟩
  intro x
  have hra := (W.tree.root t r hr).1
  rw [hR.mem_nodes_iff]
  constructor
  · intro hd
    have hxa := W.toFShape.desc_alive hra hd
    exact ⟨hxa, ((W.tree.toE (fun _ => False)).mem_iff W.toFShape hr (by simp) hxa).1 hd⟩
  · rintro ⟨hxa, hx⟩
    exact ((W.tree.toE (fun _ => False)).mem_iff W.toFShape hr (by simp) hxa).2 hx

/-- Changing the membership of one node to another one of the same tree. -/
theorem WF.setMem (W : WF h ch) {m : Membership} (ha : h.alive n = true)
    (hmt : (h.setMem n m).memTree n = h.memTree n)
    (hpos : ∀ u rc l, m = .strong u rc l → 0 < rc ∧ l ≤ rc)
    (hheld : ∀ u, h.memTree n = some u → h.treeAlive u = true →
      0 < h.treeRc u ∨ ∃ x rc l, (h.setMem n m).mem x = .strong u rc l) :
    WF (h.setMem n m) ch := by
  have hmt' : ∀ x, (h.setMem n m).memTree x = h.memTree x := by
    intro x
    by_cases e : x = n
    · subst e; exact hmt
    · simp [Heap.memTree, Heap.setMem, e]
  have hal : ∀ x, (h.setMem n m).alive x = h.alive x := fun _ => rfl
  have hta : ∀ x, (h.setMem n m).treeAlive x = h.treeAlive x := fun _ => rfl
  refine { toShape := ?_, tree := ?_, refs := ?_ }
  · exact { dead := W.dead, first := W.first, nodup := W.nodup, mem := W.mem, seg := W.seg,
            rootNext := W.rootNext, acyc := W.acyc, bound := W.bound, num := W.num,
            back := ⟨W.back.pseg, W.back.rootPrev⟩ }
  · constructor
    · intro x hx; rw [hmt']; exact W.tree.live x hx
    · intro u x hx; rw [hmt']; exact W.tree.root u x hx
    · intro c q hc hq; rw [hmt', hmt']; exact W.tree.child c q hc hq
    · intro x u hx hp hm; rw [hmt'] at hm; exact W.tree.top x u hx hp hm
    · exact W.tree.bound
  · constructor
    · intro x u rc l hx
      rw [hal]
      by_cases e : x = n
      · subst e; exact ha
      · simp only [Heap.setMem, upd_ne _ _ e] at hx; exact W.refs.alive _ _ _ _ hx
    · intro x u rc l hx
      by_cases e : x = n
      · subst e; simp only [Heap.setMem, upd_same] at hx; exact hpos _ _ _ hx
      · simp only [Heap.setMem, upd_ne _ _ e] at hx; exact W.refs.pos _ _ _ _ hx
    · intro u hu
      rw [hta] at hu
      by_cases e : h.memTree n = some u
      · exact hheld u e hu
      · rcases W.refs.held u hu with h1 | ⟨x, rc, l, hx⟩
        · exact .inl h1
        · refine .inr ⟨x, rc, l, ?_⟩
          have : x ≠ n := by rintro rfl; exact e (by simp [Heap.memTree, hx])
          simp only [Heap.setMem, upd_ne _ _ this]; exact hx

/-- Another handle to a node that has handles, or changes of its lock count. -/
theorem WF.setStrong (W : WF h ch) {rc lk rc' lk' : Nat} (hm : h.mem n = .strong t rc lk)
    (hpos : 0 < rc' ∧ lk' ≤ rc') : WF (h.setMem n (.strong t rc' lk')) ch := by
  refine W.setMem (W.refs.alive _ _ _ _ hm) ?_ ?_ ?_
  · simp [Heap.memTree, Heap.setMem, hm]
  · intro u a b e; simp at e; obtain ⟨-, rfl, rfl⟩ := e; exact hpos
  · intro u hu _
    simp only [Heap.memTree, hm, Option.some.injEq] at hu
    subst hu
    exact .inr ⟨n, rc', lk', by simp [Heap.setMem]⟩

/-- The first handle to a node without handles. -/
theorem WF.setFirstHandle (W : WF h ch) {rc' lk' : Nat} (ha : h.alive n = true)
    (hm : h.memTree n = some t)
    (hpos : 0 < rc' ∧ lk' ≤ rc') : WF (h.setMem n (.strong t rc' lk')) ch := by
  refine W.setMem ha ?_ ?_ ?_
  · simp [Heap.memTree, Heap.setMem]; simpa [Heap.memTree] using hm.symm
  · intro u a b e; simp at e; obtain ⟨-, rfl, rfl⟩ := e; exact hpos
  · intro u hu _
    rw [hm] at hu
    obtain rfl : t = u := by simpa using hu
    exact .inr ⟨n, rc', lk', by simp [Heap.setMem]⟩

/-- The membership after one handle is gone. -/
def Membership.dec : Membership → Membership
  | .weak t => .weak t
  | .strong t rc lk => if rc = 1 then .weak (some t) else .strong t (rc - 1) lk

/-- Dropping one of several handles that keep a tree alive: only the count changes. -/
theorem dropLink_keep (W : WF h ch) {rc lk : Nat} (hm : h.mem n = .strong t rc lk)
    (hl : lk < rc) (hk : 1 < rc ∨ 0 < h.treeRc t ∨ ∃ x rc' l, x ≠ n ∧ h.mem x = .strong t rc' l) :
    h.dropLink n = .ok (h.setMem n (h.mem n).dec) ∧ WF (h.setMem n (h.mem n).dec) ch := by
  have ha := W.refs.alive _ _ _ _ hm
  have W1 : WF (h.setMem n (h.mem n).dec) ch := by
    refine W.setMem ha ?_ ?_ ?_
    · simp only [Heap.memTree, Heap.setMem, upd_same, hm, Membership.dec]
      by_cases e : rc = 1 <;> simp [e]
    · intro u a b e
      simp only [hm, Membership.dec] at e
      by_cases e1 : rc = 1
      · simp [e1] at e
      · simp only [e1, if_false, Membership.strong.injEq] at e
        omega
    · intro u hu _
      simp only [Heap.memTree, hm, Option.some.injEq] at hu
      subst hu
      by_cases e1 : rc = 1
      · rcases hk with h3 | h3 | ⟨x, rc', l, hx, hx'⟩
        · omega
        · exact .inl h3
        · exact .inr ⟨x, rc', l, by simp [Heap.setMem, hx, hx']⟩
      · exact .inr ⟨n, rc - 1, lk, by simp [Heap.setMem, hm, Membership.dec, e1]⟩
  refine ⟨?_, W1⟩
  have hrel : (h.setMem n (h.mem n).dec).release (h.setMem n (h.mem n).dec).relFuel [] n =
      .ok (h.setMem n (h.mem n).dec) := by
    rw [Heap.relFuel, release_referenced (W1.referenced ha)]
  unfold Heap.dropLink Heap.decRef
  simp only [hm, bind, Except.bind]
  by_cases e1 : rc = 1
  · subst e1
    have : lk = 0 := by omega
    subst this
    have hd : h.setMem n (.weak (some t)) = h.setMem n (h.mem n).dec := by simp [hm, Membership.dec]
    simp only [Nat.sub_self, if_true, ne_eq, not_true, if_false]
    rw [hd, W1.maybeDropTree]
    exact (by simpa only [hm, Membership.dec, if_true] using hrel)
  · have e2 : rc - 1 ≠ 0 := by omega
    simp only [e2, if_false]
    simp only [hm, Membership.dec, e1, if_false] at hrel ⊢
    exact hrel

/-- Dropping the last handle of a tree frees all its nodes and nothing else. -/
theorem dropLink_last' (W : FWF h ch) (hm : h.mem n = .strong t 1 0) (hrc : h.treeRc t = 0)
    (ho : ∀ x rc l, x ≠ n → h.mem x ≠ .strong t rc l) (hr : h.root t = some r)
    (hR : SubtreeAt ch r R) :
    (h.dropLink n = .ok (h.dropped t R.nodes) ∧
      (NumOK h ch → BackOK h ch → WF (h.dropped t R.nodes) (without ch R.nodes))) ∧
    ∃ h2, Heap.dropTreeWith 1 (h.setMem n (.weak (some t))) [n] t = .ok h2 ∧
      Heap.release 1 [] n h2 = .ok (h.dropped t R.nodes) := by
  have ha := W.refs.alive _ _ _ _ hm
  have hmt : h.memTree n = some t := by simp [Heap.memTree, hm]
  have hRm : ∀ x, h.alive x = true → (x ∈ R.nodes ↔ h.memTree x = some t) := by
    intro x hx
    rw [hR.mem_nodes_iff, (W.tree.toE (fun _ => False)).mem_iff W.toFShape hr (by simp) hx]
  have hnR : n ∈ R.nodes := (hRm n ha).2 hmt
  obtain ⟨h1, hh1⟩ : ∃ h1, h1 = h.setMem n (.weak (some t)) := ⟨_, rfl⟩
  have m1 : ∀ x, h1.mem x = if x = n then .weak (some t) else h.mem x := by
    intro x; subst hh1; rfl
  have mt1 : ∀ x, h1.memTree x = h.memTree x := by
    intro x
    simp only [Heap.memTree, m1]
    by_cases e : x = n
    · subst e; simp [hm]
    · simp [e]
  have F1 : FShape h1 ch := by
    subst hh1
    exact ⟨W.dead, W.first, W.nodup, W.mem, W.seg, W.rootNext, W.acyc, W.bound⟩
  have E1 : TreeWFe h1 (fun _ => False) := by
    have d1 : h1.alive = h.alive := by subst hh1; rfl
    have d2 : h1.root = h.root := by subst hh1; rfl
    have d3 : h1.parent = h.parent := by subst hh1; rfl
    have d4 : h1.nTree = h.nTree := by subst hh1; rfl
    have d5 : h1.treeAlive = h.treeAlive := by subst hh1; rfl
    constructor
    · intro x hx; rw [mt1, d5]; rw [d1] at hx; exact W.tree.live x hx
    · intro u x hx; rw [mt1, d1, d3]; rw [d2] at hx; exact W.tree.root u x hx
    · intro c q hc hq; rw [mt1, mt1]; rw [d1] at hc; rw [d3] at hq; exact W.tree.child c q hc hq
    · intro x u _ hx hp hmx
      rw [mt1] at hmx; rw [d1] at hx; rw [d3] at hp; rw [d2]; exact W.tree.top x u hx hp hmx
    · intro u hu; rw [d5] at hu; rw [d4]; exact W.tree.bound u hu
  have Q1 : RefWFe h1 t := by
    constructor
    · intro x u rc l hx
      rw [m1] at hx
      by_cases e : x = n
      · simp [e] at hx
      · simp only [e, if_false] at hx
        have := W.refs.alive _ _ _ _ hx
        subst hh1; exact this
    · intro x u rc l hx
      rw [m1] at hx
      by_cases e : x = n
      · simp [e] at hx
      · simp only [e, if_false] at hx; exact W.refs.pos _ _ _ _ hx
    · intro u hu hua
      have hua' : h.treeAlive u = true := by subst hh1; exact hua
      rcases W.refs.held u hua' with h3 | ⟨x, rc, l, hx⟩
      · left; subst hh1; exact h3
      · right
        have : x ≠ n := by rintro rfl; rw [hm] at hx; simp at hx; exact hu hx.1.symm
        exact ⟨x, rc, l, by rw [m1, if_neg this]; exact hx⟩
  have hr1 : h1.root t = some r := by subst hh1; exact hr
  have hl1 : Loose h1 t := by
    refine ⟨by subst hh1; exact hrc, ?_⟩
    intro x rc l hx
    rw [m1] at hx
    by_cases e : x = n
    · simp [e] at hx
    · simp only [e, if_false] at hx; exact ho x rc l e hx
  have hdrop := maybeDropTree_wipe (pins := [n]) F1 E1 Q1.alive hr1 hR hl1
  obtain ⟨h2, hh2⟩ : ∃ h2, h2 = ((h1.wipe R.nodes [n]).setRoot t none).setGrants t 0 := ⟨_, rfl⟩
  rw [← hh2] at hdrop
  have al2 : ∀ x, h2.alive x = if x ∈ R.nodes ∧ x ≠ n then false else h.alive x := by
    intro x
    have : h2.alive x = (h1.wipe R.nodes [n]).alive x := by subst hh2; rfl
    rw [this, Heap.wipe_alive]
    have : h1.alive x = h.alive x := by subst hh1; rfl
    simp [this]
  have fc2 : ∀ x, h2.firstChild x = if x ∈ R.nodes then none else h.firstChild x := by
    intro x; subst hh2; subst hh1; rfl
  have nx2 : ∀ x, h2.next x = if x ∈ R.nodes then none else h.next x := by
    intro x; subst hh2; subst hh1; rfl
  have hnref : h2.referenced n = false := by
    rw [Bool.eq_false_iff]
    intro hrf
    rcases referenced_iff.1 hrf with ⟨u, rc, l, hx⟩ | ⟨u, _, hrr⟩ | ⟨m, _, hma, hrr⟩
    · have : h2.mem n = .weak (some t) := by
        subst hh2; simp [Heap.wipe, Heap.setRoot, Heap.setGrants, m1]
      rw [this] at hx; simp at hx
    · have : h2.root u = if u = t then none else h.root u := by
        subst hh2; subst hh1; simp [Heap.wipe, Heap.setRoot, Heap.setGrants, Heap.setMem, upd_apply]
      rw [this] at hrr
      by_cases e : u = t
      · simp [e] at hrr
      · simp only [e, if_false] at hrr
        have := (W.tree.root u n hrr).2.1
        rw [hmt] at this; simp at this; exact e this.symm
    · have hmR : m ∉ R.nodes := by
        intro hmR
        rcases hrr with hrr | hrr
        · rw [fc2, if_pos hmR] at hrr; simp at hrr
        · rw [nx2, if_pos hmR] at hrr; simp at hrr
      rw [al2] at hma
      simp only [hmR, false_and, if_false] at hma
      apply hmR
      rw [hRm m hma]
      rcases hrr with hrr | hrr
      · rw [fc2, if_neg hmR, W.first m hma] at hrr
        have := List.mem_of_mem_head? hrr
        rw [← W.tree.child n m ha (W.parent_of_mem this)]; exact hmt
      · rw [nx2, if_neg hmR] at hrr
        obtain ⟨q, hq1, hq2⟩ := W.toFShape.dropShape.nextRef m n hma hrr
        rw [W.tree.child m q hma (W.parent_of_mem hq1), ← W.tree.child n q ha (W.parent_of_mem hq2)]
        exact hmt
  have hfin : ∀ f, Heap.release (f + 1) [] n h2 = .ok (h.dropped t R.nodes) := by
    intro f
    rw [release_leaf (by rw [al2]; simp [ha]) hnref (by simp) (by rw [fc2, if_pos hnR])
      (by rw [nx2, if_pos hnR])]
    congr 1
    subst hh2; subst hh1
    simp only [Heap.kill, Heap.dropped, Heap.wipe, Heap.setRoot, Heap.setGrants, Heap.setMem]
    congr 1 <;> funext x <;> by_cases e : x = n <;> simp [e, hnR, upd_apply]
  have hdd : h1.dropped t R.nodes = h.dropped t R.nodes := by
    subst hh1
    simp only [Heap.dropped, Heap.wipe, Heap.setRoot, Heap.setGrants, Heap.setMem]
    congr 1
    funext x; by_cases e : x = n <;> simp [e, hnR, upd_apply]
  have hst : h1.settle t R.nodes = h1.dropped t R.nodes := by
    have hta : h1.treeAlive t = true := by simp [Heap.treeAlive, hr1]
    unfold Heap.settle
    rw [if_pos ((loose_iff (fun x u rc l hx => F1.bound x (Q1.alive _ _ _ _ hx)) hta).2 hl1)]
  have hsc : settledCh h1 t R.nodes ch = without ch R.nodes := by
    have hta : h1.treeAlive t = true := by simp [Heap.treeAlive, hr1]
    unfold settledCh
    rw [if_pos ((loose_iff (fun x u rc l hx => F1.bound x (Q1.alive _ _ _ _ hx)) hta).2 hl1)]
  obtain ⟨f1, f2, f3, f4, f5⟩ := settle_wf F1 E1 Q1 hr1 hR (by intro x hx; exact absurd hx id)
  rw [hst, hsc, hdd] at f1 f2 f3
  rw [hst, hdd] at f4 f5
  refine ⟨⟨?_, fun N B => { toFShape := f1, num := f2 ?_, back := f3 ?_, tree := f4.toTreeWF (fun _ => id), refs := f5 }⟩,
    h2, ?_, hfin 0⟩
  · unfold Heap.dropLink Heap.decRef
    simp only [hm, bind, Except.bind, Nat.sub_self, if_true, ne_eq, not_true, if_false]
    rw [← hh1, hdrop]
    exact hfin _
  · subst hh1; exact N
  · subst hh1; exact ⟨B.pseg, B.rootPrev⟩
  · rw [← hh1, hh2]
    exact dropTreeWith_wipe (k := 0) (pins := [n]) F1 E1 Q1.alive hr1 hR hl1

theorem dropLink_last (W : WF h ch) (hm : h.mem n = .strong t 1 0) (hrc : h.treeRc t = 0)
    (ho : ∀ x rc l, x ≠ n → h.mem x ≠ .strong t rc l) (hr : h.root t = some r)
    (hR : SubtreeAt ch r R) :
    h.dropLink n = .ok (h.dropped t R.nodes) ∧ WF (h.dropped t R.nodes) (without ch R.nodes) :=
  let L := (dropLink_last' W.fwd hm hrc ho hr hR).1
  ⟨L.1, L.2 W.num W.back⟩

/-- Dropping a `Tree` handle (or a local `Rc<TreeCore>`) while something else holds the tree. -/
theorem relTree_keep (W : WF h ch) (hk : 1 < h.treeRc t ∨ ∃ x rc l, h.mem x = .strong t rc l) :
    h.relTree [] t = .ok (h.setTreeRc t (h.treeRc t - 1)) ∧
      WF (h.setTreeRc t (h.treeRc t - 1)) ch := by
  have W1 : WF (h.setTreeRc t (h.treeRc t - 1)) ch := by
    refine { toShape := ?_, tree := ?_, refs := ?_ }
    · exact { dead := W.dead, first := W.first, nodup := W.nodup, mem := W.mem, seg := W.seg,
              rootNext := W.rootNext, acyc := W.acyc, bound := W.bound, num := W.num,
              back := ⟨W.back.pseg, W.back.rootPrev⟩ }
    · exact ⟨W.tree.live, W.tree.root, W.tree.child, W.tree.top, W.tree.bound⟩
    · refine ⟨W.refs.alive, W.refs.pos, ?_⟩
      intro u hu
      by_cases e : u = t
      · subst e
        rcases hk with h3 | h3
        · exact .inl (by simp [Heap.setTreeRc]; omega)
        · exact .inr h3
      · have := W.refs.held u hu
        simpa [Heap.setTreeRc, e] using this
  exact ⟨by rw [Heap.relTree]; exact W1.maybeDropTree _ _, W1⟩

/-- Dropping the last handle of a tree, a `Tree`. -/
theorem relTree_last' (W : FWF h ch) (hrc : h.treeRc t = 1)
    (ho : ∀ x rc l, h.mem x ≠ .strong t rc l) (hr : h.root t = some r)
    (hR : SubtreeAt ch r R) :
    h.relTree [] t = .ok ((h.setTreeRc t 0).dropped t R.nodes) ∧
      (NumOK h ch → BackOK h ch → WF ((h.setTreeRc t 0).dropped t R.nodes) (without ch R.nodes)) := by
  obtain ⟨h1, hh1⟩ : ∃ h1, h1 = h.setTreeRc t 0 := ⟨_, rfl⟩
  have F1 : FShape h1 ch := by
    subst hh1
    exact ⟨W.dead, W.first, W.nodup, W.mem, W.seg, W.rootNext, W.acyc, W.bound⟩
  have E1 : TreeWFe h1 (fun _ => False) := by
    subst hh1
    exact ⟨W.tree.live, W.tree.root, W.tree.child, fun n t _ => W.tree.top n t, W.tree.bound⟩
  have Q1 : RefWFe h1 t := by
    subst hh1
    refine ⟨W.refs.alive, W.refs.pos, ?_⟩
    intro u hu hua
    have := W.refs.held u hua
    simpa [Heap.setTreeRc, hu] using this
  have hr1 : h1.root t = some r := by subst hh1; exact hr
  have hl1 : Loose h1 t := by subst hh1; exact ⟨by simp [Heap.setTreeRc], ho⟩
  have hst : h1.settle t R.nodes = h1.dropped t R.nodes := by
    have hta : h1.treeAlive t = true := by simp [Heap.treeAlive, hr1]
    unfold Heap.settle
    rw [if_pos ((loose_iff (fun x u rc l hx => F1.bound x (Q1.alive _ _ _ _ hx)) hta).2 hl1)]
  have hsc : settledCh h1 t R.nodes ch = without ch R.nodes := by
    have hta : h1.treeAlive t = true := by simp [Heap.treeAlive, hr1]
    unfold settledCh
    rw [if_pos ((loose_iff (fun x u rc l hx => F1.bound x (Q1.alive _ _ _ _ hx)) hta).2 hl1)]
  have hset := maybeDropTree_settle F1 E1 Q1.alive hr1 hR
  obtain ⟨f1, f2, f3, f4, f5⟩ := settle_wf F1 E1 Q1 hr1 hR (by intro x hx; exact absurd hx id)
  rw [hst, hsc] at f1 f2 f3
  rw [hst] at f4 f5 hset
  have hN : NumOK h ch → NumOK h1 ch := by subst hh1; exact id
  have hB : BackOK h ch → BackOK h1 ch := by subst hh1; exact fun B => ⟨B.pseg, B.rootPrev⟩
  rw [← hh1]
  refine ⟨?_, fun N B => { toFShape := f1, num := f2 (hN N), back := f3 (hB B), tree := f4.toTreeWF (fun _ => id), refs := f5 }⟩
  rw [Heap.relTree, hrc, ← hh1]; exact hset

theorem relTree_last (W : WF h ch) (hrc : h.treeRc t = 1)
    (ho : ∀ x rc l, h.mem x ≠ .strong t rc l) (hr : h.root t = some r)
    (hR : SubtreeAt ch r R) :
    h.relTree [] t = .ok ((h.setTreeRc t 0).dropped t R.nodes) ∧
      WF ((h.setTreeRc t 0).dropped t R.nodes) (without ch R.nodes) :=
  let L := relTree_last' W.fwd hrc ho hr hR
  ⟨L.1, L.2 W.num W.back⟩

end Dendron
