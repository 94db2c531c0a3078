import Verif.Proofs.Create

/-! Ownership: when nothing is freed. -/

set_option linter.unusedSimpArgs false
set_option linter.unusedVariables false

set_option autoImplicit false

namespace Dendron
variable {α : Type} {h h' : Heap α} {ch : NodeId → List NodeId} {n p : NodeId} {t : TreeId}

theorem referenced_iff : h.referenced n = true ↔
    (∃ t rc l, h.mem n = .strong t rc l) ∨ (∃ t, t < h.nTree ∧ h.root t = some n) ∨
    (∃ m, m < h.nNode ∧ h.alive m = true ∧ (h.firstChild m = some n ∨ h.next m = some n)) := by
  unfold Heap.referenced
  simp only [Bool.or_eq_true, List.any_eq_true, List.mem_range, beq_iff_eq, Bool.and_eq_true,
    or_assoc]
  refine or_congr ?_ Iff.rfl
  cases h.mem n with
  | weak u => simp
  | strong u rc l => simp

theorem hasStrongMember_iff : h.hasStrongMember t = true ↔
    ∃ n, n < h.nNode ∧ ∃ rc l, h.mem n = .strong t rc l := by
  unfold Heap.hasStrongMember
  simp only [List.any_eq_true, List.mem_range]
  refine exists_congr (fun n => and_congr_right (fun _ => ?_))
  cases h.mem n with
  | weak u => simp
  | strong u rc l => simp

/-- The tree core has an owner: a `Tree`/local `Rc`, or a node with handles. -/
def Held (h : Heap α) (t : TreeId) : Prop :=
  0 < h.treeRc t ∨ ∃ n rc l, h.mem n = .strong t rc l ∧ n < h.nNode

theorem maybeDropTree_held {pins : List NodeId} (hh : Held h t) :
    h.maybeDropTree pins t = .ok h := by
  unfold Heap.maybeDropTree
  rw [if_neg]
  intro hc
  simp only [Bool.and_eq_true, beq_iff_eq, Bool.not_eq_true'] at hc
  rcases hh with h1 | ⟨n, rc, l, h1, h2⟩
  · omega
  · have := hasStrongMember_iff.2 ⟨n, h2, rc, l, h1⟩
    rw [hc.2] at this; simp at this

theorem maybeDropTree_dead {pins : List NodeId} (hh : h.treeAlive t = false) :
    h.maybeDropTree pins t = .ok h := by
  unfold Heap.maybeDropTree
  rw [if_neg]
  simp [hh]

theorem RefWF.held' (R : RefWF h) (hb : ∀ n, h.alive n = true → n < h.nNode)
    (ha : h.treeAlive t = true) : Held h t := by
  rcases R.held t ha with h1 | ⟨n, rc, l, h1⟩
  · exact .inl h1
  · exact .inr ⟨n, rc, l, h1, hb n (R.alive _ _ _ _ h1)⟩

theorem RefWF.maybeDropTree (R : RefWF h) (hb : ∀ n, h.alive n = true → n < h.nNode)
    (pins : List NodeId) (t : TreeId) : h.maybeDropTree pins t = .ok h := by
  cases ha : h.treeAlive t with
  | false => exact maybeDropTree_dead ha
  | true => exact maybeDropTree_held (R.held' hb ha)

theorem release_referenced {f : Nat} {pins : List NodeId} (hr : h.referenced n = true) :
    h.release (f + 1) pins n = .ok h := by
  simp [Heap.release, hr]

theorem release_dead {f : Nat} {pins : List NodeId} (hr : h.alive n = false) :
    h.release (f + 1) pins n = .ok h := by
  simp [Heap.release, hr]

theorem release_pinned {f : Nat} {pins : List NodeId} (hr : n ∈ pins) :
    h.release (f + 1) pins n = .ok h := by
  simp [Heap.release, hr]

theorem release_leaf {f : Nat} {pins : List NodeId} (ha : h.alive n = true)
    (hr : h.referenced n = false) (hp : n ∉ pins) (hf : h.firstChild n = none)
    (hn : h.next n = none) : h.release (f + 1) pins n = .ok (h.kill n) := by
  simp [Heap.release, hr, ha, hp, hf, hn]

/-- Children of living nodes are referenced. -/
theorem FShape.referenced_child (S : FShape h ch) (hm : n ∈ ch p) : h.referenced n = true := by
  refine referenced_iff.2 (.inr (.inr ?_))
  obtain ⟨l1, l2, hs⟩ := exists_split hm
  rcases List.eq_nil_or_concat l1 with rfl | ⟨l, x, rfl⟩
  · have hp := S.alive_parent hm
    exact ⟨p, S.bound p hp, hp, .inl (by rw [S.first p hp, hs]; simp)⟩
  · have hx : x ∈ ch p := by simp [hs]
    have ha := S.alive_of_mem hx
    refine ⟨x, S.bound x ha, ha, .inr ?_⟩
    rw [S.next_at (p := p) (n := x) (l1 := l) (l2 := n :: l2) (by simp [hs])]
    simp

theorem referenced_of (S : FShape h ch) (T : TreeWF h) (ha : h.alive n = true) :
    h.referenced n = true := by
  cases hp : h.parent n with
  | some p => exact S.referenced_child (S.mem_of_parent ha hp)
  | none =>
    obtain ⟨t, ht, hta⟩ := T.live n ha
    exact referenced_iff.2 (.inr (.inl ⟨t, T.bound t hta, T.top n t ha hp ht⟩))

/-- In a consistent memory nothing is waiting to be freed. -/
theorem WF.referenced (W : WF h ch) (ha : h.alive n = true) : h.referenced n = true :=
  referenced_of W.toFShape W.tree ha

theorem WF.maybeDropTree (W : WF h ch) (pins : List NodeId) (t : TreeId) :
    h.maybeDropTree pins t = .ok h := W.refs.maybeDropTree W.bound pins t

theorem SameLive.alive (s : SameLive h h') (n : NodeId) : h'.alive n = h.alive n := by
  simp [Heap.alive, s.data]

theorem SameLive.wf (s : SameLive h h') (W : WF h ch) : WF h' ch := by
  have hp : ∀ c, h.alive c = true → h'.parent c = h.parent c := s.parent
  have hmt : ∀ x, h.alive x = true → h'.memTree x = h.memTree x := by
    intro x hx; simp [Heap.memTree, s.mem x hx]
  have hta : ∀ t, h'.treeAlive t = h.treeAlive t := by intro t; simp [Heap.treeAlive, s.root]
  refine { dead := ?_, first := ?_, nodup := W.nodup, mem := ?_, seg := ?_, rootNext := ?_,
           acyc := W.acyc, bound := ?_, num := ?_, back := ⟨?_, ?_⟩, tree := ⟨?_, ?_, ?_, ?_, ?_⟩,
           refs := ⟨?_, ?_, ?_⟩ }
  · intro p hd; exact W.dead p (by rw [← s.alive]; exact hd)
  · intro p ha; rw [s.alive] at ha; rw [s.firstChild p ha]; exact W.first p ha
  · intro p c; rw [s.alive, W.mem]
    exact and_congr_right (fun ha => by rw [hp c ha])
  · intro p; exact (Seg.congr (fun x hx => (s.next x (W.alive_of_mem hx)).symm)).1 (W.seg p)
  · intro c ha hpn; rw [s.alive] at ha; rw [hp c ha] at hpn
    rw [s.next c ha]; exact W.rootNext c ha hpn
  · intro x ha; rw [s.alive] at ha; exact Nat.lt_of_lt_of_le (W.bound x ha) s.nNode
  · intro p ha; rw [s.alive] at ha; rw [s.numCh p ha]; exact W.num p ha
  · intro p; exact (PSeg.congr (fun x hx => (s.prevCyc x (W.alive_of_mem hx)).symm)).1
      (W.back.pseg p)
  · intro c ha hpn; rw [s.alive] at ha; rw [hp c ha] at hpn
    rw [s.prevCyc c ha]; exact W.back.rootPrev c ha hpn
  · intro x ha; rw [s.alive] at ha
    rw [hmt x ha]
    obtain ⟨t, h1, h2⟩ := W.tree.live x ha
    exact ⟨t, h1, by rw [hta]; exact h2⟩
  · intro t r hr; rw [s.root] at hr
    obtain ⟨h1, h2, h3⟩ := W.tree.root t r hr
    rw [s.alive, hmt r h1, hp r h1]; exact ⟨h1, h2, h3⟩
  · intro c p ha hpn; rw [s.alive] at ha; rw [hp c ha] at hpn
    rw [hmt c ha, hmt p (W.alive_parent (W.mem_of_parent ha hpn))]
    exact W.tree.child c p ha hpn
  · intro x t ha hpn hm; rw [s.alive] at ha; rw [hp x ha] at hpn; rw [hmt x ha] at hm
    rw [s.root]; exact W.tree.top x t ha hpn hm
  · intro t hh; rw [hta] at hh; rw [s.nTree]; exact W.tree.bound t hh
  · intro x t rc l hm; rw [s.alive]; exact s.deadMem x t rc l hm
  · intro x t rc l hm
    have ha := s.deadMem x t rc l hm
    rw [s.mem x ha] at hm; exact W.refs.pos x t rc l hm
  · intro t hh
    rw [hta] at hh
    rcases W.refs.held t hh with h1 | ⟨x, rc, l, hm⟩
    · left; rw [s.treeRc]; exact h1
    · right; exact ⟨x, rc, l, by rw [s.mem x (W.refs.alive _ _ _ _ hm)]; exact hm⟩

/-! ### Creation, successful or not -/

theorem checkBelongs_ok (ht : h.memTree n = some t) : h.checkBelongs n t = .ok () := by
  simp [Heap.checkBelongs, Heap.belongsTo, ht]

theorem createAndProcess_ok {d : α} {h1 : Heap α} {new : NodeId}
    {f : Heap α → NodeId → Except Fault (Heap α × Except HierarchyError Unit)}
    (h0 : h.newOrphan d t = .ok (h1, new)) (hf : f h1 new = .ok (h', .ok ())) :
    h.createAndProcess d t f = .ok (h', .ok new) := by
  simp only [Heap.createAndProcess, h0, hf, bind, Except.bind, pure, Except.pure]

/-- A new node that could not be inserted is freed again, and nothing else changes. -/
theorem createAndProcess_err {d : α} {h1 : Heap α} {e : HierarchyError}
    {f : Heap α → NodeId → Except Fault (Heap α × Except HierarchyError Unit)} (W : WF h ch)
    (hta : h.treeAlive t = true) (h0 : h.newOrphan d t = .ok (h1, h.nNode))
    (hf : f h1 h.nNode = .ok (h1, .error e)) :
    ∃ h', h.createAndProcess d t f = .ok (h', .error e) ∧ SameLive h h' := by
  have hfresh := W.fresh_not_alive
  have hne : ∀ x, h.alive x = true → x ≠ h.nNode := by
    rintro x hx rfl; rw [hx] at hfresh; simp at hfresh
  simp only [Heap.createAndProcess, h0, hf, bind, Except.bind, pure, Except.pure]
  have e1 : h1 = ((h.allocNode d (.weak (some t))).1).setMem h.nNode (.strong t 1 0) := by
    unfold Heap.newOrphan Heap.allocNode Heap.incRef Heap.treeAlive at h0
    rw [Heap.treeAlive] at hta
    simp only [upd_same, Option.filter, Heap.treeAlive, hta] at h0
    simp only [if_true, Except.ok.injEq, Prod.mk.injEq, and_true] at h0
    exact h0.symm
  subst e1
  have hheld : Held (((h.allocNode d (.weak (some t))).1.setMem h.nNode
      (.strong t 1 0)).setMem h.nNode (.weak (some t))) t := by
    rcases W.refs.held t hta with h2 | ⟨x, rc, l, hm⟩
    · exact .inl h2
    · have hx := W.refs.alive _ _ _ _ hm
      refine .inr ⟨x, rc, l, ?_, ?_⟩
      · simp [Heap.setMem, Heap.allocNode, hne x hx, hm]
      · exact Nat.lt_succ_of_lt (W.bound x hx)
  have hdl : (((h.allocNode d (.weak (some t))).1).setMem h.nNode (.strong t 1 0)).dropLink h.nNode
      = .ok ((((h.allocNode d (.weak (some t))).1.setMem h.nNode
      (.strong t 1 0)).setMem h.nNode (.weak (some t))).kill h.nNode) := by
    unfold Heap.dropLink Heap.decRef
    have : (((h.allocNode d (.weak (some t))).1).setMem h.nNode (.strong t 1 0)).mem h.nNode
        = .strong t 1 0 := by simp [Heap.setMem]
    simp only [this, Nat.sub_self, if_true, bind, Except.bind, ne_eq, not_true_eq_false, if_false]
    rw [maybeDropTree_held hheld]
    simp only [Heap.relFuel]
    apply release_leaf
    · simp [Heap.alive, Heap.setMem, Heap.allocNode]
    · rw [Bool.eq_false_iff]
      intro hr
      rcases referenced_iff.1 hr with ⟨u, rc, l, hm⟩ | ⟨u, _, hr⟩ | ⟨m, _, hm, hr⟩
      · simp [Heap.setMem] at hm
      · have := (W.tree.root u h.nNode hr).1
        rw [hfresh] at this; simp at this
      · simp only [Heap.setMem, Heap.allocNode, Heap.alive, upd_apply] at hm hr
        by_cases em : m = h.nNode
        · simp [em] at hr
        · simp only [em, if_false] at hm hr
          rcases hr with hr | hr
          · rw [W.first m hm] at hr
            have := W.alive_of_mem (List.mem_of_mem_head? hr)
            rw [hfresh] at this; simp at this
          · cases hpm : h.parent m with
            | none => rw [W.rootNext m hm hpm] at hr; simp at hr
            | some q =>
              obtain ⟨l1, l2, hs⟩ := exists_split (W.mem_of_parent hm hpm)
              rw [W.next_at hs] at hr
              have hmem : h.nNode ∈ ch q := by rw [hs]; simp [List.mem_of_mem_head? hr]
              have := W.alive_of_mem hmem
              rw [hfresh] at this; simp at this
    · simp
    · simp [Heap.setMem, Heap.allocNode]
    · simp [Heap.setMem, Heap.allocNode]
  simp only [hdl]
  refine ⟨_, rfl, ?_⟩
  have hdn : h.data h.nNode = none := by
    simpa [Heap.alive] using hfresh
  constructor
  · funext x
    simp only [Heap.kill, Heap.setMem, Heap.allocNode, upd_apply]
    split
    · subst_vars; rw [hdn]
    · rfl
  · rfl
  · rfl
  · rfl
  · rfl
  · exact Nat.le_succ _
  all_goals first
    | (intro x hx
       simp [Heap.kill, Heap.setMem, Heap.allocNode, hne x hx]; done)
    | skip
  intro x u rc l hm
  by_cases ex : x = h.nNode
  · subst ex; simp [Heap.kill] at hm
  · simp [Heap.kill, Heap.setMem, Heap.allocNode, ex] at hm
    exact W.refs.alive _ _ _ _ hm

theorem WF.tree_alive (W : WF h ch) (ha : h.alive n = true) (ht : h.memTree n = some t) :
    h.treeAlive t = true := by
  obtain ⟨u, h1, h2⟩ := W.tree.live n ha
  rw [ht] at h1; cases h1; exact h2

end Dendron
