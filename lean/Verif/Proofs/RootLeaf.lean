import Verif.Proofs.RootMoveSpec

/-!
`try_detach_insert_subtree` of a root without children and without `Tree` handle, to another tree: this
case is right.
-/

set_option linter.unusedSimpArgs false
set_option linter.unusedVariables false

set_option autoImplicit false

namespace Dendron
open RTree
variable {α : Type} {h h' k : Heap α} {ch : NodeId → List NodeId} {n p q : NodeId} {t t' : TreeId}
  {m1 m2 : List NodeId} {dest : InsertAs NodeId}

theorem RootGoes.leaf (G : RootGoes h ch n (.node n []) t t' dest q m1 m2) : ch n = [] := by
  have := G.sub.2
  exact this.1.symm

/-- The memory between the loop over the memberships and the insertion. -/
structure LeafMid (h k2 : Heap α) (ch : NodeId → List NodeId) (n : NodeId) (t t' : TreeId)
    (dest : InsertAs NodeId) : Prop where
  shape : Shape k2 ch
  data : k2.data = h.data
  mutB : k2.mutB = h.mutB
  parent : k2.parent = h.parent
  mem : k2.mem = upd h.mem n ((h.mem n).moveTo t')
  root : k2.root = upd h.root t none
  treeRc : k2.treeRc = upd h.treeRc t' (h.treeRc t' + 1)
  nNode : k2.nNode = h.nNode
  nTree : k2.nTree = h.nTree
  grants : ∀ u, u ≠ t → k2.grants u = if u = t' then h.grants t' + h.lockedIn [n] else h.grants u
  ready : ReadyToInsert k2 n dest

theorem RootGoes.leafMid (G : RootGoes h ch n (.node n []) t t' dest q m1 m2) (hrc : h.treeRc t = 0) :
    ∃ k2, (h.acqTree t').setMemberships n t' = .ok (some k2) ∧ LeafMid h k2 ch n t t' dest := by
  have hl := G.leaf
  have C := G.ctx
  have hm := C.memb_drop (by
    show upd h.treeRc t' _ t = 0
    rw [upd_ne _ _ G.ne]; exact hrc)
  have hN : (RTree.node n ([] : List (RTree NodeId))).nodes = [n] := rfl
  rw [hN] at hm
  have hh : n ∈ (h.acqTree t').handlesIn [n] := mem_handlesIn.2 ⟨by simp, G.strong⟩
  have W := acqTree_wf G.wf t'
  have S := G.wf.toShape
  have hfirst : h.firstChild n = none := by rw [S.first n G.alive, hl]; rfl
  have hnext : h.next n = none := S.rootNext n G.alive G.parent
  obtain ⟨k2, hk2⟩ : ∃ k2, k2 = (h.acqTree t').cleared [n] t t' := ⟨_, rfl⟩
  rw [← hk2] at hm
  have d2 : k2.data = h.data := by
    rw [hk2]; funext x
    by_cases e : x = n
    · subst e; simp [Heap.cleared, Heap.setGrants, Heap.setRoot, Heap.wipe, hh, Heap.relabel]; rfl
    · simp [Heap.cleared, Heap.setGrants, Heap.setRoot, Heap.wipe, e, Heap.relabel]; rfl
  have mb2 : k2.mutB = h.mutB := by
    rw [hk2]; funext x
    by_cases e : x = n
    · subst e; simp [Heap.cleared, Heap.setGrants, Heap.setRoot, Heap.wipe, hh, Heap.relabel]; rfl
    · simp [Heap.cleared, Heap.setGrants, Heap.setRoot, Heap.wipe, e, Heap.relabel]; rfl
  have p2 : k2.parent = h.parent := by
    rw [hk2]; funext x
    by_cases e : x = n
    · subst e; simp [Heap.cleared, Heap.setGrants, Heap.setRoot, Heap.wipe, hh, Heap.relabel]; rfl
    · simp [Heap.cleared, Heap.setGrants, Heap.setRoot, Heap.wipe, e, Heap.relabel]; rfl
  have pc2 : k2.prevCyc = h.prevCyc := by
    rw [hk2]; funext x
    by_cases e : x = n
    · subst e; simp [Heap.cleared, Heap.setGrants, Heap.setRoot, Heap.wipe, hh, Heap.relabel]; rfl
    · simp [Heap.cleared, Heap.setGrants, Heap.setRoot, Heap.wipe, e, Heap.relabel]; rfl
  have nc2 : k2.numCh = h.numCh := by
    rw [hk2]; funext x
    by_cases e : x = n
    · subst e; simp [Heap.cleared, Heap.setGrants, Heap.setRoot, Heap.wipe, hh, Heap.relabel]; rfl
    · simp [Heap.cleared, Heap.setGrants, Heap.setRoot, Heap.wipe, e, Heap.relabel]; rfl
  have f2 : k2.firstChild = h.firstChild := by
    rw [hk2]; funext x
    by_cases e : x = n
    · subst e; rw [hfirst]; simp [Heap.cleared, Heap.setGrants, Heap.setRoot, Heap.wipe]
    · simp [Heap.cleared, Heap.setGrants, Heap.setRoot, Heap.wipe, e, Heap.relabel]; rfl
  have x2 : k2.next = h.next := by
    rw [hk2]; funext x
    by_cases e : x = n
    · subst e; rw [hnext]; simp [Heap.cleared, Heap.setGrants, Heap.setRoot, Heap.wipe]
    · simp [Heap.cleared, Heap.setGrants, Heap.setRoot, Heap.wipe, e, Heap.relabel]; rfl
  have m2' : k2.mem = upd h.mem n ((h.mem n).moveTo t') := by
    rw [hk2]; funext x
    by_cases e : x = n
    · subst e; rw [upd_same]
      simp [Heap.cleared, Heap.setGrants, Heap.setRoot, Heap.wipe, hh, Heap.relabel]; rfl
    · rw [upd_ne _ _ e]
      simp [Heap.cleared, Heap.setGrants, Heap.setRoot, Heap.wipe, e, Heap.relabel]; rfl
  have r2 : k2.root = upd h.root t none := by rw [hk2]; rfl
  have rc2 : k2.treeRc = upd h.treeRc t' (h.treeRc t' + 1) := by rw [hk2]; rfl
  have nn2 : k2.nNode = h.nNode := by rw [hk2]; rfl
  have nt2 : k2.nTree = h.nTree := by rw [hk2]; rfl
  have g2 : ∀ u, u ≠ t → k2.grants u = if u = t' then h.grants t' + h.lockedIn [n] else h.grants u := by
    intro u hu
    rw [hk2]
    show upd (fun v => if v = t' then _ else if v = t then _ else _) t 0 u = _
    rw [upd_ne _ _ hu]
    simp only [hu, if_false]; rfl
  have al2 : ∀ x, k2.alive x = h.alive x := by intro x; simp [Heap.alive, d2]
  have S2 : Shape k2 ch :=
    { dead := fun x hx => S.dead x (by rw [← al2]; exact hx)
      first := fun x hx => by rw [f2]; exact S.first x (by rw [← al2]; exact hx)
      nodup := S.nodup
      mem := fun x y => by rw [al2, p2]; exact S.mem x y
      seg := fun x => by rw [x2]; exact S.seg x
      rootNext := fun x hx hp => by rw [x2]; exact S.rootNext x (by rw [← al2]; exact hx) (by rw [← p2]; exact hp)
      acyc := S.acyc
      bound := fun x hx => by rw [nn2]; exact S.bound x (by rw [← al2]; exact hx)
      num := fun x hx => by rw [nc2]; exact S.num x (by rw [← al2]; exact hx)
      back := ⟨fun x => by rw [pc2]; exact S.back.pseg x,
        fun x hx hp => by rw [pc2]; exact S.back.rootPrev x (by rw [← al2]; exact hx) (by rw [← p2]; exact hp)⟩ }
  refine ⟨k2, hm, S2, d2, mb2, p2, m2', r2, rc2, nn2, nt2, g2, ?_⟩
  refine ⟨⟨fun x hx => ?_, S2.bound⟩, by rw [al2]; exact G.alive, by rw [x2]; exact hnext,
    S2.insertOK (by rw [al2]; exact G.anchor.1)⟩
  by_cases e : x = n
  · exact .inl (by simp [e])
  · refine .inr ?_
    rw [al2] at hx
    rcases referenced_iff.1 (G.wf.referenced hx) with ⟨u, rc, l, h1⟩ | ⟨u, hu, h1⟩ | ⟨y, hy, ha, h1⟩
    · exact referenced_iff.2 (.inl ⟨u, rc, l, by rw [m2', upd_ne _ _ e]; exact h1⟩)
    · refine referenced_iff.2 (.inr (.inl ⟨u, by rw [nt2]; exact hu, ?_⟩))
      have : u ≠ t := by
        rintro rfl
        rw [G.wf.tree.top n u G.alive G.parent G.memb] at h1
        exact e (by simpa using h1.symm)
      rw [r2, upd_ne _ _ this]; exact h1
    · exact referenced_iff.2 (.inr (.inr ⟨y, by rw [nn2]; exact hy, by rw [al2]; exact ha,
        by rw [f2, x2]; exact h1⟩))

/-- The whole call. -/
theorem RootGoes.leafMoves (G : RootGoes h ch n (.node n []) t t' dest q m1 m2) (hrc : h.treeRc t = 0) :
    ∃ h', h.detachInsert n dest = .ok (h', .ok ()) ∧ WF h' (upd ch q (m1 ++ n :: m2)) ∧
      h'.data = h.data ∧ h'.mutB = h.mutB ∧ h'.mem = upd h.mem n ((h.mem n).moveTo t') ∧
      h'.root = upd h.root t none ∧ h'.treeRc = h.treeRc ∧ h'.nNode = h.nNode ∧ h'.nTree = h.nTree ∧
      (∀ u, u ≠ t → h'.grants u = if u = t' then h.grants t' + h.lockedIn [n] else h.grants u) ∧
      Rehomed h h' (upd ch q (m1 ++ n :: m2)) (upd ch q (m1 ++ n :: m2)) [n] t t' (h.grants t') := by
  have hl := G.leaf
  obtain ⟨k2, hm, M⟩ := G.leafMid hrc
  have hqT := G.qT
  have hnq : n ≠ q := by rintro rfl; exact hqT (by simp [RTree.nodes])
  have al2 : ∀ x, k2.alive x = h.alive x := by intro x; simp [Heap.alive, M.data]
  have hT : ∀ x, x ∈ (RTree.node n ([] : List (RTree NodeId))).nodes ↔ x = n := by
    intro x; show x ∈ [n] ↔ _; simp
  have hD : ¬ Desc ch n q := by
    intro e; exact hqT ((G.sub.mem_nodes_iff q).2 e)
  obtain ⟨k3, hi, s, S3, p3⟩ := insert_shape (dest := dest) M.shape (by rw [al2]; exact G.alive)
    (by rw [M.parent]; exact G.parent) (by rw [al2]; exact G.qalive) hD G.split false
  have mt2 : ∀ x, x ≠ n → k2.memTree x = h.memTree x := by
    intro x e; simp [Heap.memTree, M.mem, upd_ne _ _ e]
  have mtn : k2.memTree n = some t' := by
    rw [Heap.memTree, M.mem, upd_same]; cases h.mem n <;> rfl
  have hst : ∃ rc l, k3.mem n = .strong t' rc l := by
    rw [s.mem, M.mem, upd_same]; exact moveTo_strong G.strong
  have ta2 : ∀ u, u ≠ t → k2.treeAlive u = h.treeAlive u := by
    intro u hu; simp [Heap.treeAlive, M.root, upd_ne _ _ hu]
  have nott : ∀ x, x ≠ n → h.alive x = true → h.memTree x ≠ some t := by
    intro x hx ha e; exact hx ((hT x).1 ((G.mem_iff x).2 ⟨ha, e⟩))
  have e := G.run hm M.ready hi hst (by rw [s.nNode, M.nNode]; exact G.wf.bound n G.alive)
    (by rw [s.treeRc, M.treeRc, upd_same])
  have TE : TreeWFe k2 (fun x => x = n) := by
    constructor
    · intro x hx
      rw [al2] at hx
      by_cases e : x = n
      · subst e
        exact ⟨t', mtn, by rw [ta2 t' G.ne.symm]; exact G.wf.tree_alive G.qalive G.memb'⟩
      · obtain ⟨u, hu, hua⟩ := G.wf.tree.live x hx
        refine ⟨u, by rw [mt2 x e]; exact hu, ?_⟩
        rw [ta2 u (by rintro rfl; exact nott x e hx hu)]; exact hua
    · intro u r hr
      rw [M.root] at hr
      by_cases eu : u = t
      · subst eu; rw [upd_same] at hr; cases hr
      · rw [upd_ne _ _ eu] at hr
        obtain ⟨h1, h2, h3⟩ := G.wf.tree.root u r hr
        have hrn : r ≠ n := by
          rintro rfl; rw [G.memb] at h2; exact eu (by simpa using h2.symm)
        rw [al2, mt2 r hrn, M.parent]; exact ⟨h1, h2, h3⟩
    · intro c z hc hp
      rw [al2] at hc
      rw [M.parent] at hp
      have hmz := G.wf.mem_of_parent hc hp
      have hcn : c ≠ n := by rintro rfl; exact G.top z hmz
      have hpn : z ≠ n := by rintro rfl; rw [hl] at hmz; simp at hmz
      rw [mt2 c hcn, mt2 z hpn]; exact G.wf.tree.child c z hc hp
    · intro x u hx ha hp hm
      rw [al2] at ha
      rw [M.parent] at hp
      rw [mt2 x hx] at hm
      have hu : u ≠ t := by rintro rfl; exact nott x hx ha hm
      rw [M.root, upd_ne _ _ hu]; exact G.wf.tree.top x u ha hp hm
    · intro u hu
      have hut : u ≠ t := by
        rintro rfl
        simp [Heap.treeAlive, M.root] at hu
      rw [ta2 u hut] at hu
      rw [M.nTree]; exact G.wf.tree.bound u hu
  have T3 : TreeWF k3 := TE.inserted s (q := q) p3
    (by
      intro u hu
      rw [M.root] at hu
      by_cases e : u = t
      · subst e; rw [upd_same] at hu; cases hu
      · rw [upd_ne _ _ e] at hu
        have := (G.wf.tree.root u n hu).2.1
        rw [G.memb] at this; exact e (by simpa using this.symm))
    (by rw [mtn, mt2 q hnq.symm, G.memb'])
  have rc3 : (k3.setTreeRc t' (h.treeRc t')).treeRc = h.treeRc := by
    funext u
    show upd k3.treeRc t' _ u = _
    rw [s.treeRc, M.treeRc]
    by_cases e : u = t'
    · subst e; rw [upd_same]
    · rw [upd_ne _ _ e, upd_ne _ _ e]
  have m3 : k3.mem = upd h.mem n ((h.mem n).moveTo t') := by rw [s.mem, M.mem]
  have m3' : ∀ x, x ≠ n → k3.mem x = h.mem x := by intro x e; rw [m3, upd_ne _ _ e]
  have mn3 : ∀ u rc l, k3.mem n = .strong u rc l → ∃ v, h.mem n = .strong v rc l := by
    intro u rc l hx
    rw [m3, upd_same] at hx
    cases hmm : h.mem n with
    | weak v => rw [hmm] at hx; cases hx
    | strong v a b => rw [hmm] at hx; cases hx; exact ⟨v, rfl⟩
  have d3 : k3.data = h.data := by rw [s.data, M.data]
  have al3 : ∀ x, k3.alive x = h.alive x := by intro x; simp [Heap.alive, d3]
  have r3 : k3.root = upd h.root t none := by rw [s.root, M.root]
  have g3 : ∀ u, u ≠ t → k3.grants u = if u = t' then h.grants t' + h.lockedIn [n] else h.grants u := by
    intro u hu; rw [s.grants]; exact M.grants u hu
  have leave : LastHandlesLeave h [n] t := by
    refine ⟨hrc, fun y rc l hy hm => ?_⟩
    have := (G.mem_iff y).2 ⟨G.wf.refs.alive _ _ _ _ hm, by simp [Heap.memTree, hm]⟩
    exact hy (by simpa using (hT y).1 this)
  have aban : ∀ x, Abandoned h [n] t x → h.alive x = false := by
    intro x hx
    cases ha : h.alive x with
    | false => rfl
    | true => exact absurd hx.2.1 (nott x (by simpa using hx.2.2) ha)
  refine ⟨_, e, { toShape := ?_, tree := ?_, refs := ⟨?_, ?_, ?_⟩ }, d3, ?_, m3, r3, rc3, ?_, ?_, g3, ?_⟩
  · exact { dead := S3.dead, first := S3.first, nodup := S3.nodup, mem := S3.mem,
            seg := S3.seg, rootNext := S3.rootNext, acyc := S3.acyc, bound := S3.bound,
            num := S3.num, back := ⟨S3.back.pseg, S3.back.rootPrev⟩ }
  · exact ⟨T3.live, T3.root, T3.child, T3.top, T3.bound⟩
  · intro x u rc l hx
    show k3.alive x = true
    have hx' : k3.mem x = .strong u rc l := hx
    rw [al3]
    by_cases e : x = n
    · subst e; exact G.alive
    · rw [m3' x e] at hx'; exact G.wf.refs.alive _ _ _ _ hx'
  · intro x u rc l hx
    have hx' : k3.mem x = .strong u rc l := hx
    by_cases e : x = n
    · subst e
      obtain ⟨v, hv⟩ := mn3 u rc l hx'
      exact G.wf.refs.pos _ _ _ _ hv
    · rw [m3' x e] at hx'; exact G.wf.refs.pos _ _ _ _ hx'
  · intro u hu
    have hu3 : k3.treeAlive u = true := hu
    have hut : u ≠ t := by
      rintro rfl; simp [Heap.treeAlive, r3] at hu3
    have hu4 : h.treeAlive u = true := by
      simpa [Heap.treeAlive, r3, upd_ne _ _ hut] using hu3
    rw [rc3]
    rcases G.wf.refs.held u hu4 with h1 | ⟨x, rc, l, hx⟩
    · exact .inl h1
    · refine .inr ⟨x, rc, l, ?_⟩
      show k3.mem x = _
      rw [m3' x ?_]
      · exact hx
      · rintro rfl
        have := G.memb
        simp only [Heap.memTree, hx, Option.some.injEq] at this
        exact hut this
  · show k3.mutB = _; rw [s.mutB, M.mutB]
  · show k3.nNode = _; rw [s.nNode, M.nNode]
  · show k3.nTree = _; rw [s.nTree, M.nTree]
  · refine { freed := ?_, data := ?_, moved := ?_, others := ?_, children := fun _ _ => rfl,
             grantsNew := ?_, grantsOld := fun h1 => absurd leave h1, grantsOther := ?_, rootOld := ?_,
             rootKept := fun h1 => absurd leave h1, rootOther := ?_, treeRc := ?_, nNode := ?_ }
    · intro x hx; exact (al3 x).trans (aban x hx)
    · intro x _; exact ⟨by rw [show (k3.setTreeRc t' (h.treeRc t')).data = k3.data from rfl, d3],
        by rw [show (k3.setTreeRc t' (h.treeRc t')).mutB = k3.mutB from rfl, s.mutB, M.mutB]⟩
    · intro x hx
      obtain rfl : x = n := by simpa using hx
      show k3.mem x = _; rw [m3, upd_same]
    · intro x hx _; exact m3' x (by simpa using hx)
    · show k3.grants t' = _; rw [g3 t' G.ne.symm, if_pos rfl]
    · intro u h1 h2; show k3.grants u = _; rw [g3 u h1, if_neg h2]
    · exact ⟨fun _ => leave, fun _ => by show k3.root t = none; rw [r3, upd_same]⟩
    · intro u h1 _; show k3.root u = _; rw [r3, upd_ne _ _ h1]
    · intro u _; rw [rc3]
    · show k3.nNode = _; rw [s.nNode, M.nNode]

/-- Making the situation from the moved node's being childless. -/
theorem leaf_subtree (hl : ch n = []) : SubtreeAt ch n (.node n []) := ⟨rfl, hl.symm, trivial⟩

end Dendron
