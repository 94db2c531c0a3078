import Verif.Proofs.WorldFacts
import Verif.Proofs.WorldStepEdit

/-! Sequences of calls that only add nodes to one tree. -/

set_option linter.unusedSimpArgs false
set_option linter.unusedVariables false

set_option autoImplicit false

namespace Dendron
variable {α : Type} {h h' h'' : Heap α} {w w' w0 : World α} {ch ch' ch0 : NodeId → List NodeId}
  {n r c p : NodeId} {t T : TreeId} {k : Kind} {ps cs : List NodeId}

/-- Everything that existed is as before, except for links and counters. -/
structure Grow (h h' : Heap α) : Prop where
  alive : ∀ x, h.alive x = true → h'.alive x = true
  data : ∀ x, h.alive x = true → h'.data x = h.data x
  mutB : ∀ x, h.alive x = true → h'.mutB x = h.mutB x
  memTree : ∀ x, h.alive x = true → h'.memTree x = h.memTree x
  old : ∀ x, x < h.nNode → h'.alive x = true → h.alive x = true
  nodes : h.nNode ≤ h'.nNode
  trees : h.nTree ≤ h'.nTree
  root : ∀ u, u < h.nTree → h'.root u = h.root u

theorem Grow.refl (h : Heap α) : Grow h h :=
  ⟨fun _ e => e, fun _ _ => rfl, fun _ _ => rfl, fun _ _ => rfl, fun _ _ e => e, Nat.le_refl _,
    Nat.le_refl _, fun _ _ => rfl⟩

theorem Grow.trans (g : Grow h h') (g' : Grow h' h'') : Grow h h'' where
  alive x e := g'.alive x (g.alive x e)
  data x e := (g'.data x (g.alive x e)).trans (g.data x e)
  mutB x e := (g'.mutB x (g.alive x e)).trans (g.mutB x e)
  memTree x e := (g'.memTree x (g.alive x e)).trans (g.memTree x e)
  old x hx e := g.old x hx (g'.old x (Nat.lt_of_lt_of_le hx g.nodes) e)
  nodes := Nat.le_trans g.nodes g'.nodes
  trees := Nat.le_trans g.trees g'.trees
  root u hu := (g'.root u (Nat.lt_of_lt_of_le hu g.trees)).trans (g.root u hu)

theorem Still.grow (s : Still h h') : Grow h h' where
  alive x e := (s.alive x).trans e
  data x _ := by rw [s.data]
  mutB x _ := by rw [s.mutB]
  memTree x _ := s.memTree x
  old x _ e := (s.alive x).symm.trans e
  nodes := Nat.le_of_eq s.nNode.symm
  trees := Nat.le_of_eq s.nTree.symm
  root u _ := by rw [s.root]

theorem nodup_length_sub {L M : List NodeId} (hL : L.Nodup) (hs : ∀ x ∈ L, x ∈ M) :
    L.length ≤ M.length := by
  induction L generalizing M with
  | nil => simp
  | cons a l ih =>
    simp only [List.nodup_cons] at hL
    have ham : a ∈ M := hs a (by simp)
    have := ih (M := M.erase a) hL.2 (by
      intro x hx
      have hne : x ≠ a := by rintro rfl; exact hL.1 hx
      exact (List.mem_erase_of_ne hne).2 (hs x (by simp [hx])))
    rw [List.length_erase_of_mem ham] at this
    have := List.length_pos_of_mem ham
    simp only [List.length_cons]
    omega

/-- The lock counter of a tree depends on the tokens and handles only. -/
theorem Inv.grants_same (I : Inv w ch) (I' : Inv w' ch') (ha : w.heap.treeAlive t = true)
    (ha' : w'.heap.treeAlive t = true) (h1 : w'.grantTok t = w.grantTok t)
    (h2 : w'.prohTok t = w.prohTok t)
    (hm : ∀ x, w.heap.alive x = true → w.heap.memTree x = some t → w'.heap.memTree x = some t ∧
      w'.held .hot x = w.held .hot x ∧ w'.held .frozen x = w.held .frozen x)
    (hm' : ∀ x, w'.heap.alive x = true → w'.heap.memTree x = some t → w.heap.memTree x = some t ∧
      w'.held .hot x = w.held .hot x ∧ w'.held .frozen x = w.held .frozen x) :
    w'.heap.grants t = w.heap.grants t := by
  obtain ⟨L, a1, a2, a3, -⟩ := I.locks t ha
  obtain ⟨L', b1, b2, b3, -⟩ := I'.locks t ha'
  have al : ∀ x, 0 < w.held .hot x + w.held .frozen x → w.heap.alive x = true := by
    intro x hx
    by_cases e : 0 < w.held .hot x
    · exact I.held_alive e
    · exact I.held_alive (k := .frozen) (by omega)
  have al' : ∀ x, 0 < w'.held .hot x + w'.held .frozen x → w'.heap.alive x = true := by
    intro x hx
    by_cases e : 0 < w'.held .hot x
    · exact I'.held_alive e
    · exact I'.held_alive (k := .frozen) (by omega)
  have s1 : ∀ x ∈ L, x ∈ L' := by
    intro x hx
    obtain ⟨p, q⟩ := (a2 x).1 hx
    obtain ⟨r1, r2, r3⟩ := hm x (al x q) p
    exact (b2 x).2 ⟨r1, by omega⟩
  have s2 : ∀ x ∈ L', x ∈ L := by
    intro x hx
    obtain ⟨p, q⟩ := (b2 x).1 hx
    obtain ⟨r1, r2, r3⟩ := hm' x (al' x q) p
    exact (a2 x).2 ⟨r1, by omega⟩
  have l1 := nodup_length_le_of_subset a1 b1 s1
  have l2 := nodup_length_le_of_subset b1 a1 s2
  have hot_or : L.length = 0 ∨ ∃ x, x ∈ L := by
    cases L with
    | nil => exact .inl rfl
    | cons x l => exact .inr ⟨x, by simp⟩
  rcases a3 with ⟨c1, c2, c3⟩ | ⟨c1, c2, c3⟩ <;> rcases b3 with ⟨d1, d2, d3⟩ | ⟨d1, d2, d3⟩
  · omega
  · rcases hot_or with e | ⟨x, hx⟩
    · omega
    · obtain ⟨p, q⟩ := (a2 x).1 hx
      obtain ⟨r1, r2, r3⟩ := hm x (al x q) p
      have := c2 x p
      have := d2 x r1
      omega
  · rcases hot_or with e | ⟨x, hx⟩
    · omega
    · obtain ⟨p, q⟩ := (a2 x).1 hx
      obtain ⟨r1, r2, r3⟩ := hm x (al x q) p
      have := c2 x p
      have := d2 x r1
      omega
  · omega

/-- What creating a node does. -/
structure Fresh (w w' : World α) (d : α) (T : TreeId) : Prop where
  grow : Grow w.heap w'.heap
  nNode : w'.heap.nNode = w.heap.nNode + 1
  held : ∀ k x, w'.held k x = if k = .hot ∧ x = w.heap.nNode then w.held k x + 1 else w.held k x
  trees : w'.trees = w.trees
  grantTok : w'.grantTok = w.grantTok
  prohTok : w'.prohTok = w.prohTok
  data : w'.heap.data w.heap.nNode = some d
  mutB : w'.heap.mutB w.heap.nNode = false
  memTree : w'.heap.memTree w.heap.nNode = some T
  alive : ∀ x, x ≠ w.heap.nNode → w'.heap.alive x = w.heap.alive x
  memOld : ∀ x, x ≠ w.heap.nNode → w'.heap.memTree x = w.heap.memTree x
  treeAlive : ∀ u, u ≠ T → w'.heap.treeAlive u = w.heap.treeAlive u

theorem Fresh.alive_new {d : α} (F : Fresh w w' d T) : w'.heap.alive w.heap.nNode = true := by
  simp [Heap.alive, F.data]

theorem Inv.exec_create {d : α} {as : AdoptAs} {l1 l2 : List NodeId} (I : Inv w ch)
    (hk : 0 < w.held .hot c) (hd : DestSplit ch (as.at c) p l1 l2)
    (ht : w.heap.memTree c = some T) (hl : w.heap.grants T < Lock.isizeMax) :
    ∃ w', w.exec (.create .hot c d as) = .ok (w', .node (some w.heap.nNode)) ∧
      Inv w' (upd ch p (l1 ++ w.heap.nNode :: l2)) ∧ Fresh w w' d T := by
  have hal := I.held_alive hk
  have hta := I.wf.tree_alive hal ht
  have hgp := I.hot_grants hk ht
  obtain ⟨h', e, C, W, -⟩ := nodeCreate_ok I.wf hd hal ht d
  have hpt : w.heap.memTree p = some T := by
    rcases I.wf.toFShape.destSplit_parent hd with rfl | hm
    · exact ht
    · rw [← I.wf.tree.child c p hal (I.wf.parent_of_mem hm)]; exact ht
  obtain ⟨I1, K⟩ := I.createdPlain (d := d) W hta C.data C.mutB C.mem
    (fun u => by simp [Heap.treeAlive, C.root]) C.grants C.treeRc C.nNode C.nTree (by
      intro x _ hx
      have : x ≠ p := by rintro rfl; exact hx hpt
      simp [this])
  have hmn : h'.memTree w.heap.nNode = some T := by simp [Heap.memTree, C.mem]
  obtain ⟨h2, e2, I2, S2⟩ := I1.created (k := .hot) hmn (by
    simp only [Lockable, C.grants]; constructor <;> omega)
  have hfresh := I.wf.toFShape.fresh_not_alive
  have hne : ∀ x, w.heap.alive x = true → x ≠ w.heap.nNode := by
    rintro x hx rfl; rw [hfresh] at hx; cases hx
  have hmo : ∀ x, x ≠ w.heap.nNode → h'.memTree x = w.heap.memTree x := by
    intro x hx; simp [Heap.memTree, C.mem, hx]
  have hao : ∀ x, x ≠ w.heap.nNode → h'.alive x = w.heap.alive x := by
    intro x hx; simp [Heap.alive, C.data, hx]
  have G : Grow w.heap h' := by
    constructor
    · intro x hx; rw [hao x (hne x hx)]; exact hx
    · intro x hx; simp [C.data, hne x hx]
    · intro x hx; simp [C.mutB, hne x hx]
    · intro x hx; exact hmo x (hne x hx)
    · intro x hx ha
      rw [hao x (Nat.ne_of_lt hx)] at ha; exact ha
    · rw [C.nNode]; exact Nat.le_succ _
    · rw [C.nTree]; exact Nat.le_refl _
    · intro u _; rw [C.root]
  refine ⟨({ w with heap := h2 }).give .hot w.heap.nNode, ?_, I2, ?_⟩
  · simp only [World.exec, World.checkAuth, bind, Except.bind, e]; exact e2
  · refine ⟨G.trans S2.grow, ?_, fun _ _ => rfl, rfl, rfl, rfl, ?_, ?_, ?_, ?_, ?_, ?_⟩
    · simp [S2.nNode, C.nNode]
    · simp [S2.data, C.data]
    · simp [S2.mutB, C.mutB]
    · simp [S2.memTree, hmn]
    · intro x hx; simp only [give_heap, S2.alive]; exact hao x hx
    · intro x hx; simp only [give_heap, S2.memTree]; exact hmo x hx
    · intro u _; simp [Heap.treeAlive, S2.root, C.root]

/-- A new tree with a hot root. -/
theorem Inv.exec_newHot {d : α} (I : Inv w ch) :
    ∃ w', w.exec (.newTree true d) = .ok (w', .node (some w.heap.nNode)) ∧
      Inv w' ch ∧ Fresh w w' d w.heap.nTree ∧ w'.heap.nTree = w.heap.nTree + 1 := by
  obtain ⟨h', e, I1, -, hmn, hg⟩ := I.newTreePlain (d := d)
  obtain ⟨h1, e1, W, hdata, hmtn, hroot, hmem, hgr, hrc, hnn, hnt, hpar, hmb⟩ :=
    newTreeRoot_wf I.wf d I.wf.tree.fresh_tree
  obtain rfl : h1 = h' := by rw [e] at e1; simpa using e1.symm
  obtain ⟨h2, e2, I2, S2⟩ := I1.created (k := .hot) hmn (by
    simp only [Lockable, hg, Lock.isizeMax]; omega)
  have hfresh := I.wf.toFShape.fresh_not_alive
  have hne : ∀ x, w.heap.alive x = true → x ≠ w.heap.nNode := by
    rintro x hx rfl; rw [hfresh] at hx; cases hx
  have hmo : ∀ x, x ≠ w.heap.nNode → h1.memTree x = w.heap.memTree x := by
    intro x hx; simp [Heap.memTree, hmem, hx]
  have hao : ∀ x, x ≠ w.heap.nNode → h1.alive x = w.heap.alive x := by
    intro x hx; simp [Heap.alive, hdata, hx]
  have G : Grow w.heap h1 := by
    constructor
    · intro x hx; rw [hao x (hne x hx)]; exact hx
    · intro x hx; simp [hdata, hne x hx]
    · intro x hx; simp [hmb, hne x hx]
    · intro x hx; exact hmo x (hne x hx)
    · intro x hx ha
      rw [hao x (Nat.ne_of_lt hx)] at ha; exact ha
    · rw [hnn]; exact Nat.le_succ _
    · rw [hnt]; exact Nat.le_succ _
    · intro u hu; simp [hroot, Nat.ne_of_lt hu]
  refine ⟨({ w with heap := h2 }).give .hot w.heap.nNode, ?_, I2, ?_, ?_⟩
  · simp only [World.exec, e, if_true]; exact e2
  · refine ⟨G.trans S2.grow, ?_, fun _ _ => rfl, rfl, rfl, rfl, ?_, ?_, ?_, ?_, ?_, ?_⟩
    · simp [S2.nNode, hnn]
    · simp [S2.data, hdata]
    · simp [S2.mutB, hmb]
    · simp [S2.memTree, hmtn]
    · intro x hx; simp only [give_heap, S2.alive]; exact hao x hx
    · intro x hx; simp only [give_heap, S2.memTree]; exact hmo x hx
    · intro u hu; simp [Heap.treeAlive, S2.root, hroot, hu]
  · simp [S2.nTree, hnt]

/-- What is assumed about the state before the sequence: `w0` holds the handles that are not touched. -/
structure GrowBase (w0 : World α) (T : TreeId) : Prop where
  held : ∀ k x, 0 < w0.held k x → w0.heap.alive x = true
  bound : ∀ x, w0.heap.alive x = true → x < w0.heap.nNode
  frozen : ∀ x, w0.heap.alive x = true → w0.heap.memTree x = some T → w0.held .frozen x = 0
  proh : w0.prohTok T = 0
  cap : ∃ L : List NodeId, (∀ x, w0.heap.alive x = true → w0.heap.memTree x = some T →
      0 < w0.held .hot x → x ∈ L) ∧
    (w0.grantTok T : Int) + L.length + 4 ≤ 2 ^ 62

/-- The state `w` differs from `w0` by nodes added to tree `T`, below `r`; there are plain handles to
`ps` and hot handles to `cs` in addition to those of `w0`. -/
structure Run (w0 : World α) (ch0 : NodeId → List NodeId) (w : World α) (ch : NodeId → List NodeId)
    (r : NodeId) (T : TreeId) (ps cs : List NodeId) : Prop where
  base : GrowBase w0 T
  inv : Inv w ch
  reach : Reach w
  room : ∀ u, u ≠ T → w.heap.treeAlive u = true →
    -(2 : Int) ^ 62 < w.heap.grants u ∧ w.heap.grants u < (2 : Int) ^ 62
  grow : Grow w0.heap w.heap
  mine : ∀ x, w.heap.alive x = true → w0.heap.alive x = false → w.heap.memTree x = some T
  keep : ∀ x, w0.heap.alive x = true → x ≠ r → ch x = ch0 x
  pre : ch0 r <+: ch r
  plain : ∀ x, w.held .plain x = w0.held .plain x + ps.count x
  hot : ∀ x, w.held .hot x = w0.held .hot x + cs.count x
  frozen : ∀ x, w.held .frozen x = w0.held .frozen x
  trees : w.trees = w0.trees
  grantTok : w.grantTok = w0.grantTok
  prohTok : w.prohTok = w0.prohTok
  psT : ∀ x ∈ ps, w.heap.memTree x = some T
  csT : ∀ x ∈ cs, w.heap.memTree x = some T

/-- `n` hot handles in addition to those of `w0` do not overflow the lock counter. -/
def Fits (w0 : World α) (T : TreeId) (n : Nat) : Prop :=
  n ≤ 2 ∨ ∃ L : List NodeId, (∀ x, w0.heap.alive x = true → w0.heap.memTree x = some T →
      0 < w0.held .hot x → x ∈ L) ∧ (w0.grantTok T : Int) + L.length + n + 2 ≤ 2 ^ 62

@[simp] theorem Fits.le {n : Nat} (h : n ≤ 2) : Fits w0 T n := .inl h

namespace Run

theorem held_of_cs (R : Run w0 ch0 w ch r T ps cs) (hc : c ∈ cs) : 0 < w.held .hot c := by
  rw [R.hot]
  have := List.count_pos_iff.2 hc
  omega

theorem held_of_ps (R : Run w0 ch0 w ch r T ps cs) (hc : c ∈ ps) : 0 < w.held .plain c := by
  rw [R.plain]
  have := List.count_pos_iff.2 hc
  omega

/-- The lock counter of the tree. -/
theorem grants_le {L0 : List NodeId} (R : Run w0 ch0 w ch r T ps cs) (hta : w.heap.treeAlive T = true)
    (b1 : ∀ x, w0.heap.alive x = true → w0.heap.memTree x = some T → 0 < w0.held .hot x → x ∈ L0) :
    0 ≤ w.heap.grants T ∧ w.heap.grants T ≤ (w0.grantTok T : Int) + L0.length + cs.length := by
  obtain ⟨L, a1, a2, a3, -⟩ := R.inv.locks T hta
  have hfr : ∀ x, w.heap.memTree x = some T → w.held .frozen x = 0 := by
    intro x hx
    rw [R.frozen]
    by_cases e : 0 < w0.held .frozen x
    · have ha := R.base.held _ _ e
      have := R.base.frozen x ha (by rw [← R.grow.memTree x ha]; exact hx)
      omega
    · omega
  have hsub : ∀ x ∈ L, x ∈ cs ++ L0 := by
    intro x hx
    obtain ⟨p, q⟩ := (a2 x).1 hx
    have hh : 0 < w.held .hot x := by have := hfr x p; omega
    rw [R.hot] at hh
    by_cases e : 0 < w0.held .hot x
    · have ha := R.base.held _ _ e
      exact List.mem_append_right _ (b1 x ha (by rw [← R.grow.memTree x ha]; exact p) e)
    · exact List.mem_append_left _ (List.count_pos_iff.1 (by omega))
  have hlen : L.length ≤ (cs ++ L0).length := nodup_length_sub a1 hsub
  rw [List.length_append] at hlen
  have hp : w.prohTok T = 0 := by rw [R.prohTok]; exact R.base.proh
  have hg : w.grantTok T = w0.grantTok T := by rw [R.grantTok]
  rcases a3 with ⟨c1, c2, c3⟩ | ⟨c1, c2, c3⟩
  · constructor <;> omega
  · have hL : L.length = 0 := by
      cases L with
      | nil => rfl
      | cons x l =>
        obtain ⟨p, q⟩ := (a2 x).1 (by simp)
        have := c2 x p
        have := hfr x p
        omega
    constructor <;> omega

theorem grants_fit (R : Run w0 ch0 w ch r T ps cs) (hta : w.heap.treeAlive T = true)
    (hc : Fits w0 T cs.length) :
    0 ≤ w.heap.grants T ∧ w.heap.grants T + 2 ≤ 2 ^ 62 := by
  rcases hc with hc | ⟨L, b1, b2⟩
  · obtain ⟨L, b1, b2⟩ := R.base.cap
    have := R.grants_le hta b1
    omega
  · have := R.grants_le hta b1
    omega

theorem lockable (R : Run w0 ch0 w ch r T ps cs) (hta : w.heap.treeAlive T = true)
    (hc : Fits w0 T cs.length) : Lockable w.heap T .hot := by
  obtain ⟨a, b⟩ := R.grants_fit hta hc
  simp only [Lockable, Lock.isizeMax]
  constructor <;> omega

theorem isRoom (R : Run w0 ch0 w ch r T ps cs) (hc : Fits w0 T cs.length) : Room w.heap := by
  intro u hu
  by_cases e : u = T
  · subst e
    obtain ⟨a, b⟩ := R.grants_fit hu hc
    constructor <;> omega
  · exact R.room u e hu

/-- A step that changes counters of tree `T` and the handles only. -/
theorem still {ps' cs' : List NodeId} {op : Op α} {res : Res} (R : Run w0 ch0 w ch r T ps cs)
    (hc : Fits w0 T cs.length)
    (I : Inv w' ch) (S : Still w.heap w'.heap) (e : w.exec op = .ok (w', res))
    (al : w.Allowed op) (sf : ∀ ch, FShape w.heap ch → SafeCall w.heap ch op)
    (hp : ∀ x, w'.held .plain x = w0.held .plain x + ps'.count x)
    (hh : ∀ x, w'.held .hot x = w0.held .hot x + cs'.count x)
    (hf : ∀ x, w'.held .frozen x = w0.held .frozen x)
    (h1 : w'.trees = w.trees) (h2 : w'.grantTok = w.grantTok) (h3 : w'.prohTok = w.prohTok)
    (ht : ∀ x, w.heap.memTree x ≠ some T → w'.held .hot x = w.held .hot x)
    (p1 : ∀ x ∈ ps', w.heap.memTree x = some T) (p2 : ∀ x ∈ cs', w.heap.memTree x = some T) :
    Run w0 ch0 w' ch r T ps' cs' where
  base := R.base
  inv := I
  reach := .step R.reach ⟨al, sf, R.isRoom hc, e⟩
  room u hu ha := by
    have ha0 : w.heap.treeAlive u = true := by rw [← S.treeAlive]; exact ha
    rw [R.inv.grants_same I ha0 ha (by rw [h2]) (by rw [h3])]
    · exact R.room u hu ha0
    · intro x _ hx
      refine ⟨by rw [S.memTree]; exact hx, ht x ?_, by rw [hf, R.frozen]⟩
      rw [hx]; simpa using hu
    · intro x _ hx
      rw [S.memTree] at hx
      refine ⟨hx, ht x ?_, by rw [hf, R.frozen]⟩
      rw [hx]; simpa using hu
  grow := R.grow.trans S.grow
  mine x hx h0 := by
    rw [S.memTree]; exact R.mine x (by rw [← S.alive]; exact hx) h0
  keep := R.keep
  pre := R.pre
  plain := hp
  hot := hh
  frozen := hf
  trees := h1.trans R.trees
  grantTok := h2.trans R.grantTok
  prohTok := h3.trans R.prohTok
  psT x hx := by rw [S.memTree]; exact p1 x hx
  csT x hx := by rw [S.memTree]; exact p2 x hx

/-- `HotNode::parent`. -/
theorem parent (R : Run w0 ch0 w ch r T ps cs) (hc : Fits w0 T cs.length) (hm : c ∈ cs)
    (hp : c ∈ ch p) :
    ∃ w', w.exec (.nav .hot .parent c) = .ok (w', .node (some p)) ∧ Still w.heap w'.heap ∧
      Run w0 ch0 w' ch r T ps (p :: cs) := by
  have I := R.inv
  have hk := R.held_of_cs hm
  have ha := I.held_alive hk
  have hpa := I.wf.alive_parent hp
  have hpT : w.heap.memTree p = some T := by
    rw [← I.wf.tree.child c p ha (I.wf.parent_of_mem hp)]; exact R.csT c hm
  have hta := I.wf.tree_alive hpa hpT
  obtain ⟨h', e, I', S⟩ := I.wrap hpa hpT (R.lockable hta hc)
  have hn : w.heap.navTo c .parent = .ok (some p) := by
    simp only [Heap.navTo, (I.wf.coherent.parent p c ha).2 hp]
  have ex : w.exec (.nav .hot .parent c) = .ok (({ w with heap := h' }).give .hot p, .node (some p)) := by
    simp only [World.exec, bind, Except.bind, hn, e]; rfl
  refine ⟨_, ex, S, ?_⟩
  refine R.still hc I' S ex hk (fun _ _ => trivial) ?_ ?_ ?_ rfl rfl rfl ?_ R.psT ?_
  · intro x; simp [R.plain]
  · intro x
    simp only [give_held, true_and, List.count_cons, beq_iff_eq]
    have := R.hot x
    by_cases e : x = p
    · subst e; simp; omega
    · have e' : ¬ p = x := fun h => e h.symm
      simp [e, e']; exact this
  · intro x; simp [R.frozen]
  · intro x hx
    have : x ≠ p := by rintro rfl; exact hx hpT
    simp [this]
  · intro x hx
    simp only [List.mem_cons] at hx
    rcases hx with rfl | hx
    · exact hpT
    · exact R.csT x hx

/-- `HotNode::parent` of a root. -/
theorem parent_none (R : Run w0 ch0 w ch r T ps cs) (hm : c ∈ cs) (hp : ∀ p, c ∉ ch p) :
    w.exec (.nav .hot .parent c) = .ok (w, .node none) := by
  have I := R.inv
  have ha := I.held_alive (R.held_of_cs hm)
  have hn : w.heap.navTo c .parent = .ok none := by
    simp only [Heap.navTo]
    cases e : w.heap.parentLink c with
    | none => rfl
    | some p => exact absurd ((I.wf.coherent.parent p c ha).1 e) (hp p)
  simp only [World.exec, bind, Except.bind, hn]; rfl

/-- Dropping one of the hot handles while something else is held. -/
theorem dropHot (R : Run w0 ch0 w ch r T ps cs) (hc : Fits w0 T cs.length) (hm : c ∈ cs)
    (ho : ps ≠ [] ∨ 1 < cs.length) :
    ∃ w', w.exec (.drop .hot c) = .ok (w', .unit) ∧ Still w.heap w'.heap ∧
      Run w0 ch0 w' ch r T ps (cs.erase c) := by
  have I := R.inv
  have hk := R.held_of_cs hm
  have hT := R.csT c hm
  have hkeep : 1 < w.held .plain c + w.held .hot c + w.held .frozen c ∨
      ∃ k' x, x ≠ c ∧ 0 < w.held k' x ∧ w.heap.memTree x = some T := by
    rcases ho with ho | ho
    · obtain ⟨q, hq⟩ := List.exists_mem_of_ne_nil _ ho
      have hq' := R.held_of_ps hq
      by_cases e : q = c
      · subst e; left; omega
      · exact .inr ⟨.plain, q, e, hq', R.psT q hq⟩
    · by_cases e : ∃ q ∈ cs, q ≠ c
      · obtain ⟨q, hq, e⟩ := e
        exact .inr ⟨.hot, q, e, R.held_of_cs hq, R.csT q hq⟩
      · left
        have hall : ∀ q ∈ cs, c = q := by
          intro q hq
          by_cases e' : c = q
          · exact e'
          · exact absurd ⟨q, hq, fun h => e' h.symm⟩ e
        have := List.count_eq_length.2 hall
        have := R.hot c
        omega
  obtain ⟨h', e, I', S⟩ := I.dropHandle_keep hk hT hkeep
  have ex : w.exec (.drop .hot c) = .ok (({ w with heap := h' }).take .hot c, .unit) := by
    simp only [World.exec, bind, Except.bind, e]; rfl
  refine ⟨_, ex, S, ?_⟩
  refine R.still hc I' S ex hk (fun _ _ => trivial) ?_ ?_ ?_ rfl rfl rfl ?_ R.psT ?_
  · intro x; simp [R.plain]
  · intro x
    simp only [take_held, true_and]
    have := R.hot x
    by_cases e : x = c
    · subst e
      have := List.count_pos_iff.2 hm
      simp only [if_true, List.count_erase_self]; omega
    · simp only [e, if_false]
      rw [List.count_erase_of_ne e]; exact this
  · intro x; simp [R.frozen]
  · intro x hx
    have : x ≠ c := by rintro rfl; exact hx hT
    simp [this]
  · intro x hx; exact R.csT x (List.mem_of_mem_erase hx)

/-- Dropping one of the plain handles while something else is held. -/
theorem dropPlain (R : Run w0 ch0 w ch r T ps cs) (hc : Fits w0 T cs.length) (hm : c ∈ ps)
    (ho : cs ≠ [] ∨ 1 < ps.length) :
    ∃ w', w.exec (.drop .plain c) = .ok (w', .unit) ∧ Still w.heap w'.heap ∧
      Run w0 ch0 w' ch r T (ps.erase c) cs := by
  have I := R.inv
  have hk := R.held_of_ps hm
  have hT := R.psT c hm
  have hkeep : 1 < w.held .plain c + w.held .hot c + w.held .frozen c ∨
      ∃ k' x, x ≠ c ∧ 0 < w.held k' x ∧ w.heap.memTree x = some T := by
    rcases ho with ho | ho
    · obtain ⟨q, hq⟩ := List.exists_mem_of_ne_nil _ ho
      have hq' := R.held_of_cs hq
      by_cases e : q = c
      · subst e; left; omega
      · exact .inr ⟨.hot, q, e, hq', R.csT q hq⟩
    · by_cases e : ∃ q ∈ ps, q ≠ c
      · obtain ⟨q, hq, e⟩ := e
        exact .inr ⟨.plain, q, e, R.held_of_ps hq, R.psT q hq⟩
      · left
        have hall : ∀ q ∈ ps, c = q := by
          intro q hq
          by_cases e' : c = q
          · exact e'
          · exact absurd ⟨q, hq, fun h => e' h.symm⟩ e
        have := List.count_eq_length.2 hall
        have := R.plain c
        omega
  obtain ⟨h', e, I', S⟩ := I.dropHandle_keep hk hT hkeep
  have ex : w.exec (.drop .plain c) = .ok (({ w with heap := h' }).take .plain c, .unit) := by
    simp only [World.exec, bind, Except.bind, e]; rfl
  refine ⟨_, ex, S, ?_⟩
  refine R.still hc I' S ex hk (fun _ _ => trivial) ?_ ?_ ?_ rfl rfl rfl ?_ ?_ R.csT
  · intro x
    simp only [take_held, true_and]
    have := R.plain x
    by_cases e : x = c
    · subst e
      have := List.count_pos_iff.2 hm
      simp only [if_true, List.count_erase_self]; omega
    · simp only [e, if_false]
      rw [List.count_erase_of_ne e]; exact this
  · intro x; simp [R.hot]
  · intro x; simp [R.frozen]
  · intro x hx; simp
  · intro x hx; exact R.psT x (List.mem_of_mem_erase hx)

/-- `HotNode::plain`. -/
theorem plainOf (R : Run w0 ch0 w ch r T ps cs) (hc : Fits w0 T cs.length) (hm : c ∈ cs) :
    ∃ w', w.exec (.plainOf .hot c) = .ok (w', .unit) ∧ Still w.heap w'.heap ∧
      Run w0 ch0 w' ch r T (c :: ps) cs := by
  have I := R.inv
  have hk := R.held_of_cs hm
  have hT := R.csT c hm
  obtain ⟨h', e, I', S⟩ := I.clonePlain hk
  have ex : w.exec (.plainOf .hot c) = .ok (({ w with heap := h' }).give .plain c, .unit) := by
    simp only [World.exec, bind, Except.bind, e]; rfl
  refine ⟨_, ex, S, ?_⟩
  refine R.still hc I' S ex ⟨by simp, hk⟩ (fun _ _ => trivial) ?_ ?_ ?_ rfl rfl rfl ?_ ?_ R.csT
  · intro x
    simp only [give_held, true_and, List.count_cons, beq_iff_eq]
    have := R.plain x
    by_cases e : x = c
    · subst e; simp; omega
    · have e' : ¬ c = x := fun h => e h.symm
      simp [e, e']; exact this
  · intro x; simp [R.hot]
  · intro x; simp [R.frozen]
  · intro x hx; simp
  · intro x hx
    simp only [List.mem_cons] at hx
    rcases hx with rfl | hx
    · exact hT
    · exact R.psT x hx

/-- Creation of a node as the last child. -/
theorem create {d : α} (R : Run w0 ch0 w ch r T ps cs) (hc : Fits w0 T cs.length) (hm : c ∈ cs)
    (hnew : c = r ∨ w0.heap.alive c = false) :
    ∃ w', w.exec (.create .hot c d .lastChild) = .ok (w', .node (some w.heap.nNode)) ∧
      Fresh w w' d T ∧
      Run w0 ch0 w' (upd ch c (ch c ++ [w.heap.nNode])) r T ps (w.heap.nNode :: cs) := by
  have I := R.inv
  have hk := R.held_of_cs hm
  have ha := I.held_alive hk
  have hT := R.csT c hm
  have hta := I.wf.tree_alive ha hT
  obtain ⟨w', e, I', F⟩ := I.exec_create (d := d) (as := .lastChild) hk (.last c) hT
    (R.lockable hta hc).2
  have hfresh := I.wf.toFShape.fresh_not_alive
  have h0 : w0.heap.alive w.heap.nNode = false := by
    cases hx : w0.heap.alive w.heap.nNode with
    | false => rfl
    | true => rw [R.grow.alive _ hx] at hfresh; cases hfresh
  refine ⟨w', e, F, ?_⟩
  constructor
  · exact R.base
  · exact I'
  · exact .step (op := .create .hot c d .lastChild) R.reach ⟨hk, fun _ _ => trivial, R.isRoom hc, e⟩
  · intro u hu ha'
    have ha0 : w.heap.treeAlive u = true := by rw [← F.treeAlive u hu]; exact ha'
    rw [I.grants_same I' ha0 ha' (by rw [F.grantTok]) (by rw [F.prohTok])]
    · exact R.room u hu ha0
    · intro x hx hx'
      have hxn : x ≠ w.heap.nNode := by rintro rfl; rw [hfresh] at hx; cases hx
      refine ⟨by rw [F.memOld x hxn]; exact hx', ?_, ?_⟩ <;> rw [F.held] <;> simp [hxn]
    · intro x hx hx'
      have hxn : x ≠ w.heap.nNode := by
        rintro rfl; rw [F.memTree] at hx'; exact hu (by simpa using hx'.symm)
      rw [F.memOld x hxn] at hx'
      refine ⟨hx', ?_, ?_⟩ <;> rw [F.held] <;> simp [hxn]
  · exact R.grow.trans F.grow
  · intro x hx hx0
    by_cases hxn : x = w.heap.nNode
    · rw [hxn]; exact F.memTree
    · rw [F.memOld x hxn]; rw [F.alive x hxn] at hx; exact R.mine x hx hx0
  · intro x hx hxr
    have hxc : x ≠ c := by
      rintro rfl
      rcases hnew with h | h
      · exact hxr h
      · rw [hx] at h; cases h
    rw [upd_ne _ _ hxc]; exact R.keep x hx hxr
  · by_cases hxc : r = c
    · subst hxc; rw [upd_same]; exact R.pre.trans (List.prefix_append _ _)
    · rw [upd_ne _ _ hxc]; exact R.pre
  · intro x; rw [F.held]; simp [R.plain]
  · intro x
    rw [F.held]
    have := R.hot x
    simp only [true_and, List.count_cons, beq_iff_eq]
    by_cases e : x = w.heap.nNode
    · subst e; simp; omega
    · have e' : ¬ w.heap.nNode = x := fun h => e h.symm
      simp [e, e']; exact this
  · intro x; rw [F.held]; simp [R.frozen]
  · rw [F.trees, R.trees]
  · rw [F.grantTok, R.grantTok]
  · rw [F.prohTok, R.prohTok]
  · intro x hx
    rw [F.grow.memTree x (I.held_alive (R.held_of_ps hx))]; exact R.psT x hx
  · intro x hx
    simp only [List.mem_cons] at hx
    rcases hx with rfl | hx
    · exact F.memTree
    · rw [F.grow.memTree x (I.held_alive (R.held_of_cs hx))]; exact R.csT x hx

/-- The first node. -/
theorem start {d : α} (I : Inv w ch) (hr : Reach w) (hroom : Room w.heap) :
    ∃ w', w.exec (.newTree true d) = .ok (w', .node (some w.heap.nNode)) ∧
      Fresh w w' d w.heap.nTree ∧
      Run w ch w' ch w.heap.nNode w.heap.nTree [] [w.heap.nNode] := by
  obtain ⟨w', e, I', F, hnt⟩ := I.exec_newHot (d := d)
  have hfresh := I.wf.toFShape.fresh_not_alive
  obtain ⟨z1, z2, z3⟩ := I.fresh_tok (t := w.heap.nTree) (Nat.le_refl _)
  have hnot : ∀ x, w.heap.alive x = true → w.heap.memTree x ≠ some w.heap.nTree := by
    intro x hx hm
    have := I.wf.tree_alive hx hm
    rw [I.wf.tree.fresh_tree] at this; cases this
  refine ⟨w', e, F, ?_⟩
  constructor
  · constructor
    · intro k x hx; exact I.held_alive hx
    · exact I.wf.bound
    · intro x hx hm; exact absurd hm (hnot x hx)
    · exact z2
    · refine ⟨[], fun x hx hm => absurd hm (hnot x hx), ?_⟩
      rw [z1]; decide
  · exact I'
  · exact .step (op := .newTree true d) hr ⟨trivial, fun _ _ => trivial, hroom, e⟩
  · intro u hu ha'
    have ha0 : w.heap.treeAlive u = true := by rw [← F.treeAlive u hu]; exact ha'
    rw [I.grants_same I' ha0 ha' (by rw [F.grantTok]) (by rw [F.prohTok])]
    · exact hroom u ha0
    · intro x hx hx'
      have hxn : x ≠ w.heap.nNode := by rintro rfl; rw [hfresh] at hx; cases hx
      refine ⟨by rw [F.memOld x hxn]; exact hx', ?_, ?_⟩ <;> rw [F.held] <;> simp [hxn]
    · intro x hx hx'
      have hxn : x ≠ w.heap.nNode := by
        rintro rfl; rw [F.memTree] at hx'; exact hu (by simpa using hx'.symm)
      rw [F.memOld x hxn] at hx'
      refine ⟨hx', ?_, ?_⟩ <;> rw [F.held] <;> simp [hxn]
  · exact F.grow
  · intro x hx hx0
    by_cases hxn : x = w.heap.nNode
    · rw [hxn]; exact F.memTree
    · rw [F.alive x hxn, hx0] at hx; cases hx
  · intro x _ _; rfl
  · exact List.prefix_refl _
  · intro x; rw [F.held]; simp
  · intro x
    rw [F.held]
    simp only [true_and, List.count_cons, beq_iff_eq, List.count_nil]
    by_cases e : x = w.heap.nNode
    · subst e; simp
    · have e' : ¬ w.heap.nNode = x := fun h => e h.symm
      simp [e, e']
  · intro x; rw [F.held]; simp
  · exact F.trees
  · exact F.grantTok
  · exact F.prohTok
  · intro x hx; cases hx
  · intro x hx; simp only [List.mem_singleton] at hx; subst hx; exact F.memTree

/-- Growing a tree from a hot handle to `r` that the program gives away. -/
theorem ofHot (I : Inv w ch) (hr : Reach w) (hroom : Room w.heap) (hk : 0 < w.held .hot r)
    (ht : w.heap.memTree r = some T) (hsmall : w.heap.grants T + 4 ≤ 2 ^ 62) :
    Run (w.take .hot r) ch w ch r T [] [r] := by
  have ha := I.held_alive hk
  have hta := I.wf.tree_alive ha ht
  have hg := I.hot_grants hk ht
  obtain ⟨L, a1, a2, a3, -⟩ := I.locks T hta
  have hG : GrantMode w T L := by
    rcases a3 with h | ⟨c1, c2, c3⟩
    · exact h
    · have := c2 r ht; omega
  obtain ⟨g1, g2, g3⟩ := hG
  constructor
  · constructor
    · intro k x hx
      simp only [take_held] at hx
      split at hx
      · rename_i e; rw [e.2]; exact ha
      · exact I.held_alive hx
    · exact I.wf.bound
    · intro x hx hm; simp; exact g2 x hm
    · exact g1
    · refine ⟨L, ?_, ?_⟩
      · intro x hx hm hh
        refine (a2 x).2 ⟨hm, ?_⟩
        simp only [take_held] at hh
        split at hh <;> omega
      · simp only [take_grantTok]; omega
  · exact I
  · exact hr
  · intro u _ hu; exact hroom u hu
  · exact Grow.refl _
  · intro x hx hx0; simp only [take_heap, hx] at hx0; cases hx0
  · intro x _ _; rfl
  · exact List.prefix_refl _
  · intro x; simp
  · intro x
    simp only [take_held, true_and, List.count_cons, beq_iff_eq, List.count_nil]
    by_cases e : x = r
    · subst e; simp; omega
    · have e' : ¬ r = x := fun h => e h.symm
      simp [e, e']
  · intro x; simp
  · rfl
  · rfl
  · rfl
  · intro x hx; cases hx
  · intro x hx; simp only [List.mem_singleton] at hx; subst hx; exact ht

end Run
end Dendron
