import Verif.Proofs.CloneFirst
import Verif.Props.Clone

/-!
# C35, C53: copying of a subtree to a destination

The number `f` bounds the number of events the loop of the method may read.  `p`, `l1`, `l2` are the
place the destination means: between `l1` and `l2` among the children of `p`.
-/

set_option autoImplicit false

namespace Dendron
open RTree
variable {α : Type} {w w' : World α} {ch : NodeId → List NodeId} {n p : NodeId} {t : RTree NodeId}
  {u : RTree α} {T : TreeId} {dest : InsertAs NodeId} {l1 l2 : List NodeId} {f : Nat}

/-- C35, except for destinations inside the source (`C35_inside_endless`, `C35_inside_first`): if no
data in the subtree of `n` is mutably borrowed, `try_clone_insert_subtree` puts a copy of it, made of
new nodes of the destination tree, to the requested place and returns a hot handle to its root.  The
other nodes are as before. -/
theorem C35_partial (hr : Reach w) (hroom : Room w.heap) (W : WF w.heap ch)
    (hk : 0 < w.held .hot dest.anchor) (hT : w.heap.nodeTree dest.anchor = .ok T)
    (hs0 : w.heap.grants T + 5 ≤ 2 ^ 62) (hd : DestSplit ch dest p l1 l2)
    (ha : w.heap.alive n = true) (ht : SubtreeAt ch n t) (hu : HasData w.heap t u)
    (hnp : ¬ Desc ch n p) (hs : 2 * t.size ≤ usizeMax) (hf : 2 * t.size < f)
    (hb : ∀ x ∈ t.nodes, w.heap.mutB x = false) :
    ∃ w' ch' m, Builder.tryCloneInsert f w n dest = .ok (w', .ok m) ∧ Reach w' ∧ WF w'.heap ch' ∧
      ch' p = l1 ++ m :: l2 ∧ NewSubtree w w' ch' T m u ∧ GotHot w w' m ∧
      Untouched w w' ch ch' (some p) := by
  obtain ⟨ch1, I⟩ := hr.inv
  obtain rfl := I.wf.toFShape.unique W.toFShape
  have hT' := (W.tree.treeCore_iff (I.held_alive hk)).1 hT
  obtain ⟨w', ch', e, h1, h2, h3, h4, h5, h6⟩ :=
    Builder.cloneInsert_ok hr hroom I hk hT' hs0 hd ha ht hu hnp hs hf hb
  exact ⟨w', ch', _, e, h1, h2, h4, h5, h6, h3⟩

/-- C35: then `try_eq` of the source and the copy is `Ok(true)`. -/
theorem C35_equal_partial {m : NodeId} (eq : α → α → Bool) (hq : ∀ a, eq a a = true) (hr : Reach w)
    (hroom : Room w.heap) (W : WF w.heap ch)
    (hk : 0 < w.held .hot dest.anchor) (hT : w.heap.nodeTree dest.anchor = .ok T)
    (hs0 : w.heap.grants T + 5 ≤ 2 ^ 62) (hd : DestSplit ch dest p l1 l2)
    (ha : w.heap.alive n = true) (ht : SubtreeAt ch n t)
    (hnp : ¬ Desc ch n p) (hs : 2 * t.size ≤ usizeMax) (hf : 2 * t.size < f)
    (hb : ∀ x ∈ t.nodes, w.heap.mutB x = false)
    (hc : Builder.tryCloneInsert f w n dest = .ok (w', .ok m)) :
    m ≠ n ∧ w'.heap.tryEq eq n m = .ok (.ok true) := by
  obtain ⟨u, hu, -⟩ := C29_data_exists_unique W.toFShape ha ht
  obtain ⟨w1, ch1, m1, e, -, W1, -, ⟨s, g1, g2, g3⟩, -, U⟩ :=
    C35_partial hr hroom W hk hT hs0 hd ha ht hu hnp hs hf hb
  rw [e] at hc
  simp only [Except.ok.injEq, Prod.mk.injEq] at hc
  obtain ⟨rfl, rfl⟩ := hc
  have hm : m1 ∈ s.nodes := (g1.mem_nodes_iff m1).2 (.refl _)
  have hal : ∀ x ∈ t.nodes, w.heap.alive x = true := fun x hx =>
    W.desc_alive ha ((ht.mem_nodes_iff x).1 hx)
  have ht1 : SubtreeAt ch1 n t := by
    refine ⟨ht.1, ht.2.congr (fun x hx => U.children x (hal x hx) ?_)⟩
    intro h
    have h : x = p := by simpa using h
    exact hnp (h ▸ (ht.mem_nodes_iff x).1 hx)
  have hd1 : HasData w1.heap t u := by
    have : t.map w1.heap.data = t.map w.heap.data := map_congr_nodes t (fun x hx => U.data x (hal x hx))
    rw [HasData, this]; exact hu
  obtain ⟨b, hb1, hb2⟩ := C36_decides eq W1.toFShape (U.alive n ha) (g3 m1 hm).2.1 ht1 g1 hd1 g2 (.inr hq)
    (fun x hx => by rw [U.borrowed x (hal x hx)]; exact hb x hx) (fun x hx => (g3 x hx).2.2.1)
  obtain rfl : b = true := hb2.2 (Equal.refl hq u)
  refine ⟨?_, hb1⟩
  rintro rfl
  have := (g3 m1 hm).1
  rw [ha] at this; cases this

/-- C35 does not hold for any destination inside the source, that is, if the new node would become a
descendant of `n`.  Unless it would become the first child of `n`, the method never returns, whatever the
bound of the number of events is. -/
theorem C35_inside_endless (hr : Reach w) (hroom : Room w.heap) (W : WF w.heap ch)
    (hk : 0 < w.held .hot dest.anchor) (hT : w.heap.nodeTree dest.anchor = .ok T)
    (hs0 : w.heap.grants T + 5 ≤ 2 ^ 62) (hd : DestSplit ch dest p l1 l2)
    (ha : w.heap.alive n = true) (ht : SubtreeAt ch n t)
    (hin : Desc ch n p) (hfirst : ¬ (p = n ∧ l1 = [])) (hs : 2 * t.size ≤ usizeMax)
    (hb : ∀ x ∈ t.nodes, w.heap.mutB x = false) (f : Nat) :
    Builder.tryCloneInsert f w n dest = .error .diverge := by
  obtain ⟨ch1, I⟩ := hr.inv
  obtain rfl := I.wf.toFShape.unique W.toFShape
  have hT' := (W.tree.treeCore_iff (I.held_alive hk)).1 hT
  exact Builder.cloneInsert_endless hr hroom I hk hT' hs0 hd ha ht hin hfirst hs
    (hb n ((ht.mem_nodes_iff n).2 (.refl _))) (fun _ _ _ _ _ _ x _ hx => hb x hx)

/-- C35 does not hold for any destination inside the source: if the new node would become the first child
of `n` itself, the method returns, but the new subtree is not a copy: its root has an additional first
child, a leaf with the data of `n`. -/
theorem C35_inside_first {cs : List (RTree NodeId)} {us : List (RTree α)} {d : α}
    (hr : Reach w) (hroom : Room w.heap) (W : WF w.heap ch)
    (hk : 0 < w.held .hot dest.anchor) (hT : w.heap.nodeTree dest.anchor = .ok T)
    (hs0 : w.heap.grants T + 5 ≤ 2 ^ 62) (hd : DestSplit ch dest n [] l2)
    (ha : w.heap.alive n = true) (ht : SubtreeAt ch n (.node n cs))
    (hu : HasData w.heap (.node n cs) (.node d us))
    (hs : 2 * (RTree.node n cs).size ≤ usizeMax) (hf : 2 * (RTree.node n cs).size + 1 < f)
    (hb : ∀ x ∈ (RTree.node n cs).nodes, w.heap.mutB x = false) :
    ∃ w' ch' m, Builder.tryCloneInsert f w n dest = .ok (w', .ok m) ∧ Reach w' ∧ WF w'.heap ch' ∧
      ch' n = m :: l2 ∧ NewSubtree w w' ch' T m (.node d (.node d [] :: us)) ∧ GotHot w w' m ∧
      Untouched w w' ch ch' (some n) := by
  obtain ⟨ch1, I⟩ := hr.inv
  obtain rfl := I.wf.toFShape.unique W.toFShape
  have hT' := (W.tree.treeCore_iff (I.held_alive hk)).1 hT
  obtain ⟨w', ch', e, h1, h2, h3, h4, h5, h6⟩ :=
    (Builder.cloneInsert_first hr hroom I hk hT' hs0 hd ha ht hu hs hf
      (hb n ((ht.mem_nodes_iff n).2 (.refl _)))).1 hb
  exact ⟨w', ch', _, e, h1, h2, h4, h5, h6, h3⟩

/-- The hypotheses are met: node 1 of the demo program has the only child 3, which is a leaf.  The place
before 3 is the first one, the places below 3 and after 3 are not. -/
example : ∃ ch, Reach (DemoWorld.at_ 8) ∧ Room (DemoWorld.at_ 8).heap ∧ WF (DemoWorld.at_ 8).heap ch ∧
    0 < (DemoWorld.at_ 8).held .hot 1 ∧
    (DemoWorld.at_ 8).heap.nodeTree 1 = .ok 0 ∧ (DemoWorld.at_ 8).heap.grants 0 + 5 ≤ 2 ^ 62 ∧
    SubtreeAt ch 1 (.node 1 [.node 3 []]) ∧
    HasData (DemoWorld.at_ 8).heap (.node 1 [.node 3 []]) (.node 11 [.node 13 []]) ∧
    DestSplit ch (.firstChildOf 1) 1 [] [3] ∧ DestSplit ch (.lastChildOf 1) 1 [3] [] ∧
    Desc ch 1 1 ∧ ¬ ((1 : NodeId) = 1 ∧ [(3 : NodeId)] = []) ∧
    (∀ x ∈ (RTree.node 1 [.node 3 []]).nodes, (DemoWorld.at_ 8).heap.mutB x = false) ∧
    2 * (RTree.node 1 [RTree.node 3 []]).size ≤ usizeMax := by
  obtain ⟨ch, I⟩ := DemoWorld.reach8.inv
  obtain ⟨h1, h3, -⟩ := DemoWorld.children8 I.wf.toFShape
  have ht : SubtreeAt ch 1 (.node 1 [.node 3 []]) := by simp [SubtreeAt, label, Hier, HierL, h1, h3]
  refine ⟨ch, DemoWorld.reach8, DemoWorld.room 8 (by decide), I.wf, by decide, rfl, by decide, ht, rfl,
    ?_, ?_, .refl _, by simp, by decide, by decide⟩
  · have := DestSplit.first (ch := ch) 1
    rw [h1] at this; exact this
  · have := DestSplit.last (ch := ch) 1
    rw [h1] at this; exact this

/-- A special case of `C35_inside_endless`: a node with one (childless) child cannot be copied to the end of its
own children.  The method does not return, whatever the bound of the number of events is. -/
theorem C35_violated_endless {c : NodeId} (hr : Reach w) (hroom : Room w.heap) (W : WF w.heap ch)
    (hk : 0 < w.held .hot n) (hT : w.heap.nodeTree n = .ok T) (hs0 : w.heap.grants T + 5 ≤ 2 ^ 62)
    (hn : ch n = [c]) (hc : ch c = []) (b1 : w.heap.mutB n = false) (b2 : w.heap.mutB c = false)
    (f : Nat) : Builder.tryCloneInsert f w n (.lastChildOf n) = .error .diverge := by
  obtain ⟨ch1, I⟩ := hr.inv
  obtain rfl := I.wf.toFShape.unique W.toFShape
  exact Builder.cloneInsert_forever hr hroom I hk ((W.tree.treeCore_iff (I.held_alive hk)).1 hT) hs0 hn hc b1 b2 f

/-- Node 1 of the demo program is such a node: its only child is 3. -/
theorem C35_violated_endless_demo (f : Nat) :
    Builder.tryCloneInsert f (DemoWorld.at_ 8) 1 (.lastChildOf 1) = .error .diverge := by
  obtain ⟨ch, I⟩ := DemoWorld.reach8.inv
  obtain ⟨h1, h3, -⟩ := DemoWorld.children8 I.wf.toFShape
  exact C35_violated_endless (T := 0) DemoWorld.reach8 (DemoWorld.room 8 (by decide)) I.wf (by decide) rfl
    (by decide) h1 h3 rfl rfl f

/-- C35 does not hold in general: node 4 of the demo program has no child, but its copy, inserted as its
last child, has one. -/
theorem C35_violated_copy : ∃ (w' : World Nat) (m : NodeId), Reach (DemoWorld.at_ 8) ∧
    (DemoWorld.at_ 8).heap.navTo 4 .firstChild = .ok none ∧
    Builder.tryCloneInsert 9 (DemoWorld.at_ 8) 4 (.lastChildOf 4) = .ok (w', .ok m) ∧
    w'.heap.navTo m .firstChild = .ok (some 6) ∧ w'.heap.data 6 = (DemoWorld.at_ 8).heap.data 4 :=
  ⟨_, 5, DemoWorld.reach8, rfl, rfl, rfl, rfl⟩

/-- C53 if the data of the source node itself is mutably borrowed: the call fails and nothing has
changed. -/
theorem C53_root_borrowed_partial (f : Nat) (hb : w.heap.mutB n = true) :
    Builder.tryCloneInsert f w n dest = .ok (w, .error .borrowNodeData) := by
  simp only [Builder.tryCloneInsert, Heap.borrowData, hb, if_true]

/-- C53 if there is no such place (a sibling of a root is requested): the call fails and everything is
as before. -/
theorem C53_no_place_partial (f : Nat) (hr : Reach w) (hroom : Room w.heap) (W : WF w.heap ch)
    (hk : 0 < w.held .hot dest.anchor) (hsib : dest.isSibling = true) (hroot : ∀ q, dest.anchor ∉ ch q)
    (ha : w.heap.alive n = true) (hb : w.heap.mutB n = false) :
    ∃ w', Builder.tryCloneInsert f w n dest = .ok (w', .error .siblingsWithoutParent) ∧ Reach w' ∧
      WF w'.heap ch ∧ Undone w w' ch ch := by
  obtain ⟨ch1, I⟩ := hr.inv
  obtain rfl := I.wf.toFShape.unique W.toFShape
  have hal := I.held_alive hk
  obtain ⟨T, hT, hta⟩ := W.tree.live _ hal
  obtain ⟨d, hdn⟩ := Option.isSome_iff_exists.1 (show (w.heap.data n).isSome from ha)
  obtain ⟨h', e, S⟩ := tryCreate_root (as := dest.toAdoptAs) W hal hT hroot
    (by cases dest <;> simp [InsertAs.isSibling, InsertAs.toAdoptAs] at hsib ⊢) d
  obtain ⟨I1, K⟩ := I.sameLive S
  have ex : w.exec (.create .hot dest.anchor d dest.toAdoptAs) =
      .ok ({ w with heap := h' }, .err .siblingsWithoutParent) := by
    simp only [World.exec, World.checkAuth, bind, Except.bind, nodeCreate_eq I.wf hal hT, e]
    rfl
  have hal' : ∀ x, h'.alive x = w.heap.alive x := fun x => by simp [Heap.alive, S.data]
  refine ⟨{ w with heap := h' }, ?_, .step (op := .create .hot dest.anchor d dest.toAdoptAs) hr
    ⟨hk, fun _ _ => trivial, hroom, ex⟩, I1.wf, ⟨fun x hx => ?_, fun x hx => ?_, fun x hx => ?_, fun x hx => ?_,
      fun x hx _ => rfl, rfl, rfl, rfl⟩, fun x hx => ?_, fun k x => rfl⟩
  · simp only [Builder.tryCloneInsert, Heap.borrowData, hb, hdn, Bool.false_eq_true, if_false, bind,
      Except.bind, pure, Except.pure, ex]
  · show h'.alive x = true
    rw [hal']; exact hx
  · show h'.data x = _
    rw [S.data]
  · exact S.mutB x hx
  · obtain ⟨t, h1, -⟩ := W.tree.live x hx
    rw [show w.heap.nodeTree x = .ok t from (W.tree.treeCore_iff hx).2 h1]
    exact (I1.wf.tree.treeCore_iff (by show h'.alive x = true; rw [hal']; exact hx)).2
      (K.stay x t hx h1 id (by rw [hal']; exact hx)).1
  · rw [← hal']; exact hx

/-- C53 in the remaining case: if the data of the source node is not mutably borrowed, but that of
a descendant is, the call fails, and a new node, with an incomplete copy below it, stays at the requested
place. -/
theorem C53_outcome (hr : Reach w) (hroom : Room w.heap) (W : WF w.heap ch)
    (hk : 0 < w.held .hot dest.anchor) (hT : w.heap.nodeTree dest.anchor = .ok T)
    (hs0 : w.heap.grants T + 5 ≤ 2 ^ 62) (hd : DestSplit ch dest p l1 l2)
    (ha : w.heap.alive n = true) (ht : SubtreeAt ch n t)
    (hnp : ¬ Desc ch n p) (hs : 2 * t.size ≤ usizeMax) (hf : 2 * t.size < f)
    (hn : w.heap.mutB n = false) (hb : ∃ x ∈ t.nodes, w.heap.mutB x = true) :
    ∃ w' ch' m v, Builder.tryCloneInsert f w n dest = .ok (w', .error .borrowNodeData) ∧ Reach w' ∧
      WF w'.heap ch' ∧ ch' p = l1 ++ m :: l2 ∧ NewSubtree w w' ch' T m v ∧
      (∀ k x, w'.held k x = w.held k x) ∧ Untouched w w' ch ch' (some p) := by
  obtain ⟨ch1, I⟩ := hr.inv
  obtain rfl := I.wf.toFShape.unique W.toFShape
  have hT' := (W.tree.treeCore_iff (I.held_alive hk)).1 hT
  obtain ⟨w', ch', v, e, h1, h2, h3, h4, h5, h6⟩ :=
    Builder.cloneInsert_fail hr hroom I hk hT' hs0 hd ha ht hnp hs hf hn hb
  exact ⟨w', ch', _, v, e, h1, h2, h4, h5, h6, h3⟩

/-- C53 for the first place among the children of the source itself: the same. -/
theorem C53_inside_first (hr : Reach w) (hroom : Room w.heap) (W : WF w.heap ch)
    (hk : 0 < w.held .hot dest.anchor) (hT : w.heap.nodeTree dest.anchor = .ok T)
    (hs0 : w.heap.grants T + 5 ≤ 2 ^ 62) (hd : DestSplit ch dest n [] l2)
    (ha : w.heap.alive n = true) (ht : SubtreeAt ch n t)
    (hs : 2 * t.size ≤ usizeMax) (hf : 2 * t.size + 1 < f)
    (hn : w.heap.mutB n = false) (hb : ∃ x ∈ t.nodes, w.heap.mutB x = true) :
    ∃ w' ch' m v, Builder.tryCloneInsert f w n dest = .ok (w', .error .borrowNodeData) ∧ Reach w' ∧
      WF w'.heap ch' ∧ ch' n = m :: l2 ∧ NewSubtree w w' ch' T m v ∧
      (∀ k x, w'.held k x = w.held k x) ∧ Untouched w w' ch ch' (some n) := by
  obtain ⟨ch1, I⟩ := hr.inv
  obtain rfl := I.wf.toFShape.unique W.toFShape
  have hT' := (W.tree.treeCore_iff (I.held_alive hk)).1 hT
  obtain ⟨u, hu, -⟩ := C29_data_exists_unique W.toFShape ha ht
  cases t with
  | node x cs =>
    obtain rfl : x = n := ht.1
    cases u with
    | node d us =>
      obtain ⟨w', ch', v, e, h1, h2, h3, h4, h5, h6⟩ :=
        (Builder.cloneInsert_first hr hroom I hk hT' hs0 hd ha ht hu hs hf hn).2 hb
      exact ⟨w', ch', _, v, e, h1, h2, h4, h5, h6, h3⟩

/-- C53 for the other places inside the source.  `t'` is the subtree of `n` with the new node at the place,
`pre` are the nodes before the new node, in the order of the tree.  If the data of one of them is
mutably borrowed (but not that of `n`), the call fails and an incomplete copy stays. -/
theorem C53_inside_before {t' : RTree NodeId} {pre post : List NodeId}
    (hr : Reach w) (hroom : Room w.heap) (W : WF w.heap ch)
    (hk : 0 < w.held .hot dest.anchor) (hT : w.heap.nodeTree dest.anchor = .ok T)
    (hs0 : w.heap.grants T + 5 ≤ 2 ^ 62) (hd : DestSplit ch dest p l1 l2)
    (ha : w.heap.alive n = true) (ht : SubtreeAt ch n t)
    (hin : Desc ch n p) (hfirst : ¬ (p = n ∧ l1 = [])) (hs : 2 * t.size ≤ usizeMax) (hf : 2 * t.size < f)
    (ht' : SubtreeAt (upd ch p (l1 ++ w.heap.nNode :: l2)) n t')
    (hpre : t'.nodes = pre ++ w.heap.nNode :: post)
    (hn : w.heap.mutB n = false) (hb : ∃ x ∈ pre, w.heap.mutB x = true) :
    ∃ w' ch' m v, Builder.tryCloneInsert f w n dest = .ok (w', .error .borrowNodeData) ∧ Reach w' ∧
      WF w'.heap ch' ∧ ch' p = l1 ++ m :: l2 ∧ NewSubtree w w' ch' T m v ∧
      (∀ k x, w'.held k x = w.held k x) ∧ Untouched w w' ch ch' (some p) := by
  obtain ⟨ch1, I⟩ := hr.inv
  obtain rfl := I.wf.toFShape.unique W.toFShape
  have hT' := (W.tree.treeCore_iff (I.held_alive hk)).1 hT
  obtain ⟨w', ch', v, e, h1, h2, h3, h4, h5, h6⟩ :=
    Builder.cloneInsert_caught hr hroom I hk hT' hs0 hd ha ht hin hfirst hs hf ht' hpre hn hb
  exact ⟨w', ch', _, v, e, h1, h2, h4, h5, h6, h3⟩

/-- C53, the last case: if none of them is borrowed, the call does not return, whatever is borrowed
behind the place. -/
theorem C53_inside_endless {t' : RTree NodeId} {pre post : List NodeId}
    (hr : Reach w) (hroom : Room w.heap) (W : WF w.heap ch)
    (hk : 0 < w.held .hot dest.anchor) (hT : w.heap.nodeTree dest.anchor = .ok T)
    (hs0 : w.heap.grants T + 5 ≤ 2 ^ 62) (hd : DestSplit ch dest p l1 l2)
    (ha : w.heap.alive n = true) (ht : SubtreeAt ch n t)
    (hin : Desc ch n p) (hfirst : ¬ (p = n ∧ l1 = [])) (hs : 2 * t.size ≤ usizeMax)
    (ht' : SubtreeAt (upd ch p (l1 ++ w.heap.nNode :: l2)) n t')
    (hpre : t'.nodes = pre ++ w.heap.nNode :: post)
    (hb : ∀ x ∈ pre, w.heap.mutB x = false) (f : Nat) :
    Builder.tryCloneInsert f w n dest = .error .diverge := by
  obtain ⟨ch1, I⟩ := hr.inv
  obtain rfl := I.wf.toFShape.unique W.toFShape
  have hT' := (W.tree.treeCore_iff (I.held_alive hk)).1 hT
  have hmn : n ≠ w.heap.nNode := by
    intro h; rw [h, I.wf.toFShape.fresh_not_alive] at ha; cases ha
  refine Builder.cloneInsert_endless hr hroom I hk hT' hs0 hd ha ht hin hfirst hs (hb n ?_) ?_
  · cases t' with
    | node v cs =>
      obtain rfl : v = n := ht'.1
      cases pre with
      | nil => simp only [nodes, List.nil_append, List.cons.injEq] at hpre; exact absurd hpre.1 hmn
      | cons y l => simp only [nodes, List.cons_append, List.cons.injEq] at hpre; simp [hpre.1]
  · intro t2 pre2 post2 h1 hnd h2 x hx hxt
    obtain rfl := h1.unique ht'
    have := split_unique (h2.symm.trans hpre) (h2 ▸ hnd)
    exact hb x (this ▸ hx)

/-- C53 does not hold: node 1 has a child with borrowed data; the failing call leaves node 5 below
node 4. -/
theorem C53_violated : ∃ w' : World Nat, Reach DemoWorld.busy ∧
    DemoWorld.busy.heap.navTo 4 .firstChild = .ok none ∧
    Builder.tryCloneInsert 9 DemoWorld.busy 1 (.lastChildOf 4) = .ok (w', .error .borrowNodeData) ∧
    w'.heap.navTo 4 .firstChild = .ok (some 5) :=
  ⟨_, DemoWorld.busy_reach, rfl, rfl, rfl⟩

/-- The hypotheses are met: node 1 (with child 3) is copied to the end of the children of node 4. -/
example : ∃ (ch : NodeId → List NodeId) (t : RTree NodeId) (u : RTree Nat),
    Reach (DemoWorld.at_ 8) ∧ Room (DemoWorld.at_ 8).heap ∧ WF (DemoWorld.at_ 8).heap ch ∧
    0 < (DemoWorld.at_ 8).held .hot (InsertAs.lastChildOf 4).anchor ∧
    (DemoWorld.at_ 8).heap.nodeTree 4 = .ok 1 ∧ (DemoWorld.at_ 8).heap.grants 1 + 5 ≤ 2 ^ 62 ∧
    DestSplit ch (.lastChildOf 4) 4 [] [] ∧
    (DemoWorld.at_ 8).heap.alive 1 = true ∧ SubtreeAt ch 1 t ∧ HasData (DemoWorld.at_ 8).heap t u ∧
    ¬ Desc ch 1 4 ∧
    (∀ x ∈ t.nodes, (DemoWorld.at_ 8).heap.mutB x = false) ∧ 2 * t.size ≤ usizeMax ∧ 2 * t.size < 5 := by
  obtain ⟨ch, I⟩ := DemoWorld.reach8.inv
  obtain ⟨h1, h3, h4⟩ := DemoWorld.children8 I.wf.toFShape
  have ht : SubtreeAt ch 1 (.node 1 [.node 3 []]) := by simp [SubtreeAt, label, Hier, HierL, h1, h3]
  refine ⟨ch, .node 1 [.node 3 []], .node 11 [.node 13 []], DemoWorld.reach8,
    DemoWorld.room 8 (by decide), I.wf, by decide, rfl, by decide, ?_, rfl, ht, rfl, ?_,
    by decide, by decide, by decide⟩
  · have := DestSplit.last (ch := ch) 4
    rw [h4] at this; exact this
  · intro h
    have := (ht.mem_nodes_iff 4).2 h
    simp [nodes, nodesL] at this

/-- ... and a descendant with borrowed data. -/
example : DemoWorld.busy.heap.mutB 1 = false ∧ DemoWorld.busy.heap.mutB 3 = true := ⟨rfl, rfl⟩

/-- In the same state: behind node 3, whose data is borrowed, among the children of node 1 (`pre` = 1, 3), and
before node 3 in a copy of node 0 (`pre` = 0, 1). -/
example : ∃ ch, Reach DemoWorld.busy ∧ Room DemoWorld.busy.heap ∧ WF DemoWorld.busy.heap ch ∧
    0 < DemoWorld.busy.held .hot 1 ∧ DemoWorld.busy.heap.nodeTree 1 = .ok 0 ∧
    DemoWorld.busy.heap.grants 0 + 5 ≤ 2 ^ 62 ∧ DemoWorld.busy.heap.nNode = 5 ∧
    (DestSplit ch (.lastChildOf 1) 1 [3] [] ∧ Desc ch 1 1 ∧ SubtreeAt ch 1 (.node 1 [.node 3 []]) ∧
      SubtreeAt (upd ch 1 [3, 5]) 1 (.node 1 [.node 3 [], .node 5 []]) ∧
      (RTree.node 1 [.node 3 [], .node 5 []]).nodes = [1, 3] ++ 5 :: [] ∧
      DemoWorld.busy.heap.mutB 1 = false ∧ DemoWorld.busy.heap.mutB 3 = true) ∧
    (DestSplit ch (.firstChildOf 1) 1 [] [3] ∧ Desc ch 0 1 ∧
      SubtreeAt ch 0 (.node 0 [.node 1 [.node 3 []], .node 2 []]) ∧
      SubtreeAt (upd ch 1 [5, 3]) 0 (.node 0 [.node 1 [.node 5 [], .node 3 []], .node 2 []]) ∧
      (RTree.node 0 [.node 1 [.node 5 [], .node 3 []], .node 2 []]).nodes = [0, 1] ++ 5 :: [3, 2] ∧
      DemoWorld.busy.heap.mutB 0 = false) := by
  obtain ⟨ch, I⟩ := DemoWorld.busy_reach.inv
  have F := I.wf.toFShape
  have h0 : ch 0 = [1, 2] := Seg.unique (F.seg 0) ⟨rfl, rfl, trivial⟩ ((F.first 0 rfl).symm.trans rfl)
  have h1 : ch 1 = [3] := Seg.unique (F.seg 1) ⟨rfl, trivial⟩ ((F.first 1 rfl).symm.trans rfl)
  have h2 : ch 2 = [] := Seg.unique (F.seg 2) trivial ((F.first 2 rfl).symm.trans rfl)
  have h3 : ch 3 = [] := Seg.unique (F.seg 3) trivial ((F.first 3 rfl).symm.trans rfl)
  have h5 : ch 5 = [] := I.wf.dead 5 rfl
  have d1 := DestSplit.last (ch := ch) 1
  have d2 := DestSplit.first (ch := ch) 1
  rw [h1] at d1 d2
  refine ⟨ch, DemoWorld.busy_reach, DemoWorld.room 8 (by decide), I.wf, by decide, rfl, by decide, rfl,
    ⟨d1, .refl _, ?_, ?_, rfl, rfl, rfl⟩, ⟨d2, .step (.refl _) (by rw [h0]; simp), ?_, ?_, rfl, rfl⟩⟩ <;>
  simp [SubtreeAt, label, Hier, HierL, upd, h0, h1, h2, h3, h5]

/-- Node 4 is a root: it has no siblings. -/
example : ∃ ch, WF (DemoWorld.at_ 8).heap ch ∧ (∀ q, (InsertAs.nextSiblingOf 4).anchor ∉ ch q) ∧
    0 < (DemoWorld.at_ 8).held .hot 4 := by
  obtain ⟨ch, I⟩ := DemoWorld.reach8.inv
  refine ⟨ch, I.wf, ?_, by decide⟩
  intro q hq
  have := I.wf.parent_of_mem hq
  have h4 : (DemoWorld.at_ 8).heap.parent 4 = none := rfl
  rw [show (InsertAs.nextSiblingOf 4).anchor = 4 from rfl, h4] at this; cases this

end Dendron
