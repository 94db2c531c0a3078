import Verif.Proofs.CloneTree
import Verif.Proofs.BuildClose

/-! Copying of a subtree to a destination. -/

set_option linter.unusedSimpArgs false
set_option linter.unusedVariables false

set_option autoImplicit false

namespace Dendron
open RTree
variable {α : Type} {w w' w0 w1 : World α} {ch ch' ch0 ch1 : NodeId → List NodeId}
  {r c x n p : NodeId} {T : TreeId} {d : α}

/-- The lock counters after the creation of a node by means of a hot handle. -/
theorem Fresh.grants (F : Fresh w w1 d T) (I : Inv w ch) (I1 : Inv w1 ch1)
    (hk : 0 < w.held .hot c) (hT : w.heap.memTree c = some T) :
    w1.heap.grants T ≤ w.heap.grants T + 1 := by
  have ha := I.held_alive hk
  have hta := I.wf.tree_alive ha hT
  have hta1 : w1.heap.treeAlive T = true :=
    I1.wf.tree_alive (F.grow.alive c ha) (by rw [F.grow.memTree c ha]; exact hT)
  have hk1 : 0 < w1.held .hot c := by rw [F.held]; split <;> omega
  obtain ⟨L, a1, a2, a3, -⟩ := I.locks T hta
  obtain ⟨L1, b1, b2, b3, -⟩ := I1.locks T hta1
  have hsub : ∀ x ∈ L1, x ∈ w.heap.nNode :: L := by
    intro x hx
    obtain ⟨h1, h2⟩ := (b2 x).1 hx
    by_cases e : x = w.heap.nNode
    · simp [e]
    · rw [F.memOld x e] at h1
      rw [F.held, F.held] at h2
      simp only [e, and_false, if_false] at h2
      exact List.mem_cons_of_mem _ ((a2 x).2 ⟨h1, h2⟩)
  have := nodup_length_sub b1 hsub
  have hG := I.hot_grants hk hT
  have hG1 := I1.hot_grants hk1 (by rw [F.grow.memTree c ha]; exact hT)
  rcases a3 with ⟨-, -, c1⟩ | ⟨-, -, c1⟩ <;> rcases b3 with ⟨-, -, c2⟩ | ⟨-, -, c2⟩
  · rw [c1, c2, F.grantTok]; simp at this; omega
  · omega
  · omega
  · omega

theorem Fresh.room (F : Fresh w w1 d T) (I : Inv w ch) (I1 : Inv w1 ch1)
    (hk : 0 < w.held .hot c) (hT : w.heap.memTree c = some T) (hroom : Room w.heap)
    (hs : w.heap.grants T + 1 < 2 ^ 62) : Room w1.heap := by
  intro u hu
  have ha := I.held_alive hk
  have hk1 : 0 < w1.held .hot c := by rw [F.held]; split <;> omega
  by_cases e : u = T
  · subst e
    have h1 := F.grants I I1 hk hT
    have h2 := I1.hot_grants hk1 (by rw [F.grow.memTree c ha]; exact hT)
    constructor <;> omega
  · have hu0 : w.heap.treeAlive u = true := by rw [← F.treeAlive u e]; exact hu
    rw [I.grants_same I1 hu0 hu (by rw [F.grantTok]) (by rw [F.prohTok])]
    · exact hroom u hu0
    · intro x hx hm
      have hne : x ≠ w.heap.nNode := by
        rintro rfl; rw [I.wf.toFShape.fresh_not_alive] at hx; cases hx
      exact ⟨by rw [F.memOld x hne]; exact hm, by rw [F.held]; simp [hne], by rw [F.held]; simp [hne]⟩
    · intro x hx hm
      have hne : x ≠ w.heap.nNode := by
        rintro rfl
        rw [F.memTree] at hm
        exact e (by simpa using hm.symm)
      exact ⟨by rw [← F.memOld x hne]; exact hm, by rw [F.held]; simp [hne], by rw [F.held]; simp [hne]⟩

theorem Builder.cloneInsert_mid {f : Nat} {dest : InsertAs NodeId} {l1 l2 : List NodeId}
    {t : RTree NodeId} {u : RTree α} (hr : Reach w)
    (hroom : Room w.heap) (I : Inv w ch) (hk : 0 < w.held .hot dest.anchor)
    (hT : w.heap.memTree dest.anchor = some T) (hs0 : w.heap.grants T + 5 ≤ 2 ^ 62)
    (hd : DestSplit ch dest p l1 l2) (ha : w.heap.alive n = true) (ht : SubtreeAt ch n t)
    (hu : HasData w.heap t u) (hnp : ¬ Desc ch n p) (hs : 2 * t.size ≤ usizeMax) (hf : 2 * t.size < f)
    (hb : w.heap.mutB n = false) :
    ∃ d w1 w2 ch2 b E j, Fresh w w1 d T ∧ Inv w1 (upd ch p (l1 ++ w.heap.nNode :: l2)) ∧
      BState (w1.take .hot w.heap.nNode) (upd ch p (l1 ++ w.heap.nNode :: l2)) w2 ch2 w.heap.nNode T
        [w.heap.nNode] E b j ∧
      (((∀ x ∈ t.nodes, w.heap.mutB x = false) ∧ E = u.steps ∧
          Builder.tryCloneInsert f w n dest = (do
            match ← Builder.finish w2 b with
            | (w, .ok r) => do
              match ← w.exec (.bundle .hot r) with
              | (_, .denied) => .error (.panic "[consistency] the hierarchy of the destination tree is already editable")
              | (w, _) => return (w, .ok r)
            | _ => .error (.panic "[validity] subtree should be consistently serializable"))) ∨
       ((∃ x ∈ t.nodes, w.heap.mutB x = true) ∧
          Builder.tryCloneInsert f w n dest = (do
            let w ← Builder.dropAll w2 b
            return (w, .error .borrowNodeData)))) := by
  have hfresh := I.wf.toFShape.fresh_not_alive
  have hal : ∀ x ∈ t.nodes, w.heap.alive x = true := fun x hx =>
    I.wf.desc_alive ha ((ht.mem_nodes_iff x).1 hx)
  have hat : dest.toAdoptAs.at dest.anchor = dest := by cases dest <;> rfl
  obtain ⟨d, hdn⟩ := Option.isSome_iff_exists.1 (show (w.heap.data n).isSome from ha)
  obtain ⟨w1, e1, I1, F⟩ := I.exec_create (d := d) (as := dest.toAdoptAs) hk (by rw [hat]; exact hd) hT
    (by simp only [Lock.isizeMax]; omega)
  have hr1 : Reach w1 := .step (op := .create .hot dest.anchor d dest.toAdoptAs) hr
    ⟨hk, fun _ _ => trivial, hroom, e1⟩
  have hroom1 : Room w1.heap := F.room I I1 hk hT hroom (by omega)
  have hg1 := F.grants I I1 hk hT
  obtain ⟨m, hm⟩ : ∃ m, m = w.heap.nNode := ⟨_, rfl⟩
  obtain ⟨ch1, hch1⟩ : ∃ ch1, ch1 = upd ch p (l1 ++ m :: l2) := ⟨_, rfl⟩
  rw [← hm] at I1 e1 hfresh ⊢
  rw [← hch1] at I1 ⊢
  have hmk : 0 < w1.held .hot m := by rw [F.held]; simp [hm]
  have hmT : w1.heap.memTree m = some T := by rw [hm]; exact F.memTree
  have hpa : w.heap.alive p = true := by
    rcases I.wf.toFShape.destSplit_parent (as := dest.toAdoptAs) (by rw [hat]; exact hd) with h | h
    · rw [h]; exact I.held_alive hk
    · exact I.wf.alive_parent h
  have hmp : m ≠ p := by rintro rfl; rw [hfresh] at hpa; cases hpa
  have hchm : ch1 m = [] := by
    rw [hch1, upd_ne _ _ hmp]
    exact I.wf.dead m hfresh
  have hsub1 : SubtreeAt ch1 n t := by rw [hch1]; exact ht.upd hnp
  have ha1 := F.grow.alive n ha
  -- the first event
  have hlen := events_length t
  have hsz := hs
  have hff := hf
  unfold RTree.size at hf hs
  have hy := I1.wf.toShape.dft_yields ha1 hsub1
  have hst := Dft.start_rest ht.1
  obtain ⟨l, hl⟩ := events_eq_cons t
  rw [ht.1] at hl
  rw [hst] at hy
  rw [hl] at hy hlen
  obtain ⟨e0, -⟩ := Dft.yields_tail hy
  have e2 : w1.heap.serNext (Dft.start n) = .ok (some ((w1.heap.borrowData n).map .opn), Dft.rest n l) := by
    rw [hst, hl]; simp [Heap.serNext, e0]
  -- the builder
  have hdm : w1.heap.data m = some d := by rw [hm]; exact F.data
  obtain ⟨w2, e3, S⟩ := Builder.withRoot_ok (t0 := .node m []) (u0 := .node d []) (E := [some d]) I1 hr1
    hroom1 hmk hmT (by omega) (by simp [SubtreeAt, label, Hier, HierL, hchm])
    (by simp [HasData, RTree.map, mapL, hdm])
    (by simp [Describes, steps_node, stepsL_nil])
  have hnm : (RTree.node m []).nodes = [m] := by simp [nodes, nodesL]
  rw [hnm] at S
  have Z : Source (w1.take .hot m) ch1 m n t u := by
    refine ⟨hsub1, fun x hx => F.grow.alive x (hal x hx), ?_, ?_, hsz⟩
    · intro h; rw [hal _ h] at hfresh; cases hfresh
    · have : t.map w1.heap.data = t.map w.heap.data :=
        map_congr_nodes t (fun x hx => F.grow.data x (hal x hx))
      show t.map w1.heap.data = _
      rw [this]; exact hu
  have hn1 : w1.heap.data n = some d := by rw [F.grow.data n ha, hdn]
  obtain ⟨w3, ch3, b, E, j, S3, -, h4⟩ := BState.fold Z f (l := l) (pre := [.opn n]) S
    (by rw [hl]; rfl) (.some hn1) (by simp at hlen; omega)
  have hmem : ∀ x, x ∈ t.nodes ↔ x = n ∨ DftEvent.opn x ∈ l := by
    intro x; rw [← mem_events_opn, hl]; simp
  have hmb : ∀ x ∈ t.nodes, (w1.take .hot m).heap.mutB x = w.heap.mutB x := fun x hx =>
    F.grow.mutB x (hal x hx)
  refine ⟨d, w1, w3, ch3, b, E, j, F, I1, S3, ?_⟩
  rcases h4 with ⟨g1, g2, g3⟩ | ⟨⟨x, g1, g2⟩, g3⟩
  · refine .inl ⟨?_, g3, ?_⟩
    · intro x hx
      rcases (hmem x).1 hx with rfl | h
      · exact hb
      · rw [← hmb x hx]; exact g1 x h
    · simp only [Builder.tryCloneInsert, Heap.borrowData, hb, hdn, Bool.false_eq_true, if_false, bind,
        Except.bind, pure, Except.pure, e1, e2, e3, g2]
      rfl
  · have hx : x ∈ t.nodes := (hmem x).2 (.inr g1)
    refine .inr ⟨⟨x, hx, ?_⟩, ?_⟩
    · rw [← hmb x hx]; exact g2
    · simp only [Builder.tryCloneInsert, Heap.borrowData, hb, hdn, Bool.false_eq_true, if_false, bind,
        Except.bind, pure, Except.pure, e1, e2, e3, g3]

/-- The old nodes after the creation of a node and further work below it. -/
theorem Run.afterFresh {w2 : World α} {ch2 : NodeId → List NodeId} {ps cs l1 l2 : List NodeId}
    (F : Fresh w w1 d T) (W : WF w.heap ch) (hp : w.heap.alive p = true)
    (R : Run (w1.take .hot w.heap.nNode) (upd ch p (l1 ++ w.heap.nNode :: l2)) w2 ch2 w.heap.nNode T ps cs) :
    Untouched w w2 ch ch2 (some p) ∧ ch2 p = l1 ++ w.heap.nNode :: l2 := by
  have hfresh := W.toFShape.fresh_not_alive
  have hne : ∀ x, w.heap.alive x = true → x ≠ w.heap.nNode := by
    rintro x hx rfl; rw [hfresh] at hx; cases hx
  have hal : ∀ x, w.heap.alive x = true → w1.heap.alive x = true := F.grow.alive
  have hk : ∀ x, w.heap.alive x = true → ch2 x = upd ch p (l1 ++ w.heap.nNode :: l2) x := fun x hx =>
    R.keep x (hal x hx) (hne x hx)
  refine ⟨⟨fun x hx => R.grow.alive x (hal x hx), fun x hx => ?_, fun x hx => ?_, fun x hx => ?_,
    fun x hx h => ?_, ?_, ?_, ?_⟩, ?_⟩
  · exact (R.grow.data x (hal x hx)).trans (F.grow.data x hx)
  · exact (R.grow.mutB x (hal x hx)).trans (F.grow.mutB x hx)
  · obtain ⟨t, h1, -⟩ := W.tree.live x hx
    rw [show w.heap.nodeTree x = .ok t from (W.tree.treeCore_iff hx).2 h1]
    refine (R.inv.wf.tree.treeCore_iff (R.grow.alive x (hal x hx))).2 ?_
    rw [← h1]
    exact (R.grow.memTree x (hal x hx)).trans (F.grow.memTree x hx)
  · rw [hk x hx, upd_ne]
    simpa using h
  · exact R.trees.trans F.trees
  · exact R.grantTok.trans F.grantTok
  · exact R.prohTok.trans F.prohTok
  · rw [hk p hp]; simp

theorem Untouched.still {w2 : World α} {ch' : NodeId → List NodeId} {o : Option NodeId}
    (U : Untouched w w' ch ch' o) (S : Still w'.heap w2.heap) (h1 : w2.trees = w'.trees)
    (h2 : w2.grantTok = w'.grantTok) (h3 : w2.prohTok = w'.prohTok) (W : WF w.heap ch)
    (W' : WF w'.heap ch') (W2 : WF w2.heap ch') :
    Untouched w w2 ch ch' o := by
  have hal : ∀ x, w'.heap.alive x = true → w2.heap.alive x = true := fun x hx => by
    rw [S.alive]; exact hx
  refine ⟨fun x hx => hal x (U.alive x hx), fun x hx => ?_, fun x hx => ?_, fun x hx => ?_, U.children,
    h1.trans U.trees, h2.trans U.grantTok, h3.trans U.prohTok⟩
  · rw [S.data]; exact U.data x hx
  · rw [S.mutB]; exact U.borrowed x hx
  · obtain ⟨t, e1, -⟩ := W.tree.live x hx
    have e2 := (W.tree.treeCore_iff hx).2 e1
    rw [show w.heap.nodeTree x = .ok t from e2]
    refine (W2.tree.treeCore_iff (hal x (U.alive x hx))).2 ?_
    rw [S.memTree]
    refine (W'.tree.treeCore_iff (U.alive x hx)).1 ?_
    exact (U.tree x hx).trans e2

/-- What the builder has made below the new node. -/
theorem BState.newSubtree {w2 w3 : World α} {ch2 : NodeId → List NodeId} {E : List (Option α)} {b : Builder} {j : Nat}
    {ch1 : NodeId → List NodeId} (F : Fresh w w1 d T) (I : Inv w ch)
    (S : BState (w1.take .hot w.heap.nNode) ch1 w2 ch2 w.heap.nNode T [w.heap.nNode] E b j)
    (St : Still w2.heap w3.heap) (W3 : WF w3.heap ch2) :
    ∃ u, Describes E j u ∧ NewSubtree w w3 ch2 T w.heap.nNode u := by
  obtain ⟨u, s, h1, h2, h3, h4, h5⟩ := S.facts
  refine ⟨u, h1, s, h2, ?_, ?_⟩
  · rw [HasData, St.data]; exact h3
  · have R := S.run
    have hfresh := I.wf.toFShape.fresh_not_alive
    intro x hx
    have hxa := h4 x hx
    have key : w.heap.alive x = false ∧ w2.heap.mutB x = false ∧ w2.heap.memTree x = some T := by
      rcases h5 x hx with hm | ⟨g1, g2⟩
      · obtain rfl : x = w.heap.nNode := by simpa using hm
        have h1a : w1.heap.alive w.heap.nNode = true := F.alive_new
        exact ⟨hfresh, (R.grow.mutB _ h1a).trans F.mutB, (R.grow.memTree _ h1a).trans F.memTree⟩
      · have g1 : w1.heap.alive x = false := g1
        refine ⟨?_, g2, R.mine x hxa g1⟩
        cases h : w.heap.alive x with
        | false => rfl
        | true => rw [F.grow.alive x h] at g1; cases g1
    obtain ⟨k1, k2, k3⟩ := key
    refine ⟨k1, by rw [St.alive]; exact hxa, by rw [St.mutB]; exact k2, ?_⟩
    exact (W3.tree.treeCore_iff (by rw [St.alive]; exact hxa)).2 (by rw [St.memTree]; exact k3)

/-- The end of the copying. -/
theorem Builder.cloneInsert_done {w2 : World α} {ch2 : NodeId → List NodeId} {l1 l2 : List NodeId}
    {u : RTree α} {b : Builder} {j : Nat} (F : Fresh w w1 d T) (I : Inv w ch) (hpa : w.heap.alive p = true)
    (S : BState (w1.take .hot w.heap.nNode) (upd ch p (l1 ++ w.heap.nNode :: l2)) w2 ch2 w.heap.nNode T
        [w.heap.nNode] u.steps b j) :
    ∃ w', (do
        match ← Builder.finish w2 b with
        | (w, .ok r) => do
          match ← w.exec (.bundle .hot r) with
          | (_, .denied) => .error (.panic "[consistency] the hierarchy of the destination tree is already editable")
          | (w, _) => return (w, .ok r)
        | _ => .error (.panic "[validity] subtree should be consistently serializable") :
          Except Fault (World α × Except HierarchyError NodeId)) =
        .ok (w', .ok w.heap.nNode) ∧ Reach w' ∧
      WF w'.heap ch2 ∧ Untouched w w' ch ch2 (some p) ∧ ch2 p = l1 ++ w.heap.nNode :: l2 ∧
      NewSubtree w w' ch2 T w.heap.nNode u ∧ GotHot w w' w.heap.nNode := by
  obtain ⟨w3, e3, S3, R3⟩ := S.finish
  have I3 := R3.inv
  have hpl := R3.held_of_ps (c := w.heap.nNode) (by simp)
  obtain ⟨t1, rc, l, hm, -, hta⟩ := I3.tree_of_held hpl
  obtain rfl : t1 = T := by
    have := R3.psT w.heap.nNode (by simp)
    rw [memTree_strong hm] at this; simpa using this
  have hg := R3.grants_fit hta (by simp)
  rcases I3.bundleHot hpl hm with ⟨h1, -⟩ | ⟨h1, -⟩ | ⟨-, h', e4, I4, S4⟩
  · omega
  · simp only [Lock.isizeMax] at h1; omega
  · have ex : w3.exec (.bundle .hot w.heap.nNode) =
        .ok ((({ w3 with heap := h' }).take .plain w.heap.nNode).give .hot w.heap.nNode, .unit) := by
      simp only [World.exec, Heap.acqLock, bind, Except.bind, e4]; rfl
    obtain ⟨w4, hw4⟩ : ∃ w4, w4 = (({ w3 with heap := h' }).take .plain w.heap.nNode).give .hot w.heap.nNode :=
      ⟨_, rfl⟩
    have hh4 : w4.heap = h' := by rw [hw4]; rfl
    have ht4 : w4.trees = w3.trees := by rw [hw4]; rfl
    have hg4 : w4.grantTok = w3.grantTok := by rw [hw4]; rfl
    have hp4 : w4.prohTok = w3.prohTok := by rw [hw4]; rfl
    have hheld : ∀ k x, w4.held k x = if k = .hot ∧ x = w.heap.nNode then w.held k x + 1 else w.held k x := by
      intro k x
      have h1 := R3.plain x
      have h2 := R3.hot x
      have h3 := R3.frozen x
      have f1 := F.held .plain x
      have f2 := F.held .hot x
      have f3 := F.held .frozen x
      simp only [take_held] at h1 h2 h3
      rw [hw4]
      simp only [give_held, take_held]
      by_cases e : x = w.heap.nNode
      · subst e
        cases k <;> simp at h1 h2 h3 f1 f2 f3 ⊢ <;> omega
      · have e' : ¬ w.heap.nNode = x := fun h => e h.symm
        cases k <;> simp [e, e'] at h1 h2 h3 f1 f2 f3 ⊢ <;> omega
    rw [← hw4] at ex I4
    rw [← hh4] at S4
    have hr4 : Reach w4 := .step (op := .bundle .hot w.heap.nNode) R3.reach
      ⟨⟨by simp, hpl⟩, fun _ _ => trivial, R3.isRoom (by simp), ex⟩
    obtain ⟨U, hc⟩ := R3.afterFresh F I.wf hpa
    obtain ⟨v, hv, hN⟩ := S.newSubtree F I (S3.trans S4) I4.wf
    have hu' : Describes u.steps 0 u := by simp [Describes]
    obtain ⟨-, rfl⟩ := hv.unique hu'
    refine ⟨w4, ?_, hr4, I4.wf, U.still S4 ht4 hg4 hp4 I.wf I3.wf I4.wf, hc, hN, hheld⟩
    simp only [bind, Except.bind, e3, ex, pure, Except.pure]

theorem Builder.cloneInsert_ok {f : Nat} {dest : InsertAs NodeId} {l1 l2 : List NodeId}
    {t : RTree NodeId} {u : RTree α} (hr : Reach w)
    (hroom : Room w.heap) (I : Inv w ch) (hk : 0 < w.held .hot dest.anchor)
    (hT : w.heap.memTree dest.anchor = some T) (hs0 : w.heap.grants T + 5 ≤ 2 ^ 62)
    (hd : DestSplit ch dest p l1 l2) (ha : w.heap.alive n = true) (ht : SubtreeAt ch n t)
    (hu : HasData w.heap t u) (hnp : ¬ Desc ch n p) (hs : 2 * t.size ≤ usizeMax) (hf : 2 * t.size < f)
    (hb : ∀ x ∈ t.nodes, w.heap.mutB x = false) :
    ∃ w' ch', Builder.tryCloneInsert f w n dest = .ok (w', .ok w.heap.nNode) ∧ Reach w' ∧
      WF w'.heap ch' ∧ Untouched w w' ch ch' (some p) ∧ ch' p = l1 ++ w.heap.nNode :: l2 ∧
      NewSubtree w w' ch' T w.heap.nNode u ∧ GotHot w w' w.heap.nNode := by
  have hpa : w.heap.alive p = true := by
    have hat : dest.toAdoptAs.at dest.anchor = dest := by cases dest <;> rfl
    rcases I.wf.toFShape.destSplit_parent (as := dest.toAdoptAs) (by rw [hat]; exact hd) with h | h
    · rw [h]; exact I.held_alive hk
    · exact I.wf.alive_parent h
  have hn : n ∈ t.nodes := (ht.mem_nodes_iff n).2 (.refl _)
  obtain ⟨d, w1, w2, ch2, b, E, j, F, I1, S, h⟩ :=
    Builder.cloneInsert_mid hr hroom I hk hT hs0 hd ha ht hu hnp hs hf (hb n hn)
  rcases h with ⟨-, rfl, e⟩ | ⟨⟨x, hx, h⟩, -⟩
  · obtain ⟨w4, e4, h⟩ := Builder.cloneInsert_done F I hpa S
    exact ⟨w4, ch2, e.trans e4, h⟩
  · rw [hb x hx] at h; cases h

/-- Dropping an additional handle while the anchor of the destination is held. -/
theorem Run.dropExtra {ps cs : List NodeId} {k : Kind} {a : NodeId} (R : Run w0 ch0 w ch r T ps cs)
    (hl : (k = .plain ∧ ps = [c] ∧ cs = []) ∨ (k = .hot ∧ ps = [] ∧ cs = [c]))
    (ha : 0 < w0.held .hot a) (hT : w0.heap.memTree a = some T) :
    ∃ w', w.exec (.drop k c) = .ok (w', .unit) ∧ Still w.heap w'.heap ∧ Inv w' ch ∧ Reach w' ∧
      w'.trees = w.trees ∧ w'.grantTok = w.grantTok ∧ w'.prohTok = w.prohTok ∧
      ∀ k x, w'.held k x = w0.held k x := by
  have I := R.inv
  have hk : 0 < w.held k c := by
    rcases hl with ⟨rfl, rfl, rfl⟩ | ⟨rfl, rfl, rfl⟩
    · exact R.held_of_ps (by simp)
    · exact R.held_of_cs (by simp)
  have hcT : w.heap.memTree c = some T := by
    rcases hl with ⟨rfl, rfl, rfl⟩ | ⟨rfl, rfl, rfl⟩
    · exact R.psT c (by simp)
    · exact R.csT c (by simp)
  have hka : 0 < w.held .hot a := by rw [R.hot]; omega
  have haT : w.heap.memTree a = some T := by
    rw [R.grow.memTree a (R.base.held _ _ ha)]; exact hT
  obtain ⟨h', e, I', S⟩ := I.dropHandle_keep hk hcT (by
    by_cases ex : a = c
    · subst ex
      left
      have h1 := R.plain a
      have h2 := R.hot a
      rcases hl with ⟨rfl, rfl, rfl⟩ | ⟨rfl, rfl, rfl⟩
      · simp at h1; omega
      · simp at h2; omega
    · exact .inr ⟨.hot, a, ex, hka, haT⟩)
  have ex : w.exec (.drop k c) = .ok (({ w with heap := h' }).take k c, .unit) := by
    simp only [World.exec, bind, Except.bind, e]; rfl
  refine ⟨_, ex, S, I', .step (op := .drop k c) R.reach ⟨hk, fun _ _ => trivial, R.isRoom ?_, ex⟩,
    rfl, rfl, rfl, ?_⟩
  · rcases hl with ⟨-, -, rfl⟩ | ⟨-, -, rfl⟩ <;> simp
  intro k' x
  have h1 := R.plain x
  have h2 := R.hot x
  have h3 := R.frozen x
  simp only [take_held]
  rcases hl with ⟨rfl, rfl, rfl⟩ | ⟨rfl, rfl, rfl⟩
  · by_cases e : x = c
    · subst e
      cases k' <;> simp at h1 h2 h3 ⊢ <;> omega
    · have e' : ¬ c = x := fun h => e h.symm
      cases k' <;> simp [e, e'] at h1 h2 h3 ⊢ <;> omega
  · by_cases e : x = c
    · subst e
      cases k' <;> simp at h1 h2 h3 ⊢ <;> omega
    · have e' : ¬ c = x := fun h => e h.symm
      cases k' <;> simp [e, e'] at h1 h2 h3 ⊢ <;> omega

/-- The copying was interrupted. -/
theorem Builder.cloneInsert_failed {w2 : World α} {ch2 : NodeId → List NodeId} {l1 l2 : List NodeId}
    {dest : InsertAs NodeId} {E : List (Option α)}
    {b : Builder} {j : Nat} (F : Fresh w w1 d T) (I : Inv w ch) (hpa : w.heap.alive p = true)
    (hk : 0 < w.held .hot dest.anchor) (hT : w.heap.memTree dest.anchor = some T)
    (S : BState (w1.take .hot w.heap.nNode) (upd ch p (l1 ++ w.heap.nNode :: l2)) w2 ch2 w.heap.nNode T
        [w.heap.nNode] E b j) :
    ∃ w' v, (do
        let w ← Builder.dropAll w2 b
        return (w, .error .borrowNodeData) : Except Fault (World α × Except HierarchyError NodeId)) =
          .ok (w', .error .borrowNodeData) ∧ Reach w' ∧
      WF w'.heap ch2 ∧ Untouched w w' ch ch2 (some p) ∧ ch2 p = l1 ++ w.heap.nNode :: l2 ∧
      NewSubtree w w' ch2 T w.heap.nNode v ∧ (∀ k x, w'.held k x = w.held k x) := by
  have haa := I.held_alive hk
  have hne : dest.anchor ≠ w.heap.nNode := by
    intro h; rw [h, I.wf.toFShape.fresh_not_alive] at haa; cases haa
  have R := S.run
  have hroot := S.root
  have hka : 0 < (w1.take .hot w.heap.nNode).held .hot dest.anchor := by
    rw [take_held, F.held]; simp [hne]; exact hk
  have hTa : (w1.take .hot w.heap.nNode).heap.memTree dest.anchor = some T := by
    show w1.heap.memTree _ = _
    rw [F.grow.memTree _ haa]; exact hT
  have hheld : ∀ k x, (w1.take .hot w.heap.nNode).held k x = w.held k x := by
    intro k x
    rw [take_held, F.held]
    split <;> simp
  have key : ∃ w', Builder.dropAll w2 b = .ok w' ∧ Still w2.heap w'.heap ∧ Inv w' ch2 ∧ Reach w' ∧
      w'.trees = w2.trees ∧ w'.grantTok = w2.grantTok ∧ w'.prohTok = w2.prohTok ∧
      ∀ k x, w'.held k x = (w1.take .hot w.heap.nNode).held k x := by
    cases hc : b.cur with
    | none =>
      rw [hc] at R
      obtain ⟨w', e1, S1, I', hr', h1, h2, h3, h4⟩ := R.dropExtra (k := .plain) (c := w.heap.nNode)
        (.inl ⟨rfl, rfl, rfl⟩) hka hTa
      refine ⟨w', ?_, S1, I', hr', h1, h2, h3, h4⟩
      simp only [Builder.dropAll, Builder.dropOpt, hroot, hc, bind, Except.bind, e1, pure, Except.pure]
    | some c =>
      rw [hc] at R
      obtain ⟨w1', e1, S1, R1⟩ := R.dropPlain (c := w.heap.nNode) (by simp) (by simp) (.inl (by simp))
      obtain ⟨w', e2, S2, I', hr', h1, h2, h3, h4⟩ := Run.dropExtra (k := .hot) (c := c) R1
        (.inr ⟨rfl, by simp, rfl⟩) hka hTa
      refine ⟨w', ?_, S1.trans S2, I', hr', ?_, ?_, ?_, h4⟩
      · simp only [Builder.dropAll, Builder.dropOpt, hroot, hc, bind, Except.bind, e1, e2, pure, Except.pure]
      · rw [h1, R1.trees, R.trees]
      · rw [h2, R1.grantTok, R.grantTok]
      · rw [h3, R1.prohTok, R.prohTok]
  obtain ⟨w3, e3, S3, I3, hr3, g1, g2, g3, g4⟩ := key
  obtain ⟨U, hc⟩ := R.afterFresh F I.wf hpa
  obtain ⟨v, -, hN⟩ := S.newSubtree F I S3 I3.wf
  refine ⟨w3, v, ?_, hr3, I3.wf, U.still S3 g1 g2 g3 I.wf R.inv.wf I3.wf, hc, hN,
    fun k x => (g4 k x).trans (hheld k x)⟩
  simp only [bind, Except.bind, e3, pure, Except.pure]

theorem Builder.cloneInsert_fail {f : Nat} {dest : InsertAs NodeId} {l1 l2 : List NodeId}
    {t : RTree NodeId} (hr : Reach w)
    (hroom : Room w.heap) (I : Inv w ch) (hk : 0 < w.held .hot dest.anchor)
    (hT : w.heap.memTree dest.anchor = some T) (hs0 : w.heap.grants T + 5 ≤ 2 ^ 62)
    (hd : DestSplit ch dest p l1 l2) (ha : w.heap.alive n = true) (ht : SubtreeAt ch n t)
    (hnp : ¬ Desc ch n p) (hs : 2 * t.size ≤ usizeMax) (hf : 2 * t.size < f)
    (hn : w.heap.mutB n = false) (hb : ∃ x ∈ t.nodes, w.heap.mutB x = true) :
    ∃ w' ch' v, Builder.tryCloneInsert f w n dest = .ok (w', .error .borrowNodeData) ∧ Reach w' ∧
      WF w'.heap ch' ∧ Untouched w w' ch ch' (some p) ∧ ch' p = l1 ++ w.heap.nNode :: l2 ∧
      NewSubtree w w' ch' T w.heap.nNode v ∧ (∀ k x, w'.held k x = w.held k x) := by
  have hpa : w.heap.alive p = true := by
    have hat : dest.toAdoptAs.at dest.anchor = dest := by cases dest <;> rfl
    rcases I.wf.toFShape.destSplit_parent (as := dest.toAdoptAs) (by rw [hat]; exact hd) with h | h
    · rw [h]; exact I.held_alive hk
    · exact I.wf.alive_parent h
  obtain ⟨u, hu⟩ := exists_data t
    (fun x hx => I.wf.desc_alive ha ((ht.mem_nodes_iff x).1 hx))
  obtain ⟨d, w1, w2, ch2, b, E, j, F, I1, S, h⟩ :=
    Builder.cloneInsert_mid hr hroom I hk hT hs0 hd ha ht hu hnp hs hf hn
  rcases h with ⟨h, -, -⟩ | ⟨-, e⟩
  · obtain ⟨x, hx, h2⟩ := hb
    rw [h x hx] at h2; cases h2
  · obtain ⟨w3, v, e3, h⟩ := Builder.cloneInsert_failed F I hpa hk hT S
    exact ⟨w3, ch2, v, e.trans e3, h⟩

end Dendron
