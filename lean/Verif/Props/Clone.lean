import Verif.Proofs.CloneTree
import Verif.Props.Build

/-!
# C34, C35, C53: copying of subtrees

The number `f` bounds the number of events the loop of the methods may read; the theorems hold for every
bound that is larger than the number of events of the source.
-/

set_option autoImplicit false

namespace Dendron
open RTree
variable {α : Type} {w w' : World α} {ch : NodeId → List NodeId} {n : NodeId} {t : RTree NodeId}
  {u : RTree α}

/-- The loop of `try_clone_subtree` from its start. -/
theorem Builder.fold_new {f : Nat} (hr : Reach w) (hroom : Room w.heap) (I : Inv w ch)
    (ha : w.heap.alive n = true) (ht : SubtreeAt ch n t) (hd : HasData w.heap t u)
    (hs : 2 * t.size ≤ usizeMax) (hf : 2 * t.size < f) :
    (w.heap.mutB n = true ∧ Builder.fold f w (Dft.start n) .new = .ok (w, .new, .error .borrowData)) ∨
    (w.heap.mutB n = false ∧ ∃ w' ch' b' E' j,
        BState w ch w' ch' w.heap.nNode w.heap.nTree [] E' b' j ∧ (∀ p, w.heap.nNode ∉ ch' p) ∧
        (((∀ x ∈ t.nodes, w.heap.mutB x = false) ∧
            Builder.fold f w (Dft.start n) .new = .ok (w', b', .ok ()) ∧ E' = u.steps) ∨
          ((∃ x ∈ t.nodes, w.heap.mutB x = true) ∧
            Builder.fold f w (Dft.start n) .new = .ok (w', b', .error .borrowData)))) := by
  have hal : ∀ x ∈ t.nodes, w.heap.alive x = true := fun x hx =>
    I.wf.desc_alive ha ((ht.mem_nodes_iff x).1 hx)
  have hfresh := I.wf.toFShape.fresh_not_alive
  have hlen := events_length t
  unfold RTree.size at hf hs
  have hy := I.wf.toShape.dft_yields ha ht
  have hst := Dft.start_rest ht.1
  obtain ⟨l, hl⟩ := events_eq_cons t
  rw [ht.1] at hl
  rw [hst] at hy ⊢
  rw [hl] at hy hlen ⊢
  obtain ⟨e0, -⟩ := Dft.yields_tail hy
  obtain ⟨f, rfl⟩ : ∃ g, f = g + 1 := ⟨f - 1, by omega⟩
  have e1 : w.heap.serNext (Dft.rest n (.opn n :: l)) =
      .ok (some ((w.heap.borrowData n).map .opn), Dft.rest n l) := by
    simp [Heap.serNext, e0]
  obtain ⟨d, hdn⟩ := Option.isSome_iff_exists.1 (show w.heap.data n |>.isSome from ha)
  cases hb : w.heap.mutB n with
  | true =>
    refine .inl ⟨rfl, ?_⟩
    simp only [Builder.fold, e1, Heap.borrowData, hb, if_true, Except.map]
  | false =>
    refine .inr ⟨rfl, ?_⟩
    obtain ⟨w1, e2, S1, hroot⟩ := Builder.opn_new (d := d) I hr hroom
    have Z : Source w ch w.heap.nNode n t u :=
      ⟨ht, hal, fun h => (by rw [hal _ h] at hfresh; cases hfresh), hd, hs⟩
    obtain ⟨w2, ch2, b2, E2, j2, S2, hp2, h4⟩ := BState.fold Z f (l := l) (pre := [.opn n]) S1
      (by rw [hl]; rfl) (.some hdn) (by simp at hlen; omega)
    have hfold : Builder.fold (f + 1) w (Dft.rest n (.opn n :: l)) .new =
        Builder.fold f w1 (Dft.rest n l) ⟨some w.heap.nNode, some w.heap.nNode⟩ := by
      simp only [Builder.fold, e1, Heap.borrowData, hb, hdn, Except.map, Bool.false_eq_true, if_false,
        Builder.push, e2, bind, Except.bind]
    have hmem : ∀ x, x ∈ t.nodes ↔ x = n ∨ DftEvent.opn x ∈ l := by
      intro x; rw [← mem_events_opn, hl]; simp
    refine ⟨w2, ch2, b2, E2, j2, S2, fun p hp => hroot p ((hp2 p).1 hp), ?_⟩
    rw [hfold]
    rcases h4 with ⟨g1, g2, g3⟩ | ⟨⟨x, g1, g2⟩, g3⟩
    · refine .inl ⟨?_, g2, g3⟩
      intro x hx
      rcases (hmem x).1 hx with rfl | hx
      · exact hb
      · exact g1 x hx
    · exact .inr ⟨⟨x, (hmem x).2 (.inr g1), g2⟩, g3⟩

/-- A successful copy. -/
theorem Builder.clone_run {f : Nat} (hr : Reach w) (hroom : Room w.heap) (I : Inv w ch)
    (ha : w.heap.alive n = true) (ht : SubtreeAt ch n t) (hd : HasData w.heap t u)
    (hs : 2 * t.size ≤ usizeMax) (hf : 2 * t.size < f)
    (hb : ∀ x ∈ t.nodes, w.heap.mutB x = false) :
    ∃ w' ch', Builder.tryCloneSubtree f w n = .ok (w', .ok w.heap.nNode) ∧
      Run w ch w' ch' w.heap.nNode w.heap.nTree [w.heap.nNode] [] ∧
      NewTree w w' ch' w.heap.nNode u ∧ Untouched w w' ch ch' none := by
  have hn : n ∈ t.nodes := (ht.mem_nodes_iff n).2 (.refl _)
  rcases Builder.fold_new hr hroom I ha ht hd hs hf with ⟨h1, -⟩ | ⟨-, w1, ch', b, E, j, S, hroot, h2⟩
  · rw [hb n hn] at h1; cases h1
  · rcases h2 with ⟨-, e1, rfl⟩ | ⟨⟨x, hx, h3⟩, -⟩
    · obtain ⟨w2, e2, St, R⟩ := S.finish
      obtain ⟨v, hv, hN⟩ := S.newTree St R (Nat.le_refl _) hroot
      have hu : Describes u.steps 0 u := by simp [Describes]
      obtain ⟨-, rfl⟩ := hv.unique hu
      have U := R.untouched I.wf
      refine ⟨w2, ch', ?_, R, hN, ?_⟩
      · simp only [Builder.tryCloneSubtree, e1, e2, bind, Except.bind, pure, Except.pure]
      · refine ⟨U.alive, U.data, U.borrowed, U.tree, ?_, U.trees, U.grantTok, U.prohTok⟩
        intro x hx _
        refine U.children x hx ?_
        rintro h
        have h : x = w.heap.nNode := by simpa using h
        rw [h, I.wf.toFShape.fresh_not_alive] at hx; cases hx
    · rw [hb x hx] at h3; cases h3

/-- A failing copy. -/
theorem Builder.clone_undone {f : Nat} (hr : Reach w) (hroom : Room w.heap) (I : Inv w ch)
    (ha : w.heap.alive n = true) (ht : SubtreeAt ch n t)
    (hs : 2 * t.size ≤ usizeMax) (hf : 2 * t.size < f)
    (hb : ∃ x ∈ t.nodes, w.heap.mutB x = true) :
    ∃ w' ch', Builder.tryCloneSubtree f w n = .ok (w', .error .mk) ∧ Reach w' ∧ Inv w' ch' ∧
      Undone w w' ch ch' := by
  obtain ⟨u, hd, -⟩ := C29_data_exists_unique I.wf.toFShape ha ht
  rcases Builder.fold_new hr hroom I ha ht hd hs hf with ⟨h1, e1⟩ | ⟨-, w1, ch', b, E, j, S, hroot, h2⟩
  · refine ⟨w, ch, ?_, hr, I, ⟨fun _ h => h, fun _ _ => rfl, fun _ _ => rfl, fun _ _ => rfl,
      fun _ _ _ => rfl, rfl, rfl, rfl⟩, fun _ h => h, fun _ _ => rfl⟩
    simp only [Builder.tryCloneSubtree, e1, bind, Except.bind, pure, Except.pure]
    rfl
  · rcases h2 with ⟨h3, -, -⟩ | ⟨-, e1⟩
    · obtain ⟨x, hx, h4⟩ := hb
      rw [h3 x hx] at h4; cases h4
    · obtain ⟨w2, ch2, e2, I2, hr2, U⟩ := S.dropAll I (Nat.le_refl _) I.wf.toFShape.fresh_not_alive
      refine ⟨w2, ch2, ?_, hr2, I2, U⟩
      simp only [Builder.tryCloneSubtree, e1, e2, bind, Except.bind, pure, Except.pure]

/-- C34: if no data in the subtree is mutably borrowed, `try_clone_subtree` returns the root of a new
tree made of new nodes with the same shape and data (`u`), and changes nothing else. -/
theorem C34_copies {f : Nat} (hr : Reach w) (hroom : Room w.heap) (W : WF w.heap ch)
    (ha : w.heap.alive n = true) (ht : SubtreeAt ch n t) (hd : HasData w.heap t u)
    (hs : 2 * t.size ≤ usizeMax) (hf : 2 * t.size < f)
    (hb : ∀ x ∈ t.nodes, w.heap.mutB x = false) :
    ∃ w' m ch', Builder.tryCloneSubtree f w n = .ok (w', .ok m) ∧ Reach w' ∧ WF w'.heap ch' ∧
      NewTree w w' ch' m u ∧ GotPlain w w' m ∧ Untouched w w' ch ch' none := by
  obtain ⟨ch1, I⟩ := hr.inv
  obtain rfl := I.wf.toFShape.unique W.toFShape
  obtain ⟨w2, ch', e, R, hN, U⟩ := Builder.clone_run hr hroom I ha ht hd hs hf hb
  exact ⟨w2, _, ch', e, R.reach, R.inv.wf, hN, R.gotPlain, U⟩

/-- C34: if some data in the subtree is mutably borrowed, `try_clone_subtree` fails, and everything is
as before the call. -/
theorem C34_fails {f : Nat} (hr : Reach w) (hroom : Room w.heap) (W : WF w.heap ch)
    (ha : w.heap.alive n = true) (ht : SubtreeAt ch n t)
    (hs : 2 * t.size ≤ usizeMax) (hf : 2 * t.size < f)
    (hb : ∃ x ∈ t.nodes, w.heap.mutB x = true) :
    ∃ w' ch', Builder.tryCloneSubtree f w n = .ok (w', .error .mk) ∧ Reach w' ∧ WF w'.heap ch' ∧
      Undone w w' ch ch' := by
  obtain ⟨ch1, I⟩ := hr.inv
  obtain rfl := I.wf.toFShape.unique W.toFShape
  obtain ⟨w2, ch2, e, h1, I2, U⟩ := Builder.clone_undone hr hroom I ha ht hs hf hb
  exact ⟨w2, ch2, e, h1, I2.wf, U⟩

/-- C34: after the copying, `try_eq` of the source and the copy is `Ok(true)`. -/
theorem C34_equal {f : Nat} {m : NodeId} (eq : α → α → Bool) (hq : ∀ a, eq a a = true) (hr : Reach w)
    (hroom : Room w.heap) (W : WF w.heap ch)
    (ha : w.heap.alive n = true) (ht : SubtreeAt ch n t)
    (hs : 2 * t.size ≤ usizeMax) (hf : 2 * t.size < f)
    (hc : Builder.tryCloneSubtree f w n = .ok (w', .ok m)) :
    m ≠ n ∧ w'.heap.tryEq eq n m = .ok (.ok true) := by
  obtain ⟨u, hd, -⟩ := C29_data_exists_unique W.toFShape ha ht
  by_cases hb : ∃ x ∈ t.nodes, w.heap.mutB x = true
  · obtain ⟨w1, ch1, e, -⟩ := C34_fails hr hroom W ha ht hs hf hb
    rw [e] at hc; simp at hc
  · have hb : ∀ x ∈ t.nodes, w.heap.mutB x = false := by
      intro x hx
      cases h : w.heap.mutB x with
      | false => rfl
      | true => exact absurd ⟨x, hx, h⟩ hb
    obtain ⟨w1, m1, ch1, e, -, W1, N1, -, U⟩ := C34_copies hr hroom W ha ht hd hs hf hb
    rw [e] at hc
    simp only [Except.ok.injEq, Prod.mk.injEq] at hc
    obtain ⟨rfl, rfl⟩ := hc
    obtain ⟨s, g1, g2, g3⟩ := N1.shape
    have hm : m1 ∈ s.nodes := (g1.mem_nodes_iff m1).2 (.refl _)
    have hal : ∀ x ∈ t.nodes, w.heap.alive x = true := fun x hx =>
      W.desc_alive ha ((ht.mem_nodes_iff x).1 hx)
    have ht1 : SubtreeAt ch1 n t := ⟨ht.1, ht.2.congr (fun x hx => U.children x (hal x hx) (by simp))⟩
    have hd1 : HasData w1.heap t u := by
      have : t.map w1.heap.data = t.map w.heap.data := map_congr_nodes t (fun x hx => U.data x (hal x hx))
      rw [HasData, this]; exact hd
    obtain ⟨b, hb1, hb2⟩ := C36_decides eq W1.toFShape (U.alive n ha) (g3 m1 hm).2.1 ht1 g1 hd1 g2 (.inr hq)
      (fun x hx => by rw [U.borrowed x (hal x hx)]; exact hb x hx) (fun x hx => (g3 x hx).2.2)
    obtain rfl : b = true := hb2.2 (Equal.refl hq u)
    refine ⟨?_, hb1⟩
    rintro rfl
    have := (g3 m1 hm).1
    rw [ha] at this; cases this

/-- C34 for `Tree::try_clone_tree`: the result is a new tree with the same shape and data; besides the
new `Tree` value, the program holds what it held and nothing has changed. -/
theorem C34_tree {f : Nat} {T : TreeId} {r : NodeId} (hr : Reach w) (hroom : Room w.heap)
    (W : WF w.heap ch) (hT : 0 < w.trees T) (hroot : w.heap.rootLink T = .ok r)
    (ht : SubtreeAt ch r t) (hd : HasData w.heap t u) (hs : 2 * t.size ≤ usizeMax)
    (hf : 2 * t.size < f) (hb : ∀ x ∈ t.nodes, w.heap.mutB x = false) :
    ∃ w' T' m ch', Builder.tryCloneTree f w T = .ok (w', .ok T') ∧ Reach w' ∧ WF w'.heap ch' ∧
      NewTree w w' ch' m u ∧ w'.heap.nodeTree m = .ok T' ∧ w'.held = w.held ∧
      w'.trees = upd w.trees T' (w.trees T' + 1) ∧
      Untouched w { w' with trees := w.trees } ch ch' none := by
  obtain ⟨ch1, I⟩ := hr.inv
  obtain rfl := I.wf.toFShape.unique W.toFShape
  obtain ⟨w1, e1, C1, t1, hrT, hra, hh1⟩ := (Calm.refl I hr hroom).treeRoot hT hroot
  have S1 := C1.still
  have hd1 : HasData w1.heap t u := by rw [HasData, S1.data]; exact hd
  obtain ⟨w2, ch', e2, R, hN, U⟩ := Builder.clone_run (n := r) C1.reach C1.room C1.inv hra ht hd1 hs hf
    (fun x hx => by rw [S1.mutB]; exact hb x hx)
  have C2 := Calm.refl R.inv R.reach (R.isRoom (by simp))
  obtain ⟨m, hm⟩ : ∃ m, m = w1.heap.nNode := ⟨_, rfl⟩
  rw [← hm] at e2 R hN
  obtain ⟨T', hT'⟩ : ∃ T', T' = w1.heap.nTree := ⟨_, rfl⟩
  rw [← hT'] at R
  have hmh := R.held_of_ps (c := m) (by simp)
  obtain ⟨w3, e3, C3, t3, hh3⟩ := C2.treeOf hmh (R.psT m (by simp))
  obtain ⟨w4, e4, C4, t4, hh4⟩ := C3.dropPlain (c := m) (T := T') (by rw [hh3]; exact hmh)
    (by rw [C3.still.memTree]; exact R.psT m (by simp)) (by rw [t3]; simp)
  have hTlt : T < T' := by rw [hT']; exact C1.inv.memTree_lt hra hrT
  have hrm : r ≠ m := by
    rintro rfl
    rw [hm, C1.inv.wf.toFShape.fresh_not_alive] at hra; cases hra
  have hr4 : 0 < w4.held .plain r := by
    have h1 := R.plain r
    rw [hh4, take_held, hh3, h1, hh1]
    simp only [true_and, hrm, if_false, give_held, if_true]
    exact Nat.lt_of_lt_of_le (Nat.succ_pos _) (Nat.le_add_right _ _)
  obtain ⟨w5, e5, C5, t5, hh5⟩ := C4.dropPlain (c := r) (T := T) hr4
    (by rw [C4.still.memTree, R.grow.memTree r hra]; exact hrT)
    (by rw [t4, t3]
        have : T ≠ T' := Nat.ne_of_lt hTlt
        simp only [upd_apply, this, if_false, U.trees, t1]; exact hT)
  have S5 := C5.still
  have hma : w2.heap.alive m = true := R.inv.held_alive hmh
  have hheld : w5.held = w.held := by
    funext k x
    have h1 := R.plain x
    have h2 := R.hot x
    have h3 := R.frozen x
    rw [hh1] at h1 h2 h3
    have hmr : ¬ m = r := fun h => hrm h.symm
    rw [hh5, take_held, hh4, take_held, hh3]
    cases k with
    | plain =>
      simp only [true_and, give_held] at h1 ⊢
      by_cases ex : x = r
      · subst ex; simp [hrm, hmr] at h1 ⊢; omega
      · by_cases ey : x = m
        · subst ey; simp [ex] at h1 ⊢; omega
        · have : ¬ m = x := fun h => ey h.symm
          simp [ex, ey, this] at h1 ⊢; exact h1
    | hot => simpa using h2
    | frozen => simpa using h3
  have hst : ∀ {w' : World α} {ch'' : NodeId → List NodeId}, Untouched w1 w' ch1 ch'' none →
      Untouched w { w' with trees := w.trees } ch1 ch'' none := by
    intro w' ch'' U
    have hal : ∀ x, w.heap.alive x = true → w1.heap.alive x = true := fun x hx => by
      rw [S1.alive]; exact hx
    refine ⟨fun x hx => U.alive x (hal x hx), fun x hx => ?_, fun x hx => ?_, fun x hx => ?_,
      fun x hx h => U.children x (hal x hx) h, rfl, ?_, ?_⟩
    · exact (U.data x (hal x hx)).trans (by rw [S1.data])
    · exact (U.borrowed x (hal x hx)).trans (by rw [S1.mutB])
    · obtain ⟨t, h1, -⟩ := I.wf.tree.live x hx
      refine (U.tree x (hal x hx)).trans ?_
      rw [show w.heap.nodeTree x = .ok t from (I.wf.tree.treeCore_iff hx).2 h1]
      exact (C1.inv.wf.tree.treeCore_iff (hal x hx)).2 (by rw [S1.memTree]; exact h1)
    · exact U.grantTok.trans C1.grantTok
    · exact U.prohTok.trans C1.prohTok
  have hN5 : NewTree w w5 ch' m u := by
    obtain ⟨⟨t, a1, a2, a3⟩, s, b1, b2, b3⟩ := hN
    refine ⟨⟨t, ?_, by rw [← S1.nTree]; exact a2, ?_⟩, s, b1, ?_, ?_⟩
    · refine (C5.inv.wf.tree.treeCore_iff (by rw [S5.alive]; exact hma)).2 ?_
      rw [S5.memTree]; exact (R.inv.wf.tree.treeCore_iff hma).1 a1
    · rw [← a3]; simp only [Heap.rootLink, S5.root]
    · rw [HasData, S5.data]; exact b2
    · intro x hx
      obtain ⟨c1, c2, c3⟩ := b3 x hx
      exact ⟨by rw [← S1.alive]; exact c1, by rw [S5.alive]; exact c2, by rw [S5.mutB]; exact c3⟩
  refine ⟨w5, T', m, ch', ?_, C5.reach, C5.inv.wf, hN5, ?_, hheld, ?_, ?_⟩
  · simp only [Builder.tryCloneTree, bind, Except.bind, pure, Except.pure, e1, e2, e3, e4, e5]
  · refine (C5.inv.wf.tree.treeCore_iff (by rw [S5.alive]; exact hma)).2 ?_
    rw [S5.memTree]; exact R.psT m (by simp)
  · rw [t5, t4, t3, U.trees, t1]
  · refine ⟨fun x hx => ?_, fun x hx => ?_, fun x hx => ?_, fun x hx => ?_, (hst U).children, rfl, ?_, ?_⟩
    · show w5.heap.alive x = true
      rw [S5.alive]; exact (hst U).alive x hx
    · show w5.heap.data x = _
      rw [S5.data]; exact (hst U).data x hx
    · show w5.heap.mutB x = _
      rw [S5.mutB]; exact (hst U).borrowed x hx
    · show w5.heap.nodeTree x = _
      rw [← (hst U).tree x hx]
      have hxa : w2.heap.alive x = true := (hst U).alive x hx
      obtain ⟨t, h1, -⟩ := R.inv.wf.tree.live x hxa
      show w5.heap.nodeTree x = w2.heap.nodeTree x
      rw [show w2.heap.nodeTree x = .ok t from (R.inv.wf.tree.treeCore_iff hxa).2 h1]
      exact (C5.inv.wf.tree.treeCore_iff (by rw [S5.alive]; exact hxa)).2 (by rw [S5.memTree]; exact h1)
    · exact C5.grantTok.trans (hst U).grantTok
    · exact C5.prohTok.trans (hst U).prohTok

/-- C34 for `Tree::try_clone_tree`: it fails if some data of the tree is mutably borrowed; then
everything is as before. -/
theorem C34_tree_fails {f : Nat} {T : TreeId} {r : NodeId} (hr : Reach w) (hroom : Room w.heap)
    (W : WF w.heap ch) (hT : 0 < w.trees T) (hroot : w.heap.rootLink T = .ok r)
    (ht : SubtreeAt ch r t) (hs : 2 * t.size ≤ usizeMax)
    (hf : 2 * t.size < f) (hb : ∃ x ∈ t.nodes, w.heap.mutB x = true) :
    ∃ w' ch', Builder.tryCloneTree f w T = .ok (w', .error .mk) ∧ Reach w' ∧ WF w'.heap ch' ∧
      Undone w w' ch ch' := by
  obtain ⟨ch1, I⟩ := hr.inv
  obtain rfl := I.wf.toFShape.unique W.toFShape
  obtain ⟨w1, e1, C1, t1, hrT, hra, hh1⟩ := (Calm.refl I hr hroom).treeRoot hT hroot
  have S1 := C1.still
  obtain ⟨w2, ch2, e2, h2, I2, U⟩ := Builder.clone_undone (n := r) C1.reach C1.room C1.inv hra ht hs hf
    (by rw [S1.mutB]; exact hb)
  have C2 := Calm.refl I2 h2 (U.room C1.inv I2 C1.room)
  have hra2 : w2.heap.alive r = true := U.old.alive r hra
  have hrT2 : w2.heap.memTree r = some T := by
    refine (I2.wf.tree.treeCore_iff hra2).1 ?_
    refine (U.old.tree r hra).trans ?_
    exact (C1.inv.wf.tree.treeCore_iff hra).2 hrT
  obtain ⟨w3, e3, C3, t3, hh3⟩ := C2.dropPlain (c := r) (T := T)
    (by rw [U.held, hh1]; simp) hrT2 (by rw [U.old.trees, t1]; exact hT)
  have S3 := C3.still
  have hal : ∀ x, w.heap.alive x = true → w1.heap.alive x = true := fun x hx => by
    rw [S1.alive]; exact hx
  refine ⟨w3, ch2, ?_, C3.reach, C3.inv.wf, ⟨?_, ?_, ?_, ?_, ?_, ?_, ?_, ?_⟩, ?_, ?_⟩
  · simp only [Builder.tryCloneTree, bind, Except.bind, pure, Except.pure, e1, e2, e3]
  · intro x hx; rw [S3.alive]; exact U.old.alive x (hal x hx)
  · intro x hx; rw [S3.data, U.old.data x (hal x hx), S1.data]
  · intro x hx; rw [S3.mutB, U.old.borrowed x (hal x hx), S1.mutB]
  · intro x hx
    obtain ⟨t, h1, -⟩ := I.wf.tree.live x hx
    have h2 : w1.heap.nodeTree x = .ok t :=
      (C1.inv.wf.tree.treeCore_iff (hal x hx)).2 (by rw [S1.memTree]; exact h1)
    have h3 := (U.old.tree x (hal x hx)).trans h2
    have h4 := (I2.wf.tree.treeCore_iff (U.old.alive x (hal x hx))).1 h3
    rw [show w.heap.nodeTree x = .ok t from (I.wf.tree.treeCore_iff hx).2 h1]
    exact (C3.inv.wf.tree.treeCore_iff (by rw [S3.alive]; exact U.old.alive x (hal x hx))).2
      (by rw [S3.memTree]; exact h4)
  · intro x hx h; exact U.old.children x (hal x hx) h
  · rw [t3, U.old.trees, t1]
  · exact C3.grantTok.trans (U.old.grantTok.trans C1.grantTok)
  · exact C3.prohTok.trans (U.old.prohTok.trans C1.prohTok)
  · intro x hx
    rw [S3.alive] at hx
    have := U.nothingNew x hx
    rw [S1.alive] at this; exact this
  · intro k x
    rw [hh3, take_held, U.held, hh1, give_held]
    split <;> simp

/-- The hypotheses are met: node 1 of the demo program, with and without a borrowed descendant. -/
example : ∃ (ch : NodeId → List NodeId) (t : RTree NodeId) (u : RTree Nat),
    Reach (DemoWorld.at_ 8) ∧ Room (DemoWorld.at_ 8).heap ∧ WF (DemoWorld.at_ 8).heap ch ∧
    (DemoWorld.at_ 8).heap.alive 1 = true ∧ SubtreeAt ch 1 t ∧ HasData (DemoWorld.at_ 8).heap t u ∧
    (∀ x ∈ t.nodes, (DemoWorld.at_ 8).heap.mutB x = false) ∧ 2 * t.size ≤ usizeMax ∧ 2 * t.size < 5 := by
  obtain ⟨ch, I⟩ := DemoWorld.reach8.inv
  obtain ⟨h1, h3, -⟩ := DemoWorld.children8 I.wf.toFShape
  exact ⟨ch, .node 1 [.node 3 []], .node 11 [.node 13 []], DemoWorld.reach8,
    DemoWorld.room 8 (by decide), I.wf, rfl, by simp [SubtreeAt, label, Hier, HierL, h1, h3], rfl,
    by decide, by decide, by decide⟩

/-- The demo program with the data of node 3 mutably borrowed. -/
def DemoWorld.busy : World Nat :=
  { DemoWorld.at_ 8 with heap := { (DemoWorld.at_ 8).heap with
      mutB := upd (DemoWorld.at_ 8).heap.mutB 3 true } }

theorem DemoWorld.busy_reach : Reach DemoWorld.busy :=
  .step (op := .borrowMut 3 true) (r := .unit) DemoWorld.reach8
    ⟨⟨.plain, by decide⟩, fun _ _ => trivial, DemoWorld.room 8 (by decide), rfl⟩

example : ∃ (ch : NodeId → List NodeId) (t : RTree NodeId),
    Reach DemoWorld.busy ∧ Room DemoWorld.busy.heap ∧ WF DemoWorld.busy.heap ch ∧
    DemoWorld.busy.heap.alive 1 = true ∧ SubtreeAt ch 1 t ∧
    (∃ x ∈ t.nodes, DemoWorld.busy.heap.mutB x = true) ∧ 2 * t.size ≤ usizeMax ∧ 2 * t.size < 5 := by
  obtain ⟨ch, I⟩ := DemoWorld.busy_reach.inv
  obtain ⟨h1, h3, -⟩ := DemoWorld.children8 (ch := ch)
    ⟨I.wf.dead, I.wf.first, I.wf.nodup, I.wf.mem, I.wf.seg, I.wf.rootNext, I.wf.acyc, I.wf.bound⟩
  exact ⟨ch, .node 1 [.node 3 []], DemoWorld.busy_reach, DemoWorld.room 8 (by decide), I.wf, rfl,
    by simp [SubtreeAt, label, Hier, HierL, h1, h3], ⟨3, by decide, by decide⟩, by decide, by decide⟩

example : 0 < (DemoWorld.at_ 8).trees 0 ∧ (DemoWorld.at_ 8).heap.rootLink 0 = .ok 0 := ⟨by decide, rfl⟩

end Dendron
