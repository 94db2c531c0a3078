import Verif.Proofs.CloneEndless

/-! `try_clone_insert_subtree` of a node to the first place among its own children. -/

set_option linter.unusedSimpArgs false
set_option autoImplicit false

namespace Dendron
open RTree
variable {α : Type} {w w' w0 w1 : World α} {ch ch' ch0 ch1 : NodeId → List NodeId}
  {r c x n p m : NodeId} {T : TreeId} {d : α} {N : List NodeId}

/-- The loop of the cloning methods, reading the events `L`, which do not change. -/
theorem BState.foldAll {L : List (DftEvent NodeId)} {u : RTree α}
    (hyp : ∀ {w : World α} {ch : NodeId → List NodeId} {E : List (Option α)} {b : Builder} {k : Nat},
      BState w0 ch0 w ch r T N E b k → Yields (Dft.next w.heap) (Dft.rest n L) L ∧
        L.length ≤ 2 * w.heap.nNode)
    (hlen : L.length ≤ usizeMax)
    (hal : ∀ v, DftEvent.opn v ∈ L → w0.heap.alive v = true ∧ w0.heap.mutB v = false) :
    ∀ (f : Nat) {l pre : List (DftEvent NodeId)} {Y : List (Option α)} {w : World α}
      {ch : NodeId → List NodeId} {b : Builder} {E : List (Option α)} {k : Nat},
      BState w0 ch0 w ch r T N E b k → L = pre ++ l →
      Matches w0.heap.data (l.map DftEvent.toStep) Y → E ++ Y = u.steps → l.length < f →
      ∃ w' ch' b' j, BState w0 ch0 w' ch' r T N u.steps b' j ∧
        Builder.fold f w (Dft.rest n l) b = .ok (w', b', .ok ())
  | 0, _, _, _, _, _, _, _, _, _, _, _, _, hf => by omega
  | f + 1, [], pre, Y, w, ch, b, E, k, S, he, hY, hu, hf => by
    have : Y = [] := (Matches.nil_iff hY).1 rfl
    subst this
    rw [List.append_nil] at hu
    subst hu
    refine ⟨w, ch, b, k, S, ?_⟩
    have : w.heap.serNext (Dft.rest n []) = .ok (none, none) := rfl
    simp only [Builder.fold, this]
  | f + 1, e :: l, pre, Y, w, ch, b, E, k, S, he, hY, hu, hf => by
    have R := S.run
    obtain ⟨hy, hn⟩ := hyp S
    have hl2 : (e :: l).length ≤ L.length := by rw [he]; simp
    rw [he] at hy
    have hy := Dft.yields_drop pre hy
    rcases serNext_rest hy (by omega) (by omega) with ⟨v, rfl, e1⟩ | ⟨c, mid, rest, rfl, e1, hmid⟩
    · obtain ⟨hva, hvb⟩ := hal v (by rw [he]; simp)
      obtain ⟨d, hd⟩ := Option.isSome_iff_exists.1 (show (w0.heap.data v).isSome from hva)
      have hbd : w.heap.borrowData v = .ok d := by
        simp [Heap.borrowData, R.grow.mutB v hva, R.grow.data v hva, hd, hvb]
      obtain ⟨Y1, Y2, rfl, h1, h2⟩ := Matches.split (X := [some v]) (X' := l.map DftEvent.toStep) hY
      obtain rfl : Y1 = [some d] := h1.inj (.some hd)
      rw [← List.append_assoc] at hu
      have hgood : ∃ j t, Describes (E ++ Event.expand [Event.opn d]) j t := by
        rcases steps_prefix u _ _ hu with h | h
        · simp at h
        · simpa [Event.expand] using h
      obtain ⟨w1, ch1, b1, j, e2, S1, -, -⟩ := S.push_ok (.opn d) hgood
      have hx : Event.expand [Event.opn d] = [some d] := by simp [Event.expand]
      rw [hx] at S1
      obtain ⟨w2, ch2, b2, j2, S2, h4⟩ := BState.foldAll hyp hlen hal f (l := l) (pre := pre ++ [.opn v])
        S1 (by rw [he]; simp) h2 hu (by simp at hf; omega)
      refine ⟨w2, ch2, b2, j2, S2, ?_⟩
      rw [Builder.fold_step (by rw [e1, hbd]; rfl) e2]
      exact h4
    · have hx : Event.expand [Event.close c] = List.replicate c (none : Option α) := by
        simp [Event.expand]
      have hY' : Matches w0.heap.data (List.replicate c none ++ rest.map DftEvent.toStep) Y := by
        rw [← hmid]
        simpa using hY
      obtain ⟨Y1, Y2, rfl, h1, h2⟩ := Matches.split hY'
      obtain rfl : Y1 = List.replicate c none := h1.inj (.none c)
      rw [← List.append_assoc] at hu
      have hgood : ∃ j t, Describes (E ++ Event.expand [Event.close c]) j t := by
        rw [hx]
        rcases steps_prefix u _ _ hu with h | h
        · obtain ⟨u0, s0, hd0, -⟩ := S.facts
          rw [h]
          rw [(List.append_eq_nil_iff.1 h).1] at hd0
          exact ⟨_, _, hd0⟩
        · exact h
      obtain ⟨w1, ch1, b1, j, e2, S1, -, -⟩ := S.push_ok (.close c) hgood
      rw [hx] at S1
      obtain ⟨w2, ch2, b2, j2, S2, h4⟩ := BState.foldAll hyp hlen hal f (l := rest)
        (pre := pre ++ (e :: mid)) S1 (by rw [he]; simp) h2 hu (by simp at hf; omega)
      refine ⟨w2, ch2, b2, j2, S2, ?_⟩
      rw [Builder.fold_step e1 e2]
      exact h4

/-- The result of `try_clone_insert_subtree` of a node to the first place among its own children. -/
theorem Builder.cloneInsert_first {f : Nat} {dest : InsertAs NodeId} {l2 : List NodeId}
    {cs : List (RTree NodeId)} {us : List (RTree α)} (hr : Reach w)
    (hroom : Room w.heap) (I : Inv w ch) (hk : 0 < w.held .hot dest.anchor)
    (hT : w.heap.memTree dest.anchor = some T) (hs0 : w.heap.grants T + 5 ≤ 2 ^ 62)
    (hd : DestSplit ch dest n [] l2) (ha : w.heap.alive n = true) (ht : SubtreeAt ch n (.node n cs))
    (hu : HasData w.heap (.node n cs) (.node d us)) (hs : 2 * (RTree.node n cs).size ≤ usizeMax)
    (hf : 2 * (RTree.node n cs).size + 1 < f)
    (hbn : w.heap.mutB n = false) :
    ((∀ x ∈ (RTree.node n cs).nodes, w.heap.mutB x = false) → ∃ w' ch', Builder.tryCloneInsert f w n dest = .ok (w', .ok w.heap.nNode) ∧ Reach w' ∧
      WF w'.heap ch' ∧ Untouched w w' ch ch' (some n) ∧ ch' n = w.heap.nNode :: l2 ∧
      NewSubtree w w' ch' T w.heap.nNode (.node d (.node d [] :: us)) ∧ GotHot w w' w.heap.nNode) ∧
    ((∃ x ∈ (RTree.node n cs).nodes, w.heap.mutB x = true) → ∃ w' ch' v,
      Builder.tryCloneInsert f w n dest = .ok (w', .error .borrowNodeData) ∧ Reach w' ∧
      WF w'.heap ch' ∧ Untouched w w' ch ch' (some n) ∧ ch' n = w.heap.nNode :: l2 ∧
      NewSubtree w w' ch' T w.heap.nNode v ∧ (∀ k x, w'.held k x = w.held k x)) := by
  have hfresh := I.wf.toFShape.fresh_not_alive
  have hal : ∀ x ∈ (RTree.node n cs).nodes, w.heap.alive x = true := fun x hx =>
    I.wf.desc_alive ha ((ht.mem_nodes_iff x).1 hx)
  have hat : dest.toAdoptAs.at dest.anchor = dest := by cases dest <;> rfl
  have hpl : ch n = [] ++ l2 := hd.list
  have hdn : w.heap.data n = some d := by
    simp only [HasData, RTree.map] at hu
    injection hu
  obtain ⟨w1, e1, I1, F⟩ := I.exec_create (d := d) (as := dest.toAdoptAs) hk (by rw [hat]; exact hd) hT
    (by simp only [Lock.isizeMax]; omega)
  have hr1 : Reach w1 := .step (op := .create .hot dest.anchor d dest.toAdoptAs) hr
    ⟨hk, fun _ _ => trivial, hroom, e1⟩
  have hroom1 : Room w1.heap := F.room I I1 hk hT hroom (by omega)
  have hg1 := F.grants I I1 hk hT
  obtain ⟨m, hm⟩ : ∃ m, m = w.heap.nNode := ⟨_, rfl⟩
  obtain ⟨ch1, hch1⟩ : ∃ ch1, ch1 = upd ch n ([] ++ m :: l2) := ⟨_, rfl⟩
  have hdone := @Builder.cloneInsert_done α w w1 ch n T d
  have hfailed := @Builder.cloneInsert_failed α w w1 ch n T d
  rw [← hm] at I1 e1 hfresh hdone hfailed ⊢
  rw [← hch1] at I1
  have hmk : 0 < w1.held .hot m := by rw [F.held]; simp [hm]
  have hmT : w1.heap.memTree m = some T := by rw [hm]; exact F.memTree
  have hmn : m ≠ n := by rintro rfl; rw [hfresh] at ha; cases ha
  have hchm : ch1 m = [] := by rw [hch1, upd_ne _ _ hmn]; exact I.wf.dead m hfresh
  have hchn : ch1 n = m :: l2 := by rw [hch1]; simp
  have ha1 := F.grow.alive n ha
  have h1a : w1.heap.alive m = true := by rw [hm]; exact F.alive_new
  have hmbm : w1.heap.mutB m = false := by rw [hm]; exact F.mutB
  have hdm : w1.heap.data m = some d := by rw [hm]; exact F.data
  have hn1 : w1.heap.data n = some d := by rw [F.grow.data n ha, hdn]
  have hb1 : w1.heap.mutB n = false := by rw [F.grow.mutB n ha, hbn]
  have e2 : w1.heap.serNext (Dft.start n) = .ok (some (.ok (.opn d)), some (.opn m, n)) := by
    simp [Heap.serNext, Dft.next, Dft.start, Heap.borrowData, hb1, hn1,
      evNext_inner I1.wf.toFShape ha1 hchn, Except.map]
  obtain ⟨w2, e3, S⟩ := Builder.withRoot_ok (t0 := .node m []) (u0 := .node d []) (E := [some d]) I1 hr1
    hroom1 hmk hmT (by omega) (by simp [SubtreeAt, label, Hier, HierL, hchm])
    (by simp [HasData, RTree.map, mapL, hdm])
    (by simp [Describes, steps_node, stepsL_nil])
  have hnm : (RTree.node m []).nodes = [m] := by simp [nodes, nodesL]
  rw [hnm] at S
  have R := S.run
  have e4 : w2.heap.serNext (some (.opn m, n)) = .ok (some (.ok (.opn d)), some (.cls m, n)) := by
    have h1 : w2.heap.mutB m = false := (R.grow.mutB m h1a).trans hmbm
    have h2 : w2.heap.data m = some d := (R.grow.data m h1a).trans hdm
    simp [Heap.serNext, Dft.next, Heap.borrowData, h1, h2,
      evNext_leaf R.inv.wf.toFShape (R.grow.alive m h1a) hchm, Except.map]
  obtain ⟨w3, ch3, b3, j3, e5, S3, -, -⟩ := S.push_ok (.opn d)
    ⟨2, .node d [.node d []], by simp [Describes, Event.expand, steps_node, stepsL_cons, stepsL_nil, List.replicate]⟩
  have hx : [some d] ++ Event.expand [Event.opn d] = [some d, some d] := by simp [Event.expand]
  rw [hx] at S3
  -- the remaining events
  obtain ⟨L, hL⟩ : ∃ L, L = DftEvent.cls m :: (eventsL cs ++ [.cls n]) := ⟨_, rfl⟩
  have hlenL : L.length = 2 * (RTree.node n cs).nodes.length := by
    have := events_length (.node n cs)
    rw [events] at this
    rw [← this, hL]; simp
  have hcs : ∀ x ∈ nodesL cs, x ∈ (RTree.node n cs).nodes := fun x hx => by simp [nodes, hx]
  have hnd := ht.nodup I.wf.toFShape
  have hnn : n ∉ nodesL cs := by
    simp only [nodes, List.nodup_cons] at hnd; exact hnd.1
  have hcsm : ∀ x ∈ nodesL cs, x ≠ m := by
    rintro x hx rfl
    have := hal x (hcs x hx)
    rw [hfresh] at this; cases this
  have hyp : ∀ {w' : World α} {ch' : NodeId → List NodeId} {E : List (Option α)} {b : Builder} {k : Nat},
      BState (w1.take .hot m) ch1 w' ch' m T [m] E b k →
      Yields (Dft.next w'.heap) (Dft.rest n L) L ∧ L.length ≤ 2 * w'.heap.nNode := by
    intro w' ch' E b k S'
    have R' := S'.run
    have hna : w'.heap.alive n = true := R'.grow.alive n ha1
    obtain ⟨s, hs'⟩ := R'.inv.wf.exists_subtree m
    have hsub : SubtreeAt ch' n (.node n (s :: cs)) := by
      refine ⟨rfl, ?_, hs'.2, ?_⟩
      · rw [R'.keep n ha1 hmn.symm, hchn]
        have := ht.2.1
        rw [hpl] at this
        simp only [List.map_cons, hs'.1]
        simpa using this
      · refine ht.2.2.congr (fun x hx => ?_)
        rw [R'.keep x (F.grow.alive x (hal x (hcs x hx))) (hcsm x hx), hch1, upd_ne _ _ ?_]
        rintro rfl; exact hnn hx
    have hy := R'.inv.wf.toShape.dft_yields hna hsub
    have hsz := hsub.size_le R'.inv.wf.toFShape hna
    have hle := events_length (.node n (s :: cs))
    obtain ⟨pre, hpre⟩ : ∃ pre, (RTree.node n (s :: cs)).events = pre ++ L := by
      obtain ⟨h1, -⟩ := hs'
      cases s with
      | node v vs =>
        obtain rfl : v = m := h1
        exact ⟨.opn n :: .opn v :: eventsL vs, by simp [events, eventsL, hL]⟩
    rw [Dft.start_rest hsub.1, hpre] at hy
    refine ⟨Dft.yields_drop pre hy, ?_⟩
    rw [hpre] at hle
    simp only [List.length_append] at hle
    omega
  have hmat : Matches (w1.take .hot m).heap.data (L.map DftEvent.toStep) (none :: (stepsL us ++ [none])) := by
    have h1 : (RTree.node n cs).map w1.heap.data = (RTree.node d us).map some := by
      rw [map_congr_nodes _ (fun x hx => F.grow.data x (hal x hx))]; exact hu
    have h2 := (Matches.tree (f := w1.heap.data)).2 h1
    rw [steps_node, steps_node] at h2
    have h3 : L.map DftEvent.toStep = none :: (stepsL cs ++ [none]) := by
      rw [hL]
      simp only [List.map_cons, List.map_append, DftEvent.toStep, List.map_nil]
      rfl
    show Matches w1.heap.data _ _
    rw [h3, Matches]
    rw [Matches] at h2
    simp only [List.cons_append, List.map_cons, List.cons.injEq] at h2
    simp only [List.map_cons, Option.map_none, h2.2]
  obtain ⟨f, rfl⟩ : ∃ g, f = g + 1 := ⟨f - 1, by omega⟩
  unfold RTree.size at hs hf
  have hmem : ∀ v, DftEvent.opn v ∈ L ↔ v ∈ nodesL cs := by
    intro v
    rw [hL, ← mem_eventsL_opn cs]; simp
  have hhal : ∀ v, DftEvent.opn v ∈ L → (w1.take .hot m).heap.alive v = true := by
    intro v hv
    exact F.grow.alive v (hal v (hcs v ((hmem v).1 hv)))
  have hrest : Dft.rest n L = some (.cls m, n) := by rw [hL]; rfl
  have hbm : ∀ v, DftEvent.opn v ∈ L → (w1.take .hot m).heap.mutB v = w.heap.mutB v := fun v hv =>
    F.grow.mutB v (hal v (hcs v ((hmem v).1 hv)))
  constructor
  · intro hb
    obtain ⟨w4, ch4, b4, j4, S4, e6⟩ := BState.foldAll (u := .node d (.node d [] :: us)) hyp (by omega)
      (fun v hv => ⟨hhal v hv, by rw [hbm v hv]; exact hb v (hcs v ((hmem v).1 hv))⟩)
      f (l := L) (pre := []) S3 rfl hmat (by simp [steps_node, stepsL_cons, stepsL_nil]) (by omega)
    rw [hrest] at e6
    obtain ⟨w5, e7, h⟩ := hdone F I ha (hch1 ▸ S4)
    refine ⟨w5, ch4, ?_, h⟩
    have e8 : Builder.fold (f + 1) w2 (some (.opn m, n)) ⟨some m, some m⟩ = .ok (w4, b4, .ok ()) := by
      rw [Builder.fold_step e4 e5]; exact e6
    simp only [Builder.tryCloneInsert, Heap.borrowData, hbn, hdn, Bool.false_eq_true, if_false, bind,
      Except.bind, pure, Except.pure, e1, e2, e3, e8]
    exact e7
  · rintro ⟨x, hx, hbx⟩
    have hxc : x ∈ nodesL cs := by
      simp only [nodes, List.mem_cons] at hx
      rcases hx with rfl | hx
      · rw [hbn] at hbx; cases hbx
      · exact hx
    have hxL := (hmem x).2 hxc
    obtain ⟨w4, ch4, b4, E4, j4, S4, e6⟩ := BState.foldStop (u := .node d (.node d [] :: us)) (Z := [])
      (L := L) (fun S' => ⟨[], by simpa using hyp S'⟩) (by omega) hhal f (l := L) (pre := []) S3 rfl hmat
      (by simp [steps_node, stepsL_cons, stepsL_nil]) (by omega)
      ⟨x, hxL, (hbm x hxL).trans hbx⟩
    rw [hrest] at e6
    obtain ⟨w5, v, e7, h⟩ := hfailed F I ha hk hT (hch1 ▸ S4)
    refine ⟨w5, ch4, v, ?_, h⟩
    have e8 : Builder.fold (f + 1) w2 (some (.opn m, n)) ⟨some m, some m⟩ = .ok (w4, b4, .error .borrowData) := by
      rw [Builder.fold_step e4 e5]; exact e6
    simp only [Builder.tryCloneInsert, Heap.borrowData, hbn, hdn, Bool.false_eq_true, if_false, bind,
      Except.bind, pure, Except.pure, e1, e2, e3, e8]
    exact e7

end Dendron
