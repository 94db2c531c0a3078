import Verif.Proofs.Collect
import Verif.Props.Build
import Verif.Proofs.TryEq
import Verif.Props.Traverse

/-!
# C31: collecting events into `HotNode`, `FrozenNode`, `Tree`, and from depth-first events
-/

set_option autoImplicit false

namespace Dendron
open RTree
variable {α : Type} {w w' : World α} {ch : NodeId → List NodeId} {b : Builder}

/-- The state after collecting events that describe a tree. -/
theorem fromEvents_run (hr : Reach w) (hroom : Room w.heap) (I : Inv w ch) {l : List (Event α)} {k : Nat}
    {u : RTree α} (hd : Describes (Event.expand l) k u) :
    ∃ w' ch', Builder.fromEvents w l = .ok (w', .ok w.heap.nNode) ∧
      Run w ch w' ch' w.heap.nNode w.heap.nTree [w.heap.nNode] [] ∧ NewTree w w' ch' w.heap.nNode u := by
  obtain ⟨w1, b, res, e1, -, h1⟩ := C31_accepts hr hroom l
  obtain rfl : res = .ok () := h1.2 (.inr ⟨k, u, hd⟩)
  rcases accepted hr hroom I e1 with ⟨h1, rfl, rfl⟩ | ⟨h1, ch', j, h2, S⟩
  · obtain ⟨s1, s2⟩ := scan_none l
    rw [s1.2 h1] at s2
    exact absurd ((s2 k).2 ⟨u, hd⟩) (by simp)
  · obtain ⟨w2, e2, S2, R2⟩ := S.finish
    obtain ⟨v, hv, hN⟩ := S.newTree S2 R2 (Nat.le_refl _) h2
    obtain ⟨-, rfl⟩ := hv.unique hd
    refine ⟨w2, ch', ?_, R2, hN⟩
    simp only [Builder.fromEvents, e1, bind, Except.bind]; exact e2

/-- C31: collecting events into a `HotNode` or a `FrozenNode`: no call panics; the result is a handle of
that kind to the root of the tree the events describe, or an error and everything is as before. -/
theorem C31_from_events_as {k : Kind} (hk : k ≠ .plain) (hr : Reach w) (hroom : Room w.heap)
    (W : WF w.heap ch) (l : List (Event α)) :
    (∀ j t, Describes (Event.expand l) j t → ∃ w' n ch', Builder.fromEventsAs w k l = .ok (w', .ok n) ∧
      Reach w' ∧ WF w'.heap ch' ∧ NewTree w w' ch' n t ∧ GotHandle k w w' n ∧
      Untouched w w' ch ch' none) ∧
    ((∀ j t, ¬ Describes (Event.expand l) j t) → ∃ w' err ch',
      Builder.fromEventsAs w k l = .ok (w', .error err) ∧ Reach w' ∧ WF w'.heap ch' ∧
      Undone w w' ch ch') := by
  obtain ⟨ch1, I⟩ := hr.inv
  obtain rfl := I.wf.toFShape.unique W.toFShape
  constructor
  · intro j t hd
    obtain ⟨w1, ch', e1, R, N⟩ := fromEvents_run hr hroom I hd
    obtain ⟨w2, e2, h1, h2, h3, h4, h5⟩ := R.bundleNew I W.toFShape.fresh_not_alive N hk
    refine ⟨w2, _, ch', ?_, h1, h2, h3, h5, h4⟩
    simp only [Builder.fromEventsAs, bind, Except.bind, e1, e2]; rfl
  · intro hn
    obtain ⟨w', err, ch', e, h⟩ := (C31_from_events hr hroom W l).2 hn
    refine ⟨w', err, ch', ?_, h⟩
    simp only [Builder.fromEventsAs, bind, Except.bind, e]; rfl

/-- C31: collecting events into a `Tree`: the result is the only new `Tree` value, and the program holds
no new handle; or an error and everything is as before. -/
theorem C31_from_events_tree (hr : Reach w) (hroom : Room w.heap) (W : WF w.heap ch) (l : List (Event α)) :
    (∀ j u, Describes (Event.expand l) j u → ∃ w' t n ch', Builder.fromEventsTree w l = .ok (w', .ok t) ∧
      Reach w' ∧ WF w'.heap ch' ∧ NewTree w w' ch' n u ∧ w'.heap.nodeTree n = .ok t ∧
      w'.held = w.held ∧ w'.trees = upd w.trees t (w.trees t + 1) ∧
      Untouched w { w' with trees := w.trees } ch ch' none) ∧
    ((∀ j t, ¬ Describes (Event.expand l) j t) → ∃ w' err ch',
      Builder.fromEventsTree w l = .ok (w', .error err) ∧ Reach w' ∧ WF w'.heap ch' ∧
      Undone w w' ch ch') := by
  obtain ⟨ch1, I⟩ := hr.inv
  obtain rfl := I.wf.toFShape.unique W.toFShape
  constructor
  · intro j u hd
    obtain ⟨w1, ch', e1, R, N⟩ := fromEvents_run hr hroom I hd
    obtain ⟨w2, w3, e2, e3, h⟩ := R.toTree W W.toFShape.fresh_not_alive N
    refine ⟨w3, _, _, ch', ?_, h⟩
    simp only [Builder.fromEventsTree, bind, Except.bind, e1, e2, e3]; rfl
  · intro hn
    obtain ⟨w', err, ch', e, h⟩ := (C31_from_events hr hroom W l).2 hn
    refine ⟨w', err, ch', ?_, h⟩
    simp only [Builder.fromEventsTree, bind, Except.bind, e]; rfl

/-! ### Depth-first events -/

theorem tryEvent_of {h : Heap α} {e : DftEvent NodeId} {it : Except BorrowError (Event α)}
    (r : SerItem h e.toEvent it) : h.tryEvent e = it := by
  cases e with
  | opn n =>
    cases r with
    | opn h1 h2 => simp [Heap.tryEvent, Heap.borrowData, h1, h2, Except.map]
    | busy h1 => simp [Heap.tryEvent, Heap.borrowData, h1, Except.map]
  | cls n => cases r; rfl

/-- Opening and closing the existing nodes reads what it would have read at the beginning. -/
theorem tryEvent_eq (hr : Reach w) (hroom : Room w.heap) {l : List (Event α)}
    (h : Builder.pushAll w .new l = .ok (w', b, .ok ())) {e : DftEvent NodeId}
    (ha : ∀ x, e = .opn x → w.heap.alive x = true) : w'.heap.tryEvent e = w.heap.tryEvent e := by
  obtain ⟨ch, I⟩ := hr.inv
  rcases accepted hr hroom I h with ⟨-, rfl, rfl⟩ | ⟨-, ch', j, -, S⟩
  · rfl
  · have U := S.run.untouched I.wf
    cases e with
    | cls n => rfl
    | opn n =>
      have hn := ha n rfl
      simp only [Heap.tryEvent, Heap.borrowData, U.data n hn, U.borrowed n hn]

theorem pushAll_snoc {b1 : Builder} : ∀ {l : List (Event α)} {w w1 : World α} {b : Builder} {e : Event α},
    Builder.pushAll w b l = .ok (w1, b1, .ok ()) →
    Builder.pushAll w b (l ++ [e]) = Builder.push w1 b1 e
  | [], w, w1, b, e, h => by
    simp only [Builder.pushAll, Except.ok.injEq, Prod.mk.injEq] at h
    obtain ⟨rfl, rfl, -⟩ := h
    simp only [List.nil_append, Builder.pushAll, bind, Except.bind]
    cases h : Builder.push w b e with
    | error f => rfl
    | ok r =>
      obtain ⟨w2, b2, r⟩ := r
      cases r <;> rfl
  | a :: l, w, w1, b, e, h => by
    simp only [Builder.pushAll, List.cons_append, bind, Except.bind] at h ⊢
    cases h1 : Builder.push w b a with
    | error f => rw [h1] at h; cases h
    | ok r =>
      obtain ⟨w2, b2, r⟩ := r
      rw [h1] at h
      cases r with
      | error x => simp [pure, Except.pure] at h
      | ok _ => exact pushAll_snoc h

theorem zip_app {β γ : Type} {R : β → γ → Prop} {l1 l2 : List β} {m1 m2 : List γ} (h1 : Zip R l1 m1)
    (h2 : Zip R l2 m2) : Zip R (l1 ++ l2) (m1 ++ m2) := by
  induction h1 with
  | nil => exact h2
  | cons r _ ih => exact .cons r ih

/-- Reading the events one by one is the same as reading them beforehand. -/
theorem pushDftAll_eq (hr : Reach w) (hroom : Room w.heap) : ∀ (es : List (DftEvent NodeId))
    {l0 l : List (Event α)} {w1 : World α} {b1 : Builder}, 
    Builder.pushAll w .new l0 = .ok (w1, b1, .ok ()) →
    (∀ x, DftEvent.opn x ∈ es → w.heap.alive x = true) →
    Zip (SerItem w.heap) (es.map DftEvent.toEvent) (l.map .ok) →
    Builder.pushDftAll w1 b1 es = Builder.pushAll w1 b1 l
  | [], l0, l, w1, b1, h0, ha, hz => by
    cases l with
    | nil => rfl
    | cons a l => cases hz
  | e :: es, l0, l, w1, b1, h0, ha, hz => by
    cases l with
    | nil => cases hz
    | cons a l =>
      simp only [List.map_cons] at hz
      cases hz with
      | cons r hz =>
        have h1 : w1.heap.tryEvent e = .ok a := by
          rw [tryEvent_eq hr hroom h0 (fun x hx => ha x (by simp [hx]))]; exact tryEvent_of r
        simp only [Builder.pushDftAll, Builder.pushAll, h1, bind, Except.bind]
        have h3 := pushAll_snoc (e := a) h0
        cases h2 : Builder.push w1 b1 a with
        | error f => rfl
        | ok res =>
          obtain ⟨w2, b2, res⟩ := res
          rw [h2] at h3
          cases res with
          | error x => rfl
          | ok _ => exact pushDftAll_eq hr hroom es h3 (fun x hx => ha x (by simp [hx])) hz

/-- The first node whose data cannot be read. -/
theorem pushDftAll_busy (hr : Reach w) (hroom : Room w.heap) : ∀ (es : List (DftEvent NodeId))
    {l0 l : List (Event α)} {rest : List (Except BorrowError (Event α))} {w1 : World α} {b1 : Builder}, 
    Builder.pushAll w .new l0 = .ok (w1, b1, .ok ()) →
    (∀ x, DftEvent.opn x ∈ es → w.heap.alive x = true) →
    Zip (SerItem w.heap) (es.map DftEvent.toEvent) (l.map .ok ++ .error .mk :: rest) →
    (∀ w2 b2, Builder.pushAll w1 b1 l = .ok (w2, b2, .ok ()) →
      Builder.pushDftAll w1 b1 es = .ok (w2, b2, .error .borrowData)) ∧
    (∀ w2 b2 x, Builder.pushAll w1 b1 l = .ok (w2, b2, .error x) →
      Builder.pushDftAll w1 b1 es = .ok (w2, b2, .error x))
  | [], l0, l, rest, w1, b1, h0, ha, hz => by cases l <;> cases hz
  | e :: es, l0, [], rest, w1, b1, h0, ha, hz => by
    simp only [List.map_cons, List.map_nil, List.nil_append] at hz
    cases hz with
    | cons r hz =>
      have h1 : w1.heap.tryEvent e = .error .mk := by
        rw [tryEvent_eq hr hroom h0 (fun x hx => ha x (by simp [hx]))]; exact tryEvent_of r
      simp only [Builder.pushDftAll, Builder.pushAll, h1]
      refine ⟨?_, ?_⟩
      · rintro w2 b2 h
        simp only [Except.ok.injEq, Prod.mk.injEq] at h
        obtain ⟨rfl, rfl, -⟩ := h; rfl
      · rintro w2 b2 x h; simp at h
  | e :: es, l0, a :: l, rest, w1, b1, h0, ha, hz => by
    simp only [List.map_cons, List.cons_append] at hz
    cases hz with
    | cons r hz =>
      have h1 : w1.heap.tryEvent e = .ok a := by
        rw [tryEvent_eq hr hroom h0 (fun x hx => ha x (by simp [hx]))]; exact tryEvent_of r
      simp only [Builder.pushDftAll, Builder.pushAll, h1, bind, Except.bind]
      have h3 := pushAll_snoc (e := a) h0
      cases h2 : Builder.push w1 b1 a with
      | error f => simp
      | ok res =>
        obtain ⟨w2, b2, res⟩ := res
        rw [h2] at h3
        cases res with
        | error x => simp [pure, Except.pure]
        | ok _ => exact pushDftAll_busy hr hroom es h3 (fun x hx => ha x (by simp [hx])) hz

/-- C31: collecting depth-first events of existing nodes whose data can be read is the same as collecting
the events with the data (the nodes must exist, of course: the events hold handles to them). -/
theorem C31_from_dft_events (hr : Reach w) (hroom : Room w.heap) {es : List (DftEvent NodeId)}
    {l : List (Event α)} (ha : ∀ x, DftEvent.opn x ∈ es → w.heap.alive x = true)
    (hz : Zip (SerItem w.heap) (es.map DftEvent.toEvent) (l.map .ok)) :
    Builder.fromDftEvents w es = Builder.fromEvents w l := by
  have h0 : Builder.pushAll w .new [] = .ok (w, .new, .ok ()) := rfl
  simp only [Builder.fromDftEvents, Builder.fromEvents, pushDftAll_eq hr hroom es h0 ha hz]

/-- C31, C52: if the data of some node is mutably borrowed, collecting depth-first events fails, and
everything is as before.  The error is the borrow error if the events before are well-formed. -/
theorem C31_from_dft_events_borrowed (hr : Reach w) (hroom : Room w.heap) (W : WF w.heap ch)
    {es : List (DftEvent NodeId)} {l : List (Event α)} {rest : List (Except BorrowError (Event α))}
    (ha : ∀ x, DftEvent.opn x ∈ es → w.heap.alive x = true)
    (hz : Zip (SerItem w.heap) (es.map DftEvent.toEvent) (l.map .ok ++ .error .mk :: rest)) :
    ∃ w' err ch', Builder.fromDftEvents w es = .ok (w', .error err) ∧ Reach w' ∧ WF w'.heap ch' ∧
      Undone w w' ch ch' ∧ (Event.Good l ↔ err = .borrowData) := by
  obtain ⟨ch1, I⟩ := hr.inv
  obtain rfl := I.wf.toFShape.unique W.toFShape
  have h0 : Builder.pushAll w .new [] = .ok (w, .new, .ok ()) := rfl
  obtain ⟨k1, k2⟩ := pushDftAll_busy hr hroom es h0 ha hz
  have hsame : Undone w w ch1 ch1 :=
    ⟨⟨fun _ h => h, fun _ _ => rfl, fun _ _ => rfl, fun _ _ => rfl, fun _ _ _ => rfl, rfl, rfl, rfl⟩,
      fun _ h => h, fun _ _ => rfl⟩
  rcases Builder.pushAll_new l I hr hroom with ⟨h1, h2⟩ | ⟨w', ch', b', E', j, h1, S, h2⟩ | ⟨h1, h2⟩
  · refine ⟨w, .borrowData, ch1, ?_, hr, W, hsame, by simp [Event.Good, h1]⟩
    simp only [Builder.fromDftEvents, k1 _ _ h2, bind, Except.bind]; rfl
  · obtain ⟨w2, ch2, e2, I2, hr2, U⟩ := S.dropAll I (Nat.le_refl _) I.wf.toFShape.fresh_not_alive
    rcases h2 with ⟨h3, -, h4⟩ | ⟨h3, h4⟩
    · refine ⟨w2, .borrowData, ch2, ?_, hr2, I2.wf, U, by simp only [iff_true]; exact .inr h3⟩
      simp only [Builder.fromDftEvents, k1 _ _ h4, e2, bind, Except.bind, pure, Except.pure]
    · refine ⟨w2, .rootClosed, ch2, ?_, hr2, I2.wf, U, by simp [h3]⟩
      simp only [Builder.fromDftEvents, k2 _ _ _ h4, e2, bind, Except.bind, pure, Except.pure]
  · refine ⟨w, .rootNotOpened, ch1, ?_, hr, W, hsame, by simp [h1]⟩
    simp only [Builder.fromDftEvents, k2 _ _ _ h2, bind, Except.bind, pure, Except.pure]; rfl

theorem zip_events {h : Heap α} : ∀ {es : List (DftEvent NodeId)} {fs : List (DftEvent α)},
    es.map (DftEvent.map h.data) = fs.map (DftEvent.map some) →
    (∀ x, DftEvent.opn x ∈ es → h.mutB x = false) →
    Zip (SerItem h) (es.map DftEvent.toEvent) ((fs.map DftEvent.toEvent).map .ok)
  | [], [], _, _ => .nil
  | [], _ :: _, e, _ => by simp at e
  | _ :: _, [], e, _ => by simp at e
  | a :: es, c :: fs, e, hb => by
    simp only [List.map_cons, List.cons.injEq] at e ⊢
    refine .cons ?_ (zip_events e.2 (fun x hx => hb x (by simp [hx])))
    cases a <;> cases c <;> simp only [DftEvent.map, DftEvent.opn.injEq, DftEvent.cls.injEq,
      reduceCtorEq, false_and, and_false] at e
    · exact .opn (hb _ (by simp)) e.1
    · exact .close 1

theorem expand_toEvent {β : Type} : ∀ fs : List (DftEvent β),
    Event.expand (fs.map DftEvent.toEvent) = fs.map DftEvent.toStep
  | [] => rfl
  | .opn v :: fs => by simp [DftEvent.toEvent, Event.expand, DftEvent.toStep, expand_toEvent fs]
  | .cls v :: fs => by simp [DftEvent.toEvent, Event.expand, DftEvent.toStep, expand_toEvent fs]

/-- C30: collecting the depth-first traversal of a subtree makes a new tree with the same shape and data;
nothing else changes. -/
theorem C30_collect_traversal {n : NodeId} {t : RTree NodeId} {u : RTree α} (hr : Reach w)
    (hroom : Room w.heap) (W : WF w.heap ch) (ha : w.heap.alive n = true) (ht : SubtreeAt ch n t)
    (hd : HasData w.heap t u) (hb : ∀ x ∈ t.nodes, w.heap.mutB x = false) :
    ∃ es, Yields (Dft.next w.heap) (Dft.start n) es ∧
      ∃ w' m ch', Builder.fromDftEvents w es = .ok (w', .ok m) ∧ Reach w' ∧ WF w'.heap ch' ∧
        NewTree w w' ch' m u ∧ GotPlain w w' m ∧ Untouched w w' ch ch' none := by
  refine ⟨t.events, (C19_depth_first W.toFShape ha ht).1, ?_⟩
  have hz := zip_events (h := w.heap) (es := t.events) (fs := u.events)
    (by rw [← events_map, ← events_map, hd]) (fun x hx => hb x ((mem_events_opn t).1 hx))
  rw [C31_from_dft_events hr hroom
    (fun x hx => W.desc_alive ha ((ht.mem_nodes_iff x).1 ((mem_events_opn t).1 hx))) hz]
  exact (C31_from_events hr hroom W _).1 0 u (by
    rw [Describes, expand_toEvent, List.replicate_zero, List.append_nil]; rfl)

/-! ### Concrete cases -/

example : Reach (DemoWorld.at_ 8) ∧ Room (DemoWorld.at_ 8).heap ∧
    Describes (Event.expand [.opn 1, .opn 2, .close 1, .opn 3]) 2 (.node 1 [.node 2 [], .node 3 []]) ∧
    (Kind.frozen ≠ Kind.plain) :=
  ⟨DemoWorld.reach8, DemoWorld.room 8 (by decide), rfl, by decide⟩

/-- Events that open the nodes 1 and 4 of different trees. -/
example : (∀ x, DftEvent.opn x ∈ [DftEvent.opn 1, .opn 4, .cls 4] → (DemoWorld.at_ 8).heap.alive x = true) ∧
    Zip (SerItem (DemoWorld.at_ 8).heap) (([.opn 1, .opn 4, .cls 4] : List (DftEvent NodeId)).map DftEvent.toEvent)
      (([.opn 11, .opn 20, .close 1] : List (Event Nat)).map .ok) :=
  ⟨by simp only [List.mem_cons, DftEvent.opn.injEq, List.not_mem_nil, or_false, reduceCtorEq]
      rintro x (rfl | rfl) <;> rfl,
    .cons (.opn rfl rfl) (.cons (.opn rfl rfl) (.cons (.close 1) .nil))⟩

/-- The demo program after 8 calls; then the data of node 4 is borrowed mutably. -/
private def demoBusy : World Nat :=
  { DemoWorld.at_ 8 with heap := { (DemoWorld.at_ 8).heap with mutB := upd (DemoWorld.at_ 8).heap.mutB 4 true } }

private theorem demoBusy_reach : Reach demoBusy :=
  .step (op := .borrowMut 4 true) (r := .unit) DemoWorld.reach8
    ⟨⟨.hot, by decide⟩, fun _ _ => trivial, DemoWorld.room 8 (by decide), rfl⟩

example : Reach demoBusy ∧ Room demoBusy.heap ∧ (∃ ch, WF demoBusy.heap ch) ∧
    (∀ x, DftEvent.opn x ∈ [DftEvent.opn 1, .opn 4, .cls 4] → demoBusy.heap.alive x = true) ∧
    Zip (SerItem demoBusy.heap) (([.opn 1, .opn 4, .cls 4] : List (DftEvent NodeId)).map DftEvent.toEvent)
      (([.opn 11] : List (Event Nat)).map .ok ++ .error .mk :: [.ok (.close 1)]) := by
  obtain ⟨ch, I⟩ := demoBusy_reach.inv
  refine ⟨demoBusy_reach, DemoWorld.room 8 (by decide), ⟨ch, I.wf⟩, ?_, ?_⟩
  · simp only [List.mem_cons, DftEvent.opn.injEq, List.not_mem_nil, or_false, reduceCtorEq]
    rintro x (rfl | rfl) <;> rfl
  · exact .cons (.opn rfl rfl) (.cons (.busy rfl) (.cons (.close 1) .nil))

end Dendron
