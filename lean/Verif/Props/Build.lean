import Verif.Proofs.BuildEscape
import Verif.Proofs.Scan
import Verif.Props.Serial
import Verif.Proofs.DemoWorld

/-!
# C30-C33: `TreeBuilder`

`Event.expand l`: the single opening and closing steps of the events `l`.  `Describes E k t`: after the
steps `E`, `k` nodes are open and closing them gives `t`.  `Event.scan none l`: the number of open nodes
after the events `l` (`some none`: nothing opened so far; `none`: the events do not fit).
-/

set_option autoImplicit false

namespace Dendron
open RTree
variable {α β : Type} {w w' : World α} {ch : NodeId → List NodeId} {b : Builder}

/-! ### C31 -/

/-- The two descriptions of well-formed sequences agree: prefixes of the sequence of one tree, and
sequences in which no step comes before the root is opened except openings, nothing follows the closing
of the root, and nothing is closed that is not open. -/
theorem C31_wellformed (l : List (Event β)) :
    (Event.Good l ↔ Event.scan none l ≠ none) ∧
    (Event.scan none l = some none ↔ Event.expand l = []) ∧
    (∀ k, Event.scan none l = some (some k) ↔ ∃ t, Describes (Event.expand l) k t) ∧
    (∀ k k' t t', Describes (Event.expand l) k t → Describes (Event.expand l) k' t' →
      k = k' ∧ t = t') := by
  obtain ⟨h1, h2⟩ := scan_none l
  refine ⟨?_, h1, h2, fun _ _ _ _ a b => a.unique b⟩
  constructor
  · rintro (h | ⟨k, t, h⟩)
    · rw [h1.2 h]; simp
    · rw [(h2 k).2 ⟨t, h⟩]; simp
  · intro h
    cases e : Event.scan none l with
    | none => exact absurd e h
    | some o =>
      cases o with
      | none => exact .inl (h1.1 e)
      | some k => exact .inr ⟨k, (h2 k).1 e⟩

/-- C31: a new builder accepts exactly the well-formed event sequences; no call panics. -/
theorem C31_accepts (hr : Reach w) (hroom : Room w.heap) (l : List (Event α)) :
    ∃ w' b res, Builder.pushAll w .new l = .ok (w', b, res) ∧ Reach w' ∧
      (res = .ok () ↔ Event.Good l) := by
  obtain ⟨ch, I⟩ := hr.inv
  rcases Builder.pushAll_new l I hr hroom with ⟨h1, h2⟩ | ⟨w', ch', b', E', j, h1, S, h2⟩ | ⟨h1, h2⟩
  · exact ⟨_, _, _, h2, hr, by simp [Event.Good, h1]⟩
  · rcases h2 with ⟨⟨i, t, h3⟩, -, h5⟩ | ⟨h3, h4⟩
    · exact ⟨_, _, _, h5, S.run.reach, by simp only [true_iff]; exact .inr ⟨i, t, h3⟩⟩
    · exact ⟨_, _, _, h4, S.run.reach, by simp [h3]⟩
  · exact ⟨_, _, _, h2, hr, by simp [h1]⟩

/-- After accepted events: nothing was opened, or the state of the builder. -/
theorem accepted (hr : Reach w) (hroom : Room w.heap) (I : Inv w ch) {l : List (Event α)}
    (h : Builder.pushAll w .new l = .ok (w', b, .ok ())) :
    (Event.expand l = [] ∧ w' = w ∧ b = .new) ∨
    (Event.expand l ≠ [] ∧ ∃ ch' j, (∀ p, w.heap.nNode ∉ ch' p) ∧
      BState w ch w' ch' w.heap.nNode w.heap.nTree [] (Event.expand l) b j) := by
  rcases Builder.pushAll_new l I hr hroom with ⟨h1, h2⟩ | ⟨w1, ch', b', E', j, h1, S, h2⟩ | ⟨h1, h2⟩
  · rw [h] at h2
    simp only [Except.ok.injEq, Prod.mk.injEq] at h2
    exact .inl ⟨h1, h2.1, h2.2.1⟩
  · rcases h2 with ⟨⟨i, t, h3⟩, h4, h5⟩ | ⟨h3, h4⟩
    · rw [h] at h5
      simp only [Except.ok.injEq, Prod.mk.injEq] at h5
      obtain ⟨rfl, rfl, -⟩ := h5
      subst h4
      refine .inr ⟨?_, ch', j, h1, S⟩
      intro hc
      rw [hc] at h3
      exact absurd h3 (by
        intro hu
        rw [Describes] at hu
        cases t with
        | node v cs => rw [steps_node] at hu; cases i <;> simp [List.replicate_succ] at hu)
    · rw [h] at h4; simp at h4
  · rw [h] at h2; simp at h2

/-- C31: `is_root_available` tells whether a node was opened, `is_root_closed` whether the root was
closed. -/
theorem C31_flags (hr : Reach w) (hroom : Room w.heap) {l : List (Event α)}
    (h : Builder.pushAll w .new l = .ok (w', b, .ok ())) :
    (b.isRootAvailable = true ↔ ∃ k, Event.scan none l = some (some k)) ∧
    (b.isRootClosed = true ↔ Event.scan none l = some (some 0)) := by
  obtain ⟨ch, I⟩ := hr.inv
  obtain ⟨s1, s2⟩ := scan_none l
  rcases accepted hr hroom I h with ⟨h1, rfl, rfl⟩ | ⟨h1, ch', j, h2, S⟩
  · rw [s1.2 h1]; simp [Builder.isRootAvailable, Builder.isRootClosed, Builder.new]
  · obtain ⟨u, s, hd, -⟩ := S.facts
    have hk := (s2 j).2 ⟨u, hd⟩
    rw [hk]
    simp only [Builder.isRootAvailable, Builder.isRootClosed, S.root, Option.isSome_some,
      Bool.true_and, Option.isNone_iff_eq_none, S.closed h2]
    simp

/-- C31: the next event is accepted exactly if the whole sequence is well-formed; otherwise the error is
`RootNotOpened` if no node was opened so far and `RootClosed` else. -/
theorem C31_next (hr : Reach w) (hroom : Room w.heap) {l : List (Event α)}
    (h : Builder.pushAll w .new l = .ok (w', b, .ok ())) (e : Event α) :
    ∃ w'' b'' res, Builder.push w' b e = .ok (w'', b'', res) ∧ Reach w'' ∧
      (res = .ok () ↔ Event.Good (l ++ [e])) ∧
      ∀ err, res = .error err →
        err = if Event.scan none l = some none then .rootNotOpened else .rootClosed := by
  obtain ⟨ch, I⟩ := hr.inv
  obtain ⟨s1, s2⟩ := scan_none l
  rcases accepted hr hroom I h with ⟨h1, rfl, rfl⟩ | ⟨h1, ch', j, h2, S⟩
  · have hg : Event.Good (l ++ [e]) ↔ Event.Good [e] := by
      simp only [Event.Good, expand_append, h1, List.nil_append]
    rw [hg, if_pos (s1.2 h1)]
    rcases Builder.pushAll_new [e] I hr hroom with ⟨h1, h2⟩ | ⟨w', ch', b', E', j, h1, S, h2⟩ | ⟨h1, h2⟩
    · refine ⟨w', .new, .ok (), ?_, hr, by simp [Event.Good, h1], by simp⟩
      cases e with
      | opn d => simp [Event.expand] at h1
      | close n =>
        cases n with
        | zero => rfl
        | succ n => simp [Event.expand, List.replicate_succ] at h1
    · cases e with
      | opn d =>
        obtain ⟨w1, e1, S1, -⟩ := Builder.opn_new (d := d) I hr hroom
        refine ⟨_, _, _, e1, S1.run.reach, ?_, by simp⟩
        simp only [true_iff]
        obtain ⟨u, s, hd, -⟩ := S1.facts
        exact .inr ⟨1, u, hd⟩
      | close n =>
        cases n with
        | zero => exact ⟨_, .new, .ok (), rfl, hr, by simp [Event.Good, Event.expand], by simp⟩
        | succ n =>
          refine ⟨_, .new, .error .rootNotOpened, by simp [Builder.push, Builder.close, Builder.new],
            hr, ?_, by simp⟩
          simp only [reduceCtorEq, false_iff]
          rintro (hc | ⟨k, t, hc⟩)
          · simp [Event.expand, List.replicate_succ] at hc
          · simp only [Event.expand, List.replicate_succ, List.cons_append] at hc
            exact not_describes_nil hc
    · cases e with
      | opn d =>
        exfalso
        obtain ⟨w1, e1, S1, -⟩ := Builder.opn_new (d := d) I hr hroom
        obtain ⟨u, s, hd, -⟩ := S1.facts
        exact h1 (.inr ⟨1, u, hd⟩)
      | close n =>
        cases n with
        | zero => exact absurd (show Event.Good [Event.close 0] by simp [Event.Good, Event.expand]) h1
        | succ n =>
          exact ⟨_, .new, .error .rootNotOpened, by simp [Builder.push, Builder.close, Builder.new],
            hr, by simp [h1], by simp⟩
  · have hg : Event.Good (l ++ [e]) ↔ ∃ j t, Describes (Event.expand l ++ Event.expand [e]) j t := by
      simp only [Event.Good, expand_append, List.append_eq_nil_iff, h1, false_and, false_or]
    rw [hg, if_neg (fun hc => h1 (s1.1 hc))]
    by_cases hc : ∃ j t, Describes (Event.expand l ++ Event.expand [e]) j t
    · obtain ⟨w1, ch1, b1, j1, e1, S1, -⟩ := S.push_ok e hc
      exact ⟨_, _, _, e1, S1.run.reach, by simp only [true_iff]; exact hc, by simp⟩
    · obtain ⟨w1, b1, E1, j1, e1, S1, -⟩ := S.push_err h2 e hc
      exact ⟨_, _, _, e1, S1.run.reach, by simp [hc], by simp⟩

/-- C31: `finish` fails exactly if no node was opened; otherwise it returns the root of a new tree with
the data and shape the events describe (open nodes being closed), and nothing else has changed. -/
theorem C31_finish (hr : Reach w) (hroom : Room w.heap) (W : WF w.heap ch) {l : List (Event α)}
    (h : Builder.pushAll w .new l = .ok (w', b, .ok ())) :
    (Event.scan none l = some none → Builder.finish w' b = .ok (w, .error .rootNotOpened)) ∧
    (∀ k t, Describes (Event.expand l) k t → ∃ w'' n ch'', Builder.finish w' b = .ok (w'', .ok n) ∧
      Reach w'' ∧ WF w''.heap ch'' ∧ NewTree w w'' ch'' n t ∧ GotPlain w w'' n ∧
      Untouched w w'' ch ch'' none) := by
  obtain ⟨ch1, I⟩ := hr.inv
  obtain rfl := I.wf.toFShape.unique W.toFShape
  obtain ⟨s1, s2⟩ := scan_none l
  rcases accepted hr hroom I h with ⟨h1, rfl, rfl⟩ | ⟨h1, ch', j, h2, S⟩
  · refine ⟨fun _ => rfl, ?_⟩
    intro k t hd
    rw [(s1.2 h1)] at s2
    exact absurd ((s2 k).2 ⟨t, hd⟩) (by simp)
  · refine ⟨fun hc => absurd (s1.1 hc) h1, ?_⟩
    intro k t hd
    obtain ⟨w2, e2, S2, R2⟩ := S.finish
    obtain ⟨u, hu, hN⟩ := S.newTree S2 R2 (Nat.le_refl _) h2
    obtain ⟨-, rfl⟩ := hu.unique hd
    refine ⟨w2, _, ch', e2, R2.reach, R2.inv.wf, hN, R2.gotPlain, ?_⟩
    have := R2.untouched I.wf
    refine { this with children := ?_ }
    intro x hx _
    refine this.children x hx ?_
    have hf := I.wf.toFShape.fresh_not_alive
    intro hc
    simp only [Option.some.injEq] at hc
    subst hc; rw [hf] at hx; cases hx

/-- C31: collecting events: the tree they describe, or an error and everything is as before. -/
theorem C31_from_events (hr : Reach w) (hroom : Room w.heap) (W : WF w.heap ch) (l : List (Event α)) :
    (∀ k t, Describes (Event.expand l) k t → ∃ w' n ch', Builder.fromEvents w l = .ok (w', .ok n) ∧
      Reach w' ∧ WF w'.heap ch' ∧ NewTree w w' ch' n t ∧ GotPlain w w' n ∧
      Untouched w w' ch ch' none) ∧
    ((∀ k t, ¬ Describes (Event.expand l) k t) → ∃ w' err ch',
      Builder.fromEvents w l = .ok (w', .error err) ∧ Reach w' ∧ WF w'.heap ch' ∧
      Undone w w' ch ch') := by
  constructor
  · intro k t hd
    obtain ⟨w1, b, res, e1, -, h1⟩ := C31_accepts hr hroom l
    have : res = .ok () := h1.2 (.inr ⟨k, t, hd⟩)
    subst this
    obtain ⟨w2, n, ch2, e2, h2⟩ := (C31_finish hr hroom W e1).2 k t hd
    refine ⟨w2, n, ch2, ?_, h2⟩
    simp only [Builder.fromEvents, e1, bind, Except.bind]; exact e2
  · intro hn
    obtain ⟨ch1, I⟩ := hr.inv
    obtain rfl := I.wf.toFShape.unique W.toFShape
    have hsame : Undone w w ch1 ch1 :=
      ⟨⟨fun _ h => h, fun _ _ => rfl, fun _ _ => rfl, fun _ _ => rfl, fun _ _ _ => rfl, rfl, rfl, rfl⟩,
        fun _ h => h, fun _ _ => rfl⟩
    rcases Builder.pushAll_new l I hr hroom with ⟨h1, h2⟩ | ⟨w', ch', b', E', j, h1, S, h2⟩ | ⟨h1, h2⟩
    · refine ⟨w, .rootNotOpened, ch1, ?_, hr, W, hsame⟩
      simp only [Builder.fromEvents, h2, bind, Except.bind]; rfl
    · rcases h2 with ⟨⟨i, t, h3⟩, -, -⟩ | ⟨h3, h4⟩
      · exact absurd h3 (hn i t)
      · obtain ⟨w2, ch2, e2, I2, hr2, U⟩ := S.dropAll I (Nat.le_refl _) I.wf.toFShape.fresh_not_alive
        refine ⟨w2, .rootClosed, ch2, ?_, hr2, I2.wf, U⟩
        simp only [Builder.fromEvents, h4, e2, bind, Except.bind, pure, Except.pure]
    · refine ⟨w, .rootNotOpened, ch1, ?_, hr, W, hsame⟩
      simp only [Builder.fromEvents, h2, bind, Except.bind, pure, Except.pure]; rfl

/-- The concrete program state: two trees `10(11(13), 12)` and `20`, hot handles to nodes 1 and 4. -/
example : Reach (DemoWorld.at_ 8) ∧ Room (DemoWorld.at_ 8).heap :=
  ⟨DemoWorld.reach8, DemoWorld.room 8 (by decide)⟩

example : ∃ w' n ch', Builder.fromEvents (DemoWorld.at_ 8)
      [.opn 1, .opn 2, .close 1, .opn 3, .opn 4] = .ok (w', .ok n) ∧ Reach w' ∧ WF w'.heap ch' ∧
      NewTree (DemoWorld.at_ 8) w' ch' n (.node 1 [.node 2 [], .node 3 [.node 4 []]]) := by
  obtain ⟨ch, I⟩ := DemoWorld.reach8.inv
  obtain ⟨w', n, ch', h1, h2, h3, h4, -⟩ :=
    (C31_from_events DemoWorld.reach8 (DemoWorld.room 8 (by decide)) I.wf
      [.opn 1, .opn 2, .close 1, .opn 3, .opn 4]).1 3 (.node 1 [.node 2 [], .node 3 [.node 4 []]]) rfl
  exact ⟨w', n, ch', h1, h2, h3, h4⟩

example : ∃ w' err ch', Builder.fromEvents (DemoWorld.at_ 8)
      [.opn 1, .opn 2, .close 2, .opn 3] = .ok (w', .error err) ∧ Reach w' ∧ WF w'.heap ch' := by
  obtain ⟨ch, I⟩ := DemoWorld.reach8.inv
  have hn : ∀ k t, ¬ Describes (Event.expand [.opn 1, .opn 2, .close 2, .opn 3]) k t := by
    intro k t h
    exact absurd (((C31_wellformed [.opn 1, .opn 2, .close 2, .opn 3]).2.2.1 k).2 ⟨t, h⟩)
      (by simp [Event.scan])
  obtain ⟨w', n, ch', h1, h2, h3, -⟩ :=
    (C31_from_events DemoWorld.reach8 (DemoWorld.room 8 (by decide)) I.wf _).2 hn
  exact ⟨w', n, ch', h1, h2, h3⟩

/-! ### C30 -/

mutual
/-- Relabeling keeps the pre-order. -/
theorem nodes_map {β γ : Type} (f : β → γ) : ∀ t : RTree β, (t.map f).nodes = t.nodes.map f
  | .node v cs => by simp [map, nodes, nodesL_map f cs]
/-- The same for a list of trees. -/
theorem nodesL_map {β γ : Type} (f : β → γ) : ∀ cs : List (RTree β), nodesL (mapL f cs) = (nodesL cs).map f
  | [] => by simp [mapL, nodesL]
  | c :: cs => by simp [mapL, nodesL, nodes_map f c, nodesL_map f cs]
end

/-- C30: the events of a subtree, collected by a builder, make a new tree with the same shape and data;
nothing else changes; and serializing the new tree gives the same events. -/
theorem C30_round_trip {n : NodeId} {t : RTree NodeId} {u : RTree α} (hr : Reach w)
    (hroom : Room w.heap) (W : WF w.heap ch) (ha : w.heap.alive n = true) (ht : SubtreeAt ch n t)
    (hd : HasData w.heap t u) (hb : ∀ x ∈ t.nodes, w.heap.mutB x = false)
    (hs : 2 * t.size ≤ usizeMax) :
    ∃ l, Yields w.heap.serNext (Dft.start n) (l.map .ok) ∧
      ∃ w' m ch', Builder.fromEvents w l = .ok (w', .ok m) ∧ Reach w' ∧ WF w'.heap ch' ∧
        NewTree w w' ch' m u ∧ GotPlain w w' m ∧ Untouched w w' ch ch' none ∧
        Yields w'.heap.serNext (Dft.start m) (l.map .ok) := by
  obtain ⟨l, hc, hy⟩ := C29_to_events W.toFShape ha ht hd hb hs
  have hdesc : Describes (Event.expand l) 0 u := by
    rw [Describes, List.replicate_zero, List.append_nil]; exact hc.same
  obtain ⟨w', m, ch', e, h1, h2, hN, h4, h5⟩ := (C31_from_events hr hroom W l).1 0 u hdesc
  refine ⟨l, hy, w', m, ch', e, h1, h2, hN, h4, h5, ?_⟩
  obtain ⟨s, g1, g2, g3⟩ := hN.shape
  have hsz : s.size = t.size := by
    have e1 : s.map w'.heap.data = t.map w.heap.data := by rw [g2, hd]
    have := congrArg (fun t => t.nodes.length) e1
    simpa [nodes_map, size] using this
  have hm : m ∈ s.nodes := (g1.mem_nodes_iff m).2 (.refl _)
  obtain ⟨l', hc', hy'⟩ := C29_to_events h2.toFShape (g3 m hm).2.1 g1 g2 (fun x hx => (g3 x hx).2.2)
    (by rw [hsz]; exact hs)
  rw [hc'.unique hc] at hy'
  exact hy'

/-- The children in the demo program after 8 calls: node 1 has the child 3, nodes 3 and 4 have none. -/
theorem DemoWorld.children8 {ch : NodeId → List NodeId} (F : FShape (DemoWorld.at_ 8).heap ch) :
    ch 1 = [3] ∧ ch 3 = [] ∧ ch 4 = [] := by
  have h1 : (ch 1).head? = some 3 := (F.first 1 rfl).symm.trans rfl
  have h3 : (ch 3).head? = none := (F.first 3 rfl).symm.trans rfl
  have h4 : (ch 4).head? = none := (F.first 4 rfl).symm.trans rfl
  refine ⟨?_, List.head?_eq_none_iff.1 h3, List.head?_eq_none_iff.1 h4⟩
  have hs := F.seg 1
  cases hc : ch 1 with
  | nil => rw [hc] at h1; simp at h1
  | cons a l =>
    rw [hc] at h1 hs
    obtain rfl : a = 3 := by simpa using h1
    cases l with
    | nil => rfl
    | cons b l =>
      have : (DemoWorld.at_ 8).heap.next 3 = some b := hs.1
      exact absurd this (by simp [show (DemoWorld.at_ 8).heap.next 3 = none from rfl])

example : ∃ (ch : NodeId → List NodeId) (t : RTree NodeId) (u : RTree Nat),
    Reach (DemoWorld.at_ 8) ∧ Room (DemoWorld.at_ 8).heap ∧ WF (DemoWorld.at_ 8).heap ch ∧
    (DemoWorld.at_ 8).heap.alive 1 = true ∧ SubtreeAt ch 1 t ∧ HasData (DemoWorld.at_ 8).heap t u ∧
    (∀ x ∈ t.nodes, (DemoWorld.at_ 8).heap.mutB x = false) ∧ 2 * t.size ≤ usizeMax ∧ t.size = 2 := by
  obtain ⟨ch, I⟩ := DemoWorld.reach8.inv
  obtain ⟨h1, h3, -⟩ := DemoWorld.children8 I.wf.toFShape
  exact ⟨ch, .node 1 [.node 3 []], .node 11 [.node 13 []], DemoWorld.reach8,
    DemoWorld.room 8 (by decide), I.wf, rfl, by simp [SubtreeAt, label, Hier, HierL, h1, h3], rfl,
    by decide, by decide, rfl⟩

/-! ### C32 -/

/-- C32: a failing `open` changes nothing, in any state. -/
theorem C32_open {e : BuildError} {w : World α} {d : α} {b' : Builder}
    (h : Builder.opn w b d = .ok (w', b', .error e)) : w' = w ∧ b' = b := by
  unfold Builder.opn at h
  split at h
  · simp only [bind, Except.bind, pure, Except.pure] at h
    split at h
    · cases h
    · split at h
      · split at h
        · cases h
        · simp at h
      · cases h
  · split at h
    · simp only [pure, Except.pure, Except.ok.injEq, Prod.mk.injEq] at h
      exact ⟨h.1.symm, h.2.1.symm⟩
    · simp only [bind, Except.bind, pure, Except.pure] at h
      split at h
      · cases h
      · split at h
        · split at h
          · cases h
          · simp at h
        · cases h

/-- C32: a failing `close` changes nothing if no node is open (nothing was opened so far, or the root is
closed).  Missing: `close` while nodes are open, see `C32_violated`. -/
theorem C32_close_partial {e : BuildError} {w : World α} {n : Nat} {b' : Builder}
    (hb : b.cur = none) (h : Builder.close w b n = .ok (w', b', .error e)) : w' = w ∧ b' = b := by
  unfold Builder.close at h
  rw [hb] at h
  simp only at h
  split at h
  · simp at h
  · split at h <;> simp only [Except.ok.injEq, Prod.mk.injEq] at h <;> exact ⟨h.1.symm, h.2.1.symm⟩

example : Builder.close (World.init : World Nat) .new 3
    = .ok (World.init, .new, .error .rootNotOpened) := rfl

/-- C32, what a failing `close` does while `k + 1` nodes are open: the state is the one after a successful
`close(k)`, that is, all nodes but the root are closed. -/
theorem C32_close_outcome (hr : Reach w) (hroom : Room w.heap) {l : List (Event α)} {k n : Nat}
    {t : RTree α} (h : Builder.pushAll w .new l = .ok (w', b, .ok ()))
    (hd : Describes (Event.expand l) (k + 1) t) (hn : k + 1 < n) :
    ∃ w'' b'', Builder.close w' b n = .ok (w'', b'', .error .rootClosed) ∧
      Builder.close w' b k = .ok (w'', b'', .ok ()) := by
  obtain ⟨ch, I⟩ := hr.inv
  rcases accepted hr hroom I h with ⟨h1, rfl, rfl⟩ | ⟨h1, ch', j, h2, S⟩
  · exact absurd ((scan_none l).2 (k + 1) |>.2 ⟨t, hd⟩) (by rw [(scan_none l).1.2 h1]; simp)
  · obtain ⟨u, s, hu, -⟩ := S.facts
    obtain ⟨hj, -⟩ := hu.unique hd
    cases S with
    | opened O =>
      rename_i x ks fs
      obtain rfl : k = fs.length := by omega
      obtain ⟨w2, e1, e2⟩ := O.close_fail hn
      exact ⟨w2, _, e1, e2⟩
    | complete C => simp at hj

example : ∃ (w' : World Nat) (b : Builder), Reach (World.init : World Nat) ∧
    Room (World.init : World Nat).heap ∧
    Builder.pushAll World.init .new [.opn 0, .opn 1] = .ok (w', b, .ok ()) ∧
    Describes (Event.expand [.opn 0, .opn 1]) (1 + 1) (.node 0 [.node 1 []]) ∧ 1 + 1 < 5 :=
  ⟨_, _, .init, DemoWorld.room 0 (by decide), rfl, rfl, by decide⟩

/-- C32, when a failing `close` is harmless: if only the root is open nothing changes; if two or more
nodes are open the property is ALWAYS violated: a node opened afterwards becomes a child of the root `r`,
a node opened without the failing call would have become a child of another node. -/
theorem C32_close_always_violated (hr : Reach w) (hroom : Room w.heap) {l : List (Event α)} {k n : Nat}
    {t : RTree α} (h : Builder.pushAll w .new l = .ok (w', b, .ok ()))
    (hd : Describes (Event.expand l) (k + 1) t) (hn : k + 1 < n) :
    ∃ w2 b2, Builder.close w' b n = .ok (w2, b2, .error .rootClosed) ∧
      (k = 0 → w2 = w' ∧ b2 = b) ∧
      (0 < k → ∀ d, ∃ w3 b3 w4 b4 m x r, Builder.opn w' b d = .ok (w3, b3, .ok ()) ∧
        Builder.opn w2 b2 d = .ok (w4, b4, .ok ()) ∧ w'.heap.alive m = false ∧
        w3.heap.parentLink m = some x ∧ w4.heap.parentLink m = some r ∧ x ≠ r) := by
  obtain ⟨ch, I⟩ := hr.inv
  rcases accepted hr hroom I h with ⟨h1, rfl, rfl⟩ | ⟨h1, ch', j, h2, S⟩
  · exact absurd ((scan_none l).2 (k + 1) |>.2 ⟨t, hd⟩) (by rw [(scan_none l).1.2 h1]; simp)
  · obtain ⟨u, s, hu, -⟩ := S.facts
    obtain ⟨hj, -⟩ := hu.unique hd
    cases S with
    | opened O =>
      rename_i x ks fs
      obtain rfl : k = fs.length := by omega
      obtain ⟨w2, e1, e2, e3⟩ := O.close_moves hn
      refine ⟨w2, _, e1, ?_, ?_⟩
      · intro h0
        obtain ⟨rfl, rfl⟩ := e2 (List.eq_nil_of_length_eq_zero h0)
        exact ⟨rfl, rfl⟩
      · intro h0 d
        obtain ⟨f0, f1⟩ := e3 (by rintro rfl; simp at h0)
        obtain ⟨w3, b3, w4, b4, g1, g2, g3, g4, g5⟩ := f1 d
        exact ⟨w3, b3, w4, b4, _, _, _, g1, g2, g3, g4, g5, f0⟩
    | complete C => simp at hj

/-- C32 is violated: after `open(0); open(1)`, the failing call `close(5)` makes the next `open(2)` add
the node below the root instead of below the node 1. -/
theorem C32_violated : ∃ (w w1 w2 w3 w4 : World Nat) (b b2 b3 b4 : Builder), Reach w ∧
    Builder.pushAll w .new [.opn 0, .opn 1] = .ok (w1, b, .ok ()) ∧
    Builder.close w1 b 5 = .ok (w2, b2, .error .rootClosed) ∧
    Builder.opn w1 b 2 = .ok (w3, b3, .ok ()) ∧ Builder.opn w2 b2 2 = .ok (w4, b4, .ok ()) ∧
    w3.heap.parentLink 2 = some 1 ∧ w4.heap.parentLink 2 = some 0 :=
  ⟨World.init, _, _, _, _, _, _, _, _, .init, rfl, rfl, rfl, rfl, rfl, rfl⟩

/-! ### C33

The existing subtree of the start node has the data `u0`; `l0` is any event sequence that builds it and
leaves its root open.  The builder then behaves as if it had been given `l0`. -/

/-- C33: a builder started at any node accepts what continues the subtree of that node to a well-formed
sequence.  It adds nodes below the start node only, after its existing children: all new nodes are
descendants, all other nodes are unchanged.  (Missing for start nodes with a parent: sequences that
close the start node are followed by further events, see `C33_violated`.) -/
theorem C33_inside_partial {r : NodeId} {T : TreeId} {t0 : RTree NodeId} {u0 : RTree α}
    {l0 l : List (Event α)} {k : Nat} {u : RTree α} (hr : Reach w) (hroom : Room w.heap)
    (W : WF w.heap ch) (hk : 0 < w.held .hot r) (hT : w.heap.nodeTree r = .ok T)
    (hsmall : w.heap.grants T + 4 ≤ 2 ^ 62) (ht : SubtreeAt ch r t0) (hd : HasData w.heap t0 u0)
    (h0 : Describes (Event.expand l0) 1 u0) (hl : Describes (Event.expand (l0 ++ l)) k u) :
    ∃ w1 b1 w2 b2 w3 ch3 t, Builder.withRoot w r = .ok (w1, b1) ∧
      Builder.pushAll w1 b1 l = .ok (w2, b2, .ok ()) ∧ Builder.finish w2 b2 = .ok (w3, .ok r) ∧
      Reach w3 ∧ WF w3.heap ch3 ∧ SubtreeAt ch3 r t ∧ HasData w3.heap t u ∧
      Untouched w w3 ch ch3 (some r) ∧ ch r <+: ch3 r ∧
      (∀ x, w3.heap.alive x = true → w.heap.alive x = true ∨ Desc ch3 r x) := by
  obtain ⟨ch1, I⟩ := hr.inv
  obtain rfl := I.wf.toFShape.unique W.toFShape
  have ha := I.held_alive hk
  have hm := (W.tree.treeCore_iff ha).1 hT
  obtain ⟨w1, e1, S1⟩ := Builder.withRoot_ok I hr hroom hk hm hsmall ht hd h0
  obtain ⟨w2, ch2, b2, j, e2, S2, -⟩ := S1.pushAll_ok l ⟨k, u, by rw [← expand_append]; exact hl⟩
  obtain ⟨w3, e3, St, R3⟩ := S2.finish
  obtain ⟨v, s, f1, f2, f3, f4, f5⟩ := S2.facts
  rw [← expand_append] at f1
  obtain ⟨-, rfl⟩ := f1.unique hl
  have U := R3.untouched W
  refine ⟨w1, _, w2, b2, w3, ch2, s, e1, e2, e3, R3.reach, R3.inv.wf, f2, ?_, ⟨U.alive, U.data,
    U.borrowed, U.tree, U.children, U.trees, U.grantTok, U.prohTok⟩, R3.pre, ?_⟩
  · simp only [HasData, St.data]; exact f3
  · intro x hx
    cases hx0 : w.heap.alive x with
    | true => exact .inl rfl
    | false => exact .inr (R3.inside W (I.memTree_lt ha hm) hx hx0)

/-- C33 for a start node that is a root: exactly the sequences that continue the tree are accepted, no
call panics, and `is_root_closed` tells whether the start node is closed. -/
theorem C33_root_partial {r : NodeId} {T : TreeId} {t0 : RTree NodeId} {u0 : RTree α}
    {l0 : List (Event α)} (hr : Reach w) (hroom : Room w.heap)
    (W : WF w.heap ch) (hk : 0 < w.held .hot r) (hT : w.heap.nodeTree r = .ok T)
    (hsmall : w.heap.grants T + 4 ≤ 2 ^ 62) (ht : SubtreeAt ch r t0) (hd : HasData w.heap t0 u0)
    (h0 : Describes (Event.expand l0) 1 u0) (hroot : ∀ p, r ∉ ch p) (l : List (Event α)) :
    ∃ w1 b1 w2 b2 res, Builder.withRoot w r = .ok (w1, b1) ∧
      Builder.pushAll w1 b1 l = .ok (w2, b2, res) ∧ (res = .ok () ↔ Event.Good (l0 ++ l)) ∧
      b2.isRootAvailable = true ∧
      (res = .ok () → (b2.isRootClosed = true ↔ Event.scan none (l0 ++ l) = some (some 0))) := by
  obtain ⟨ch1, I⟩ := hr.inv
  obtain rfl := I.wf.toFShape.unique W.toFShape
  have ha := I.held_alive hk
  have hm := (W.tree.treeCore_iff ha).1 hT
  obtain ⟨w1, e1, S1⟩ := Builder.withRoot_ok I hr hroom hk hm hsmall ht hd h0
  obtain ⟨w2, ch2, b2, E2, j, h1, S2, h2⟩ := S1.pushAll l hroot
  have hav : b2.isRootAvailable = true := by simp [Builder.isRootAvailable, S2.root]
  have hg : Event.Good (l0 ++ l) ↔ ∃ i t, Describes (Event.expand l0 ++ Event.expand l) i t := by
    simp only [Event.Good, expand_append]
    constructor
    · rintro (h | h)
      · have := (List.append_eq_nil_iff.1 h).1
        rw [this] at h0
        exact absurd ((scan_none ([] : List (Event α))).2 1 |>.2 ⟨u0, h0⟩) (by simp [Event.scan])
      · exact h
    · exact .inr
  rcases h2 with ⟨h3, h4, h5⟩ | ⟨h3, h5⟩
  · refine ⟨w1, _, w2, b2, _, e1, h5, by simp only [true_iff]; exact hg.2 h3, hav, fun _ => ?_⟩
    obtain ⟨u, s, hu, -⟩ := S2.facts
    rw [h4, ← expand_append] at hu
    rw [((scan_none (l0 ++ l)).2 j).2 ⟨u, hu⟩]
    simp only [Builder.isRootClosed, S2.root, Option.isSome_some, Bool.true_and,
      Option.isNone_iff_eq_none, S2.closed h1]
    simp
  · refine ⟨w1, _, w2, b2, _, e1, h5, by simp [hg, h3], hav, fun h => by cases h⟩

example : ∃ (ch : NodeId → List NodeId) (t0 : RTree NodeId),
    WF (DemoWorld.at_ 8).heap ch ∧ 0 < (DemoWorld.at_ 8).held .hot 1 ∧
    (DemoWorld.at_ 8).heap.nodeTree 1 = .ok 0 ∧ (DemoWorld.at_ 8).heap.grants 0 + 4 ≤ 2 ^ 62 ∧
    SubtreeAt ch 1 t0 ∧ HasData (DemoWorld.at_ 8).heap t0 (.node 11 [.node 13 []]) ∧
    Describes (Event.expand [.opn 11, .opn 13, .close 1]) 1 (.node 11 [.node 13 []]) ∧
    Describes (Event.expand ([.opn 11, .opn 13, .close 1] ++ [.opn 5, .opn 6, .close 1]) ) 2
      (.node 11 [.node 13 [], .node 5 [.node 6 []]]) := by
  obtain ⟨ch, I⟩ := DemoWorld.reach8.inv
  obtain ⟨h1, h3, -⟩ := DemoWorld.children8 I.wf.toFShape
  exact ⟨ch, .node 1 [.node 3 []], I.wf, by decide, rfl, by decide,
    by simp [SubtreeAt, label, Hier, HierL, h1, h3], rfl, rfl, rfl⟩

example : ∃ (ch : NodeId → List NodeId) (t0 : RTree NodeId),
    WF (DemoWorld.at_ 8).heap ch ∧ 0 < (DemoWorld.at_ 8).held .hot 4 ∧
    (DemoWorld.at_ 8).heap.nodeTree 4 = .ok 1 ∧ (DemoWorld.at_ 8).heap.grants 1 + 4 ≤ 2 ^ 62 ∧
    SubtreeAt ch 4 t0 ∧ HasData (DemoWorld.at_ 8).heap t0 (.node 20 []) ∧
    Describes (Event.expand [.opn 20]) 1 (.node 20 []) ∧ (∀ p, (4 : NodeId) ∉ ch p) := by
  obtain ⟨ch, I⟩ := DemoWorld.reach8.inv
  obtain ⟨-, -, h4⟩ := DemoWorld.children8 I.wf.toFShape
  refine ⟨ch, .node 4 [], I.wf, by decide, rfl, by decide,
    by simp [SubtreeAt, label, Hier, HierL, h4], rfl, rfl, fun p hp => ?_⟩
  have := ((I.wf.toFShape.mem p 4).1 hp).2
  exact absurd this (by simp [show (DemoWorld.at_ 8).heap.parent 4 = none from rfl])

/-- C33 is violated for EVERY start node with a parent: whatever sequence `l` of events completes the
start node, `is_root_closed` is false afterwards and the next `open` succeeds and adds a node to the
parent, outside the subtree of the start node. -/
theorem C33_always_violated {r p : NodeId} {T : TreeId} {t0 : RTree NodeId} {u0 : RTree α}
    {l0 l : List (Event α)} {u : RTree α} (hr : Reach w) (hroom : Room w.heap)
    (W : WF w.heap ch) (hk : 0 < w.held .hot r) (hT : w.heap.nodeTree r = .ok T)
    (hsmall : w.heap.grants T + 4 ≤ 2 ^ 62) (ht : SubtreeAt ch r t0) (hd : HasData w.heap t0 u0)
    (h0 : Describes (Event.expand l0) 1 u0) (hl : Describes (Event.expand (l0 ++ l)) 0 u)
    (hp : r ∈ ch p) (d : α) :
    ∃ w1 b1 w2 b2 w3 b3 ch3 m, Builder.withRoot w r = .ok (w1, b1) ∧
      Builder.pushAll w1 b1 l = .ok (w2, b2, .ok ()) ∧ b2.isRootClosed = false ∧
      Builder.opn w2 b2 d = .ok (w3, b3, .ok ()) ∧ Reach w3 ∧ WF w3.heap ch3 ∧
      w.heap.alive m = false ∧ w3.heap.data m = some d ∧ ch3 p = ch p ++ [m] ∧ ¬ Desc ch3 r m := by
  obtain ⟨ch1, I⟩ := hr.inv
  obtain rfl := I.wf.toFShape.unique W.toFShape
  have ha := I.held_alive hk
  have hm := (W.tree.treeCore_iff ha).1 hT
  obtain ⟨w1, e1, S1⟩ := Builder.withRoot_ok I hr hroom hk hm hsmall ht hd h0
  obtain ⟨w2, ch2, b2, j, e2, S2, hpar⟩ := S1.pushAll_ok l ⟨0, u, by rw [← expand_append]; exact hl⟩
  have hj : j = 0 := by
    obtain ⟨v, s, f1, -⟩ := S2.facts
    rw [← expand_append] at f1
    exact (f1.unique hl).1
  cases S2 with
  | opened O => simp at hj
  | complete C =>
    rename_i s cur
    have hp2 := (hpar p).2 hp
    have I2 := C.run.inv
    have hc : cur = some p := by
      have := C.cur
      cases cur with
      | none => exact absurd hp2 (this p)
      | some q => rw [I2.wf.toFShape.unique_parent this hp2]
    subst hc
    obtain ⟨w3, e3, hr3, I3, hf, hd3⟩ := C.escape d
    have hpr : p ≠ r := by
      rintro rfl; exact I.wf.coherent.acyclic _ _ hp (.refl _)
    have hk0 : ch2 p = ch1 p := C.run.keep p (by simpa using I.wf.alive_parent hp) hpr
    refine ⟨w1, _, w2, _, w3, _, _, w2.heap.nNode, e1, e2, by simp [Builder.isRootClosed], e3, hr3, I3.wf,
      ?_, hd3, by simp [hk0], ?_⟩
    · cases hx : w.heap.alive w2.heap.nNode with
      | false => rfl
      | true =>
        have := C.run.grow.alive w2.heap.nNode (by simpa using hx)
        rw [hf] at this; cases this
    · intro hdesc
      have hmp : w2.heap.nNode ∈ upd ch2 p (ch2 p ++ [w2.heap.nNode]) p := by simp
      have hrp : r ∈ upd ch2 p (ch2 p ++ [w2.heap.nNode]) p := by
        simp only [upd_same]; exact List.mem_append_left _ hp2
      cases hdesc with
      | refl => rw [I2.wf.alive_of_mem hp2] at hf; cases hf
      | step h1 h2 =>
        obtain rfl := I3.wf.toFShape.unique_parent h2 hmp
        exact I3.wf.coherent.acyclic _ _ hrp h1

example : ∃ (ch : NodeId → List NodeId) (t0 : RTree NodeId), Reach (DemoWorld.at_ 8) ∧
    WF (DemoWorld.at_ 8).heap ch ∧ 0 < (DemoWorld.at_ 8).held .hot 1 ∧
    SubtreeAt ch 1 t0 ∧ HasData (DemoWorld.at_ 8).heap t0 (.node 11 [.node 13 []]) ∧
    Describes (Event.expand [.opn 11, .opn 13, .close 1]) 1 (.node 11 [.node 13 []]) ∧
    Describes (Event.expand ([.opn 11, .opn 13, .close 1] ++ [.opn 5, .opn 6, .close 3])) 0
      (.node 11 [.node 13 [], .node 5 [.node 6 []]]) ∧ (1 : NodeId) ∈ ch 0 := by
  obtain ⟨ch, I⟩ := DemoWorld.reach8.inv
  obtain ⟨h1, h3, -⟩ := DemoWorld.children8 I.wf.toFShape
  exact ⟨ch, .node 1 [.node 3 []], DemoWorld.reach8, I.wf, by decide,
    by simp [SubtreeAt, label, Hier, HierL, h1, h3], rfl, rfl, rfl,
    (I.wf.toFShape.mem 0 1).2 ⟨rfl, rfl⟩⟩

/-- C33 is violated for a start node with a parent: after closing the start node 1, `is_root_closed` is
false and the next `open` adds a node to the parent 0, outside the subtree of the start node. -/
theorem C33_violated : ∃ (w w1 w2 w3 : World Nat) (b1 b2 b3 : Builder), Reach w ∧ 0 < w.held .hot 1 ∧
    Builder.withRoot w 1 = .ok (w1, b1) ∧ Builder.close w1 b1 1 = .ok (w2, b2, .ok ()) ∧
    b2.isRootClosed = false ∧ Builder.opn w2 b2 99 = .ok (w3, b3, .ok ()) ∧
    w3.heap.data 5 = some 99 ∧ w3.heap.parentLink 5 = some 0 ∧ w3.heap.parentLink 1 = some 0 :=
  ⟨DemoWorld.at_ 8, _, _, _, _, _, _, DemoWorld.reach8, by decide, rfl, rfl, rfl, rfl, rfl, rfl, rfl⟩

end Dendron
