import Verif.Proofs.WideBuild
import Verif.Proofs.DemoWide
import Verif.Props.Clone

/-!
# C30, C31, C34 in the histories of `ReachW`

The builder and the copying methods after calls that have left a `last_child` wrong: the trees that exist
are not touched, and what is built is right all the same.
-/

set_option autoImplicit false

namespace Dendron
open RTree
variable {α : Type} {w w' : World α} {ch : NodeId → List NodeId} {n : NodeId} {t : RTree NodeId} {u : RTree α}

/-- C31: collecting events: the tree they describe, or an error and everything is as before. -/
theorem C31_from_events_wide (hr : ReachW w) (F : FShape w.heap ch) (l : List (Event α)) (hroom : w.RoomFor l.length) :
    (∀ k t, Describes (Event.expand l) k t → ∃ w' n ch', Builder.fromEvents w l = .ok (w', .ok n) ∧
      ReachW w' ∧ FShape w'.heap ch' ∧ NewTree w w' ch' n t ∧ GotPlain w w' n ∧ Untouched w w' ch ch' none) ∧
    ((∀ k t, ¬ Describes (Event.expand l) k t) → ∃ w' err ch',
      Builder.fromEvents w l = .ok (w', .error err) ∧ ReachW w' ∧ FShape w'.heap ch' ∧ Undone w w' ch ch') := by
  obtain ⟨a, S⟩ := Shows.exists hr
  obtain rfl := F.unique S.children
  have hz : 0 + l.length = l.length := Nat.zero_add _
  obtain ⟨w1, b, res, a1, h1, A, h2⟩ := AtWork.pushAll hr S l (AtWork.init hr S) (.fresh rfl) (by rw [hz]; exact hroom)
  rw [hz] at A
  rw [List.nil_append] at h2
  constructor
  · intro k t hd
    have hE : Event.expand l ≠ [] := by
      intro hc; rw [hc] at hd; exact Describes.not_nil hd
    rcases h2 with ⟨rfl, k', F'⟩ | ⟨-, -, h3⟩
    · obtain ⟨w2, a2, n, j, v, e2, h3, S2, h4, h5, h6, h7, -⟩ := A.finish hr S hroom F' hE
      obtain ⟨-, rfl⟩ := h4.unique hd
      refine ⟨w2, n, _, ?_, h3, S2.children, h5, h6, h7⟩
      simp only [Builder.fromEvents, h1, bind, Except.bind]; exact e2
    · exact absurd ⟨k, t, hd⟩ h3
  · intro hn
    obtain ⟨w2, a2, e2, h3, S2, G, -⟩ := A.dropAll hr S hroom
    rcases h2 with ⟨rfl, k', F'⟩ | ⟨⟨err, rfl⟩, -, -⟩
    · -- nothing has been opened
      have hb : b = .new := by
        cases F' with
        | fresh => rfl
        | opened O ht => obtain ⟨v, hv, -⟩ := O.describes A.shows; exact absurd hv (hn _ _)
        | closed C ht => obtain ⟨v, hv, -⟩ := C.describes A.shows; exact absurd hv (hn _ _)
      subst hb
      refine ⟨w1, .rootNotOpened, _, ?_, A.reach, A.shows.children, A.grown.undone hr S A.reach A.shows⟩
      simp only [Builder.fromEvents, h1, bind, Except.bind]; rfl
    · refine ⟨w2, err, _, ?_, h3, S2.children, G.undone hr S h3 S2⟩
      simp only [Builder.fromEvents, h1, e2, bind, Except.bind, pure, Except.pure]

/-- C30: the events of a subtree, collected by a builder, make a new tree with the same shape and data;
nothing else changes; and serializing the new tree gives the same events. -/
theorem C30_round_trip_wide (hr : ReachW w) (F : FShape w.heap ch) (ha : w.heap.alive n = true) (ht : SubtreeAt ch n t)
    (hd : HasData w.heap t u) (hb : ∀ x ∈ t.nodes, w.heap.mutB x = false)
    (hs : 2 * t.size ≤ usizeMax) :
    ∃ l, Yields w.heap.serNext (Dft.start n) (l.map .ok) ∧ (w.RoomFor l.length →
      ∃ w' m ch', Builder.fromEvents w l = .ok (w', .ok m) ∧ ReachW w' ∧ FShape w'.heap ch' ∧
        NewTree w w' ch' m u ∧ GotPlain w w' m ∧ Untouched w w' ch ch' none ∧
        Yields w'.heap.serNext (Dft.start m) (l.map .ok)) := by
  obtain ⟨l, hc, hy⟩ := C29_to_events F ha ht hd hb hs
  have hdesc : Describes (Event.expand l) 0 u := by
    rw [Describes, List.replicate_zero, List.append_nil]; exact hc.same
  refine ⟨l, hy, fun hroom => ?_⟩
  obtain ⟨w', m, ch', e, h1, h2, hN, h4, h5⟩ := (C31_from_events_wide hr F l hroom).1 0 u hdesc
  refine ⟨w', m, ch', e, h1, h2, hN, h4, h5, ?_⟩
  obtain ⟨s, g1, g2, g3⟩ := hN.shape
  have hsz : s.size = t.size := by
    have e1 : s.map w'.heap.data = t.map w.heap.data := by rw [g2, hd]
    have := congrArg (fun t => t.nodes.length) e1
    simpa [nodes_map, size] using this
  have hm : m ∈ s.nodes := (g1.mem_nodes_iff m).2 (.refl _)
  obtain ⟨l', hc', hy'⟩ := C29_to_events h2 (g3 m hm).2.1 g1 g2 (fun x hx => (g3 x hx).2.2)
    (by rw [hsz]; exact hs)
  rw [hc'.unique hc] at hy'
  exact hy'

/-- The loop of `try_clone_subtree` from its start. -/
theorem AtWork.clone {f : Nat} {a : Forest α} (hr : ReachW w) (S : Shows w a) (ha : w.heap.alive n = true)
    (ht : SubtreeAt a.children n t) (hd : HasData w.heap t u) (hs : 2 * t.size ≤ usizeMax) (hf : 2 * t.size < f)
    (hroom : w.RoomFor (2 * t.size)) :
    ∃ w' a' b' j, AtWork w a w' a' b' (2 * t.size) ∧
      (((∀ x ∈ t.nodes, w.heap.mutB x = false) ∧ FedState a' u.steps b' j ∧
          Builder.fold f w (Dft.start n) .new = .ok (w', b', .ok ())) ∨
        ((∃ x ∈ t.nodes, w.heap.mutB x = true) ∧
          Builder.fold f w (Dft.start n) .new = .ok (w', b', .error .borrowData))) := by
  have hal : ∀ x ∈ t.nodes, a.data x ≠ none := fun x hx =>
    S.alive.1 (S.children.desc_alive ha ((ht.mem_nodes_iff x).1 hx))
  have hlen : t.events.length = 2 * t.size := events_length t
  obtain ⟨w', a', b', E', j, A, h⟩ := AtWork.fold hr S ht hal hd hs f (l := t.events) (pre := []) (AtWork.init hr S)
    (.fresh rfl) rfl rfl (by rw [hlen]; exact hf) (by rw [hlen, Nat.zero_add]; exact hroom)
  rw [hlen, Nat.zero_add] at A
  rw [← Dft.start_rest ht.1] at h
  refine ⟨w', a', b', j, A, ?_⟩
  rcases h with ⟨h1, h2, h3, rfl⟩ | ⟨⟨x, h1, h2⟩, h3⟩
  · exact .inl ⟨fun x hx => h1 x ((mem_events_opn t).2 hx), h2, h3⟩
  · exact .inr ⟨⟨x, (mem_events_opn t).1 h1, h2⟩, h3⟩

/-- C34: if no data in the subtree is mutably borrowed, `try_clone_subtree` returns the root of a new
tree made of new nodes with the same shape and data (`u`), and changes nothing else. -/
theorem C34_copies_wide {f : Nat} (hr : ReachW w) (F : FShape w.heap ch) (ha : w.heap.alive n = true) (ht : SubtreeAt ch n t)
    (hd : HasData w.heap t u) (hs : 2 * t.size ≤ usizeMax) (hf : 2 * t.size < f) (hroom : w.RoomFor (2 * t.size))
    (hb : ∀ x ∈ t.nodes, w.heap.mutB x = false) :
    ∃ w' m ch', Builder.tryCloneSubtree f w n = .ok (w', .ok m) ∧ ReachW w' ∧ FShape w'.heap ch' ∧
      NewTree w w' ch' m u ∧ GotPlain w w' m ∧ Untouched w w' ch ch' none := by
  obtain ⟨a, S⟩ := Shows.exists hr
  obtain rfl := F.unique S.children
  obtain ⟨w1, a1, b, j, A, h⟩ := AtWork.clone hr S ha ht hd hs hf hroom
  rcases h with ⟨-, h1, h2⟩ | ⟨⟨x, hx, h1⟩, -⟩
  · have hu : Describes u.steps 0 u := by simp [Describes]
    obtain ⟨w2, a2, m, j', v, e2, h3, S2, h4, h5, h6, h7, -⟩ := A.finish hr S hroom h1 (by
      intro hc; rw [hc] at hu; exact Describes.not_nil hu)
    obtain ⟨-, rfl⟩ := h4.unique hu
    refine ⟨w2, m, _, ?_, h3, S2.children, h5, h6, h7⟩
    simp only [Builder.tryCloneSubtree, h2, e2, bind, Except.bind, pure, Except.pure]
  · rw [hb x hx] at h1; cases h1

/-- C34: if some data in the subtree is mutably borrowed, `try_clone_subtree` fails, and everything is
as before the call. -/
theorem C34_fails_wide {f : Nat} (hr : ReachW w) (F : FShape w.heap ch) (ha : w.heap.alive n = true) (ht : SubtreeAt ch n t)
    (hs : 2 * t.size ≤ usizeMax) (hf : 2 * t.size < f) (hroom : w.RoomFor (2 * t.size))
    (hb : ∃ x ∈ t.nodes, w.heap.mutB x = true) :
    ∃ w' ch', Builder.tryCloneSubtree f w n = .ok (w', .error .mk) ∧ ReachW w' ∧ FShape w'.heap ch' ∧
      Undone w w' ch ch' := by
  obtain ⟨a, S⟩ := Shows.exists hr
  obtain rfl := F.unique S.children
  obtain ⟨u, hd, -⟩ := C29_data_exists_unique F ha ht
  obtain ⟨w1, a1, b, j, A, h⟩ := AtWork.clone hr S ha ht hd hs hf hroom
  rcases h with ⟨h1, -⟩ | ⟨-, h2⟩
  · obtain ⟨x, hx, h3⟩ := hb
    rw [h1 x hx] at h3; cases h3
  · obtain ⟨w2, a2, e2, h3, S2, G, -⟩ := A.dropAll hr S hroom
    refine ⟨w2, _, ?_, h3, S2.children, G.undone hr S h3 S2⟩
    simp only [Builder.tryCloneSubtree, h2, e2, bind, Except.bind, pure, Except.pure]

/-- C34: after the copying, `try_eq` of the source and the copy is `Ok(true)`. -/
theorem C34_equal_wide {f : Nat} {m : NodeId} (eq : α → α → Bool) (hq : ∀ a, eq a a = true) (hr : ReachW w)
    (F : FShape w.heap ch) (ha : w.heap.alive n = true) (ht : SubtreeAt ch n t)
    (hs : 2 * t.size ≤ usizeMax) (hf : 2 * t.size < f) (hroom : w.RoomFor (2 * t.size))
    (hc : Builder.tryCloneSubtree f w n = .ok (w', .ok m)) :
    m ≠ n ∧ w'.heap.tryEq eq n m = .ok (.ok true) := by
  obtain ⟨u, hd, -⟩ := C29_data_exists_unique F ha ht
  by_cases hb : ∃ x ∈ t.nodes, w.heap.mutB x = true
  · obtain ⟨w1, ch1, e, -⟩ := C34_fails_wide hr F ha ht hs hf hroom hb
    rw [e] at hc; simp at hc
  · have hb : ∀ x ∈ t.nodes, w.heap.mutB x = false := by
      intro x hx
      cases h : w.heap.mutB x with
      | false => rfl
      | true => exact absurd ⟨x, hx, h⟩ hb
    obtain ⟨w1, m1, ch1, e, -, W1, N1, -, U⟩ := C34_copies_wide hr F ha ht hd hs hf hroom hb
    rw [e] at hc
    simp only [Except.ok.injEq, Prod.mk.injEq] at hc
    obtain ⟨rfl, rfl⟩ := hc
    obtain ⟨s, g1, g2, g3⟩ := N1.shape
    have hm : m1 ∈ s.nodes := (g1.mem_nodes_iff m1).2 (.refl _)
    have hal : ∀ x ∈ t.nodes, w.heap.alive x = true := fun x hx =>
      F.desc_alive ha ((ht.mem_nodes_iff x).1 hx)
    have ht1 : SubtreeAt ch1 n t := ⟨ht.1, ht.2.congr (fun x hx => U.children x (hal x hx) (by simp))⟩
    have hd1 : HasData w1.heap t u := by
      have : t.map w1.heap.data = t.map w.heap.data := map_congr_nodes t (fun x hx => U.data x (hal x hx))
      rw [HasData, this]; exact hd
    obtain ⟨b, hb1, hb2⟩ := C36_decides eq W1 (U.alive n ha) (g3 m1 hm).2.1 ht1 g1 hd1 g2 (.inr hq)
      (fun x hx => by rw [U.borrowed x (hal x hx)]; exact hb x hx) (fun x hx => (g3 x hx).2.2)
    obtain rfl : b = true := hb2.2 (Equal.refl hq u)
    refine ⟨?_, hb1⟩
    rintro rfl
    have := (g3 m1 hm).1
    rw [ha] at this; cases this

/-! The concrete program: the last of three children of node 0 has been detached, so that `last_child` of
node 0 is wrong. -/

namespace DemoWorld

theorem wideRoomFor (j : Nat) (hj : j < 100) : (wide 5).RoomFor j := by
  intro t
  show 0 + 0 + 4 + j + 1 < 2 ^ 62
  omega

theorem twoChildren {h : Heap Nat} {ch : NodeId → List NodeId} (F : FShape h ch) (a0 : h.alive 0 = true)
    (a1 : h.alive 1 = true) (a2 : h.alive 2 = true) (f0 : h.firstChild 0 = some 1) (f1 : h.firstChild 1 = none)
    (f2 : h.firstChild 2 = none) (n1 : h.next 1 = some 2) (n2 : h.next 2 = none) :
    ch 0 = [1, 2] ∧ ch 1 = [] ∧ ch 2 = [] := by
  have h0 : (ch 0).head? = some 1 := (F.first 0 a0).symm.trans f0
  have h1 : (ch 1).head? = none := (F.first 1 a1).symm.trans f1
  have h2 : (ch 2).head? = none := (F.first 2 a2).symm.trans f2
  refine ⟨?_, List.head?_eq_none_iff.1 h1, List.head?_eq_none_iff.1 h2⟩
  have hs := F.seg 0
  cases hc : ch 0 with
  | nil => rw [hc] at h0; simp at h0
  | cons a l =>
    rw [hc] at h0 hs
    obtain rfl : a = 1 := by simpa using h0
    cases l with
    | nil =>
      have : h.next 1 = none := hs.1
      exact absurd this (by simp [n1])
    | cons b l =>
      have hb : h.next 1 = some b := hs.1
      obtain rfl : b = 2 := by simpa [n1, eq_comm] using hb
      cases l with
      | nil => rfl
      | cons c l =>
        have : h.next 2 = some c := hs.2.1
        exact absurd this (by simp [n2])

theorem wideChildren {ch : NodeId → List NodeId} (F : FShape (wide 5).heap ch) : ch 0 = [1, 2] ∧ ch 1 = [] ∧ ch 2 = [] :=
  twoChildren F rfl rfl rfl rfl rfl rfl rfl rfl

/-- `last_child` of node 0 is wrong here. -/
example : (wide 5).heap.lastChildLink 0 = .ok (some 3) := rfl

example : ∃ (ch : NodeId → List NodeId) (t : RTree NodeId) (u : RTree Nat),
    ReachW (wide 5) ∧ FShape (wide 5).heap ch ∧ (wide 5).RoomFor (2 * t.size) ∧
    (wide 5).heap.alive 0 = true ∧ SubtreeAt ch 0 t ∧ HasData (wide 5).heap t u ∧
    (∀ x ∈ t.nodes, (wide 5).heap.mutB x = false) ∧ 2 * t.size ≤ usizeMax ∧ t.size = 3 := by
  obtain ⟨a, S⟩ := Shows.exists wideReach5
  obtain ⟨h0, h1, h2⟩ := wideChildren S.children
  exact ⟨a.children, .node 0 [.node 1 [], .node 2 []], .node 10 [.node 11 [], .node 12 []], wideReach5, S.children,
    wideRoomFor _ (by decide), rfl, by simp [SubtreeAt, label, Hier, HierL, h0, h1, h2], rfl, by decide, by decide, rfl⟩

example : ∃ w' n ch', Builder.fromEvents (wide 5) [.opn 1, .opn 2, .close 1, .opn 3, .opn 4] = .ok (w', .ok n) ∧
    ReachW w' ∧ NewTree (wide 5) w' ch' n (.node 1 [.node 2 [], .node 3 [.node 4 []]]) := by
  obtain ⟨a, S⟩ := Shows.exists wideReach5
  obtain ⟨w', n, ch', h1, h2, h3, h4, -⟩ := (C31_from_events_wide wideReach5 S.children
    [.opn 1, .opn 2, .close 1, .opn 3, .opn 4] (wideRoomFor _ (by decide))).1 3 (.node 1 [.node 2 [], .node 3 [.node 4 []]]) rfl
  exact ⟨w', n, ch', h1, h2, h4⟩

end DemoWorld
end Dendron
