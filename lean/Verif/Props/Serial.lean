import Verif.Proofs.TryEq
import Verif.Proofs.Demo

/-!
# C29, C36, C52: serialization and comparison

`Canonical u l`: `l` is the canonical event sequence of the tree `u`.  `HasData h t u`: `u` is the tree
of the data of the nodes in `t`.
-/

set_option autoImplicit false

namespace Dendron
open RTree

variable {α β : Type} {h : Heap α} {ch : NodeId → List NodeId} {n : NodeId} {t : RTree NodeId}

/-- Every subtree of living nodes has exactly one tree of data. -/
theorem C29_data_exists_unique (W : FShape h ch) (ha : h.alive n = true) (ht : SubtreeAt ch n t) :
    ∃ u, HasData h t u ∧ ∀ v, HasData h t v → v = u := by
  obtain ⟨u, hu⟩ := exists_data t
    (fun x hx => W.desc_alive ha ((ht.mem_nodes_iff x).1 hx))
  exact ⟨u, hu, fun v hv => hv.unique hu⟩

/-- A canonical sequence opens the labels in pre-order and has as many closings as openings; there is
exactly one canonical sequence of a tree. -/
theorem C29_canonical (u : RTree β) :
    ∃ l, Canonical u l ∧ Event.opens l = u.nodes ∧
      Event.closings l = (Event.opens l).length ∧ ∀ m, Canonical u m → m = l := by
  have hc := mergeEv_canonical u
  exact ⟨_, hc, hc.facts.1, by rw [hc.facts.1, hc.facts.2], fun m hm => hm.unique hc⟩

mutual
theorem events_map {γ : Type} (f : β → γ) : ∀ t : RTree β,
    (t.map f).events = t.events.map (DftEvent.map f)
  | .node v cs => by simp [map, events, eventsL_map f cs, DftEvent.map]
theorem eventsL_map {γ : Type} (f : β → γ) : ∀ cs : List (RTree β),
    eventsL (mapL f cs) = (eventsL cs).map (DftEvent.map f)
  | [] => by simp [mapL, eventsL]
  | c :: cs => by simp [mapL, eventsL, events_map f c, eventsL_map f cs]
end

/-- Relabeling of an event. -/
def Event.map {γ : Type} (f : β → γ) : Event β → Event γ
  | .opn v => .opn (f v)
  | .close k => .close k

mutual
theorem mergeEv_map {γ : Type} (f : β → γ) : ∀ l : List (DftEvent β),
    mergeEv (l.map (DftEvent.map f)) = (mergeEv l).map (Event.map f)
  | [] => by simp [mergeEv]
  | .opn v :: es => by simp [mergeEv, DftEvent.map, Event.map, mergeEv_map f es]
  | .cls _ :: es => by simp [mergeEv, DftEvent.map, mergeCl_map f 1 es]
theorem mergeCl_map {γ : Type} (f : β → γ) (c : Nat) : ∀ l : List (DftEvent β),
    mergeCl c (l.map (DftEvent.map f)) = (mergeCl c l).map (Event.map f)
  | [] => by simp [mergeCl, Event.map]
  | .opn v :: es => by simp [mergeCl, DftEvent.map, Event.map, mergeEv_map f es]
  | .cls _ :: es => by simp [mergeCl, DftEvent.map, mergeCl_map f (c + 1) es]
end

mutual
theorem mem_mergeEv {v : β} : ∀ l : List (DftEvent β), Event.opn v ∈ mergeEv l ↔ .opn v ∈ l
  | [] => by simp [mergeEv]
  | .opn w :: es => by simp [mergeEv, mem_mergeEv es]
  | .cls _ :: es => by simp [mergeEv, mem_mergeCl 1 es]
theorem mem_mergeCl {v : β} (c : Nat) : ∀ l : List (DftEvent β), Event.opn v ∈ mergeCl c l ↔ .opn v ∈ l
  | [] => by simp [mergeCl]
  | .opn w :: es => by simp [mergeCl, mem_mergeEv es]
  | .cls _ :: es => by simp [mergeCl, mem_mergeCl (c + 1) es]
end

/-- C29: `to_events` yields exactly the canonical event sequence of the data in the subtree, and then
`None`.  (Fewer than 2^63 nodes: they would not fit in memory.) -/
theorem C29_to_events {u : RTree α} (W : FShape h ch) (ha : h.alive n = true) (ht : SubtreeAt ch n t)
    (hd : HasData h t u) (hb : ∀ x ∈ t.nodes, h.mutB x = false) (hs : 2 * t.size ≤ usizeMax) :
    ∃ l, Canonical u l ∧ Yields h.serNext (Dft.start n) (l.map .ok) := by
  refine ⟨_, mergeEv_canonical u, ?_⟩
  have h1 := W.ser_yields ha ht hs
  have h2 : (mergeEv t.events).map (serItem h) = (mergeEv u.events).map .ok := by
    have h3 : (mergeEv t.events).map (Event.map h.data) = (mergeEv u.events).map (Event.map some) := by
      rw [← mergeEv_map, ← mergeEv_map, ← events_map, ← events_map, hd]
    have h4 : ∀ a ∈ mergeEv t.events, ∀ b, Event.map h.data a = Event.map some b →
        serItem h a = .ok b := by
      intro a hm b e
      cases a with
      | close k => cases b <;> simp_all [Event.map, serItem]
      | opn x =>
        have hx := hb x ((mem_events_opn t).1 ((mem_mergeEv _).1 hm))
        cases b <;> simp_all [Event.map, serItem, Heap.borrowData, Except.map]
    revert h3 h4
    generalize mergeEv t.events = l
    generalize mergeEv u.events = m
    intro h3 h4
    induction l generalizing m with
    | nil => cases m <;> simp_all
    | cons a l ih =>
      cases m with
      | nil => simp at h3
      | cons b m =>
        simp only [List.map_cons, List.cons.injEq] at h3 ⊢
        exact ⟨h4 a (by simp) b h3.1, ih m h3.2 (fun a ha => h4 a (by simp [ha]))⟩
  rwa [h2] at h1

/-- C52: whatever is borrowed, the items correspond one by one to the canonical sequence of the
subtree: a borrow error for the opening of a node whose data is mutably borrowed, `Ok` for everything
else. -/
theorem C52_items (W : FShape h ch) (ha : h.alive n = true) (ht : SubtreeAt ch n t)
    (hs : 2 * t.size ≤ usizeMax) :
    ∃ l items, Canonical t l ∧ Zip (SerItem h) l items ∧ Yields h.serNext (Dft.start n) items := by
  refine ⟨_, _, mergeEv_canonical t, ?_, W.ser_yields ha ht hs⟩
  have : ∀ x, Event.opn x ∈ mergeEv t.events → h.alive x = true := fun x hx =>
    W.desc_alive ha ((ht.mem_nodes_iff x).1 ((mem_events_opn t).1 ((mem_mergeEv _).1 hx)))
  revert this
  generalize mergeEv t.events = l
  intro H
  induction l with
  | nil => exact .nil
  | cons a l ih =>
    refine .cons ?_ (ih (fun x hx => H x (by simp [hx])))
    cases a with
    | close k => exact .close k
    | opn x =>
      obtain ⟨d, hd⟩ := Option.isSome_iff_exists.1 (H x (by simp))
      cases hb : h.mutB x with
      | true => simpa [serItem, Heap.borrowData, hb, Except.map] using SerItem.busy hb
      | false => simpa [serItem, Heap.borrowData, hb, hd, Except.map] using SerItem.opn hb hd

theorem Zip.split {γ δ : Type} {R : γ → δ → Prop} : ∀ {l1 l2 : List γ} {m : List δ},
    Zip R (l1 ++ l2) m → ∃ m1 m2, m = m1 ++ m2 ∧ Zip R l1 m1 ∧ Zip R l2 m2
  | [], _, m, hz => ⟨[], m, rfl, .nil, hz⟩
  | _ :: _, _, _, .cons r hz => by
    obtain ⟨m1, m2, rfl, h1, h2⟩ := hz.split
    exact ⟨_ :: m1, m2, rfl, .cons r h1, h2⟩

theorem canonical_split {b : NodeId} : ∀ {l : List (Event NodeId)} {pre post : List NodeId},
    Event.opens l = pre ++ b :: post → ∃ l1 l2, l = l1 ++ .opn b :: l2 ∧ Event.opens l1 = pre
  | [], pre, post, e => by cases pre <;> simp [Event.opens] at e
  | .close k :: l, pre, post, e => by
    obtain ⟨l1, l2, rfl, h2⟩ := canonical_split (l := l) (by simpa [Event.opens] using e)
    exact ⟨.close k :: l1, l2, rfl, by simpa [Event.opens] using h2⟩
  | .opn v :: l, [], post, e => by
    simp only [Event.opens, List.nil_append, List.cons.injEq] at e
    exact ⟨[], l, by simp [e.1], rfl⟩
  | .opn v :: l, x :: pre, post, e => by
    simp only [Event.opens, List.cons_append, List.cons.injEq] at e
    obtain ⟨l1, l2, rfl, h2⟩ := canonical_split e.2
    exact ⟨.opn v :: l1, l2, rfl, by simp [Event.opens, h2, e.1]⟩

/-- C52: if the nodes before `b` in pre-order are not mutably borrowed and `b` is, `to_events` yields
the events before the opening of `b` (data of `pre` in order) and then the borrow error. -/
theorem C52_first_error {b : NodeId} {pre post : List NodeId} (W : FShape h ch) (ha : h.alive n = true)
    (ht : SubtreeAt ch n t) (hs : 2 * t.size ≤ usizeMax) (hn : t.nodes = pre ++ b :: post)
    (hp : ∀ x ∈ pre, h.mutB x = false) (hb : h.mutB b = true) :
    ∃ (l : List (Event NodeId)) (evs : List (Event α)) (rest : List (Except BorrowError (Event α))),
      (∃ l2, Canonical t (l ++ .opn b :: l2)) ∧
      Event.opens l = pre ∧ Zip (SerItem h) l (evs.map .ok) ∧
      (Event.opens evs).map some = pre.map h.data ∧
      Yields h.serNext (Dft.start n) (evs.map .ok ++ .error .mk :: rest) := by
  obtain ⟨l, items, hc, hz, hy⟩ := C52_items W ha ht hs
  obtain ⟨l1, l2, rfl, h2⟩ := canonical_split (l := l) (hc.facts.1.trans hn)
  obtain ⟨m1, m2, rfl, z1, z2⟩ := hz.split
  have key : ∀ {k : List (Event NodeId)} {m : List (Except BorrowError (Event α))},
      (∀ x ∈ Event.opens k, h.mutB x = false) → Zip (SerItem h) k m →
      ∃ evs : List (Event α), m = evs.map .ok ∧ (Event.opens evs).map some = (Event.opens k).map h.data := by
    intro k m hk hz
    induction hz with
    | nil => exact ⟨[], rfl, rfl⟩
    | @cons a b k m r hz ih =>
      cases r with
      | @opn x d h1 h2 =>
        obtain ⟨evs, rfl, e⟩ := ih (fun x hx => hk x (by simp [Event.opens, hx]))
        exact ⟨.opn d :: evs, rfl, by simp [Event.opens, e, h2]⟩
      | @busy x h1 =>
        have := hk x (by simp [Event.opens])
        simp [h1] at this
      | close k =>
        obtain ⟨evs, rfl, e⟩ := ih (fun x hx => hk x (by simpa [Event.opens] using hx))
        exact ⟨.close k :: evs, rfl, by simpa [Event.opens] using e⟩
  obtain ⟨evs, rfl, e⟩ := key (by rw [h2]; exact hp) z1
  cases z2 with
  | cons r z2 =>
    cases r with
    | opn h1 _ => simp [hb] at h1
    | busy _ => exact ⟨l1, evs, _, ⟨l2, hc⟩, h2, z1, by rw [e, h2], hy⟩

/-! ### C36 -/

/-- C36: `try_eq` always returns; `Ok(true)` and `Ok(false)` tell whether the subtrees have the same
shape and equal data; an error means that some data in one of the subtrees is mutably borrowed. The
subtrees may be in different trees and carry data of different types. -/
theorem C36_try_eq {g : Heap β} {ch' : NodeId → List NodeId} {m : NodeId} {s : RTree NodeId}
    {u : RTree α} {v : RTree β} (eq : α → β → Bool)
    (W : FShape h ch) (W' : FShape g ch') (ha : h.alive n = true) (hb : g.alive m = true)
    (ht : SubtreeAt ch n t) (hs : SubtreeAt ch' m s) (hu : HasData h t u) (hv : HasData g s v) :
    ∃ r, Heap.tryEqHet eq h g n m = .ok r ∧ (r = .ok true → Equal eq u v) ∧
      (r = .ok false → ¬ Equal eq u v) ∧
      (∀ e, r = .error e → (∃ x ∈ t.nodes, h.mutB x = true) ∨ ∃ x ∈ s.nodes, g.mutB x = true) :=
  W.tryEqHet W' eq ha hb ht hs hu hv

/-- C36: when exactly `try_eq` fails: comparing in depth-first order, everything is equal up to two nodes
of which one has mutably borrowed data. (A borrow behind the first difference does not matter.) -/
theorem C36_fails_iff {g : Heap β} {ch' : NodeId → List NodeId} {m : NodeId} {s : RTree NodeId}
    (eq : α → β → Bool) (W : FShape h ch) (W' : FShape g ch') (ha : h.alive n = true) (hb : g.alive m = true)
    (ht : SubtreeAt ch n t) (hs : SubtreeAt ch' m s) :
    (∃ e, Heap.tryEqHet eq h g n m = .ok (.error e)) ↔ Blocked eq h g t s :=
  W.tryEqHet_error W' eq ha hb ht hs

/-- C36: with no conflicting borrow, `try_eq` of two nodes decides structural equality (for reflexive
data equality; a node is always equal to itself). -/
theorem C36_decides {m : NodeId} {s : RTree NodeId} {u v : RTree α} (eq : α → α → Bool)
    (W : FShape h ch) (ha : h.alive n = true) (hb : h.alive m = true)
    (ht : SubtreeAt ch n t) (hs : SubtreeAt ch m s) (hu : HasData h t u) (hv : HasData h s v)
    (hr : n ≠ m ∨ ∀ a, eq a a = true)
    (hbt : ∀ x ∈ t.nodes, h.mutB x = false) (hbs : ∀ x ∈ s.nodes, h.mutB x = false) :
    ∃ b, h.tryEq eq n m = .ok (.ok b) ∧ (b = true ↔ Equal eq u v) := by
  by_cases e : n = m
  · subst e
    have := hs.unique ht
    subst this
    have := hv.unique hu
    subst this
    rcases hr with hr | hr
    · exact absurd rfl hr
    · exact ⟨true, by simp [Heap.tryEq], by simp [Equal.refl hr v]⟩
  · obtain ⟨r, h1, h2, h3, h4⟩ := W.tryEqHet W eq ha hb ht hs hu hv
    cases r with
    | error x =>
      rcases h4 x rfl with ⟨y, hy, q⟩ | ⟨y, hy, q⟩
      · simp [hbt y hy] at q
      · simp [hbs y hy] at q
    | ok b =>
      refine ⟨b, by simp [Heap.tryEq, e, h1], ?_⟩
      cases b with
      | true => simp [h2 rfl]
      | false => simp [h3 rfl]

/-- C36: `try_eq` of a node with itself is `Ok(true)`, also while its data is borrowed. -/
theorem C36_same_node (eq : α → α → Bool) : h.tryEq eq n n = .ok (.ok true) := by simp [Heap.tryEq]

/-- C36: `Tree::try_eq` decides structural equality of the whole trees. -/
theorem C36_tree {T U : TreeId} {r s : NodeId} {tr ts : RTree NodeId} {u v : RTree α}
    (eq : α → α → Bool) (he : ∀ a, eq a a = true) (W : FWF h ch) (hT : h.root T = some r)
    (hU : h.root U = some s) (ht : SubtreeAt ch r tr) (hs : SubtreeAt ch s ts)
    (hu : HasData h tr u) (hv : HasData h ts v) (hb : ∀ x, h.mutB x = false) :
    ∃ b, h.treeTryEq eq T U = .ok (.ok b) ∧ (b = true ↔ Equal eq u v) := by
  have := C36_decides eq W.toFShape (W.tree.root T r hT).1 (W.tree.root U s hU).1 ht hs hu hv (.inr he)
    (fun x _ => hb x) (fun x _ => hb x)
  simpa [Heap.treeTryEq, Heap.rootLink, hT, hU, bind, Except.bind] using this

/-- C36: structural equality is reflexive, symmetric and transitive when the equality of the data is,
and is plain equality of trees when that of the data is. -/
theorem C36_equivalence (eq : α → α → Bool) :
    ((∀ a, eq a a = true) → ∀ t, Equal eq t t) ∧
    ((∀ a b, eq a b = true → eq b a = true) → ∀ t u, Equal eq t u → Equal eq u t) ∧
    ((∀ a b c, eq a b = true → eq b c = true → eq a c = true) →
      ∀ t u v, Equal eq t u → Equal eq u v → Equal eq t v) ∧
    ((∀ a b, eq a b = true ↔ a = b) → ∀ t u : RTree α, Equal eq t u ↔ t = u) := by
  refine ⟨fun H t => Equal.refl H t, fun H t u e => Equal.symm H e,
    fun H t u v e e' => Equal.trans H e e', ?_⟩
  intro H t u
  classical
  have : eq = fun a b => decide (a = b) := by
    funext a b
    rw [Bool.eq_iff_iff]; simp [H]
  rw [this, Equal.eq]

/-! ### A concrete case -/

/-- the subtree of node 2 of the demo tree -/
def Demo.t2 : RTree NodeId := .node 2 [.node 4 [], .node 5 []]

theorem Demo.t2_at : SubtreeAt Demo.ch 2 Demo.t2 := by
  simp [SubtreeAt, Demo.t2, label, Hier, HierL, Demo.ch]

example : ∃ l, Canonical (.node 12 [.node 14 [], .node 15 []]) l ∧
    Yields Demo.heap.serNext (Dft.start 2) (l.map .ok) :=
  C29_to_events Demo.wf.toFShape rfl Demo.t2_at rfl (by decide) (by decide)

example : Yields Demo.heap.serNext (Dft.start 2)
    [.ok (.opn 12), .ok (.opn 14), .ok (.close 1), .ok (.opn 15), .ok (.close 2)] := by
  obtain ⟨l, hc, hy⟩ := C29_to_events (u := .node 12 [.node 14 [], .node 15 []])
    Demo.wf.toFShape rfl Demo.t2_at rfl (by decide) (by decide)
  have : l = mergeEv (RTree.events (.node 12 [.node 14 [], .node 15 []])) :=
    hc.unique (mergeEv_canonical _)
  rw [this] at hy
  exact hy

theorem Demo.no_mutB : ∀ x, Demo.heap.mutB x = false := by
  intro x
  match x with
  | 0 | 1 | 2 | 3 | 4 | 5 | 6 | 7 => rfl
  | x + 8 => rfl

/-- the demo memory with the data of node 5 mutably borrowed -/
def Demo.busy : Heap Nat := { Demo.heap with mutB := upd Demo.heap.mutB 5 true }

theorem Demo.busy_wf : WF Demo.busy Demo.ch :=
  ⟨⟨⟨Demo.wf.dead, Demo.wf.first, Demo.wf.nodup, Demo.wf.mem, Demo.wf.seg, Demo.wf.rootNext,
    Demo.wf.acyc, Demo.wf.bound⟩, Demo.wf.num, ⟨Demo.wf.back.pseg, Demo.wf.back.rootPrev⟩⟩,
    ⟨Demo.wf.tree.live, Demo.wf.tree.root, Demo.wf.tree.child, Demo.wf.tree.top, Demo.wf.tree.bound⟩,
    ⟨Demo.wf.refs.alive, Demo.wf.refs.pos, Demo.wf.refs.held⟩⟩

example := C52_first_error (b := 5) (pre := [2, 4]) (post := []) Demo.busy_wf.toFShape (n := 2) rfl
  Demo.t2_at (by decide) rfl (by decide) rfl

example :=
  C36_tree (T := 0) (U := 1) (h := Demo.heap) (ch := Demo.ch) (r := 0) (s := 6)
    (tr := .node 0 [.node 1 [], Demo.t2, .node 3 []]) (ts := .node 6 [.node 7 []])
    (· == ·) (by simp) Demo.wf.fwd rfl rfl
    (by simp [SubtreeAt, Demo.t2, label, Hier, HierL, Demo.ch])
    (by simp [SubtreeAt, label, Hier, HierL, Demo.ch])
    (u := .node 10 [.node 11 [], .node 12 [.node 14 [], .node 15 []], .node 13 []])
    (v := .node 16 [.node 17 []]) rfl rfl Demo.no_mutB

example : ∃ b, Demo.heap.tryEq (· == ·) 2 6 = .ok (.ok b) ∧
    (b = true ↔ Equal (· == ·) (.node 12 [.node 14 [], .node 15 []]) (.node 16 [.node 17 []])) :=
  C36_decides (s := .node 6 [.node 7 []]) _ Demo.wf.toFShape rfl rfl Demo.t2_at
    (by simp [SubtreeAt, label, Hier, HierL, Demo.ch]) rfl rfl (.inl (by decide)) (by decide)
    (by decide)

/-- With the data of node 5 borrowed, comparing the leaf 5 with node 6 is blocked. -/
example : Blocked (fun _ _ => true) Demo.busy Demo.busy (.node 5 []) (.node 6 [.node 7 []]) ∧
    ∃ e, Heap.tryEqHet (fun _ _ => true) Demo.busy Demo.busy 5 6 = .ok (.error e) := by
  have hB : Blocked (fun _ _ => true) Demo.busy Demo.busy (.node 5 []) (.node 6 [.node 7 []]) :=
    ⟨[], [], 5, 6, _, _, rfl, rfl, .nil, .inl rfl⟩
  exact ⟨hB, (C36_fails_iff _ Demo.busy_wf.toFShape Demo.busy_wf.toFShape rfl rfl
    (by simp [SubtreeAt, label, Hier, HierL, Demo.ch]) (by simp [SubtreeAt, label, Hier, HierL, Demo.ch])).2 hB⟩

/-- The size hint of the depth-first traverser that is used inside the crate (by `try_eq` and the pretty
printer) is wrong: for a leaf it promises two events, but one is yielded (the closing of the start node is
left out).  It cannot be observed through the API. -/
theorem C25_internal_hint_wrong (W : WF h ch) (ha : h.alive n = true) (hn : ch n = []) :
    (Heap.linkDftHint (Dft.start n)).1 = 2 ∧
    Yields (fun s => .ok (h.linkDftNext s)) (Dft.start n) [.opn n] := by
  refine ⟨rfl, .more (s' := some (.cls n, n)) ?_ (.done (s' := none) ?_ ?_)⟩
  · have : h.evNext (.opn n) = some (.cls n) := by
      have h1 := W.first n ha
      rw [hn] at h1
      simp only [List.head?_nil] at h1
      simp [Heap.evNext, Heap.firstChildLink, h1]
    simp [Heap.linkDftNext, Dft.start, this]
  · simp [Heap.linkDftNext]
  · simp [Heap.linkDftNext]

example : WF Demo.heap Demo.ch ∧ Demo.heap.alive 3 = true ∧ Demo.ch 3 = [] := ⟨Demo.wf, rfl, rfl⟩

end Dendron
