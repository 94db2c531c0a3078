import Verif.Proofs.IterLast
import Verif.Proofs.Demo

/-!
# C19-C28: traversals

`SubtreeAt ch n t`: the abstract tree `t` is the subtree of node `n`; it exists and is unique
(`C19_subtree_exists_unique`).  `Yields next s l`: repeated calls of `next` from state `s` return the
items of `l` in order and then `None` forever, without panicking.
-/

set_option autoImplicit false

namespace Dendron
open RTree

variable {α : Type} {h : Heap α} {ch : NodeId → List NodeId} {n p c : NodeId} {t : RTree NodeId}

/-- The subtree of a node is a finite tree; each of its nodes occurs once, and they are the node
itself and its descendants. -/
theorem C19_subtree_exists_unique (W : FShape h ch) (n : NodeId) :
    ∃ t, SubtreeAt ch n t ∧ t.nodes.Nodup ∧ (∀ x, x ∈ t.nodes ↔ Desc ch n x) ∧
      ∀ u, SubtreeAt ch n u → u = t := by
  obtain ⟨t, ht⟩ := W.exists_subtree n
  exact ⟨t, ht, ht.nodup W, ht.mem_nodes_iff, fun u hu => hu.unique ht⟩

/-- C19: `depth_first_traverse` yields the nested Open/Close sequence of the subtree. -/
theorem C19_depth_first (W : FShape h ch) (ha : h.alive n = true) (ht : SubtreeAt ch n t) :
    Yields (Dft.next h) (Dft.start n) t.events ∧ t.events.Nodup :=
  ⟨W.dft_yields ha ht, events_nodup t (ht.nodup W)⟩

/-- C20: `depth_first_reverse_traverse` yields the same events in reverse order. -/
theorem C20_depth_first_reverse (W : WF h ch) (ha : h.alive n = true) (ht : SubtreeAt ch n t) :
    Yields (RevDft.next h) (RevDft.start n) t.events.reverse := W.revDft_yields ha ht

/-! ### C21 -/

/-- C21: `children` and `children_reverse`. -/
theorem C21_children (W : WF h ch) (ha : h.alive n = true) :
    Yields (Sib.next h) (Sib.children h n) (ch n) ∧
    ∃ s, Sib.childrenReverse h n = .ok s ∧ Yields (Sib.prev h) s (ch n).reverse := by
  refine ⟨?_, _, W.lastChildLink ha, ?_⟩
  · have := Sib.yields_next (W.seg n)
    rwa [← W.first n ha] at this
  · have := W.toShape.sib_prev (p := n) (l1 := (ch n).reverse) (l2 := []) (by simp)
    rwa [List.head?_reverse] at this

/-- C21: the sibling iterators of a child between `l1` and `l2`. -/
theorem C21_siblings {l1 l2 : List NodeId} (W : WF h ch) (hs : ch p = l1 ++ c :: l2) :
    Yields (Sib.next h) (Sib.siblings h c) (ch p) ∧
    (∃ s, Sib.siblingsReverse h c = .ok s ∧ Yields (Sib.prev h) s (ch p).reverse) ∧
    Yields (Sib.next h) (Sib.followingOrSelf c) (c :: l2) ∧
    (∃ s, Sib.following h c = .ok s ∧ Yields (Sib.next h) s l2) ∧
    Yields (Sib.prev h) (Sib.precedingOrSelfReverse c) (c :: l1.reverse) ∧
    (∃ s, Sib.precedingReverse h c = .ok s ∧ Yields (Sib.prev h) s l1.reverse) := by
  have hm : c ∈ ch p := by simp [hs]
  have hac := W.alive_of_mem hm
  have hpl : h.parentLink c = some p := by rw [W.parentLink hac]; exact W.parent_of_mem hm
  have hch := C21_children W (W.alive_parent hm)
  have hf : Yields (Sib.next h) (some c) (c :: l2) := by
    have := W.seg p
    rw [hs, Seg.append] at this
    exact Sib.yields_next (l := c :: l2) this.2
  have hb : Yields (Sib.prev h) (some c) (c :: l1.reverse) :=
    W.toShape.sib_prev (p := p) (l1 := c :: l1.reverse) (l2 := l2) (by simp [hs])
  refine ⟨by simpa [Sib.siblings, hpl] using hch.1, ?_, hf, ?_, hb, ?_⟩
  · obtain ⟨s, e, hy⟩ := hch.2
    exact ⟨s, by simp [Sib.siblingsReverse, hpl, e], hy⟩
  · obtain ⟨s, e, hy⟩ := hf.cons_inv
    exact ⟨s, by simp [Sib.following, Sib.followingOrSelf, e, bind, Except.bind, pure, Except.pure], hy⟩
  · obtain ⟨s, e, hy⟩ := hb.cons_inv
    exact ⟨s, by simp [Sib.precedingReverse, Sib.precedingOrSelfReverse, e, bind, Except.bind, pure,
      Except.pure], hy⟩

/-- C21: a node without parent is its only sibling. -/
theorem C21_siblings_of_root (W : WF h ch) (ha : h.alive n = true) (hr : ∀ p, n ∉ ch p) :
    Yields (Sib.next h) (Sib.siblings h n) [n] ∧
    (∃ s, Sib.siblingsReverse h n = .ok s ∧ Yields (Sib.prev h) s [n]) ∧
    Yields (Sib.next h) (Sib.followingOrSelf n) [n] ∧
    (∃ s, Sib.following h n = .ok s ∧ Yields (Sib.next h) s []) ∧
    Yields (Sib.prev h) (Sib.precedingOrSelfReverse n) [n] ∧
    (∃ s, Sib.precedingReverse h n = .ok s ∧ Yields (Sib.prev h) s []) := by
  have hp := W.toFShape.parent_none ha hr
  have hpl : h.parentLink n = none := by rw [W.parentLink ha]; exact hp
  have hf : Yields (Sib.next h) (some n) [n] :=
    .more (s' := none) (by simp [Sib.next, Heap.nextLink, W.rootNext n ha hp]) (.done (s' := none) rfl rfl)
  have hb : Yields (Sib.prev h) (some n) [n] :=
    .more (s' := none) (by simp [Sib.prev, W.root_prevLink ha hp, bind, Except.bind, pure,
      Except.pure]) (.done (s' := none) rfl rfl)
  refine ⟨by simpa [Sib.siblings, Sib.followingOrSelf, hpl] using hf, ⟨_, by simp [Sib.siblingsReverse, hpl]; rfl, hb⟩,
    hf, ?_, hb, ?_⟩
  · obtain ⟨s, e, hy⟩ := hf.cons_inv
    exact ⟨s, by simp [Sib.following, Sib.followingOrSelf, e, bind, Except.bind, pure, Except.pure], hy⟩
  · obtain ⟨s, e, hy⟩ := hb.cons_inv
    exact ⟨s, by simp [Sib.precedingReverse, Sib.precedingOrSelfReverse, e, bind, Except.bind, pure,
      Except.pure], hy⟩

/-- C21: `ancestors_or_self` and `ancestors` yield the path to the root. -/
theorem C21_ancestors {l : List NodeId} (W : FShape h ch) (ha : h.alive n = true)
    (hl : AncPath ch n l) :
    Yields (Sib.up h) (Sib.ancestorsOrSelf n) (n :: l) ∧
    ∃ s, Sib.ancestors h n = .ok s ∧ Yields (Sib.up h) s l := by
  have := hl.yields W ha
  refine ⟨this, ?_⟩
  obtain ⟨s, e, hy⟩ := this.cons_inv
  exact ⟨s, by simp [Sib.ancestors, Sib.ancestorsOrSelf, e, bind, Except.bind, pure, Except.pure], hy⟩

/-! ### C22 -/

/-- C22, the part that holds: started at the root of a tree and used from one end only,
`depth_first_traverse_stable` yields the events of the tree, from the front or from the back.
Missing: other start nodes (`C22_runs_past_subtree`) and mixed use of both ends
(`C22_not_double_ended`), where the code is wrong. -/
theorem C22_stable_depth_first_partial (W : WF h ch) (ha : h.alive n = true)
    (hroot : ∀ p, n ∉ ch p) (ht : SubtreeAt ch n t) :
    Yields (StableDft.next h) (StableDft.start n) t.events ∧
    Yields (StableDft.back h) (StableDft.start n) t.events.reverse :=
  ⟨W.stableDft_yields ha ht hroot, W.stableDft_back_yields ha ht hroot⟩

/-- C22 is violated: for every node `n` below the root `r`, the traverser does not stop after the
events of the subtree of `n`; it goes on with the following events `rest` of the whole tree `tr`. -/
theorem C22_runs_past_subtree {r : NodeId} {tr : RTree NodeId} (W : WF h ch)
    (ha : h.alive r = true) (hroot : ∀ p, r ∉ ch p) (htr : SubtreeAt ch r tr) (hd : Desc ch r n)
    (ht : SubtreeAt ch n t) :
    ∃ pre rest, tr.events = pre ++ t.events ++ rest ∧ (n ≠ r → rest ≠ []) ∧
      Yields (StableDft.next h) (StableDft.start n) (t.events ++ rest) :=
  W.stableDft_overrun ha hroot htr hd ht

/-- C22 is violated: a single-node tree, used from both ends, yields its `Close` twice. -/
theorem C22_not_double_ended : ∃ (h : Heap Nat) (ch : NodeId → List NodeId) (n : NodeId)
    (t : RTree NodeId), WF h ch ∧ h.alive n = true ∧ (∀ p, n ∉ ch p) ∧ SubtreeAt ch n t ∧
    ¬ DoubleEnded (StableDft.next h) (StableDft.back h) (StableDft.start n) t.events := by
  refine ⟨Demo.h0, fun _ => [], 0, .node 0 [], Demo.new_wf WF.empty 10, rfl, by simp,
    ⟨rfl, rfl, trivial⟩, ?_⟩
  intro hd
  have := hd [.front, .back, .front]
  simp [runSched, dequeSched, RTree.events, RTree.eventsL, StableDft.next, StableDft.back,
    StableDft.start, Heap.evNext, Heap.evPrev, Heap.firstChildLink, Heap.lastChildLink,
    show Demo.h0.firstChild 0 = none from rfl, bind, Except.bind, pure, Except.pure,
    Except.map] at this

/-! ### C23 -/

/-- C23: the depth-limited traverser is a proper double-ended iterator over the events of the nodes
at depth at most `lim`, for every interleaving of `next` and `next_back`. -/
theorem C23_shallow_depth_first (W : WF h ch) (ha : h.alive n = true) (ht : SubtreeAt ch n t)
    (lim : Option Nat) :
    DoubleEnded (Shallow.next h) (Shallow.back h) (Shallow.start n lim) (t.eventsD lim 0) :=
  fun es => (W.shallow_inv lim ha ht).sched es

/-- Without limit, forgetting the depths gives the plain depth-first events; no event is repeated. -/
theorem C23_unlimited_is_depth_first (W : WF h ch) (ht : SubtreeAt ch n t) (lim : Option Nat) :
    (t.eventsD none 0).map (DftEvent.map Prod.fst) = t.events ∧
    ((t.eventsD lim 0).map (DftEvent.map Prod.fst)).Nodup :=
  ⟨eventsD_strip 0 t, eventsD_nodup lim 0 t (ht.nodup W.toFShape)⟩

/-! ### C24 -/

/-- C24: both breadth-first traversers, started at depth `d`, yield level `d`, level `d + 1`, ... of
the subtree, each from left to right with its depth. -/
theorem C24_breadth_first (W : WF h ch) (ha : h.alive n = true) (ht : SubtreeAt ch n t) (d : Nat) :
    Yields (NaBfs.next h) (NaBfs.start n d) (t.bfs d) ∧
    ∃ s, AlBfs.start h n d = .ok s ∧ Yields (AlBfs.next h) s (t.bfs d) :=
  ⟨W.nabfs_yields ha ht d, W.albfs_yields ha ht d⟩

mutual
private theorem mem_level_nodes : ∀ (k : Nat) (t : RTree NodeId) (x : NodeId), x ∈ t.level k → x ∈ t.nodes
  | 0, .node v cs, x, hx => by simp [level] at hx; simp [nodes, hx]
  | k + 1, .node v cs, x, hx => by
    simp only [level] at hx
    simp [nodes, mem_levelL_nodes k cs x hx]
private theorem mem_levelL_nodes : ∀ (k : Nat) (cs : List (RTree NodeId)) (x : NodeId), x ∈ levelL k cs →
    x ∈ nodesL cs
  | k, [], x, hx => by simp [levelL] at hx
  | k, c :: cs, x, hx => by
    simp only [levelL, List.mem_append] at hx
    rcases hx with hx | hx
    · simp [nodesL, mem_level_nodes k c x hx]
    · simp [nodesL, mem_levelL_nodes k cs x hx]
end

mutual
private theorem nodes_mem_level : ∀ (t : RTree NodeId) (x : NodeId), x ∈ t.nodes →
    ∃ k, x ∈ t.level k
  | .node v cs, x, hx => by
    simp only [nodes, List.mem_cons] at hx
    rcases hx with rfl | hx
    · exact ⟨0, by simp [level]⟩
    · obtain ⟨k, hk⟩ := nodesL_mem_level cs x hx
      exact ⟨k + 1, by simpa [level] using hk⟩
private theorem nodesL_mem_level : ∀ (cs : List (RTree NodeId)) (x : NodeId), x ∈ nodesL cs →
    ∃ k, x ∈ levelL k cs
  | [], x, hx => by simp [nodesL] at hx
  | c :: cs, x, hx => by
    simp only [nodesL, List.mem_append] at hx
    rcases hx with hx | hx
    · obtain ⟨k, hk⟩ := nodes_mem_level c x hx
      exact ⟨k, by simp [levelL, hk]⟩
    · obtain ⟨k, hk⟩ := nodesL_mem_level cs x hx
      exact ⟨k, by simp [levelL, hk]⟩
end

mutual
private theorem level_sublist_length : ∀ (t : RTree NodeId) (N : Nat), t.height < N →
    ((List.range N).flatMap (fun k => t.level k)).length = t.nodes.length
  | .node v cs, N + 1, hN => by
    simp only [height] at hN
    rw [List.range_succ_eq_map, List.flatMap_cons, List.flatMap_map]
    have := levelL_sublist_length cs N (by omega)
    simp only [level, nodes, List.length_append, List.length_cons]
    rw [this]; simp; omega
private theorem levelL_sublist_length : ∀ (cs : List (RTree NodeId)) (N : Nat), heightL cs ≤ N →
    ((List.range N).flatMap (fun k => levelL k cs)).length = (nodesL cs).length
  | [], N, _ => by
    have : (List.range N).flatMap (fun k => levelL k ([] : List (RTree NodeId))) = [] := by
      rw [List.flatMap_eq_nil_iff]; intro k _; simp [levelL]
    rw [this]; rfl
  | c :: cs, N, hN => by
    simp only [heightL] at hN
    have h1 := level_sublist_length c N (by omega)
    have h2 := levelL_sublist_length cs N (by omega)
    simp only [List.length_flatMap, levelL, nodesL, List.length_append] at *
    rw [← h1, ← h2]
    clear h1 h2 hN
    induction List.range N with
    | nil => simp
    | cons a l ih => simp [ih]; omega
end

/-- C24: the sequence from depth 0 lists every node of the subtree exactly once. -/
theorem C24_every_node_once (ht : SubtreeAt ch n t) :
    (∀ x, x ∈ (t.bfs 0).map Prod.fst ↔ Desc ch n x) ∧
    (t.bfs 0).length = t.nodes.length := by
  have hmap : (t.bfs 0).map Prod.fst = (List.range (t.height + 1)).flatMap (fun k => t.level k) := by
    simp only [bfs, Nat.sub_zero, List.map_flatMap, List.map_map, List.range_eq_range']
    congr 1; funext k
    conv => rhs; rw [← List.map_id (t.level k)]
    rfl
  constructor
  · intro x
    rw [hmap, ← ht.mem_nodes_iff]
    simp only [List.mem_flatMap, List.mem_range]
    constructor
    · rintro ⟨k, _, hk⟩; exact mem_level_nodes k t x hk
    · intro hx
      obtain ⟨k, hk⟩ := nodes_mem_level t x hx
      exact ⟨k, by have := (level_ne_nil k t).1 (List.ne_nil_of_mem hk); omega, hk⟩
  · have := congrArg List.length hmap
    rw [List.length_map] at this
    rw [this]
    exact level_sublist_length t _ (by omega)

/-! ### C25 -/

/-- C25 for the plain depth-first traversers, in every state reached from the start. -/
theorem C25_size_hint_depth_first (W : WF h ch) (ha : h.alive n = true) (ht : SubtreeAt ch n t) :
    (∀ s, Reaches (Dft.next h) (Dft.start n) s →
      ∃ l, Yields (Dft.next h) s l ∧ HintSound (Dft.sizeHint s) l.length) ∧
    (∀ s, Reaches (RevDft.next h) (RevDft.start n) s →
      ∃ l, Yields (RevDft.next h) s l ∧ HintSound (RevDft.sizeHint s) l.length) :=
  ⟨fun _ hr => W.dft_hint ha ht hr, fun _ hr => W.revDft_hint ha ht hr⟩

/-- C25 for both breadth-first traversers. -/
theorem C25_size_hint_breadth_first (W : WF h ch) (ha : h.alive n = true) (ht : SubtreeAt ch n t)
    (d : Nat) :
    (∀ s, Reaches (NaBfs.next h) (NaBfs.start n d) s →
      ∃ l, Yields (NaBfs.next h) s l ∧ HintSound (NaBfs.sizeHint s) l.length) ∧
    (∃ s0, AlBfs.start h n d = .ok s0 ∧ ∀ s, Reaches (AlBfs.next h) s0 s →
      ∃ l, Yields (AlBfs.next h) s l ∧ HintSound (AlBfs.sizeHint s) l.length) := by
  refine ⟨fun s hr => NaBfs.hint (W.nabfs_yields ha ht d) hr, ?_⟩
  obtain ⟨s0, e, I, _⟩ := W.albfs_start ha ht d
  exact ⟨s0, e, fun s hr => (AlBfs.Good.reaches W.toShape ht.2 (.inr ⟨_, _, I⟩) hr).hint W.toShape ht.2⟩

/-- C25 for siblings and ancestors iterators: whatever they are started with, if they yield a list at
all, all hints on the way are sound. -/
theorem C25_size_hint_siblings {s0 : Sib.State} {l0 : List NodeId} :
    (Yields (Sib.next h) s0 l0 → ∀ s, Reaches (Sib.next h) s0 s →
      ∃ l, Yields (Sib.next h) s l ∧ HintSound (Sib.sizeHint s) l.length) ∧
    (Yields (Sib.prev h) s0 l0 → ∀ s, Reaches (Sib.prev h) s0 s →
      ∃ l, Yields (Sib.prev h) s l ∧ HintSound (Sib.sizeHint s) l.length) ∧
    (Yields (Sib.up h) s0 l0 → ∀ s, Reaches (Sib.up h) s0 s →
      ∃ l, Yields (Sib.up h) s l ∧ HintSound (Sib.sizeHint s) l.length) := by
  refine ⟨fun hy s hr => Sib.hint ?_ ?_ hy hr, fun hy s hr => Sib.hint ?_ ?_ hy hr,
    fun hy s hr => Sib.hint ?_ ?_ hy hr⟩
  · intro x s' e; simp [Sib.next] at e; exact e.1.symm
  · intro a x s' e; simp [Sib.next] at e; exact e.1.symm
  · intro x s' e; simp [Sib.prev] at e; exact e.1.symm
  · intro a x s' e
    simp only [Sib.prev, bind, Except.bind, pure, Except.pure] at e
    split at e
    · simp at e
    · simp at e; exact e.1.symm
  · intro x s' e; simp [Sib.up] at e; exact e.1.symm
  · intro a x s' e; simp [Sib.up] at e; exact e.1.symm

/-- C25 for the depth-limited traverser: in every state reached by any mix of `next` and
`next_back`, exactly a list `l` of events is still to come from both ends, and the lower bound is
sound.  Missing: the upper bound, which is wrong (`C25_shallow_upper_bound_wrong`). -/
theorem C25_size_hint_shallow_partial (W : WF h ch) (ha : h.alive n = true)
    (ht : SubtreeAt ch n t) (lim : Option Nat) {s : Shallow.State}
    (hr : Reaches2 (Shallow.next h) (Shallow.back h) (Shallow.start n lim) s) :
    ∃ l, DoubleEnded (Shallow.next h) (Shallow.back h) s l ∧ Yields (Shallow.next h) s l ∧
      (Shallow.sizeHint s).1 ≤ l.length := by
  have : ∃ l, Shallow.Inv h s l := by
    induction hr with
    | refl => exact ⟨_, W.shallow_inv lim ha ht⟩
    | front _ hx ih =>
      obtain ⟨l, I⟩ := ih
      obtain ⟨s', e, I', _⟩ := I.front
      rw [hx] at e
      simp only [Except.ok.injEq, Prod.mk.injEq] at e
      exact ⟨_, e.2 ▸ I'⟩
    | rear _ hx ih =>
      obtain ⟨l, I⟩ := ih
      obtain ⟨s', e, I', _⟩ := I.rear
      rw [hx] at e
      simp only [Except.ok.injEq, Prod.mk.injEq] at e
      exact ⟨_, e.2 ▸ I'⟩
  obtain ⟨l, I⟩ := this
  exact ⟨l, fun es => I.sched es, I.yields, I.lower⟩

/-- C25 is violated: at the start, for *every* node with a child and no depth limit the upper bound
is 2, but more events are to come. -/
theorem C25_shallow_upper_bound_wrong (W : WF h ch) (ha : h.alive n = true)
    (ht : SubtreeAt ch n t) (hc : ch n ≠ []) :
    (Shallow.sizeHint (Shallow.start n none)).2 = some 2 ∧
    Yields (Shallow.next h) (Shallow.start n none) (t.eventsD none 0) ∧
    4 ≤ (t.eventsD none 0).length := by
  refine ⟨by simp [Shallow.sizeHint, Shallow.start], (W.shallow_inv none ha ht).yields, ?_⟩
  have hlen : (t.eventsD none 0).length = t.events.length := by
    rw [← eventsD_strip 0 t, List.length_map]
  rw [hlen, events_length]
  cases t with
  | node v cs =>
    cases cs with
    | nil => exact absurd (by rw [← ht.1]; exact ht.2.1.symm) hc
    | cons c cs =>
      have := nodes_ne_nil c
      have h1 : 1 ≤ c.nodes.length := by
        rcases hn : c.nodes with _ | ⟨a, b⟩
        · exact absurd hn this
        · simp
      simp only [nodes, nodesL, List.length_cons, List.length_append]
      omega

/-- C25 for the stable traversers used from the front (whole trees, child lists).  Missing: other
uses, where these iterators do not even stop (C22, C27). -/
theorem C25_size_hint_stable_partial (W : WF h ch) (ha : h.alive n = true)
    (ht : SubtreeAt ch n t) :
    ((∀ p, n ∉ ch p) → ∀ s, Reaches (StableDft.next h) (StableDft.start n) s →
      ∃ l, Yields (StableDft.next h) s l ∧ HintSound (StableDft.sizeHint s) l.length) ∧
    (∃ s0, StableSib.children h n = .ok s0 ∧ ∀ s, Reaches (StableSib.next h) s0 s →
      ∃ l, Yields (StableSib.next h) s l ∧ HintSound (StableSib.sizeHint s) l.length) :=
  ⟨fun hroot _ hr => W.stableDft_hint ha ht hroot hr, W.stableSib_hint ha⟩

/-! ### C26 -/

/-- C26 for `DepthFirstTraverser::close_current`, in every state of the traverser: `pre` are the
events yielded so far, `l` those to come. -/
theorem C26_close_current (W : WF h ch) (ha : h.alive n = true) (ht : SubtreeAt ch n t)
    {s : Dft.State} (hr : Reaches (Dft.next h) (Dft.start n) s) :
    ∃ pre l, t.events = pre ++ l ∧ Yields (Dft.next h) s l ∧ ClosesCurrent (Dft.next h) s pre l := by
  obtain ⟨pre, l, e, hy⟩ := (W.dft_yields ha ht).reaches hr
  exact ⟨pre, l, e, hy, closeCurrent_suffix e (events_nodup t (ht.nodup W.toFShape)) hy⟩

/-- C26 for `StableDepthFirstTraverser::close_current` (front only, whole tree). -/
theorem C26_close_current_stable_partial (W : WF h ch) (ha : h.alive n = true)
    (ht : SubtreeAt ch n t) (hroot : ∀ p, n ∉ ch p) {s : StableDft.State}
    (hr : Reaches (StableDft.next h) (StableDft.start n) s) :
    ∃ pre l, t.events = pre ++ l ∧ Yields (StableDft.next h) s l ∧
      ClosesCurrent (StableDft.next h) s pre l := by
  obtain ⟨pre, l, e, hy⟩ := (W.stableDft_yields ha ht hroot).reaches hr
  exact ⟨pre, l, e, hy, closeCurrent_suffix e (events_nodup t (ht.nodup W.toFShape)) hy⟩

/-- C26 for `StableShallowDepthFirstTraverser::close_current`. -/
theorem C26_close_current_shallow (W : WF h ch) (ha : h.alive n = true) (ht : SubtreeAt ch n t)
    (lim : Option Nat) {s : Shallow.State} (hr : Reaches (Shallow.next h) (Shallow.start n lim) s) :
    ∃ pre l, t.eventsD lim 0 = pre ++ l ∧ Yields (Shallow.next h) s l ∧
      ClosesCurrent (Shallow.next h) s pre l := by
  have I := W.shallow_inv lim ha ht
  obtain ⟨pre, l, e, hy⟩ := I.yields.reaches hr
  refine ⟨pre, l, e, hy, closeCurrent_suffix (t := t.prune lim 0) (by rw [prune_events]; exact e) ?_ hy⟩
  rw [prune_events]
  exact List.Pairwise.of_map (R := fun a b => a ≠ b) (S := fun a b => a ≠ b)
    (DftEvent.map Prod.fst) (fun a b hab e => hab (by rw [e])) I.nodup

/-- C26 is violated by `DftEvent::close_current`: on the `Open` event of any node with children, and
on the `Close` event of any node with a next sibling, it never terminates. -/
theorem C26_event_close_current_diverges (W : WF h ch) :
    (∀ n, h.alive n = true → ch n ≠ [] → ∀ f d, h.evCloseCurrent (.opn n) f d = .error .diverge) ∧
    (∀ p a b l1 l2, ch p = l1 ++ a :: b :: l2 →
      ∀ f d, h.evCloseCurrent (.cls a) f d = .error .diverge) := by
  have key : ∀ ev m, h.evNext ev = some (.opn m) → ∀ f d, h.evCloseCurrent ev f d = .error .diverge := by
    intro ev m hm f
    induction f with
    | zero => intro d; rfl
    | succ f ih => intro d; rw [Heap.evCloseCurrent, hm]; exact ih _
  constructor
  · intro n ha hc
    obtain ⟨c, l, hcl⟩ := List.exists_cons_of_ne_nil hc
    exact key _ c (evNext_inner W.toFShape ha hcl)
  · intro p a b l1 l2 hs
    exact key _ b (evNext_sib W.toFShape hs)

/-- C26, the part of `DftEvent::close_current` that holds: on the `Open` of a leaf, the `Close` of a
last sibling and the `Close` of a root it gives the right answer. -/
theorem C26_event_close_current_partial (W : WF h ch) :
    (∀ n, h.alive n = true → ch n = [] → ∀ f, h.evCloseCurrent (.opn n) (f + 1) 0 = .ok (some n)) ∧
    (∀ p a l1, ch p = l1 ++ [a] → ∀ f, h.evCloseCurrent (.cls a) (f + 1) 0 = .ok (some p)) ∧
    (∀ n, h.alive n = true → (∀ p, n ∉ ch p) →
      ∀ f, h.evCloseCurrent (.cls n) (f + 1) 0 = .ok none) := by
  refine ⟨?_, ?_, ?_⟩
  · intro n ha hc f
    simp [Heap.evCloseCurrent, evNext_leaf W.toFShape ha hc]
  · intro p a l1 hs f
    simp [Heap.evCloseCurrent, evNext_up W.toFShape hs]
  · intro n ha hr f
    simp [Heap.evCloseCurrent, W.evNext_root ha hr]

/-! ### C27 -/

/-- C27, the part that holds: `children_stable` used from one end only, and
`following_siblings(_or_self)_stable`, `siblings_stable` used from the front.
Missing: mixed use of both ends, backward use of `following_siblings*_stable`, and
`preceding_siblings*_stable` (see the `C27_*` counterexamples). -/
theorem C27_stable_siblings_partial (W : WF h ch) (ha : h.alive n = true) :
    (∃ s, StableSib.children h n = .ok s ∧ Yields (StableSib.next h) s (ch n) ∧
      Yields (StableSib.back h) s (ch n).reverse) ∧
    (∀ p l1 l2, ch p = l1 ++ n :: l2 →
      (∃ s, StableSib.siblings h n = .ok s ∧ Yields (StableSib.next h) s (ch p) ∧
        Yields (StableSib.back h) s (ch p).reverse) ∧
      (∃ s, StableSib.followingOrSelf h n = .ok s ∧ Yields (StableSib.next h) s (n :: l2)) ∧
      (∃ s, StableSib.following h n = .ok s ∧ Yields (StableSib.next h) s l2) ∧
      (∃ s, StableSib.precedingOrSelf h n = .ok s ∧
        Yields (StableSib.back h) s (n :: l1.reverse))) := by
  have hkids : ∀ q, h.alive q = true → ∃ s, StableSib.children h q = .ok s ∧
      Yields (StableSib.next h) s (ch q) ∧ Yields (StableSib.back h) s (ch q).reverse := by
    intro q hq
    obtain ⟨s, e, hy⟩ := W.children_stable hq
    obtain ⟨s', e', hy'⟩ := W.children_stable_back hq
    rw [e] at e'
    obtain rfl := Except.ok.inj e'
    exact ⟨s, e, hy, hy'⟩
  refine ⟨hkids n ha, ?_⟩
  intro p l1 l2 hs
  have hm : n ∈ ch p := by simp [hs]
  have hpl : h.parentLink n = some p := by rw [W.parentLink ha]; exact W.parent_of_mem hm
  have C := W.coherent
  obtain ⟨last, _, hlast⟩ := C.lastSib p n hm
  obtain ⟨first, _, hfirst⟩ := C.firstSib p n hm
  have hseg : Seg h.next (n :: l2) none := by
    have := W.seg p
    rw [hs, Seg.append] at this
    exact this.2
  have hf : Yields (StableSib.next h) (some (n, last)) (n :: l2) := StableSib.yields_of l2 n hseg
  refine ⟨?_, ⟨some (n, last), ?_, hf⟩, ?_, ⟨some (first, n), ?_, ?_⟩⟩
  · obtain ⟨s, e, hy⟩ := hkids p (W.alive_parent hm)
    exact ⟨s, by simp [StableSib.siblings, hpl, e], hy⟩
  · simp [StableSib.followingOrSelf, hlast, bind, Except.bind, pure, Except.pure]
  · obtain ⟨s, e, hy⟩ := hf.cons_inv
    exact ⟨s, by simp [StableSib.following, StableSib.followingOrSelf, hlast, e, bind, Except.bind,
      pure, Except.pure], hy⟩
  · simp [StableSib.precedingOrSelf, hfirst, bind, Except.bind, pure, Except.pure]
  · exact W.toShape.stableSib_back (p := p) (l2 := l2) (by simp [hs])

/-- C27 is violated: `preceding_siblings_or_self_stable` of node 1 (the first of three siblings)
yields all three siblings, and `preceding_siblings_stable` of node 3 (the third) misses node 1 and
contains node 3 itself. -/
theorem C27_preceding_wrong : WF Demo.heap Demo.ch ∧ Demo.ch 0 = [1, 2, 3] ∧
    (∃ s, StableSib.precedingOrSelf Demo.heap 1 = .ok s ∧
      Yields (StableSib.next Demo.heap) s [1, 2, 3]) ∧
    (∃ s, StableSib.preceding Demo.heap 3 = .ok s ∧
      Yields (StableSib.next Demo.heap) s [2, 3]) := by
  refine ⟨Demo.wf, rfl, ⟨some (1, 1), rfl, ?_⟩, ⟨some (2, 3), rfl, ?_⟩⟩
  · exact .more (s' := some (2, 1)) rfl (.more (s' := some (3, 1)) rfl
      (.more (s' := none) rfl (.done (s' := none) rfl rfl)))
  · exact .more (s' := some (3, 3)) rfl (.more (s' := none) rfl (.done (s' := none) rfl rfl))

/-- C27 is violated: `children_stable` used from both ends yields node 1 and node 2 twice;
`following_siblings_or_self_stable` of node 3 used from the back yields the preceding siblings. -/
theorem C27_not_double_ended :
    (∃ s, StableSib.children Demo.heap 0 = .ok s ∧
      ¬ DoubleEnded (StableSib.next Demo.heap) (StableSib.back Demo.heap) s [1, 2, 3]) ∧
    (∃ s, StableSib.followingOrSelf Demo.heap 3 = .ok s ∧
      Yields (StableSib.back Demo.heap) s [3, 2, 1]) := by
  refine ⟨⟨some (1, 3), rfl, ?_⟩, ⟨some (3, 3), rfl, ?_⟩⟩
  · intro hd
    have := hd [.front, .back, .back, .back]
    have h2 : runSched (StableSib.next Demo.heap) (StableSib.back Demo.heap)
      [.front, .back, .back, .back] (some (1, 3)) = .ok [some 1, some 3, some 2, some 1] := rfl
    rw [h2] at this
    simp [dequeSched] at this
  · exact .more (s' := some (3, 2)) rfl (.more (s' := some (3, 1)) rfl
      (.more (s' := none) rfl (.done (s' := none) rfl rfl)))

/-! ### C28 -/

/-- C28: `peek` returns what the following `next` returns (`peek_back`: `next_back`). -/
theorem C28_peek :
    (∀ s x s', Dft.next h s = .ok (x, s') → Dft.peek s = x) ∧
    (∀ s x s', RevDft.next h s = .ok (x, s') → RevDft.peek s = x) ∧
    (∀ s x s', StableDft.next h s = .ok (x, s') → StableDft.peek s = x) ∧
    (∀ s x s', StableDft.back h s = .ok (x, s') → StableDft.peekBack s = x) ∧
    (∀ s x s', Shallow.next h s = .ok (x, s') → Shallow.peek s = x) ∧
    (∀ s x s', Shallow.back h s = .ok (x, s') → Shallow.peekBack s = x) ∧
    (∀ s x s', Sib.next h s = .ok (x, s') → Sib.peek s = x) ∧
    (∀ s x s', Sib.prev h s = .ok (x, s') → Sib.peek s = x) ∧
    (∀ s x s', Sib.up h s = .ok (x, s') → Sib.peek s = x) ∧
    (∀ s x s', StableSib.next h s = .ok (x, s') → StableSib.peek s = x) ∧
    (∀ s x s', StableSib.back h s = .ok (x, s') → StableSib.peekBack s = x) := by
  refine ⟨?_, ?_, ?_, ?_, ?_, ?_, ?_, ?_, ?_, ?_, ?_⟩
  · rintro (_ | ⟨a, b⟩) x s' e <;> simp [Dft.next, Dft.peek] at e ⊢ <;> exact e.1
  · rintro (_ | ⟨a, b⟩) x s' e
    · simp [RevDft.next, RevDft.peek] at e ⊢; exact e.1
    · simp only [RevDft.next, bind, Except.bind, pure, Except.pure] at e
      split at e
      · simp at e; simp [RevDft.peek, ← e.1]
      · split at e
        · simp at e
        · simp at e; simp [RevDft.peek, ← e.1]
  · rintro (_ | ⟨a, b⟩) x s' e <;> simp [StableDft.next, StableDft.peek] at e ⊢ <;> exact e.1
  · rintro (_ | ⟨a, b⟩) x s' e
    · simp [StableDft.back, StableDft.peekBack] at e ⊢; exact e.1
    · simp only [StableDft.back, bind, Except.bind, pure, Except.pure] at e
      split at e
      · simp at e
      · simp at e; simp [StableDft.peekBack, ← e.1]
  · rintro ⟨_ | ⟨a, b⟩, lim⟩ x s' e
    · simp [Shallow.next, Shallow.peek] at e ⊢; exact e.1
    · simp only [Shallow.next, bind, Except.bind, pure, Except.pure] at e
      split at e
      · simp at e
      · split at e
        · simp at e; simp [Shallow.peek, ← e.1]
        · split at e
          · simp at e
          · simp at e; simp [Shallow.peek, ← e.1]
  · rintro ⟨_ | ⟨a, b⟩, lim⟩ x s' e
    · simp [Shallow.back, Shallow.peekBack] at e ⊢; exact e.1
    · simp only [Shallow.back, bind, Except.bind, pure, Except.pure] at e
      split at e
      · simp at e
      · split at e
        · simp at e; simp [Shallow.peekBack, ← e.1]
        · split at e
          · simp at e
          · simp at e; simp [Shallow.peekBack, ← e.1]
  · rintro (_ | a) x s' e <;> simp [Sib.next, Sib.peek] at e ⊢ <;> exact e.1
  · rintro (_ | a) x s' e
    · simp [Sib.prev, Sib.peek] at e ⊢; exact e.1
    · simp only [Sib.prev, bind, Except.bind, pure, Except.pure] at e
      split at e
      · simp at e
      · simp at e; simp [Sib.peek, ← e.1]
  · rintro (_ | a) x s' e <;> simp [Sib.up, Sib.peek] at e ⊢ <;> exact e.1
  · rintro (_ | ⟨a, b⟩) x s' e <;> simp [StableSib.next, StableSib.peek] at e ⊢ <;> exact e.1
  · rintro (_ | ⟨a, b⟩) x s' e
    · simp [StableSib.back, StableSib.peekBack] at e ⊢; exact e.1
    · simp only [StableSib.back, bind, Except.bind, pure, Except.pure] at e
      split at e
      · simp at e
      · simp at e; simp [StableSib.peekBack, ← e.1]

/-- C28 for the allocating breadth-first traverser: in every state reached from the start, `peek`
does not panic and returns what `next` returns. -/
theorem C28_peek_breadth_first (W : WF h ch) (ha : h.alive n = true) (ht : SubtreeAt ch n t)
    (d : Nat) :
    ∃ s0, AlBfs.start h n d = .ok s0 ∧ ∀ s, Reaches (AlBfs.next h) s0 s →
      ∃ x s', AlBfs.next h s = .ok (x, s') ∧ AlBfs.peek s = .ok x := by
  obtain ⟨s0, e, I, _⟩ := W.albfs_start ha ht d
  refine ⟨s0, e, fun s hr => ?_⟩
  obtain ⟨x, s', e1, e2, _⟩ := (AlBfs.Good.reaches W.toShape ht.2 (.inr ⟨_, _, I⟩) hr).step W.toShape ht.2
  exact ⟨x, s', e1, e2⟩

/-! ### The hypotheses are met by the demo memory: inner node 2 and root 0 -/

/-- the subtree of node 0 in the demo memory -/
def Demo.tree : RTree NodeId :=
  .node 0 [.node 1 [], .node 2 [.node 4 [], .node 5 []], .node 3 []]

theorem Demo.subtree : SubtreeAt Demo.ch 0 Demo.tree := by
  simp [SubtreeAt, Demo.tree, Hier, HierL, label, Demo.ch]

example : WF Demo.heap Demo.ch ∧ Demo.heap.alive 0 = true ∧ SubtreeAt Demo.ch 0 Demo.tree ∧
    SubtreeAt Demo.ch 2 (.node 2 [.node 4 [], .node 5 []]) ∧ (∀ p, 0 ∉ Demo.ch p) ∧
    Desc Demo.ch 0 4 ∧ Demo.ch 0 = [1] ++ 2 :: [3] ∧ AncPath Demo.ch 4 [2, 0] := by
  have hr : ∀ p, 0 ∉ Demo.ch p := by
    intro p hp; have := Demo.wf.parent_of_mem hp; simp [show Demo.heap.parent 0 = none from rfl] at this
  refine ⟨Demo.wf, rfl, Demo.subtree, by simp [SubtreeAt, Hier, HierL, label, Demo.ch], hr, ?_, rfl, ?_⟩
  · exact .step (.step (.refl 0) (m := 0) (d := 2) (by simp [Demo.ch])) (by simp [Demo.ch])
  · exact .step (by simp [Demo.ch]) (.step (by simp [Demo.ch]) (.root hr))

example : Demo.tree.bfs 0 = [(0, 0), (1, 1), (2, 1), (3, 1), (4, 2), (5, 2)] := by
  simp [Demo.tree, bfs, height, heightL, level, levelL, List.range', List.flatMap]

example : Demo.tree.eventsD (some 1) 0 = [.opn (0, 0), .opn (1, 1), .cls (1, 1), .opn (2, 1),
    .cls (2, 1), .opn (3, 1), .cls (3, 1), .cls (0, 0)] := by
  simp [Demo.tree, eventsD, eventsDL]

/-- a state in the middle of a traversal, as in `C26_close_current` -/
example : Reaches (Dft.next Demo.heap) (Dft.start 0) (some (.opn 4, 0)) :=
  .step (s1 := some (.opn 2, 0)) (x := some (.opn 2))
    (.step (s1 := some (.cls 1, 0)) (x := some (.cls 1))
      (.step (s1 := some (.opn 1, 0)) (x := some (.opn 1))
        (.step (s1 := Dft.start 0) (x := some (.opn 0)) .refl rfl) rfl) rfl) rfl

example : openStack [DftEvent.opn 0, .opn 1, .cls 1, .opn 2] [] = [2, 0] := rfl

end Dendron
