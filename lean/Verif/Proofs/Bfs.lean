import Verif.Proofs.IterMore

/-! Breadth-first traversals. -/

set_option linter.unusedSimpArgs false
set_option linter.unusedVariables false

set_option autoImplicit false

namespace Dendron
open RTree

variable {α β : Type} {h : Heap α} {ch : NodeId → List NodeId} {n p : NodeId}

/-- the nodes opened at depth `d` -/
def opensAt (d : Nat) (l : List (DftEvent (β × Nat))) : List β :=
  l.filterMap (fun e => match e with
    | .opn (m, e) => if e = d then some m else none
    | .cls _ => none)

theorem opensAt_append (d : Nat) (l1 l2 : List (DftEvent (β × Nat))) :
    opensAt d (l1 ++ l2) = opensAt d l1 ++ opensAt d l2 := by simp [opensAt]

mutual
theorem opensAt_eventsD : ∀ (k j : Nat) (t : RTree β),
    opensAt (j + k) (t.eventsD (some (j + k)) j) = t.level k
  | 0, j, .node v cs => by simp [eventsD, level, opensAt]
  | k + 1, j, .node v cs => by
    have hne : ¬ (j + (k + 1) = j) := by omega
    have hne' : ¬ (j = j + (k + 1)) := by omega
    have ih := opensAt_eventsDL k (j + 1) cs
    have e : j + 1 + k = j + (k + 1) := by omega
    rw [e] at ih
    simp only [eventsD, level, Option.some.injEq, hne, if_false]
    rw [← List.singleton_append, opensAt_append, opensAt_append, ih]
    simp [opensAt, hne']
theorem opensAt_eventsDL : ∀ (k j : Nat) (cs : List (RTree β)),
    opensAt (j + k) (eventsDL (some (j + k)) j cs) = levelL k cs
  | k, j, [] => by simp [eventsDL, levelL, opensAt]
  | k, j, c :: cs => by
    simp [eventsDL, levelL, opensAt_append, opensAt_eventsD k j c, opensAt_eventsDL k j cs]
end

theorem opensAt_level (d : Nat) (t : RTree β) : opensAt d (t.eventsD (some d) 0) = t.level d := by
  have := opensAt_eventsD d 0 t
  simpa using this

mutual
theorem eventsD_length_le (lim : Option Nat) : ∀ (d : Nat) (t : RTree β),
    (t.eventsD lim d).length ≤ 2 * t.nodes.length
  | d, .node v cs => by
    have := eventsDL_length_le lim (d + 1) cs
    simp only [eventsD, nodes, List.length_cons, List.length_append, List.length_nil]
    split <;> simp <;> omega
theorem eventsDL_length_le (lim : Option Nat) : ∀ (d : Nat) (cs : List (RTree β)),
    (eventsDL lim d cs).length ≤ 2 * (nodesL cs).length
  | d, [] => by simp [eventsDL]
  | d, c :: cs => by
    have h1 := eventsD_length_le lim d c
    have h2 := eventsDL_length_le lim d cs
    simp only [eventsDL, nodesL, List.length_append]; omega
end

mutual
theorem level_ne_nil : ∀ (k : Nat) (t : RTree β), t.level k ≠ [] ↔ k ≤ t.height
  | 0, .node v cs => by simp [level]
  | k + 1, .node v cs => by
    rw [level, height, levelL_ne_nil k cs]
theorem levelL_ne_nil : ∀ (k : Nat) (cs : List (RTree β)), levelL k cs ≠ [] ↔ k + 1 ≤ heightL cs
  | k, [] => by simp [levelL, heightL]
  | k, c :: cs => by
    have h1 := level_ne_nil k c
    have h2 := levelL_ne_nil k cs
    simp only [levelL, heightL, ne_eq, List.append_eq_nil_iff, Classical.not_and_iff_not_or_not]
    simp only [ne_eq] at h1 h2
    rw [h1, h2]
    omega
end

theorem bfs_unfold (d : Nat) (t : RTree β) :
    t.bfs d = (t.level d).map (fun v => (v, d)) ++ t.bfs (d + 1) := by
  unfold bfs
  by_cases hd : d ≤ t.height
  · obtain ⟨k, hk⟩ : ∃ k, t.height + 1 - d = k + 1 := ⟨t.height - d, by omega⟩
    have hk' : t.height + 1 - (d + 1) = k := by omega
    rw [hk, hk', List.range'_succ]
    simp
  · have h0 : t.height + 1 - d = 0 := by omega
    have h1 : t.height + 1 - (d + 1) = 0 := by omega
    have : t.level d = [] := Classical.not_not.1 (fun hc => hd ((level_ne_nil d t).1 hc))
    rw [h0, h1, this]
    simp

theorem bfs_nil {d : Nat} {t : RTree β} (hd : t.level d = []) : t.bfs d = [] := by
  unfold bfs
  have : ¬ d ≤ t.height := fun hc => (level_ne_nil d t).2 hc hd
  have h0 : t.height + 1 - d = 0 := by omega
  rw [h0]; simp

theorem level_nil_succ {d : Nat} {t : RTree β} (hd : t.level d = []) : t.level (d + 1) = [] := by
  have h1 : ¬ d ≤ t.height := fun hc => (level_ne_nil d t).2 hc hd
  exact Classical.not_not.1 (fun hc => h1 (by have := (level_ne_nil _ t).1 hc; omega))

/-! ### Non-allocating traverser -/

theorem NaBfs.skip_spec (d : Nat) : ∀ {l : List Shallow.Ev} {s : Shallow.State} {f : Nat},
    Shallow.Inv h s l → l.length < f →
    match opensAt d l with
    | [] => ∃ s', NaBfs.skip h d f s = .ok (none, s')
    | x :: r => ∃ s' l', NaBfs.skip h d f s = .ok (some x, s') ∧ Shallow.Inv h s' l' ∧
        opensAt d l' = r ∧ l'.length < l.length
  | [], s, f + 1, I, hf => by
    obtain ⟨s', e, _⟩ := I.front
    exact ⟨s', by simp [NaBfs.skip, e]⟩
  | .cls x :: l, s, f + 1, I, hf => by
    obtain ⟨s', e, I', _⟩ := I.front
    have ih := NaBfs.skip_spec d (f := f) I' (by simpa using hf)
    have ho : opensAt d (.cls x :: l) = opensAt d l := by simp [opensAt]
    simp only [List.tail_cons] at ih
    rw [ho]
    split at ih
    · rename_i hh
      obtain ⟨s2, e2⟩ := ih
      exact ⟨s2, by simp [NaBfs.skip, e, e2]⟩
    · rename_i hh
      obtain ⟨s2, l', e2, I2, hr, hl⟩ := ih
      exact ⟨s2, l', by simp [NaBfs.skip, e, e2], I2, hr, by simp; omega⟩
  | .opn (m, k) :: l, s, f + 1, I, hf => by
    obtain ⟨s', e, I', _⟩ := I.front
    by_cases hk : k = d
    · have ho : opensAt d (.opn (m, k) :: l) = m :: opensAt d l := by simp [opensAt, hk]
      rw [ho]
      exact ⟨s', l, by simp [NaBfs.skip, e, hk], I', rfl, by simp⟩
    · have ih := NaBfs.skip_spec d (f := f) I' (by simpa using hf)
      have ho : opensAt d (.opn (m, k) :: l) = opensAt d l := by simp [opensAt, hk]
      simp only [List.tail_cons] at ih
      rw [ho]
      split at ih
      · rename_i hh
        obtain ⟨s2, e2⟩ := ih
        exact ⟨s2, by simp [NaBfs.skip, e, e2, hk]⟩
      · rename_i hh
        obtain ⟨s2, l', e2, I2, hr, hl⟩ := ih
        exact ⟨s2, l', by simp [NaBfs.skip, e, e2, hk], I2, hr, by simp; omega⟩
  | _, s, 0, _, hf => by simp at hf

theorem NaBfs.yields_from (S : Shape h ch) {t : RTree NodeId} (ha : h.alive n = true)
    (ht : SubtreeAt ch n t) : ∀ (k d : Nat) (l : List Shallow.Ev) (s : Shallow.State),
    t.height + 1 - d = k → Shallow.Inv h s l → l.length < NaBfs.fuel h →
    Yields (NaBfs.next h) ⟨s, some n, d⟩
      ((opensAt d l).map (fun v => (v, d)) ++ t.bfs (d + 1)) := by
  have hsize : ∀ lim, (t.eventsD lim 0).length < NaBfs.fuel h := by
    intro lim
    have h1 := eventsD_length_le lim 0 t
    have h2 := ht.size_le S.toFShape ha
    simp only [NaBfs.fuel]; omega
  intro k
  induction k with
  | zero =>
    intro d l s hk I hf
    have hnil : t.level (d + 1) = [] :=
      Classical.not_not.1 (fun hc => by have := (level_ne_nil _ t).1 hc; omega)
    rw [bfs_nil hnil, List.append_nil]
    generalize ho : opensAt d l = os
    induction os generalizing l s with
    | nil =>
      have h1 := NaBfs.skip_spec d I hf
      rw [ho] at h1
      obtain ⟨s1, e1⟩ := h1
      have h2 := NaBfs.skip_spec (d + 1) (S.shallow_inv (some (d + 1)) ha ht) (hsize _)
      rw [opensAt_level, hnil] at h2
      obtain ⟨s2, e2⟩ := h2
      exact .done (s' := ⟨s2, none, d + 1⟩)
        (by simp [NaBfs.next, e1, e2, bind, Except.bind, pure, Except.pure]) (by simp [NaBfs.next])
    | cons x r ih =>
      have h1 := NaBfs.skip_spec d I hf
      rw [ho] at h1
      obtain ⟨s1, l', e1, I1, hr, hl⟩ := h1
      exact .more (s' := ⟨s1, some n, d⟩)
        (by simp [NaBfs.next, e1, bind, Except.bind, pure, Except.pure])
        (ih l' s1 I1 (by omega) hr)
  | succ k ihk =>
    intro d l s hk I hf
    generalize ho : opensAt d l = os
    induction os generalizing l s with
    | nil =>
      have h1 := NaBfs.skip_spec d I hf
      rw [ho] at h1
      obtain ⟨s1, e1⟩ := h1
      have h2 := NaBfs.skip_spec (d + 1) (S.shallow_inv (some (d + 1)) ha ht) (hsize _)
      rw [opensAt_level] at h2
      rw [bfs_unfold]
      cases hlev : t.level (d + 1) with
      | nil =>
        rw [hlev] at h2
        obtain ⟨s2, e2⟩ := h2
        rw [bfs_nil (level_nil_succ hlev)]
        exact .done (s' := ⟨s2, none, d + 1⟩)
          (by simp [NaBfs.next, e1, e2, bind, Except.bind, pure, Except.pure]) (by simp [NaBfs.next])
      | cons x r =>
        rw [hlev] at h2
        obtain ⟨s2, l', e2, I2, hr, hl⟩ := h2
        have := ihk (d + 1) l' s2 (by omega) I2 (by have := hsize (some (d + 1)); omega)
        rw [hr] at this
        exact .more (s' := ⟨s2, some n, d + 1⟩)
          (by simp [NaBfs.next, e1, e2, bind, Except.bind, pure, Except.pure]) this
    | cons x r ih =>
      have h1 := NaBfs.skip_spec d I hf
      rw [ho] at h1
      obtain ⟨s1, l', e1, I1, hr, hl⟩ := h1
      exact .more (s' := ⟨s1, some n, d⟩)
        (by simp [NaBfs.next, e1, bind, Except.bind, pure, Except.pure])
        (ih l' s1 I1 (by omega) hr)

theorem Shape.nabfs_yields (S : Shape h ch) {t : RTree NodeId} (ha : h.alive n = true)
    (ht : SubtreeAt ch n t) (d : Nat) :
    Yields (NaBfs.next h) (NaBfs.start n d) (t.bfs d) := by
  have hsize : (t.eventsD (some d) 0).length < NaBfs.fuel h := by
    have h1 := eventsD_length_le (some d) 0 t
    have h2 := ht.size_le S.toFShape ha
    simp only [NaBfs.fuel]; omega
  have := NaBfs.yields_from S ha ht _ d _ _ rfl (S.shallow_inv (some d) ha ht) hsize
  rw [opensAt_level, ← bfs_unfold] at this
  exact this

/-! ### Allocating traverser -/

theorem StableSib.yields_of {z : NodeId} : ∀ (l : List NodeId) (a : NodeId),
    Seg h.next (a :: l) none → Yields (StableSib.next h) (some (a, z)) (a :: l)
  | [], a, hs =>
    .more (s' := none) (by have := hs.1; simp at this; simp [StableSib.next, Heap.nextLink, this])
      (.done (s' := none) rfl rfl)
  | b :: l, a, hs =>
    .more (s' := some (b, z)) (by have := hs.1; simp at this; simp [StableSib.next, Heap.nextLink, this])
      (StableSib.yields_of l b hs.2)

theorem Shape.firstLast (S : Shape h ch) (ha : h.alive p = true) :
    h.firstLastChildLink p = .ok (match (ch p).head?, (ch p).getLast? with
      | some f, some l => some (f, l)
      | _, _ => none) := by
  cases hs : ch p with
  | nil => rw [S.firstLast_nil ha hs]; simp
  | cons f l =>
    rw [S.firstLast_cons hs, List.getLast?_eq_some_getLast (List.cons_ne_nil _ _)]
    simp

theorem Shape.children_stable (S : Shape h ch) (ha : h.alive p = true) :
    ∃ s, StableSib.children h p = .ok s ∧ Yields (StableSib.next h) s (ch p) := by
  have := S.firstLast ha
  cases hs : ch p with
  | nil =>
    rw [hs] at this
    exact ⟨none, this, .done (s' := none) rfl rfl⟩
  | cons a l =>
    rw [hs, List.getLast?_eq_some_getLast (List.cons_ne_nil _ _)] at this
    refine ⟨_, this, StableSib.yields_of l a ?_⟩
    rw [← hs]; exact S.seg p

theorem Shape.childList (S : Shape h ch) (ha : h.alive p = true) :
    AlBfs.childList h p = .ok (ch p) := by
  obtain ⟨s, e, hy⟩ := S.children_stable ha
  have hl := S.toFShape.length_le p
  have := drain_of_yields (f := h.nNode + 2) hy (by omega)
  simp [AlBfs.childList, e, this, bind, Except.bind]

theorem levelL_zero : ∀ cs : List (RTree β), levelL 0 cs = cs.map label
  | [] => by simp [levelL]
  | c :: cs => by cases c; simp [levelL, level, label, levelL_zero cs]

mutual
theorem level_succ : ∀ (k : Nat) (t : RTree NodeId), Hier ch t →
    t.level (k + 1) = (t.level k).flatMap ch
  | 0, .node v cs, ht => by
    simp only [level, List.flatMap_cons, List.flatMap_nil, List.append_nil]
    rw [← ht.1]
    exact levelL_zero cs
  | k + 1, .node v cs, ht => by
    simp only [level]
    exact levelL_succ k cs ht.2
theorem levelL_succ : ∀ (k : Nat) (cs : List (RTree NodeId)), HierL ch cs →
    levelL (k + 1) cs = (levelL k cs).flatMap ch
  | k, [], _ => by simp [levelL]
  | k, c :: cs, ht => by
    simp [levelL, level_succ k c ht.1, levelL_succ k cs ht.2]
end

/-- the queue: the rest of the current level, then the mark, then the beginning of the next level -/
structure AlBfs.Inv (h : Heap α) (ch : NodeId → List NodeId) (t : RTree NodeId) (s : AlBfs.State)
    (cur nxt : List NodeId) : Prop where
  queue : s.events = cur.map some ++ none :: nxt.map some
  alive : ∀ x ∈ cur ++ nxt, h.alive x = true
  next : t.level (s.depth + 1) = nxt ++ cur.flatMap ch

theorem AlBfs.Inv.mark {t : RTree NodeId} {s : AlBfs.State} {nxt : List NodeId}
    (I : AlBfs.Inv h ch t s [] nxt) (hH : Hier ch t) :
    AlBfs.Inv h ch t ⟨nxt.map some ++ [none], s.depth + 1⟩ nxt [] := by
  refine ⟨by simp, by simpa using I.alive, ?_⟩
  have := I.next
  simp only [List.flatMap_nil, List.append_nil] at this
  simp only [List.nil_append]
  rw [level_succ _ _ hH, this]

theorem AlBfs.nextF_step (S : Shape h ch) {t : RTree NodeId} (f : Nat) {s : AlBfs.State} {x : NodeId}
    {r nxt : List NodeId} (I : AlBfs.Inv h ch t s (x :: r) nxt) :
    ∃ s', AlBfs.nextF h (f + 1) s = .ok (some (x, s.depth), s') ∧ s'.depth = s.depth ∧
      AlBfs.Inv h ch t s' r (nxt ++ ch x) := by
  have hax : h.alive x = true := I.alive x (by simp)
  refine ⟨⟨r.map some ++ none :: (nxt ++ ch x).map some, s.depth⟩, ?_, rfl, rfl, ?_, ?_⟩
  · rw [AlBfs.nextF, I.queue]
    simp [S.childList hax, bind, Except.bind, pure, Except.pure]
  · intro y hy
    simp only [List.mem_append] at hy
    rcases hy with hy | hy | hy
    · exact I.alive y (by simp [hy])
    · exact I.alive y (by simp [hy])
    · exact S.alive_of_mem hy
  · have := I.next
    simp only [this]
    simp

theorem AlBfs.yields_from (S : Shape h ch) {t : RTree NodeId} (hH : Hier ch t) :
    ∀ (k : Nat) (cur nxt : List NodeId) (s : AlBfs.State),
    t.height + 1 - s.depth = k → AlBfs.Inv h ch t s cur nxt →
    Yields (AlBfs.next h) s (cur.map (fun v => (v, s.depth)) ++ t.bfs (s.depth + 1)) := by
  intro k
  induction k with
  | zero =>
    intro cur nxt s hk I
    have hnil : t.level (s.depth + 1) = [] :=
      Classical.not_not.1 (fun hc => by have := (level_ne_nil _ t).1 hc; omega)
    rw [bfs_nil hnil, List.append_nil]
    induction cur generalizing nxt s with
    | nil =>
      have hn := I.next
      rw [hnil] at hn
      simp at hn
      subst hn
      exact .done (s' := ⟨[], s.depth⟩) (by simp [AlBfs.next, AlBfs.nextF, I.queue])
        (by simp [AlBfs.next, AlBfs.nextF])
    | cons x r ih =>
      obtain ⟨s', e, hd, I'⟩ := AlBfs.nextF_step S (s.events.length) I
      have := ih _ s' (by rw [hd]; exact hk) I' (by rw [hd]; exact hnil)
      rw [hd] at this
      exact .more e this
  | succ k ihk =>
    intro cur nxt s hk I
    induction cur generalizing nxt s with
    | nil =>
      have hn := I.next
      simp at hn
      have hq : s.events = none :: nxt.map some := by simpa using I.queue
      cases nxt with
      | nil =>
        rw [bfs_nil hn]
        exact .done (s' := ⟨[], s.depth⟩) (by simp [AlBfs.next, AlBfs.nextF, hq])
          (by simp [AlBfs.next, AlBfs.nextF])
      | cons x r =>
        have IM := I.mark hH
        have hy := ihk _ _ ⟨_, s.depth + 1⟩ (by simp; omega) IM
        rw [bfs_unfold, hn]
        obtain ⟨s', e, hd, I'⟩ := AlBfs.nextF_step S r.length IM
        have hnext : AlBfs.next h s = .ok (some (x, s.depth + 1), s') := by
          rw [AlBfs.next, hq]
          simp only [List.length_cons, List.length_map, AlBfs.nextF, hq, List.map_cons,
            List.cons_ne_nil, if_false, reduceCtorEq]
          exact e
        obtain ⟨s2, e2, hy2⟩ := hy.cons_inv
        have e3 : AlBfs.next h ⟨(x :: r).map some ++ [none], s.depth + 1⟩
            = .ok (some (x, s.depth + 1), s') := by
          obtain ⟨s4, e4, _, _⟩ := AlBfs.nextF_step S
            (((x :: r).map some ++ [none]).length : Nat) IM
          have e5 : AlBfs.nextF h (r.length + 1) ⟨(x :: r).map some ++ [none], s.depth + 1⟩ =
            AlBfs.nextF h (((x :: r).map some ++ [none]).length + 1)
              ⟨(x :: r).map some ++ [none], s.depth + 1⟩ := by
            simp only [List.map_cons, List.cons_append, AlBfs.nextF]
          rw [AlBfs.next, ← e5]; exact e
        rw [e3] at e2
        simp only [Except.ok.injEq, Prod.mk.injEq] at e2
        exact .more hnext (e2.2 ▸ hy2)
    | cons x r ih =>
      obtain ⟨s', e, hd, I'⟩ := AlBfs.nextF_step S (s.events.length) I
      have := ih _ s' (by rw [hd]; exact hk) I'
      rw [hd] at this
      exact .more e this

theorem Shape.albfs_start (S : Shape h ch) {t : RTree NodeId} (ha : h.alive n = true)
    (ht : SubtreeAt ch n t) (d : Nat) :
    ∃ s, AlBfs.start h n d = .ok s ∧ AlBfs.Inv h ch t s (t.level d) [] ∧ s.depth = d := by
  by_cases hd : d = 0
  · subst hd
    have hl : t.level 0 = [n] := by cases t; simp [level, ← ht.1, label]
    refine ⟨⟨[some n, none], 0⟩, by simp [AlBfs.start], ⟨by simp [hl], ?_, ?_⟩, rfl⟩
    · simp [hl, ha]
    · simp only [List.nil_append]; exact level_succ _ _ ht.2
  · have hsize : (t.eventsD (some d) 0).length < NaBfs.fuel h := by
      have h1 := eventsD_length_le (some d) 0 t
      have h2 := ht.size_le S.toFShape ha
      simp only [NaBfs.fuel]; omega
    have hy := drain_of_yields (S.shallow_inv (some d) ha ht).yields hsize
    have hop := opensAt_level d t
    simp only [opensAt] at hop
    refine ⟨⟨(t.level d).map some ++ [none], d⟩, ?_, ⟨by simp, ?_, ?_⟩, rfl⟩
    · simp only [AlBfs.start, hd, if_false, hy, bind, Except.bind, pure, Except.pure]
      rw [← hop]
      congr 4
      apply congrArg (fun f => List.filterMap f _)
      funext e
      rcases e with ⟨m, k⟩ | ⟨m, k⟩ <;> rfl
    · intro x hx
      simp only [List.append_nil, ← opensAt_level, opensAt, List.mem_filterMap] at hx
      obtain ⟨e, he, hx⟩ := hx
      have hm := mem_eventsD _ _ _ _ he
      rcases e with ⟨m, k⟩ | ⟨m, k⟩
      · simp only [DftEvent.value] at hm
        simp only [] at hx
        split at hx
        · simp only [Option.some.injEq] at hx
          subst hx
          exact S.toFShape.desc_alive ha ((ht.mem_nodes_iff _).1 hm)
        · simp at hx
      · simp at hx
    · simp only [List.nil_append]; exact level_succ _ _ ht.2

theorem Shape.albfs_yields (S : Shape h ch) {t : RTree NodeId} (ha : h.alive n = true)
    (ht : SubtreeAt ch n t) (d : Nat) :
    ∃ s, AlBfs.start h n d = .ok s ∧ Yields (AlBfs.next h) s (t.bfs d) := by
  obtain ⟨s, e, I, hd⟩ := S.albfs_start ha ht d
  refine ⟨s, e, ?_⟩
  have := AlBfs.yields_from S ht.2 _ _ _ s rfl I
  rw [hd, ← bfs_unfold] at this
  exact this

end Dendron
