import Verif.Proofs.Linked

/-! The traversers yield the event sequences of the hierarchy. -/

set_option linter.unusedSimpArgs false
set_option linter.unusedVariables false

set_option autoImplicit false

namespace Dendron
open RTree

variable {α β : Type} {h : Heap α} {ch : NodeId → List NodeId} {n p : NodeId}

/-! ### Forward and reverse depth-first traversal -/

theorem Dft.yields_of {st : NodeId} : ∀ (l : List (DftEvent NodeId)) (a : DftEvent NodeId),
    Linked (fun a b => h.evNext a = some b) (a :: l) → (a :: l).Nodup →
    (a :: l).getLast? = some (.cls st) → Yields (Dft.next h) (some (a, st)) (a :: l)
  | [], a, _, _, hl => by
    simp only [List.getLast?_singleton, Option.some.injEq] at hl
    subst hl
    exact .more (s' := none) (by simp [Dft.next]) (.done (s' := none) rfl rfl)
  | b :: l, a, hk, hn, hl => by
    have hne : a ≠ .cls st := by
      intro e
      rw [List.getLast?_cons_cons] at hl
      exact (List.nodup_cons.1 hn).1 (e ▸ List.mem_of_getLast? hl)
    refine .more (s' := some (b, st)) (by simp [Dft.next, hne, hk.1]) ?_
    exact Dft.yields_of l b hk.2 (List.nodup_cons.1 hn).2 (by simpa [List.getLast?_cons_cons] using hl)

theorem RevDft.yields_of {st : NodeId} : ∀ (l : List (DftEvent NodeId)) (a : DftEvent NodeId),
    Linked (fun a b => h.evPrev a = .ok (some b)) (a :: l) → (a :: l).Nodup →
    (a :: l).getLast? = some (.opn st) → Yields (RevDft.next h) (some (a, st)) (a :: l)
  | [], a, _, _, hl => by
    simp only [List.getLast?_singleton, Option.some.injEq] at hl
    subst hl
    exact .more (s' := none) (by simp [RevDft.next, pure, Except.pure]) (.done (s' := none) rfl rfl)
  | b :: l, a, hk, hn, hl => by
    have hne : a ≠ .opn st := by
      intro e
      rw [List.getLast?_cons_cons] at hl
      exact (List.nodup_cons.1 hn).1 (e ▸ List.mem_of_getLast? hl)
    refine .more (s' := some (b, st))
      (by simp [RevDft.next, hne, hk.1, pure, Except.pure, bind, Except.bind]) ?_
    exact RevDft.yields_of l b hk.2 (List.nodup_cons.1 hn).2 (by simpa [List.getLast?_cons_cons] using hl)

theorem events_eq_cons (t : RTree β) : ∃ l, t.events = .opn t.label :: l := by
  cases t; exact ⟨_, by simp [events, label]; rfl⟩

theorem events_reverse_eq_cons (t : RTree β) : ∃ l, t.events.reverse = .cls t.label :: l := by
  cases t; exact ⟨_, by simp [events, label]; rfl⟩

theorem FShape.dft_yields (S : FShape h ch) {t : RTree NodeId} (ha : h.alive n = true)
    (ht : SubtreeAt ch n t) : Yields (Dft.next h) (Dft.start n) t.events := by
  obtain ⟨l, hl⟩ := events_eq_cons t
  have h1 := S.linked_next ha ht
  have h2 := events_nodup t (ht.nodup S)
  have h3 := events_last t
  have hlab := ht.1
  rw [hl] at h1 h2 h3 ⊢
  rw [hlab] at h1 h2 h3 ⊢
  exact Dft.yields_of _ _ h1 h2 h3

theorem Shape.revDft_yields (S : Shape h ch) {t : RTree NodeId} (ha : h.alive n = true)
    (ht : SubtreeAt ch n t) : Yields (RevDft.next h) (RevDft.start n) t.events.reverse := by
  obtain ⟨l, hl⟩ := events_reverse_eq_cons t
  have h1 := ((S.linked_events ha ht).reverse).mono
    (Q := fun a b => h.evPrev a = .ok (some b)) (fun a b e => e.2)
  have h2 : t.events.reverse.Nodup := List.pairwise_reverse.2 ((events_nodup t (ht.nodup S.toFShape)).imp Ne.symm)
  have h3 : t.events.reverse.getLast? = some (.opn t.label) := by
    rw [List.getLast?_reverse, events_head]
  have hlab := ht.1
  rw [hl] at h1 h2 h3 ⊢
  rw [hlab] at h1 h2 h3 ⊢
  exact RevDft.yields_of _ _ h1 h2 h3

/-! ### Stable depth-first traversal, one end only -/

theorem StableDft.yields_of {z : DftEvent NodeId} : ∀ (l : List (DftEvent NodeId))
    (a : DftEvent NodeId), Linked (fun a b => h.evNext a = some b) (a :: l) →
    (∀ e, (a :: l).getLast? = some e → h.evNext e = none) →
    Yields (StableDft.next h) (some (a, z)) (a :: l)
  | [], a, _, hl =>
    .more (s' := none) (by simp [StableDft.next, hl a (by simp)]) (.done (s' := none) rfl rfl)
  | b :: l, a, hk, hl =>
    .more (s' := some (b, z)) (by simp [StableDft.next, hk.1])
      (StableDft.yields_of l b hk.2 (by simpa [List.getLast?_cons_cons] using hl))

theorem StableDft.back_yields_of {z : DftEvent NodeId} : ∀ (l : List (DftEvent NodeId))
    (a : DftEvent NodeId), Linked (fun a b => h.evPrev a = .ok (some b)) (a :: l) →
    (∀ e, (a :: l).getLast? = some e → h.evPrev e = .ok none) →
    Yields (StableDft.back h) (some (z, a)) (a :: l)
  | [], a, _, hl =>
    .more (s' := none) (by simp [StableDft.back, hl a (by simp), pure, Except.pure, bind, Except.bind])
      (.done (s' := none) rfl rfl)
  | b :: l, a, hk, hl =>
    .more (s' := some (z, b)) (by simp [StableDft.back, hk.1, pure, Except.pure, bind, Except.bind])
      (StableDft.back_yields_of l b hk.2 (by simpa [List.getLast?_cons_cons] using hl))

theorem Shape.evNext_root (S : Shape h ch) (ha : h.alive n = true) (hr : ∀ p, n ∉ ch p) :
    h.evNext (.cls n) = none := by
  have hp := S.toFShape.parent_none ha hr
  simp [Heap.evNext, Heap.nextLink, S.rootNext n ha hp, S.parentLink ha, hp]

theorem Shape.evPrev_root (S : Shape h ch) (ha : h.alive n = true) (hr : ∀ p, n ∉ ch p) :
    h.evPrev (.opn n) = .ok none := by
  have hp := S.toFShape.parent_none ha hr
  simp [Heap.evPrev, S.root_prevLink ha hp, S.parentLink ha, hp, pure, Except.pure, bind,
    Except.bind]

theorem Shape.stableDft_yields (S : Shape h ch) {t : RTree NodeId} (ha : h.alive n = true)
    (ht : SubtreeAt ch n t) (hr : ∀ p, n ∉ ch p) :
    Yields (StableDft.next h) (StableDft.start n) t.events := by
  obtain ⟨l, hl⟩ := events_eq_cons t
  have h1 := (S.linked_events ha ht).mono (Q := fun a b => h.evNext a = some b) (fun a b e => e.1)
  have h3 := events_last t
  have hlab := ht.1
  rw [hl] at h1 h3 ⊢
  rw [hlab] at h1 h3 ⊢
  exact StableDft.yields_of _ _ h1 (by
    intro e he
    rw [h3] at he
    obtain rfl := Option.some.inj he
    exact S.evNext_root ha hr)

theorem Shape.stableDft_back_yields (S : Shape h ch) {t : RTree NodeId} (ha : h.alive n = true)
    (ht : SubtreeAt ch n t) (hr : ∀ p, n ∉ ch p) :
    Yields (StableDft.back h) (StableDft.start n) t.events.reverse := by
  obtain ⟨l, hl⟩ := events_reverse_eq_cons t
  have h1 := ((S.linked_events ha ht).reverse).mono
    (Q := fun a b => h.evPrev a = .ok (some b)) (fun a b e => e.2)
  have h3 : t.events.reverse.getLast? = some (.opn t.label) := by
    rw [List.getLast?_reverse, events_head]
  have hlab := ht.1
  rw [hl] at h1 h3 ⊢
  rw [hlab] at h1 h3 ⊢
  exact StableDft.back_yields_of _ _ h1 (by
    intro e he
    rw [h3] at he
    obtain rfl := Option.some.inj he
    exact S.evPrev_root ha hr)

/-! ### Depth-limited traversal -/

theorem eq_of_map_nodup {γ δ : Type} {f : γ → δ} : ∀ {l : List γ}, (l.map f).Nodup →
    ∀ {a b : γ}, a ∈ l → b ∈ l → f a = f b → a = b
  | [], _, a, b, ha, _, _ => by simp at ha
  | x :: l, hn, a, b, ha, hb, he => by
    simp only [List.map_cons, List.nodup_cons] at hn
    rcases List.mem_cons.1 ha with ha' | ha' <;> rcases List.mem_cons.1 hb with hb' | hb'
    · rw [ha', hb']
    · exact absurd (List.mem_map.2 ⟨b, hb', by rw [← he, ha']⟩) hn.1
    · exact absurd (List.mem_map.2 ⟨a, ha', by rw [he, hb']⟩) hn.1
    · exact eq_of_map_nodup hn.2 ha' hb' he

open Classical in
theorem Shallow.isLast_eq {l : List Shallow.Ev} (hn : (l.map (DftEvent.map Prod.fst)).Nodup)
    {a b : Shallow.Ev} (ha : a ∈ l) (hb : b ∈ l) :
    Shallow.isLast a b = .ok (decide (a = b)) := by
  have key := eq_of_map_nodup hn ha hb
  rcases a with ⟨n, d⟩ | ⟨n, d⟩ <;> rcases b with ⟨m, e⟩ | ⟨m, e⟩ <;>
    simp only [Shallow.isLast, DftEvent.map, reduceCtorEq, decide_false] at key ⊢
  all_goals
    by_cases hnm : n = m
    · subst hnm
      have := key rfl
      simp only [DftEvent.opn.injEq, DftEvent.cls.injEq, Prod.mk.injEq, true_and] at this
      subst this
      simp
    · simp [hnm]

/-- the invariant of the traverser: what remains is the contiguous list `l` -/
structure Shallow.Inv (h : Heap α) (s : Shallow.State) (l : List Shallow.Ev) : Prop where
  link : Linked (fun a b => Shallow.fwd h s.lim a = .ok (some b) ∧ Shallow.bwd h s.lim b = .ok (some a)) l
  nodup : (l.map (DftEvent.map Prod.fst)).Nodup
  ends : s.next = (match l.head?, l.getLast? with | some a, some b => some (a, b) | _, _ => none)

theorem Shallow.Inv.front {s : Shallow.State} {l : List Shallow.Ev} (I : Shallow.Inv h s l) :
    ∃ s', Shallow.next h s = .ok (l.head?, s') ∧ Shallow.Inv h s' l.tail ∧ s'.lim = s.lim ∧
      (l = [] → s' = s) := by
  match l, I with
  | [], I => exact ⟨s, by simp [Shallow.next, I.ends], I, rfl, fun _ => rfl⟩
  | [a], I =>
    have hl := Shallow.isLast_eq I.nodup (a := a) (b := a) (by simp) (by simp)
    refine ⟨⟨none, s.lim⟩, ?_, ⟨trivial, by simp, rfl⟩, rfl, by simp⟩
    simp [Shallow.next, I.ends, hl, bind, Except.bind, pure, Except.pure]
  | a :: b :: l, I =>
    have he := I.ends
    obtain ⟨z, hz⟩ : ∃ z, (b :: l).getLast? = some z := by
      rw [List.getLast?_eq_some_getLast (List.cons_ne_nil _ _)]; exact ⟨_, rfl⟩
    simp only [List.getLast?_cons_cons, List.head?_cons, hz] at he
    have hzm : z ∈ b :: l := List.mem_of_getLast? hz
    have hne : a ≠ z := by
      intro e
      have := I.nodup
      rw [List.map_cons, List.nodup_cons] at this
      exact this.1 (List.mem_map_of_mem (e ▸ hzm))
    have hl := Shallow.isLast_eq I.nodup (a := a) (b := z) (by simp) (List.mem_cons_of_mem _ hzm)
    refine ⟨⟨some (b, z), s.lim⟩, ?_, ⟨I.link.2, (List.nodup_cons.1 I.nodup).2, by simp [hz]⟩, rfl,
      by simp⟩
    simp [Shallow.next, he, hl, hne, I.link.1.1, bind, Except.bind, pure, Except.pure]

theorem Shallow.Inv.rear {s : Shallow.State} {l : List Shallow.Ev} (I : Shallow.Inv h s l) :
    ∃ s', Shallow.back h s = .ok (l.getLast?, s') ∧ Shallow.Inv h s' l.dropLast ∧ s'.lim = s.lim := by
  rcases List.eq_nil_or_concat l with rfl | ⟨l', z, rfl⟩
  · exact ⟨s, by simp [Shallow.back, I.ends], I, rfl⟩
  rcases List.eq_nil_or_concat l' with rfl | ⟨l'', y, rfl⟩
  · have hl := Shallow.isLast_eq I.nodup (a := z) (b := z) (by simp) (by simp)
    refine ⟨⟨none, s.lim⟩, ?_, ⟨trivial, by simp, rfl⟩, rfl⟩
    have := I.ends
    simp only [List.concat_nil, List.nil_append, List.head?_cons, List.getLast?_singleton] at this
    simp [Shallow.back, this, hl, bind, Except.bind, pure, Except.pure]
  · simp only [List.concat_eq_append] at I ⊢
    obtain ⟨a, ha⟩ : ∃ a, (l'' ++ [y]).head? = some a := by cases l'' <;> exact ⟨_, rfl⟩
    have ham : a ∈ l'' ++ [y] := List.mem_of_head? ha
    have he := I.ends
    have ha' : (l'' ++ [y] ++ [z]).head? = some a := by
      rw [List.head?_append, ha]; rfl
    simp only [ha', List.getLast?_concat] at he
    have hne : a ≠ z := by
      intro e
      have := I.nodup
      rw [List.map_append, List.nodup_append] at this
      exact this.2.2 _ (List.mem_map_of_mem ham) _ (List.mem_map_of_mem (List.mem_singleton.2 rfl)) (by rw [e])
    have hl := Shallow.isLast_eq I.nodup (a := a) (b := z) (List.mem_append_left _ ham) (by simp)
    have hb : Shallow.bwd h s.lim z = .ok (some y) := by
      have := I.link
      rw [List.append_assoc] at this
      exact (Linked.at (l1 := l'') (a := y) (b := z) (l2 := []) this).2
    refine ⟨⟨some (a, y), s.lim⟩, ?_, ?_, rfl⟩
    · simp [Shallow.back, he, hl, hne, hb, bind, Except.bind, pure, Except.pure]
    · rw [List.dropLast_concat]
      refine ⟨?_, ?_, by simp [ha]⟩
      · have := I.link.dropLast; rwa [List.dropLast_concat] at this
      · have := I.nodup
        rw [List.map_append, List.nodup_append] at this
        exact this.1

theorem Shallow.Inv.sched : ∀ (es : List Side) {s : Shallow.State} {l : List Shallow.Ev},
    Shallow.Inv h s l →
    runSched (Shallow.next h) (Shallow.back h) es s = .ok (dequeSched es l)
  | [], s, l, I => rfl
  | .front :: es, s, l, I => by
    obtain ⟨s', h1, I', _, _⟩ := I.front
    simp [runSched, dequeSched, h1, Shallow.Inv.sched es I', Except.map]
  | .back :: es, s, l, I => by
    obtain ⟨s', h1, I', _⟩ := I.rear
    simp [runSched, dequeSched, h1, Shallow.Inv.sched es I', Except.map]

theorem Shallow.Inv.yields : ∀ {l : List Shallow.Ev} {s : Shallow.State},
    Shallow.Inv h s l → Yields (Shallow.next h) s l
  | [], s, I => by
    have := I.ends
    exact .done (s' := s) (by simp [Shallow.next, this]) (by simp [Shallow.next, this])
  | a :: l, s, I => by
    obtain ⟨s', h1, I', _, _⟩ := I.front
    exact .more h1 I'.yields

theorem Shape.shallow_inv (S : Shape h ch) {t : RTree NodeId} (lim : Option Nat)
    (ha : h.alive n = true) (ht : SubtreeAt ch n t) :
    Shallow.Inv h (Shallow.start n lim) (t.eventsD lim 0) := by
  refine ⟨?_, eventsD_nodup lim 0 t (ht.nodup S.toFShape), ?_⟩
  · exact (S.evRel lim).linked (fun p c hc => S.alive_of_mem hc) 0 t ht.2 (by rw [ht.1]; exact ha)
  · rw [eventsD_head, eventsD_last, ht.1]; rfl

/-! ### Siblings and ancestors -/

theorem Sib.yields_next : ∀ {l : List NodeId}, Seg h.next l none →
    Yields (Sib.next h) l.head? l
  | [], _ => .done (s' := none) rfl rfl
  | a :: l, hs => by
    refine .more (s' := l.head?) ?_ (Sib.yields_next hs.2)
    have := hs.1
    simp only [Option.or_none] at this
    simp [Sib.next, Heap.nextLink, this]

theorem Shape.sib_prev (S : Shape h ch) : ∀ {l1 l2 : List NodeId}, ch p = l1.reverse ++ l2 →
    Yields (Sib.prev h) l1.head? l1
  | [], l2, _ => .done (s' := none) rfl rfl
  | a :: l1, l2, hs => by
    have hs' : ch p = l1.reverse ++ a :: l2 := by simpa using hs
    refine .more (s' := l1.head?) ?_ (Shape.sib_prev S hs')
    simp [Sib.prev, S.prevLink_at hs', bind, Except.bind, pure, Except.pure]

theorem AncPath.yields (S : FShape h ch) {n : NodeId} {l : List NodeId} (ha : h.alive n = true)
    (h1 : AncPath ch n l) : Yields (Sib.up h) (some n) (n :: l) := by
  induction h1 with
  | root hr =>
    refine .more (s' := none) ?_ (.done (s' := none) rfl rfl)
    simp [Sib.up, S.parentLink ha, S.parent_none ha hr]
  | @step n p l hm _ ih =>
    refine .more (s' := some p) ?_ (ih (S.alive_parent hm))
    simp [Sib.up, S.parentLink ha, S.parent_of_mem hm]

/-! ### `close_current` -/

section close
variable {σ ν : Type} {next : σ → Except Fault (Option (DftEvent ν) × σ)}

theorem Yields.cons_inv {ι : Type} {nx : σ → Except Fault (Option ι × σ)} {s : σ} {x : ι}
    {l : List ι} (hy : Yields nx s (x :: l)) : ∃ s', nx s = .ok (some x, s') ∧ Yields nx s' l := by
  cases hy with
  | more h1 h2 => exact ⟨_, h1, h2⟩

theorem Yields.nil_inv {ι : Type} {nx : σ → Except Fault (Option ι × σ)} {s : σ}
    (hy : Yields nx s []) : ∃ s', nx s = .ok (none, s') ∧ Yields nx s' [] := by
  cases hy with
  | done h1 h2 => exact ⟨_, h1, .done h2 h2⟩

mutual
theorem closeCurrent_tree : ∀ (t : RTree ν) (f depth : Nat) (s : σ) (rest : List (DftEvent ν)),
    Yields next s (t.events ++ rest) → ∃ s', Yields next s' rest ∧
      closeCurrent next (f + t.events.length) depth s = closeCurrent next f depth s'
  | .node v cs, f, depth, s, rest, hy => by
    simp only [events, List.cons_append, List.append_assoc, List.singleton_append] at hy
    obtain ⟨s1, e1, hy⟩ := hy.cons_inv
    obtain ⟨s2, hy, e2⟩ := closeCurrent_list cs (f + 1) (depth + 1) s1 _ hy
    obtain ⟨s3, e3, hy⟩ := hy.cons_inv
    refine ⟨s3, hy, ?_⟩
    have hlen : f + (node v cs).events.length = (f + 1 + (eventsL cs).length) + 1 := by
      simp [events]; omega
    rw [hlen, closeCurrent, e1]
    simp only
    rw [e2, closeCurrent, e3]
    simp
theorem closeCurrent_list : ∀ (cs : List (RTree ν)) (f depth : Nat) (s : σ)
    (rest : List (DftEvent ν)), Yields next s (eventsL cs ++ rest) → ∃ s', Yields next s' rest ∧
      closeCurrent next (f + (eventsL cs).length) depth s = closeCurrent next f depth s'
  | [], f, depth, s, rest, hy => ⟨s, hy, by simp [eventsL]⟩
  | c :: cs, f, depth, s, rest, hy => by
    simp only [eventsL, List.append_assoc] at hy
    obtain ⟨s1, hy, e1⟩ := closeCurrent_tree c (f + (eventsL cs).length) depth s _ hy
    obtain ⟨s2, hy, e2⟩ := closeCurrent_list cs f depth s1 _ hy
    refine ⟨s2, hy, ?_⟩
    rw [← e2, ← e1]
    simp only [eventsL, List.length_append]
    congr 1
    omega
end

/-- More fuel does not change a result. -/
theorem closeCurrent_mono {f : Nat} : ∀ {depth : Nat} {s : σ} {r : Option ν × σ},
    closeCurrent next f depth s = .ok r → ∀ g, f ≤ g → closeCurrent next g depth s = .ok r := by
  induction f with
  | zero => intro depth s r h1; simp [closeCurrent] at h1
  | succ f ih =>
    intro depth s r h1 g hg
    obtain ⟨g, rfl⟩ : ∃ g', g = g' + 1 := ⟨g - 1, by omega⟩
    rw [closeCurrent] at h1 ⊢
    match e : next s with
    | .error _ => simp [e] at h1
    | .ok (none, s') => simpa [e] using h1
    | .ok (some (.opn _), s') =>
      simp only [e] at h1 ⊢
      exact ih h1 g (by omega)
    | .ok (some (.cls _), s') =>
      simp only [e] at h1 ⊢
      by_cases h0 : depth = 0
      · simpa [h0] using h1
      · simp only [h0, if_false] at h1 ⊢
        exact ih h1 g (by omega)

end close

end Dendron
