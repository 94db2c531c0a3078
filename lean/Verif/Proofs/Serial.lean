import Verif.Spec.Serial
import Verif.Proofs.Iter

/-! The serializer merges the closings of the depth-first sequence. -/

set_option autoImplicit false

namespace Dendron
open RTree

variable {α β γ : Type} {h : Heap α} {ch : NodeId → List NodeId} {n : NodeId}

mutual
/-- Merging of runs of closings. -/
def mergeEv : List (DftEvent β) → List (Event β)
  | [] => []
  | .opn v :: es => .opn v :: mergeEv es
  | .cls _ :: es => mergeCl 1 es
/-- The same after `c` closings. -/
def mergeCl (c : Nat) : List (DftEvent β) → List (Event β)
  | [] => [.close c]
  | .opn v :: es => .close c :: .opn v :: mergeEv es
  | .cls _ :: es => mergeCl (c + 1) es
end

/-- No two adjacent closings. -/
def NoCC (l : List (Event β)) : Prop := ∀ l1 l2 i j, l ≠ l1 ++ .close i :: .close j :: l2

theorem NoCC.nil : NoCC ([] : List (Event β)) := by
  intro l1 l2 i j e
  cases l1 <;> cases e

theorem NoCC.cons {a : Event β} {m : List (Event β)} :
    NoCC (a :: m) ↔ NoCC m ∧ ∀ i j l2, a = .close i → m ≠ .close j :: l2 := by
  constructor
  · intro H
    refine ⟨fun l1 l2 i j e => H (a :: l1) l2 i j (by simp [e]), ?_⟩
    rintro i j l2 rfl rfl
    exact H [] l2 i j rfl
  · rintro ⟨H, H'⟩ l1 l2 i j e
    cases l1 with
    | nil =>
      simp only [List.nil_append, List.cons.injEq] at e
      exact H' i j l2 e.1 e.2
    | cons b l1 =>
      simp only [List.cons_append, List.cons.injEq] at e
      exact H l1 l2 i j e.2

mutual
theorem mergeEv_expand : ∀ l : List (DftEvent β),
    Event.expand (mergeEv l) = l.map DftEvent.toStep
  | [] => by simp [mergeEv, Event.expand]
  | .opn v :: es => by simp [mergeEv, Event.expand, mergeEv_expand es, DftEvent.toStep]
  | .cls _ :: es => by
    simp [mergeEv, mergeCl_expand 1 es, DftEvent.toStep, List.replicate]
theorem mergeCl_expand (c : Nat) : ∀ l : List (DftEvent β),
    Event.expand (mergeCl c l) = List.replicate c none ++ l.map DftEvent.toStep
  | [] => by simp [mergeCl, Event.expand]
  | .opn v :: es => by simp [mergeCl, Event.expand, mergeEv_expand es, DftEvent.toStep]
  | .cls _ :: es => by
    simp [mergeCl, mergeCl_expand (c + 1) es, DftEvent.toStep, List.replicate_succ',
      List.append_assoc]
end

mutual
theorem mergeEv_pos : ∀ (l : List (DftEvent β)) (k : Nat), Event.close k ∈ mergeEv l → 0 < k
  | [], k, h => by simp [mergeEv] at h
  | .opn v :: es, k, h => by
    simp only [mergeEv, List.mem_cons, reduceCtorEq, false_or] at h
    exact mergeEv_pos es k h
  | .cls _ :: es, k, h => mergeCl_pos 1 es (by decide) k (by simpa [mergeEv] using h)
theorem mergeCl_pos (c : Nat) : ∀ (l : List (DftEvent β)), 0 < c → ∀ (k : Nat),
    Event.close k ∈ mergeCl c l → 0 < k
  | [], hc, k, h => by
    simp only [mergeCl, List.mem_singleton, Event.close.injEq] at h
    omega
  | .opn v :: es, hc, k, h => by
    simp only [mergeCl, List.mem_cons, reduceCtorEq, false_or, Event.close.injEq] at h
    rcases h with h | h
    · omega
    · exact mergeEv_pos es k h
  | .cls _ :: es, hc, k, h => mergeCl_pos (c + 1) es (by omega) k (by simpa [mergeCl] using h)
end

mutual
theorem mergeEv_noCC : ∀ l : List (DftEvent β), NoCC (mergeEv l)
  | [] => by simpa [mergeEv] using NoCC.nil
  | .opn v :: es => by
    simp only [mergeEv]
    exact NoCC.cons.2 ⟨mergeEv_noCC es, by simp⟩
  | .cls _ :: es => by simpa [mergeEv] using mergeCl_noCC 1 es
theorem mergeCl_noCC (c : Nat) : ∀ l : List (DftEvent β), NoCC (mergeCl c l)
  | [] => by
    simp only [mergeCl]
    exact NoCC.cons.2 ⟨NoCC.nil, by simp⟩
  | .opn v :: es => by
    simp only [mergeCl]
    exact NoCC.cons.2 ⟨NoCC.cons.2 ⟨mergeEv_noCC es, by simp⟩, by simp⟩
  | .cls _ :: es => by simpa [mergeCl] using mergeCl_noCC (c + 1) es
end

theorem mergeEv_canonical (t : RTree β) : Canonical t (mergeEv t.events) :=
  ⟨mergeEv_expand _, mergeEv_pos _, mergeEv_noCC _⟩

theorem replicate_split {k k' : Nat} {l l' : List (Option β)} (hl : l.head? ≠ some none)
    (hl' : l'.head? ≠ some none)
    (e : List.replicate k none ++ l = List.replicate k' none ++ l') : k = k' ∧ l = l' := by
  induction k generalizing k' with
  | zero =>
    cases k' with
    | zero => exact ⟨rfl, by simpa using e⟩
    | succ k' =>
      simp only [List.replicate, List.nil_append, List.cons_append] at e
      subst e
      simp at hl
  | succ k ih =>
    cases k' with
    | zero =>
      simp only [List.replicate, List.nil_append, List.cons_append] at e
      subst e
      simp at hl'
    | succ k' =>
      simp only [List.replicate, List.cons_append, List.cons.injEq, true_and] at e
      obtain ⟨h1, h2⟩ := ih e
      exact ⟨by omega, h2⟩

theorem expand_head {l : List (Event β)} {k : Nat} (hp : ∀ k, Event.close k ∈ l → 0 < k)
    (hc : NoCC (.close k :: l)) : (Event.expand l).head? ≠ some none := by
  cases l with
  | nil => simp [Event.expand]
  | cons a l =>
    cases a with
    | opn v => simp [Event.expand]
    | close j => exact absurd rfl ((NoCC.cons.1 hc).2 k j l rfl)

theorem expand_inj : ∀ {l m : List (Event β)}, (∀ k, Event.close k ∈ l → 0 < k) →
    (∀ k, Event.close k ∈ m → 0 < k) → NoCC l → NoCC m → Event.expand l = Event.expand m → l = m
  | [], [], _, _, _, _, _ => rfl
  | [], .opn _ :: _, _, _, _, _, e => by simp [Event.expand] at e
  | [], .close k :: _, _, hm, _, _, e => by
    have := hm k (by simp)
    cases k with
    | zero => omega
    | succ k => simp [Event.expand, List.replicate] at e
  | .opn _ :: _, [], _, _, _, _, e => by simp [Event.expand] at e
  | .close k :: _, [], hl, _, _, _, e => by
    have := hl k (by simp)
    cases k with
    | zero => omega
    | succ k => simp [Event.expand, List.replicate] at e
  | .opn _ :: l, .opn _ :: m, hl, hm, cl, cm, e => by
    simp only [Event.expand, List.cons.injEq, Option.some.injEq] at e
    rw [e.1, expand_inj (fun k hk => hl k (by simp [hk])) (fun k hk => hm k (by simp [hk]))
      (NoCC.cons.1 cl).1 (NoCC.cons.1 cm).1 e.2]
  | .opn _ :: _, .close k :: _, _, hm, _, _, e => by
    have := hm k (by simp)
    cases k with
    | zero => omega
    | succ k => simp [Event.expand, List.replicate] at e
  | .close k :: _, .opn _ :: _, hl, _, _, _, e => by
    have := hl k (by simp)
    cases k with
    | zero => omega
    | succ k => simp [Event.expand, List.replicate] at e
  | .close k :: l, .close j :: m, hl, hm, cl, cm, e => by
    simp only [Event.expand] at e
    have hl' : ∀ k, Event.close k ∈ l → 0 < k := fun k hk => hl k (by simp [hk])
    have hm' : ∀ k, Event.close k ∈ m → 0 < k := fun k hk => hm k (by simp [hk])
    obtain ⟨h1, h2⟩ := replicate_split (expand_head hl' cl) (expand_head hm' cm) e
    rw [h1, expand_inj hl' hm' (NoCC.cons.1 cl).1 (NoCC.cons.1 cm).1 h2]

theorem Canonical.unique {t : RTree β} {l m : List (Event β)} (hl : Canonical t l)
    (hm : Canonical t m) : l = m :=
  expand_inj hl.pos hm.pos hl.merged hm.merged (hl.same.trans hm.same.symm)

/-! ### The openings and closings of a canonical sequence -/

theorem expand_opens : ∀ l : List (Event β), (Event.expand l).filterMap id = Event.opens l
  | [] => rfl
  | .opn v :: l => by simp [Event.expand, Event.opens, expand_opens l]
  | .close k :: l => by
    have : (List.replicate k (none : Option β)).filterMap id = [] := by
      induction k with
      | zero => rfl
      | succ k ih => simp [List.replicate, ih]
    simp [Event.expand, Event.opens, List.filterMap_append, this, expand_opens l]

theorem expand_closings : ∀ l : List (Event β),
    ((Event.expand l).filter Option.isNone).length = Event.closings l
  | [] => rfl
  | .opn v :: l => by simp [Event.expand, Event.closings, expand_closings l]
  | .close k :: l => by
    simp [Event.expand, Event.closings, List.filter_append, expand_closings l]

mutual
theorem events_opens : ∀ t : RTree β, (t.events.map DftEvent.toStep).filterMap id = t.nodes
  | .node v cs => by
    simp [events, nodes, DftEvent.toStep, List.filterMap_append]
    have := eventsL_opens cs
    simpa using this
theorem eventsL_opens : ∀ cs : List (RTree β),
    ((eventsL cs).map DftEvent.toStep).filterMap id = nodesL cs
  | [] => by simp [eventsL, nodesL]
  | c :: cs => by
    have h1 := events_opens c
    have h2 := eventsL_opens cs
    simp only [eventsL, nodesL, List.map_append, List.filterMap_append, h1, h2]
end

mutual
theorem events_closings : ∀ t : RTree β,
    ((t.events.map DftEvent.toStep).filter Option.isNone).length = t.nodes.length
  | .node v cs => by
    have := eventsL_closings cs
    simp only [events, nodes, DftEvent.toStep, List.filter_append, List.map_cons, List.map_append,
      List.filter_cons, Option.isNone_some, Bool.false_eq_true, if_false, List.length_append,
      List.length_cons, this]
    simp
theorem eventsL_closings : ∀ cs : List (RTree β),
    (((eventsL cs).map DftEvent.toStep).filter Option.isNone).length = (nodesL cs).length
  | [] => by simp [eventsL, nodesL]
  | c :: cs => by
    have h1 := events_closings c
    have h2 := eventsL_closings cs
    simp only [eventsL, nodesL, List.map_append, List.filter_append, List.length_append, h1, h2]
end

theorem Canonical.facts {t : RTree β} {l : List (Event β)} (hl : Canonical t l) :
    Event.opens l = t.nodes ∧ Event.closings l = t.nodes.length := by
  rw [← expand_opens, ← expand_closings, hl.same]
  exact ⟨events_opens t, events_closings t⟩

/-! ### The iterator -/

theorem Dft.peek_of {s s' : Dft.State} {x : DftEvent NodeId} (e : Dft.next h s = .ok (some x, s')) :
    Dft.peek s = some x := by
  cases s with
  | none => simp [Dft.next] at e
  | some p =>
    obtain ⟨ev, st⟩ := p
    simp only [Dft.next, Except.ok.injEq, Prod.mk.injEq, Option.some.injEq] at e
    simp [Dft.peek, e.1]

theorem Dft.peek_done {s s' : Dft.State} (e : Dft.next h s = .ok (none, s')) :
    Dft.peek s = none := by
  cases s with
  | none => rfl
  | some p => obtain ⟨ev, st⟩ := p; simp [Dft.next] at e

theorem countCloses_spec : ∀ {l : List (DftEvent NodeId)} {s : Dft.State} {f c : Nat},
    Yields (Dft.next h) s l → l.length < f → c + l.length ≤ usizeMax →
    ∃ c' rest s', h.countCloses f c s = .ok (c', s') ∧ Yields (Dft.next h) s' rest ∧
      mergeCl c l = .close c' :: mergeEv rest ∧ rest.length ≤ l.length
  | _, s, 0, c, _, hf, _ => by omega
  | [], s, f + 1, c, hy, hf, hc => by
    cases hy with
    | done e e' =>
      exact ⟨c, [], s, by simp [Heap.countCloses, Dft.peek_done e], .done e e', rfl, by simp⟩
  | .opn v :: l, s, f + 1, c, hy, hf, hc => by
    refine ⟨c, .opn v :: l, s, ?_, hy, by simp [mergeCl, mergeEv], by simp⟩
    cases hy with
    | more e _ => simp [Heap.countCloses, Dft.peek_of e]
  | .cls v :: l, s, f + 1, c, hy, hf, hc => by
    simp only [List.length_cons] at hf hc
    cases hy with
    | more e hy' =>
      obtain ⟨c', rest, s', h1, h2, h3, h4⟩ :=
        countCloses_spec (f := f) (c := c + 1) hy' (by omega) (by omega)
      refine ⟨c', rest, s', ?_, h2, by simpa [mergeCl] using h3, by simp; omega⟩
      have : c ≠ usizeMax := by omega
      simp [Heap.countCloses, Dft.peek_of e, this, e, h1]

/-- The item yielded for an event naming a node. -/
def serItem (h : Heap α) : Event NodeId → Except BorrowError (Event α)
  | .opn n => (h.borrowData n).map .opn
  | .close k => .ok (.close k)

theorem ser_yields : ∀ (k : Nat) {l : List (DftEvent NodeId)} {s : Dft.State}, l.length ≤ k →
    Yields (Dft.next h) s l → l.length ≤ 2 * h.nNode → l.length ≤ usizeMax →
    Yields h.serNext s ((mergeEv l).map (serItem h))
  | _, [], s, _, hy, _, _ => by
    cases hy with
    | done e e' =>
      exact .done (s' := _) (by simp [Heap.serNext, e]; rfl) (by simp [Heap.serNext, e'])
  | k + 1, .opn v :: l, s, hk, hy, hn, hu => by
    simp only [List.length_cons] at hk hn hu
    cases hy with
    | more e hy' =>
      exact .more (by simp [Heap.serNext, e, serItem])
        (ser_yields k (by omega) hy' (by omega) (by omega))
  | k + 1, .cls v :: l, s, hk, hy, hn, hu => by
    simp only [List.length_cons] at hk hn hu
    cases hy with
    | more e hy' =>
      obtain ⟨c', rest, s', h1, h2, h3, h4⟩ :=
        countCloses_spec (f := 2 * h.nNode + 2) (c := 1) hy' (by omega) (by omega)
      simp only [mergeEv, h3, List.map_cons, serItem]
      refine .more (s' := s') (by simp [Heap.serNext, e, h1]) ?_
      exact ser_yields k (by omega) h2 (by omega) (by omega)

theorem FShape.ser_yields (W : FShape h ch) {t : RTree NodeId} (ha : h.alive n = true)
    (ht : SubtreeAt ch n t) (hu : 2 * t.size ≤ usizeMax) :
    Yields h.serNext (Dft.start n) ((mergeEv t.events).map (serItem h)) := by
  have h1 := ht.size_le W ha
  have h2 := events_length t
  unfold RTree.size at hu
  exact Dendron.ser_yields _ (Nat.le_refl _) (W.dft_yields ha ht) (by omega) (by omega)

end Dendron
