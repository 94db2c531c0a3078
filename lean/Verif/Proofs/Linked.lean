import Verif.Spec.Iter
import Verif.Proofs.Nav

/-! Event sequences and the functions that step along them. -/

set_option linter.unusedSimpArgs false
set_option linter.unusedVariables false

set_option autoImplicit false

namespace Dendron
open RTree

/-- Neighbouring elements are related. -/
def Linked {β : Type} (R : β → β → Prop) : List β → Prop
  | [] => True
  | [_] => True
  | a :: b :: l => R a b ∧ Linked R (b :: l)

variable {α β γ : Type} {h : Heap α} {ch : NodeId → List NodeId}

theorem Linked.append {R : β → β → Prop} : ∀ {l1 l2 : List β}, Linked R l1 → Linked R l2 →
    (∀ a b, l1.getLast? = some a → l2.head? = some b → R a b) → Linked R (l1 ++ l2)
  | [], l2, _, h2, _ => by simpa using h2
  | [a], [], _, _, _ => by simp [Linked]
  | [a], b :: l2, _, h2, h3 => by
    simp only [List.singleton_append, Linked]
    exact ⟨h3 a b (by simp) (by simp), h2⟩
  | a :: b :: l1, l2, h1, h2, h3 => by
    simp only [List.cons_append, Linked] at h1 ⊢
    refine ⟨h1.1, ?_⟩
    have := Linked.append (l1 := b :: l1) (l2 := l2) h1.2 h2 (by
      intro x y hx hy
      exact h3 x y (by simpa [List.getLast?_cons_cons] using hx) hy)
    simpa using this

theorem Linked.at {R : β → β → Prop} : ∀ {l1 l2 : List β} {a b : β},
    Linked R (l1 ++ a :: b :: l2) → R a b
  | [], l2, a, b, h1 => h1.1
  | [x], l2, a, b, h1 => h1.2.1
  | x :: y :: l1, l2, a, b, h1 => Linked.at (l1 := y :: l1) h1.2

theorem Linked.mono {R Q : β → β → Prop} (hRQ : ∀ a b, R a b → Q a b) :
    ∀ {l : List β}, Linked R l → Linked Q l
  | [], _ => trivial
  | [_], _ => trivial
  | a :: b :: l, h1 => ⟨hRQ a b h1.1, Linked.mono hRQ (l := b :: l) h1.2⟩

theorem Linked.map {R : γ → γ → Prop} (f : β → γ) :
    ∀ {l : List β}, Linked R (l.map f) ↔ Linked (fun a b => R (f a) (f b)) l
  | [] => Iff.rfl
  | [_] => Iff.rfl
  | a :: b :: l => by
    simp only [List.map_cons, Linked]
    exact and_congr_right (fun _ => Linked.map f (l := b :: l))

theorem Linked.tail {R : β → β → Prop} {a : β} {l : List β} (h1 : Linked R (a :: l)) :
    Linked R l := by
  cases l with
  | nil => trivial
  | cons b l => exact h1.2

theorem Linked.dropLast {R : β → β → Prop} : ∀ {l : List β}, Linked R l → Linked R l.dropLast
  | [], _ => trivial
  | [_], _ => trivial
  | [a, b], _ => trivial
  | a :: b :: c :: l, h1 => ⟨h1.1, Linked.dropLast (l := b :: c :: l) h1.2⟩

theorem Linked.reverse {R : β → β → Prop} : ∀ {l : List β}, Linked R l →
    Linked (fun a b => R b a) l.reverse
  | [], _ => trivial
  | [_], _ => trivial
  | a :: b :: l, h1 => by
    rw [List.reverse_cons]
    apply Linked.append (Linked.reverse (l := b :: l) h1.2) (show Linked (fun a b => R b a) [a] from trivial)
    intro x y hx hy
    simp at hx hy
    rw [← hx, ← hy]; exact h1.1

/-! ### Events of trees -/

theorem eventsD_head (lim : Option Nat) (d : Nat) (t : RTree β) :
    (t.eventsD lim d).head? = some (.opn (t.label, d)) := by
  cases t; simp [eventsD, label]

theorem eventsD_last (lim : Option Nat) (d : Nat) (t : RTree β) :
    (t.eventsD lim d).getLast? = some (.cls (t.label, d)) := by
  cases t with
  | node v cs =>
    rw [eventsD, ← List.cons_append, List.getLast?_append]; simp [label]

mutual
theorem eventsD_strip (d : Nat) : ∀ t : RTree β,
    (t.eventsD none d).map (DftEvent.map Prod.fst) = t.events
  | .node v cs => by
    simp [eventsD, events, DftEvent.map, eventsDL_strip (d + 1) cs]
theorem eventsDL_strip (d : Nat) : ∀ cs : List (RTree β),
    (eventsDL none d cs).map (DftEvent.map Prod.fst) = eventsL cs
  | [] => rfl
  | c :: cs => by simp [eventsDL, eventsL, eventsD_strip d c, eventsDL_strip d cs]
end

mutual
theorem mem_eventsD (lim : Option Nat) : ∀ (d : Nat) (t : RTree β) (e : DftEvent (β × Nat)),
    e ∈ t.eventsD lim d → e.value.1 ∈ t.nodes
  | d, .node v cs, e, he => by
    simp only [eventsD, List.mem_cons, List.mem_append, List.not_mem_nil, or_false] at he
    simp only [nodes, List.mem_cons]
    rcases he with rfl | he | rfl
    · exact .inl rfl
    · split at he
      · simp at he
      · exact .inr (mem_eventsDL lim (d + 1) cs e he)
    · exact .inl rfl
theorem mem_eventsDL (lim : Option Nat) : ∀ (d : Nat) (cs : List (RTree β)) (e : DftEvent (β × Nat)),
    e ∈ eventsDL lim d cs → e.value.1 ∈ nodesL cs
  | d, [], e, he => by simp [eventsDL] at he
  | d, c :: cs, e, he => by
    simp only [eventsDL, List.mem_append] at he
    simp only [nodesL, List.mem_append]
    rcases he with he | he
    · exact .inl (mem_eventsD lim d c e he)
    · exact .inr (mem_eventsDL lim d cs e he)
end

theorem map_fst_value (e : DftEvent (β × Nat)) : (e.map Prod.fst).value = e.value.1 := by
  cases e <;> rfl

mutual
/-- No event occurs twice. -/
theorem eventsD_nodup (lim : Option Nat) : ∀ (d : Nat) (t : RTree β), t.nodes.Nodup →
    ((t.eventsD lim d).map (DftEvent.map Prod.fst)).Nodup
  | d, .node v cs, hn => by
    simp only [nodes, List.nodup_cons] at hn
    have key : ∀ e ∈ ((if lim = some d then [] else eventsDL lim (d + 1) cs).map
        (DftEvent.map Prod.fst)), e.value ∈ nodesL cs := by
      intro e he
      obtain ⟨e', he', rfl⟩ := List.mem_map.1 he
      split at he'
      · simp at he'
      · rw [map_fst_value]; exact mem_eventsDL lim _ cs e' he'
    have h1 : ((if lim = some d then [] else eventsDL lim (d + 1) cs).map
        (DftEvent.map Prod.fst)).Nodup := by
      split
      · simp
      · exact eventsDL_nodup lim (d + 1) cs hn.2
    simp only [eventsD, List.map_cons, List.map_append, List.map_nil, List.nodup_cons,
      List.nodup_append, List.mem_append, List.mem_cons, List.not_mem_nil, or_false,
      DftEvent.map, List.nodup_nil, not_false_eq_true, and_true, true_and]
    refine ⟨?_, h1, ?_⟩
    · rintro (he | he)
      · exact hn.1 (key _ he)
      · simp at he
    · intro a ha b hb hab
      subst hb hab
      exact hn.1 (key _ ha)
theorem eventsDL_nodup (lim : Option Nat) : ∀ (d : Nat) (cs : List (RTree β)), (nodesL cs).Nodup →
    ((eventsDL lim d cs).map (DftEvent.map Prod.fst)).Nodup
  | d, [], _ => by simp [eventsDL]
  | d, c :: cs, hn => by
    simp only [nodesL, List.nodup_append] at hn
    simp only [eventsDL, List.map_append, List.nodup_append]
    refine ⟨eventsD_nodup lim d c hn.1, eventsDL_nodup lim d cs hn.2.1, ?_⟩
    intro a ha b hb hab
    subst hab
    obtain ⟨x, hx, rfl⟩ := List.mem_map.1 ha
    obtain ⟨y, hy, he⟩ := List.mem_map.1 hb
    have h1 := mem_eventsD lim d c x hx
    have h2 := mem_eventsDL lim d cs y hy
    have : y.value.1 = x.value.1 := by rw [← map_fst_value, ← map_fst_value, he]
    rw [this] at h2
    exact hn.2.2 _ h1 _ h2 rfl
end

theorem events_nodup (t : RTree β) (hn : t.nodes.Nodup) : t.events.Nodup := by
  have := eventsD_nodup none 0 t hn
  rwa [eventsD_strip] at this

/-- A relation that holds between consecutive events of the hierarchy. -/
structure EvRel (ch : NodeId → List NodeId) (alive : NodeId → Prop) (lim : Option Nat)
    (R : DftEvent (NodeId × Nat) → DftEvent (NodeId × Nat) → Prop) : Prop where
  leaf : ∀ v d, alive v → (lim = some d ∨ ch v = []) → R (.opn (v, d)) (.cls (v, d))
  down : ∀ v d c l, alive v → lim ≠ some d → ch v = c :: l → R (.opn (v, d)) (.opn (c, d + 1))
  sib : ∀ p d a b l1 l2, ch p = l1 ++ a :: b :: l2 → lim ≠ some d →
    R (.cls (a, d + 1)) (.opn (b, d + 1))
  up : ∀ p d a l1, ch p = l1 ++ [a] → lim ≠ some d → R (.cls (a, d + 1)) (.cls (p, d))

mutual
theorem EvRel.linked {alive : NodeId → Prop} {lim : Option Nat}
    {R : DftEvent (NodeId × Nat) → DftEvent (NodeId × Nat) → Prop} (E : EvRel ch alive lim R)
    (hal : ∀ p c, c ∈ ch p → alive c) : ∀ (d : Nat) (t : RTree NodeId), Hier ch t →
    alive t.label → Linked R (t.eventsD lim d)
  | d, .node v cs, ht, ha => by
    simp only [Hier, label] at ht ha
    simp only [eventsD]
    by_cases hl : lim = some d
    · simp only [hl, if_true, List.nil_append, Linked, and_true]
      exact E.leaf v d ha (.inl hl)
    · simp only [hl, if_false]
      have := EvRel.linkedL E hal d cs v [] ht.2 (by simpa using ht.1.symm) hl
      cases cs with
      | nil =>
        simp only [eventsDL, List.nil_append, Linked, and_true]
        exact E.leaf v d ha (.inr (by simpa using ht.1.symm))
      | cons c cs =>
        cases c with
        | node w ds =>
          simp only [eventsDL, eventsD, List.cons_append, Linked] at this ⊢
          exact ⟨E.down v d w _ ha hl (by simpa [label] using ht.1.symm), this⟩
theorem EvRel.linkedL {alive : NodeId → Prop} {lim : Option Nat}
    {R : DftEvent (NodeId × Nat) → DftEvent (NodeId × Nat) → Prop} (E : EvRel ch alive lim R)
    (hal : ∀ p c, c ∈ ch p → alive c) : ∀ (d : Nat) (cs : List (RTree NodeId)) (p : NodeId)
    (l1 : List NodeId), HierL ch cs → ch p = l1 ++ cs.map label → lim ≠ some d →
    Linked R (eventsDL lim (d + 1) cs ++ [.cls (p, d)])
  | d, [], _, _, _, _, _ => by simp [eventsDL, Linked]
  | d, c :: cs, p, l1, hc, hs, hl => by
    simp only [List.map_cons] at hs
    have hm : c.label ∈ ch p := by rw [hs]; simp
    have h1 := EvRel.linked E hal (d + 1) c hc.1 (hal p _ hm)
    have h2 := EvRel.linkedL E hal d cs p (l1 ++ [c.label]) hc.2 (by simp [hs]) hl
    simp only [eventsDL, List.append_assoc]
    apply h1.append h2
    intro a b ha hb
    rw [eventsD_last] at ha
    simp only [Option.some.injEq] at ha
    subst ha
    cases cs with
    | nil =>
      simp only [eventsDL, List.nil_append, List.head?_cons, Option.some.injEq] at hb
      subst hb
      exact E.up p d _ l1 (by simpa using hs) hl
    | cons e es =>
      simp only [eventsDL, List.append_assoc] at hb
      rw [List.head?_append, eventsD_head] at hb
      simp only [Option.some_or, Option.some.injEq] at hb
      subst hb
      exact E.sib p d _ _ l1 _ (by simpa using hs) hl
end

theorem Shape.lastChildLink_nil (S : Shape h ch) {v : NodeId} (ha : h.alive v = true)
    (hc : ch v = []) : h.lastChildLink v = .ok none := by
  rw [S.lastChildLink ha, hc]; rfl

/-- Forward and backward steps of the depth-limited traversal. -/
theorem Shape.evRel (S : Shape h ch) (lim : Option Nat) :
    EvRel ch (fun n => h.alive n = true) lim
      (fun a b => Shallow.fwd h lim a = .ok (some b) ∧ Shallow.bwd h lim b = .ok (some a)) := by
  constructor
  · intro v d ha hc
    rcases hc with hc | hc
    · simp [Shallow.fwd, Shallow.bwd, hc]
    · by_cases hl : lim = some d
      · simp [Shallow.fwd, Shallow.bwd, hl]
      · simp only [Shallow.fwd, Shallow.bwd, hl, if_false, Heap.firstChildLink, S.first v ha, hc,
          List.head?_nil, S.lastChildLink_nil ha hc, bind, Except.bind, pure, Except.pure, and_self]
  · intro v d c l ha hl hc
    have hcp : ch v = [] ++ c :: l := by simpa using hc
    have hm : c ∈ ch v := by simp [hc]
    have hac := S.alive_of_mem hm
    simp [Shallow.fwd, Shallow.bwd, hl, Heap.firstChildLink, S.first v ha, hc,
      S.prevLink_at hcp, bind, Except.bind, pure, Except.pure, S.parentLink hac,
      S.parent_of_mem hm, Shallow.decDepth]
  · intro p d a b l1 l2 hc hl
    have hb : ch p = (l1 ++ [a]) ++ b :: l2 := by simp [hc]
    simp [Shallow.fwd, Shallow.bwd, Heap.nextLink, S.next_at hc, S.prevLink_at hb,
      bind, Except.bind, pure, Except.pure]
  · intro p d a l1 hc hl
    have hm : a ∈ ch p := by simp [hc]
    have hac := S.alive_of_mem hm
    have hap := S.alive_parent hm
    have hcp : ch p = l1 ++ a :: [] := by simpa using hc
    simp [Shallow.fwd, Shallow.bwd, hl, Heap.nextLink, S.next_at hcp, S.parentLink hac,
      S.parent_of_mem hm, Shallow.decDepth, bind, Except.bind, pure, Except.pure,
      S.lastChildLink hap, hc]

/-- Forward and backward steps of the depth-first traversal. -/
theorem Shape.evRel' (S : Shape h ch) :
    EvRel ch (fun n => h.alive n = true) none
      (fun a b => h.evNext (a.map Prod.fst) = some (b.map Prod.fst) ∧
        h.evPrev (b.map Prod.fst) = .ok (some (a.map Prod.fst))) := by
  constructor
  · intro v d ha hc
    have hc : ch v = [] := by simpa using hc
    simp [DftEvent.map, Heap.evNext, Heap.evPrev, Heap.firstChildLink, S.first v ha, hc,
      S.lastChildLink_nil ha hc, bind, Except.bind, pure, Except.pure]
  · intro v d c l ha hl hc
    have hcp : ch v = [] ++ c :: l := by simpa using hc
    have hm : c ∈ ch v := by simp [hc]
    have hac := S.alive_of_mem hm
    simp [DftEvent.map, Heap.evNext, Heap.evPrev, Heap.firstChildLink, S.first v ha, hc,
      S.prevLink_at hcp, bind, Except.bind, pure, Except.pure, S.parentLink hac,
      S.parent_of_mem hm]
  · intro p d a b l1 l2 hc hl
    have hb : ch p = (l1 ++ [a]) ++ b :: l2 := by simp [hc]
    simp [DftEvent.map, Heap.evNext, Heap.evPrev, Heap.nextLink, S.next_at hc, S.prevLink_at hb,
      bind, Except.bind, pure, Except.pure]
  · intro p d a l1 hc hl
    have hm : a ∈ ch p := by simp [hc]
    have hac := S.alive_of_mem hm
    have hap := S.alive_parent hm
    have hcp : ch p = l1 ++ a :: [] := by simpa using hc
    simp [DftEvent.map, Heap.evNext, Heap.evPrev, Heap.nextLink, S.next_at hcp, S.parentLink hac,
      S.parent_of_mem hm, bind, Except.bind, pure, Except.pure, S.lastChildLink hap, hc]

/-- Forward steps of the depth-first traversal need the forward links only. -/
theorem FShape.evRel (S : FShape h ch) :
    EvRel ch (fun n => h.alive n = true) none
      (fun a b => h.evNext (a.map Prod.fst) = some (b.map Prod.fst)) := by
  constructor
  · intro v d ha hc
    have hc : ch v = [] := by simpa using hc
    simp [DftEvent.map, Heap.evNext, Heap.firstChildLink, S.first v ha, hc]
  · intro v d c l ha hl hc
    simp [DftEvent.map, Heap.evNext, Heap.firstChildLink, S.first v ha, hc]
  · intro p d a b l1 l2 hc hl
    simp [DftEvent.map, Heap.evNext, Heap.nextLink, S.next_at hc]
  · intro p d a l1 hc hl
    have hm : a ∈ ch p := by simp [hc]
    have hac := S.alive_of_mem hm
    have hcp : ch p = l1 ++ a :: [] := by simpa using hc
    simp [DftEvent.map, Heap.evNext, Heap.nextLink, S.next_at hcp, S.parentLink hac, S.parent_of_mem hm]

theorem FShape.linked_next (S : FShape h ch) {n : NodeId} {t : RTree NodeId}
    (ha : h.alive n = true) (ht : SubtreeAt ch n t) :
    Linked (fun a b => h.evNext a = some b) t.events := by
  have := S.evRel.linked (fun p c hc => S.alive_of_mem hc) 0 t ht.2 (by rw [ht.1]; exact ha)
  rw [← eventsD_strip 0 t, Linked.map]
  exact this

theorem Shape.linked_events (S : Shape h ch) {n : NodeId} {t : RTree NodeId}
    (ha : h.alive n = true) (ht : SubtreeAt ch n t) :
    Linked (fun a b => h.evNext a = some b ∧ h.evPrev b = .ok (some a)) t.events := by
  have := S.evRel'.linked (fun p c hc => S.alive_of_mem hc) 0 t ht.2 (by rw [ht.1]; exact ha)
  rw [← eventsD_strip 0 t, Linked.map]
  exact this

end Dendron
