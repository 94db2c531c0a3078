import Verif.Proofs.Bfs

/-! Stable traversers one end only; hints; peeking at queues. -/

set_option linter.unusedSimpArgs false
set_option linter.unusedVariables false

set_option autoImplicit false

namespace Dendron
open RTree

variable {α β : Type} {h : Heap α} {ch : NodeId → List NodeId} {n p : NodeId}

/-! ### Subtrees are contiguous in the event sequence -/

mutual
theorem Hier.contiguous : ∀ (t : RTree NodeId), Hier ch t → ∀ x ∈ t.nodes,
    ∃ u pre rest, SubtreeAt ch x u ∧ t.events = pre ++ u.events ++ rest ∧
      (x ≠ t.label → rest ≠ [])
  | .node v cs, ht, x, hx => by
    simp only [nodes, List.mem_cons] at hx
    by_cases hxv : x = v
    · exact ⟨.node v cs, [], [], ⟨by simp [label, hxv], ht⟩, by simp, by simp [label, hxv]⟩
    · rcases hx with hx | hx
      · exact absurd hx hxv
      · obtain ⟨u, pre, rest, h1, h2⟩ := HierL.contiguous cs ht.2 x hx
        exact ⟨u, .opn v :: pre, rest ++ [.cls v], h1, by simp [events, h2], by simp⟩
theorem HierL.contiguous : ∀ (cs : List (RTree NodeId)), HierL ch cs → ∀ x ∈ nodesL cs,
    ∃ u pre rest, SubtreeAt ch x u ∧ eventsL cs = pre ++ u.events ++ rest
  | [], _, x, hx => by simp [nodesL] at hx
  | c :: cs, ht, x, hx => by
    simp only [nodesL, List.mem_append] at hx
    rcases hx with hx | hx
    · obtain ⟨u, pre, rest, h1, h2, _⟩ := Hier.contiguous c ht.1 x hx
      exact ⟨u, pre, rest ++ eventsL cs, h1, by simp [eventsL, h2]⟩
    · obtain ⟨u, pre, rest, h1, h2⟩ := HierL.contiguous cs ht.2 x hx
      exact ⟨u, c.events ++ pre, rest, h1, by simp [eventsL, h2]⟩
end

theorem Linked.suffix {R : β → β → Prop} : ∀ {l1 l2 : List β}, Linked R (l1 ++ l2) → Linked R l2
  | [], _, h1 => h1
  | _ :: l1, l2, h1 => Linked.suffix (l1 := l1) h1.tail

theorem Shape.stableDft_overrun (S : Shape h ch) {r : NodeId} {tr : RTree NodeId}
    (ha : h.alive r = true) (hr : ∀ p, r ∉ ch p) (htr : SubtreeAt ch r tr) (hd : Desc ch r n)
    {t : RTree NodeId} (ht : SubtreeAt ch n t) :
    ∃ pre rest, tr.events = pre ++ t.events ++ rest ∧ (n ≠ r → rest ≠ []) ∧
      Yields (StableDft.next h) (StableDft.start n) (t.events ++ rest) := by
  obtain ⟨u, pre, rest, hu, e, hne⟩ := Hier.contiguous tr htr.2 n ((htr.mem_nodes_iff n).2 hd)
  have := hu.unique ht
  subst this
  refine ⟨pre, rest, e, by rw [← htr.1]; exact hne, ?_⟩
  have h1 := (S.linked_events ha htr).mono (Q := fun a b => h.evNext a = some b) (fun a b e => e.1)
  have hl := events_last tr
  rw [e, List.append_assoc] at h1 hl
  have h2 := h1.suffix
  obtain ⟨l, hel⟩ := events_eq_cons u
  have hl2 := suffix_last rfl hl (by simp [hel])
  rw [hel, hu.1, List.cons_append] at h2 hl2
  rw [hel, hu.1, List.cons_append]
  rw [htr.1] at hl2
  refine StableDft.yields_of _ _ h2 ?_
  intro ev hev
  rw [hl2] at hev
  obtain rfl := Option.some.inj hev
  exact S.evNext_root ha hr

/-! ### Sibling traversers -/

theorem Shape.stableSib_back (S : Shape h ch) {z : NodeId} : ∀ {l1 l2 : List NodeId} {a : NodeId},
    ch p = (a :: l1).reverse ++ l2 → Yields (StableSib.back h) (some (z, a)) (a :: l1)
  | [], l2, a, hs => by
    have hs' : ch p = [] ++ a :: l2 := by simpa using hs
    refine .more (s' := none) ?_ (.done (s' := none) rfl rfl)
    simp [StableSib.back, S.prevLink_at hs', bind, Except.bind, pure, Except.pure]
  | b :: l1, l2, a, hs => by
    have hs' : ch p = (b :: l1).reverse ++ a :: l2 := by simpa using hs
    refine .more (s' := some (z, b)) ?_ (Shape.stableSib_back S hs')
    simp [StableSib.back, S.prevLink_at hs', bind, Except.bind, pure, Except.pure]

theorem Shape.children_stable_back (S : Shape h ch) (ha : h.alive p = true) :
    ∃ s, StableSib.children h p = .ok s ∧ Yields (StableSib.back h) s (ch p).reverse := by
  have := S.firstLast ha
  cases hs : (ch p).reverse with
  | nil =>
    simp only [List.reverse_eq_nil_iff] at hs
    rw [hs] at this
    exact ⟨none, this, .done (s' := none) rfl rfl⟩
  | cons a l =>
    have hs2 : ch p = (a :: l).reverse := by rw [← hs, List.reverse_reverse]
    have hl : (ch p).getLast? = some a := by rw [hs2, List.getLast?_reverse]; rfl
    obtain ⟨f, hf⟩ : ∃ f, (ch p).head? = some f := by
      cases hc : ch p with
      | nil => rw [hc] at hl; simp at hl
      | cons x y => exact ⟨x, rfl⟩
    rw [hl, hf] at this
    exact ⟨_, this, S.stableSib_back (l2 := []) (by simpa using hs2)⟩

/-! ### Hints -/

theorem StableDft.reaches_start {z : DftEvent NodeId} {s0 s : StableDft.State}
    (h0 : s0 = none ∨ ∃ a, s0 = some (a, z))
    (hr : Reaches (StableDft.next h) s0 s) : s = none ∨ ∃ e, s = some (e, z) := by
  induction hr with
  | refl => exact h0
  | @step s1 s2 x _ hx ih =>
    rcases ih with rfl | ⟨e, rfl⟩
    · simp only [StableDft.next, Except.ok.injEq, Prod.mk.injEq] at hx
      exact .inl hx.2.symm
    · simp only [StableDft.next, Except.ok.injEq, Prod.mk.injEq] at hx
      cases he : h.evNext e with
      | none => rw [he] at hx; exact .inl hx.2.symm
      | some e' => rw [he] at hx; exact .inr ⟨e', hx.2.symm⟩

theorem Shape.stableDft_hint (S : Shape h ch) {t : RTree NodeId} (ha : h.alive n = true)
    (ht : SubtreeAt ch n t) (hroot : ∀ p, n ∉ ch p) {s : StableDft.State}
    (hr : Reaches (StableDft.next h) (StableDft.start n) s) :
    ∃ l, Yields (StableDft.next h) s l ∧ HintSound (StableDft.sizeHint s) l.length := by
  obtain ⟨pre, l, e, hy⟩ := (S.stableDft_yields ha ht hroot).reaches hr
  refine ⟨l, hy, ?_⟩
  have hlast := events_last t
  rw [ht.1] at hlast
  have hnd := events_nodup t (ht.nodup S.toFShape)
  rcases StableDft.reaches_start (z := .cls n) (.inr ⟨_, rfl⟩) hr with rfl | ⟨ev, rfl⟩
  · cases l with
    | nil => simp [HintSound, StableDft.sizeHint]
    | cons x l => obtain ⟨_, e1, _⟩ := hy.cons_inv; simp [StableDft.next] at e1
  · cases l with
    | nil => obtain ⟨_, e1, _⟩ := hy.nil_inv; simp [StableDft.next] at e1
    | cons x l =>
      obtain ⟨_, e1, _⟩ := hy.cons_inv
      simp only [StableDft.next, Except.ok.injEq, Prod.mk.injEq, Option.some.injEq] at e1
      have hx := e1.1
      subst hx
      have hl := suffix_last e hlast (by simp)
      have hn2 : (ev :: l).Nodup := by rw [e, List.nodup_append] at hnd; exact hnd.2.1
      simp only [StableDft.sizeHint]
      split
      · rename_i hm; subst hm
        have := hint_single hn2 hl
        subst this
        simp [HintSound]
      · rename_i hm
        cases l with
        | nil => simp at hl; exact absurd hl hm
        | cons y l => simp [HintSound]

theorem StableSib.reaches_start {z : NodeId} {s0 s : StableSib.State}
    (h0 : s0 = none ∨ ∃ a, s0 = some (a, z))
    (hr : Reaches (StableSib.next h) s0 s) : s = none ∨ ∃ e, s = some (e, z) := by
  induction hr with
  | refl => exact h0
  | @step s1 s2 x _ hx ih =>
    rcases ih with rfl | ⟨e, rfl⟩
    · simp only [StableSib.next, Except.ok.injEq, Prod.mk.injEq] at hx
      exact .inl hx.2.symm
    · simp only [StableSib.next, Except.ok.injEq, Prod.mk.injEq] at hx
      cases he : h.nextLink e with
      | none => rw [he] at hx; exact .inl hx.2.symm
      | some e' => rw [he] at hx; exact .inr ⟨e', hx.2.symm⟩

theorem Shape.stableSib_hint (S : Shape h ch) (ha : h.alive p = true) :
    ∃ s0, StableSib.children h p = .ok s0 ∧ ∀ s, Reaches (StableSib.next h) s0 s →
    ∃ l, Yields (StableSib.next h) s l ∧ HintSound (StableSib.sizeHint s) l.length := by
  obtain ⟨s0, e0, hy0⟩ := S.children_stable ha
  refine ⟨s0, e0, ?_⟩
  intro s hr
  obtain ⟨pre, l, e, hy⟩ := hy0.reaches hr
  refine ⟨l, hy, ?_⟩
  have hfl := S.firstLast ha
  change StableSib.children h p = _ at hfl
  rw [e0] at hfl
  simp only [Except.ok.injEq] at hfl
  have hnil : ∀ {l : List NodeId}, Yields (StableSib.next h) none l → l = [] := by
    intro l hy
    cases l with
    | nil => rfl
    | cons x l => obtain ⟨_, e1, _⟩ := hy.cons_inv; simp [StableSib.next] at e1
  cases hc : ch p with
  | nil =>
    rw [hc] at e
    have : l = [] := by
      have := congrArg List.length e; simp at this; exact List.length_eq_zero_iff.1 (by omega)
    subst this
    obtain ⟨s', e1, _⟩ := hy.nil_inv
    cases s with
    | none => simp [HintSound, StableSib.sizeHint]
    | some ab => simp [StableSib.next] at e1
  | cons c cs =>
    obtain ⟨z, hz⟩ : ∃ z, (ch p).getLast? = some z := by
      rw [hc, List.getLast?_eq_some_getLast (List.cons_ne_nil _ _)]; exact ⟨_, rfl⟩
    have hs0 : s0 = some (c, z) := by rw [hfl, hz, hc]; rfl
    rcases StableSib.reaches_start (z := z) (.inr ⟨_, hs0⟩) hr with rfl | ⟨ev, rfl⟩
    · rw [hnil hy]; simp [HintSound, StableSib.sizeHint]
    · cases l with
      | nil => obtain ⟨_, e1, _⟩ := hy.nil_inv; simp [StableSib.next] at e1
      | cons x l =>
        obtain ⟨_, e1, _⟩ := hy.cons_inv
        simp only [StableSib.next, Except.ok.injEq, Prod.mk.injEq, Option.some.injEq] at e1
        have hx := e1.1
        subst hx
        have hl := suffix_last e hz (by simp)
        have hn2 : (ev :: l).Nodup := by
          have := S.nodup p
          rw [e, List.nodup_append] at this; exact this.2.1
        simp only [StableSib.sizeHint]
        split
        · rename_i hm; subst hm
          have := hint_single hn2 hl
          subst this
          simp [HintSound]
        · rename_i hm
          cases l with
          | nil => simp at hl; exact absurd hl hm
          | cons y l => simp [HintSound]

theorem Sib.hint {next : Sib.State → Except Fault (Option NodeId × Sib.State)} {s0 s : Sib.State}
    {l0 : List NodeId} (h0 : ∀ x s', next none = .ok (x, s') → x = none)
    (h1 : ∀ a x s', next (some a) = .ok (x, s') → x = some a)
    (hy0 : Yields next s0 l0) (hr : Reaches next s0 s) :
    ∃ l, Yields next s l ∧ HintSound (Sib.sizeHint s) l.length := by
  obtain ⟨pre, l, e, hy⟩ := hy0.reaches hr
  refine ⟨l, hy, ?_⟩
  cases s with
  | none =>
    cases l with
    | nil => simp [HintSound, Sib.sizeHint]
    | cons x l => obtain ⟨_, e1, _⟩ := hy.cons_inv; have := h0 _ _ e1; simp at this
  | some a =>
    cases l with
    | nil => obtain ⟨_, e1, _⟩ := hy.nil_inv; have := h1 _ _ _ e1; simp at this
    | cons x l => simp [HintSound, Sib.sizeHint]

theorem NaBfs.hint {s0 s : NaBfs.State} {l0 : List (NodeId × Nat)}
    (hy0 : Yields (NaBfs.next h) s0 l0) (hr : Reaches (NaBfs.next h) s0 s) :
    ∃ l, Yields (NaBfs.next h) s l ∧ HintSound (NaBfs.sizeHint s) l.length := by
  obtain ⟨pre, l, e, hy⟩ := hy0.reaches hr
  refine ⟨l, hy, ?_⟩
  simp only [NaBfs.sizeHint]
  split
  · rename_i hroot
    simp only [Option.isNone_iff_eq_none] at hroot
    cases l with
    | nil => simp [HintSound]
    | cons x l =>
      obtain ⟨_, e1, _⟩ := hy.cons_inv
      simp [NaBfs.next, hroot] at e1
  · simp [HintSound]

/-- after some steps the queue still has its form, or is empty -/
def AlBfs.Good (h : Heap α) (ch : NodeId → List NodeId) (t : RTree NodeId) (s : AlBfs.State) : Prop :=
  s.events = [] ∨ ∃ cur nxt, AlBfs.Inv h ch t s cur nxt

theorem AlBfs.Good.step (S : Shape h ch) {t : RTree NodeId} (hH : Hier ch t) {s : AlBfs.State}
    (G : AlBfs.Good h ch t s) :
    ∃ x s', AlBfs.next h s = .ok (x, s') ∧ AlBfs.peek s = .ok x ∧ AlBfs.Good h ch t s' := by
  rcases G with hq | ⟨cur, nxt, I⟩
  · exact ⟨none, s, by simp [AlBfs.next, AlBfs.nextF, hq], by simp [AlBfs.peek, hq], .inl hq⟩
  · cases cur with
    | cons x r =>
      obtain ⟨s', e, _, I'⟩ := AlBfs.nextF_step S s.events.length I
      exact ⟨_, s', e, by simp [AlBfs.peek, I.queue], .inr ⟨_, _, I'⟩⟩
    | nil =>
      have hq : s.events = none :: nxt.map some := by simpa using I.queue
      cases nxt with
      | nil =>
        exact ⟨none, ⟨[], s.depth⟩, by simp [AlBfs.next, AlBfs.nextF, hq],
          by simp [AlBfs.peek, hq], .inl rfl⟩
      | cons x r =>
        obtain ⟨s', e, _, I'⟩ := AlBfs.nextF_step S r.length (I.mark hH)
        refine ⟨some (x, s.depth + 1), s', ?_, by simp [AlBfs.peek, hq], .inr ⟨_, _, I'⟩⟩
        rw [AlBfs.next, hq]
        simp only [List.length_cons, List.length_map, AlBfs.nextF, hq, List.map_cons,
          List.cons_ne_nil, if_false, reduceCtorEq]
        exact e

theorem AlBfs.Good.reaches (S : Shape h ch) {t : RTree NodeId} (hH : Hier ch t)
    {s s' : AlBfs.State} (G : AlBfs.Good h ch t s) (hr : Reaches (AlBfs.next h) s s') :
    AlBfs.Good h ch t s' := by
  induction hr with
  | refl => exact G
  | step _ hx ih =>
    obtain ⟨x, s2, e, _, G2⟩ := AlBfs.Good.step S hH ih
    rw [e] at hx
    simp only [Except.ok.injEq, Prod.mk.injEq] at hx
    exact hx.2 ▸ G2

theorem AlBfs.Good.hint (S : Shape h ch) {t : RTree NodeId} (hH : Hier ch t) {s : AlBfs.State}
    (G : AlBfs.Good h ch t s) :
    ∃ l, Yields (AlBfs.next h) s l ∧ HintSound (AlBfs.sizeHint s) l.length := by
  rcases G with hq | ⟨cur, nxt, I⟩
  · exact ⟨[], .done (s' := s) (by simp [AlBfs.next, AlBfs.nextF, hq])
      (by simp [AlBfs.next, AlBfs.nextF, hq]), by simp [HintSound, AlBfs.sizeHint, hq]⟩
  · refine ⟨_, AlBfs.yields_from S hH _ _ _ s rfl I, ?_⟩
    have hlen : s.events.length = cur.length + nxt.length + 1 := by
      rw [I.queue]; simp; omega
    simp only [AlBfs.sizeHint, hlen]
    rw [bfs_unfold, I.next]
    split
    · have h1 : cur = [] := List.length_eq_zero_iff.1 (by omega)
      have h2 : nxt = [] := List.length_eq_zero_iff.1 (by omega)
      subst h1 h2
      have : t.bfs (s.depth + 1 + 1) = [] := bfs_nil (level_nil_succ (by simpa using I.next))
      simp [HintSound, this]
    · simp [HintSound]

end Dendron
