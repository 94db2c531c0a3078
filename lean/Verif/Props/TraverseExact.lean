import Verif.Proofs.Cursor
import Verif.Props.Traverse

/-!
# C22, C25-C27 for every state: exactly what the stable traversers do

`twoCursors L es (some (i, j))` (`Verif.Spec.Cursor`): the results of the calls `es` on two cursors at the
positions `i` and `j` of the list `L` that do not notice each other.
-/

set_option linter.unusedSimpArgs false
set_option linter.unusedVariables false

set_option autoImplicit false

namespace Dendron
open RTree
variable {α : Type} {h : Heap α} {ch : NodeId → List NodeId} {n p r : NodeId} {t tr : RTree NodeId}
  {l1 l2 : List NodeId}

private theorem exists_top (W : WF h ch) (ha : h.alive n = true) :
    ∃ r, h.alive r = true ∧ (∀ p, r ∉ ch p) ∧ Desc ch r n := by
  obtain ⟨l, hl⟩ := W.toFShape.exists_anc ha
  induction hl with
  | root hr => exact ⟨_, ha, hr, .refl _⟩
  | step hm _ ih =>
    obtain ⟨r, h1, h2, h3⟩ := ih (W.alive_parent hm)
    exact ⟨r, h1, h2, .step h3 hm⟩

private theorem place (W : WF h ch) (htr : SubtreeAt ch r tr) (hd : Desc ch r n) (ht : SubtreeAt ch n t) :
    ∃ pre rest, tr.events = pre ++ t.events ++ rest ∧ (pre = [] ↔ n = r) ∧ (rest = [] ↔ n = r) := by
  obtain ⟨u, pre, rest, hu, e, hne⟩ := Hier.contiguous tr htr.2 n ((htr.mem_nodes_iff n).2 hd)
  obtain rfl := hu.unique ht
  refine ⟨pre, rest, e, ⟨fun h1 => ?_, ?_⟩, ⟨fun h1 => ?_, ?_⟩⟩
  · subst h1
    obtain ⟨l, hl⟩ := events_eq_cons tr
    obtain ⟨l', hl'⟩ := events_eq_cons u
    rw [hl, hl'] at e
    simp only [List.nil_append, List.cons_append, List.cons.injEq, DftEvent.opn.injEq] at e
    rw [← hu.1, ← htr.1, e.1]
  · rintro rfl
    obtain rfl := htr.unique hu
    have := congrArg List.length e
    simp only [List.length_append] at this
    exact List.length_eq_zero_iff.1 (by omega)
  · refine Classical.byContradiction fun h2 => hne (by rw [htr.1]; exact h2) h1
  · rintro rfl
    obtain rfl := htr.unique hu
    have := congrArg List.length e
    simp only [List.length_append] at this
    exact List.length_eq_zero_iff.1 (by omega)

private theorem steps {σ ι : Type} {next : σ → Except Fault (Option ι × σ)} : ∀ (a b : List ι) (s : σ),
    Yields next s (a ++ b) → ∃ s', Reaches next s s' ∧ Yields next s' b := by
  intro a
  induction a with
  | nil => intro b s hy; exact ⟨s, .refl, hy⟩
  | cons x a ih =>
    intro b s hy
    obtain ⟨s1, e1, hy1⟩ := hy.cons_inv
    obtain ⟨s2, hr, hy2⟩ := ih b s1 hy1
    refine ⟨s2, ?_, hy2⟩
    clear hy hy1 hy2 ih
    induction hr with
    | refl => exact .step .refl e1
    | step _ hx ih => exact .step ih hx

private theorem events_pos (t : RTree NodeId) : 2 ≤ t.events.length := by
  cases t; simp [events]

/-! ### C22 -/

/-- C22, exactly what happens, for every node of every tree: `depth_first_traverse_stable` of `n` is two
cursors on the events of the *whole* tree, one at `Open n` and one at `Close n`.  Neither stops at the end
of the subtree or where the other one has been. -/
theorem C22_exact (W : WF h ch) (ha : h.alive r = true) (hroot : ∀ p, r ∉ ch p) (htr : SubtreeAt ch r tr)
    (hd : Desc ch r n) (ht : SubtreeAt ch n t) :
    ∃ pre rest, tr.events = pre ++ t.events ++ rest ∧ (pre = [] ↔ n = r) ∧ (rest = [] ↔ n = r) ∧
      ∀ es, runSched (StableDft.next h) (StableDft.back h) es (StableDft.start n) =
        .ok (twoCursors tr.events es (some (pre.length, pre.length + t.events.length - 1))) := by
  obtain ⟨pre, rest, e, h1, h2⟩ := place W htr hd ht
  have hp := events_pos t
  refine ⟨pre, rest, e, h1, h2, fun es => ?_⟩
  obtain ⟨l, hl⟩ := events_eq_cons t
  have hlast := events_last t
  refine (W.dft_cursors ha hroot htr).run es _ _ _ _ ?_ ?_
  · rw [e, List.append_assoc, List.getElem?_append_right (Nat.le_refl _), hl, ht.1]; simp
  · rw [e, List.append_assoc, List.getElem?_append_right (by omega),
      List.getElem?_append_left (by omega), ← ht.1, ← hlast, List.getLast?_eq_getElem?]
    congr 1; omega

/-- C22, violated for every node of every state: the traverser is never a proper double-ended iterator.
After one `next_back`, `next` still returns all events of the subtree, so that `Close n` is yielded
twice. -/
theorem C22_never_double_ended (W : WF h ch) (ha : h.alive n = true) (ht : SubtreeAt ch n t) :
    ¬ DoubleEnded (StableDft.next h) (StableDft.back h) (StableDft.start n) t.events ∧
    runSched (StableDft.next h) (StableDft.back h) (.back :: List.replicate t.events.length .front)
      (StableDft.start n) = .ok (some (.cls n) :: t.events.map some) := by
  obtain ⟨r, har, hroot, hd⟩ := exists_top W ha
  obtain ⟨tr, htr⟩ := W.exists_subtree r
  obtain ⟨pre, rest, e, h1, h2, hrun⟩ := C22_exact W har hroot htr hd ht
  have hp := events_pos t
  have hlen := congrArg List.length e
  simp only [List.length_append] at hlen
  have hseg : (tr.events.take (pre.length + t.events.length - 1 + 1)).drop pre.length = t.events := by
    rw [e, List.append_assoc, Nat.sub_add_cancel (by omega), List.take_length_add_append,
      List.drop_left, List.take_left]
  constructor
  · intro hall
    have hx := (twoCursors_double (L := tr.events) (i := pre.length)
      (j := pre.length + t.events.length - 1) (by omega) (by omega)).1 (fun es => by
        have := hall es
        rw [hrun es] at this
        rw [hseg]; exact Except.ok.inj this)
    omega
  · rw [hrun]
    congr 1
    simp only [twoCursors, show 0 < pre.length + t.events.length - 1 by omega, if_true]
    rw [twoCursors_fronts _ _ _ _ (by omega)]
    have hx : tr.events[pre.length + t.events.length - 1]? = some (.cls n) := by
      rw [e, List.append_assoc, List.getElem?_append_right (by omega),
        List.getElem?_append_left (by omega), ← ht.1, ← events_last t, List.getLast?_eq_getElem?]
      congr 1; omega
    rw [hx, e, List.append_assoc, List.drop_left, List.take_left]

/-- C22, used from one end only: the traverser yields the events of the subtree exactly if `n` is a root;
otherwise it runs on, over the events of the whole tree that follow (or precede) the subtree. -/
theorem C22_one_ended_iff (W : WF h ch) (ha : h.alive n = true) (ht : SubtreeAt ch n t) :
    (Yields (StableDft.next h) (StableDft.start n) t.events ↔ ∀ p, n ∉ ch p) ∧
    (Yields (StableDft.back h) (StableDft.start n) t.events.reverse ↔ ∀ p, n ∉ ch p) ∧
    (∀ r tr, h.alive r = true → (∀ p, r ∉ ch p) → SubtreeAt ch r tr → Desc ch r n →
      ∃ pre rest, tr.events = pre ++ t.events ++ rest ∧ (pre = [] ↔ n = r) ∧ (rest = [] ↔ n = r) ∧
        Yields (StableDft.next h) (StableDft.start n) (t.events ++ rest) ∧
        Yields (StableDft.back h) (StableDft.start n) (t.events.reverse ++ pre.reverse)) := by
  have key : ∀ r tr, h.alive r = true → (∀ p, r ∉ ch p) → SubtreeAt ch r tr → Desc ch r n →
      ∃ pre rest, tr.events = pre ++ t.events ++ rest ∧ (pre = [] ↔ n = r) ∧ (rest = [] ↔ n = r) ∧
        Yields (StableDft.next h) (StableDft.start n) (t.events ++ rest) ∧
        Yields (StableDft.back h) (StableDft.start n) (t.events.reverse ++ pre.reverse) := by
    intro r tr har hroot htr hd
    obtain ⟨pre, rest, e, h1, h2⟩ := place W htr hd ht
    have hp := events_pos t
    obtain ⟨l, hl⟩ := events_eq_cons t
    have C := W.dft_cursors har hroot htr
    have hi : tr.events[pre.length]? = some (.opn n) := by
      rw [e, List.append_assoc, List.getElem?_append_right (Nat.le_refl _), hl, ht.1]; simp
    have hj : tr.events[pre.length + t.events.length - 1]? = some (.cls n) := by
      rw [e, List.append_assoc, List.getElem?_append_right (by omega),
        List.getElem?_append_left (by omega), ← ht.1, ← events_last t, List.getLast?_eq_getElem?]
      congr 1; omega
    refine ⟨pre, rest, e, h1, h2, ?_, ?_⟩
    · have := C.yields _ _ _ (.cls n) hi (Nat.le_refl _)
      rwa [e, List.append_assoc, List.drop_left] at this
    · have := C.back_yields _ (.opn n) _ hj
      rwa [e, Nat.sub_add_cancel (by omega), List.append_assoc, List.take_length_add_append,
        List.take_left, List.reverse_append] at this
  obtain ⟨r, har, hroot, hd⟩ := exists_top W ha
  obtain ⟨tr, htr⟩ := W.exists_subtree r
  obtain ⟨pre, rest, e, h1, h2, y1, y2⟩ := key r tr har hroot htr hd
  have hr : n = r → ∀ p, n ∉ ch p := by rintro rfl; exact hroot
  refine ⟨⟨fun hy => hr (h2.1 ?_), fun hx => W.stableDft_yields ha ht hx⟩,
    ⟨fun hy => hr (h1.1 ?_), fun hx => W.stableDft_back_yields ha ht hx⟩, key⟩
  · have := congrArg List.length (hy.unique y1)
    simp only [List.length_append] at this
    exact List.length_eq_zero_iff.1 (by omega)
  · have := congrArg List.length (hy.unique y2)
    simp only [List.length_append, List.length_reverse] at this
    exact List.length_eq_zero_iff.1 (by omega)

/-! ### C25 -/

/-- C25 for the depth-limited traverser, exactly, in every state reached by any mix of `next` and
`next_back`: with the list `l` of events to come, `size_hint` is wrong exactly if `l` has more than two
events, the first one opens a node and the last one closes the same node. -/
theorem C25_shallow_exact (W : WF h ch) (ha : h.alive n = true) (ht : SubtreeAt ch n t) (lim : Option Nat)
    {s : Shallow.State} (hr : Reaches2 (Shallow.next h) (Shallow.back h) (Shallow.start n lim) s) :
    ∃ l, DoubleEnded (Shallow.next h) (Shallow.back h) s l ∧
      (¬ HintSound (Shallow.sizeHint s) l.length ↔
        2 < l.length ∧ ∃ x, l.head? = some (.opn x) ∧ l.getLast? = some (.cls x)) := by
  have : ∃ l, Shallow.Inv h s l := by
    induction hr with
    | refl => exact ⟨_, W.shallow_inv lim ha ht⟩
    | front _ hx ih =>
      obtain ⟨l, I⟩ := ih
      obtain ⟨s', e, I', _⟩ := I.front
      rw [hx] at e
      simp only [Except.ok.injEq, Prod.mk.injEq] at e
      exact ⟨_, e.2 ▸ I'⟩
    | rear _ hx ih =>
      obtain ⟨l, I⟩ := ih
      obtain ⟨s', e, I', _⟩ := I.rear
      rw [hx] at e
      simp only [Except.ok.injEq, Prod.mk.injEq] at e
      exact ⟨_, e.2 ▸ I'⟩
  obtain ⟨l, I⟩ := this
  refine ⟨l, fun es => I.sched es, ?_⟩
  have hlow := I.lower
  have he := I.ends
  have hsame : ∀ a, l.head? = some a → l.getLast? = some a → l.length = 1 := by
    intro a h1 h2
    cases l with
    | nil => simp at h1
    | cons b l =>
      simp only [List.head?_cons, Option.some.injEq] at h1
      subst h1
      have hn : (b :: l).Nodup := List.Pairwise.of_map (R := fun a b => a ≠ b) (S := fun a b => a ≠ b)
        (DftEvent.map Prod.fst) (fun a b hab e => hab (by rw [e])) I.nodup
      rw [hint_single hn h2]; rfl
  cases l with
  | nil => simp [HintSound, Shallow.sizeHint, I.ends]
  | cons a l =>
    obtain ⟨z, hz⟩ : ∃ z, (a :: l).getLast? = some z := by
      rw [List.getLast?_eq_some_getLast (List.cons_ne_nil _ _)]; exact ⟨_, rfl⟩
    have hza : z ∈ a :: l := List.mem_of_getLast? hz
    have hinj := eq_of_map_nodup I.nodup (a := a) (b := z) (by simp) hza
    simp only [hz, List.head?_cons, Option.some.injEq] at he hsame ⊢
    have hs1 : a = z → (a :: l).length = 1 := fun e => hsame a rfl e.symm
    clear hsame
    generalize hL : (a :: l).length = k at *
    have hk : 0 < k := by rw [← hL]; simp
    simp only [HintSound, Shallow.sizeHint, he] at hlow ⊢
    rcases a with ⟨n, d⟩ | ⟨n, d⟩ <;> rcases z with ⟨m, e⟩ | ⟨m, e⟩
    · have : ¬ (2 < k ∧ ∃ x : NodeId × Nat, DftEvent.opn (n, d) = DftEvent.opn x ∧
          DftEvent.opn (m, e) = DftEvent.cls x) := by simp
      simp only [this, iff_false, Classical.not_not] at hlow ⊢
      by_cases hnm : n = m
      · have := hs1 (hinj (by simp [DftEvent.map, hnm]))
        simp [hnm, this]
      · simp only [hnm, if_false] at hlow ⊢
        refine ⟨hlow, ?_⟩
        (repeat' split) <;> simp
    · simp only [DftEvent.opn.injEq, DftEvent.cls.injEq]
      by_cases hx : d = e ∧ n = m
      · obtain ⟨rfl, rfl⟩ := hx
        simp at hlow ⊢
        omega
      · have h1 : ¬ (2 < k ∧ ∃ x, (n, d) = x ∧ (m, e) = x) := by
          rintro ⟨-, x, rfl, h2⟩
          simp only [Prod.mk.injEq] at h2
          exact hx ⟨h2.2.symm, h2.1.symm⟩
        simp only [h1, iff_false, Classical.not_not]
        refine ⟨hlow, ?_⟩
        split
        · simp
        · split
          · rename_i hde
            split
            · rename_i hnm; exact absurd ⟨hde, hnm⟩ hx
            · simp
          · simp
    · have : ¬ (2 < k ∧ ∃ x : NodeId × Nat, DftEvent.cls (n, d) = DftEvent.opn x ∧
          DftEvent.opn (m, e) = DftEvent.cls x) := by simp
      simp only [this, iff_false, Classical.not_not]
      refine ⟨hlow, ?_⟩
      (repeat' split) <;> simp
    · have : ¬ (2 < k ∧ ∃ x : NodeId × Nat, DftEvent.cls (n, d) = DftEvent.opn x ∧
          DftEvent.cls (m, e) = DftEvent.cls x) := by simp
      simp only [this, iff_false, Classical.not_not] at hlow ⊢
      by_cases hnm : n = m
      · have := hs1 (hinj (by simp [DftEvent.map, hnm]))
        simp [hnm, this]
      · simp only [hnm, if_false] at hlow ⊢
        refine ⟨hlow, ?_⟩
        (repeat' split) <;> simp

/-- C25, violated by `depth_first_traverse_stable` of every node that is not a root: after all events of
the subtree but the last one, `size_hint` says that exactly one item is to come, but more items are. -/
theorem C25_stable_always_violated (W : WF h ch) (hn : n ∈ ch p) (ht : SubtreeAt ch n t) :
    ∃ s l, Reaches (StableDft.next h) (StableDft.start n) s ∧ StableDft.sizeHint s = (1, some 1) ∧
      Yields (StableDft.next h) s (.cls n :: l) ∧ l ≠ [] := by
  have ha := W.alive_of_mem hn
  obtain ⟨r, har, hroot, hd⟩ := exists_top W ha
  obtain ⟨tr, htr⟩ := W.exists_subtree r
  obtain ⟨-, -, key⟩ := C22_one_ended_iff W ha ht
  obtain ⟨pre, rest, e, h1, h2, y1, -⟩ := key r tr har hroot htr hd
  have hne : rest ≠ [] := fun hx => hroot p (by rw [← h2.1 hx]; exact hn)
  obtain ⟨v, cs⟩ := t
  obtain rfl : v = n := ht.1
  have hy : Yields (StableDft.next h) (StableDft.start v)
      ((.opn v :: eventsL cs) ++ (.cls v :: rest)) := by
    simpa [events] using y1
  obtain ⟨s, hr, hy'⟩ := steps _ _ _ hy
  refine ⟨s, rest, hr, ?_, hy', hne⟩
  rcases StableDft.reaches_start (z := .cls v) (.inr ⟨_, rfl⟩) hr with rfl | ⟨ev, rfl⟩
  · obtain ⟨_, e1, _⟩ := hy'.cons_inv
    simp [StableDft.next] at e1
  · obtain ⟨_, e1, _⟩ := hy'.cons_inv
    simp only [StableDft.next, Except.ok.injEq, Prod.mk.injEq, Option.some.injEq] at e1
    simp [StableDft.sizeHint, e1.1]

/-- C25, violated by `preceding_siblings_or_self_stable` of every node with a following sibling: when the
node itself is next, `size_hint` says that exactly one item is to come, but more items are. -/
theorem C25_stable_siblings_always_violated (W : WF h ch) (hs : ch p = l1 ++ n :: l2) (hne : l2 ≠ []) :
    ∃ s0 s, StableSib.precedingOrSelf h n = .ok s0 ∧ Reaches (StableSib.next h) s0 s ∧
      StableSib.sizeHint s = (1, some 1) ∧ Yields (StableSib.next h) s (n :: l2) := by
  have hm : n ∈ ch p := by simp [hs]
  obtain ⟨first, hf1, hfirst⟩ := W.coherent.firstSib p n hm
  have g0 : (ch p)[0]? = some first := by rw [← hf1, List.head?_eq_getElem?]
  have hy := (W.sib_cursors p).yields _ 0 _ n g0 (Nat.le_refl _)
  rw [List.drop_zero, hs] at hy
  obtain ⟨s, hr, hy'⟩ := steps _ _ _ hy
  refine ⟨some (first, n), s, ?_, hr, ?_, hy'⟩
  · simp [StableSib.precedingOrSelf, hfirst, bind, Except.bind, pure, Except.pure]
  rcases StableSib.reaches_start (z := n) (.inr ⟨_, rfl⟩) hr with rfl | ⟨ev, rfl⟩
  · obtain ⟨_, e1, _⟩ := hy'.cons_inv
    simp [StableSib.next] at e1
  · obtain ⟨_, e1, _⟩ := hy'.cons_inv
    simp only [StableSib.next, Except.ok.injEq, Prod.mk.injEq, Option.some.injEq] at e1
    simp [StableSib.sizeHint, e1.1]

/-! ### C26 -/

/-- C26 for `StableDepthFirstTraverser::close_current` used from the front, from every start node: while a
node of the subtree is open, it does what it should. -/
theorem C26_stable_open (W : WF h ch) (ha : h.alive n = true) (ht : SubtreeAt ch n t)
    {s : StableDft.State} {pre l rest : List (DftEvent NodeId)} (he : t.events = pre ++ l)
    (hy : Yields (StableDft.next h) s (l ++ rest)) {v : NodeId} {stk : List NodeId}
    (ho : openStack pre [] = v :: stk) :
    ∃ f s' mid l', l = mid ++ .cls v :: l' ∧ .cls v ∉ mid ∧
      closeCurrent (StableDft.next h) f 0 s = .ok (some v, s') ∧
      Yields (StableDft.next h) s' (l' ++ rest) := by
  have hn := events_nodup t (ht.nodup W.toFShape)
  obtain ⟨ds, l', rfl⟩ := events_suffix he ho
  have hy : Yields (StableDft.next h) s (eventsL ds ++ (.cls v :: (l' ++ rest))) := by simpa using hy
  obtain ⟨s1, hy1, e1⟩ := closeCurrent_list ds 1 0 s _ hy
  obtain ⟨s2, e2, hy2⟩ := hy1.cons_inv
  refine ⟨_, s2, _, l', rfl, ?_, by rw [e1, closeCurrent, e2]; simp, hy2⟩
  intro hm
  rw [he, List.nodup_append] at hn
  have := hn.2.1
  rw [List.nodup_append] at this
  exact this.2.2 _ hm _ (by simp) rfl

/-- C26, violated for every start node that is not a root: `close_current` of a fresh
`depth_first_traverse_stable`, where no node is open, does not return `None`; it leaves the subtree and
returns the parent. -/
theorem C26_stable_always_violated (W : WF h ch) (hn : n ∈ ch p) :
    ∃ f s', closeCurrent (StableDft.next h) f 0 (StableDft.start n) = .ok (some p, s') := by
  have hap := W.alive_parent hn
  obtain ⟨tp, htp⟩ := W.exists_subtree p
  obtain ⟨t, ht⟩ := W.exists_subtree n
  obtain ⟨r, har, hroot, hd⟩ := exists_top W hap
  obtain ⟨tr, htr⟩ := W.exists_subtree r
  obtain ⟨pre0, rest0, e0, -⟩ := place W htr hd htp
  -- the place of `n` among the children of `p`
  obtain ⟨v, cs⟩ := tp
  obtain rfl : v = p := htp.1
  have hmap := htp.2.1
  have : ∃ c1 c2, cs = c1 ++ t :: c2 := by
    have hH := htp.2.2
    rw [← hmap] at hn
    obtain ⟨c, hc, hcl⟩ := List.mem_map.1 hn
    obtain ⟨c1, c2, rfl⟩ := List.append_of_mem hc
    have hcH : ∀ (c1 c2 : List (RTree NodeId)) (c : RTree NodeId), HierL ch (c1 ++ c :: c2) → Hier ch c := by
      intro c1
      induction c1 with
      | nil => intro c2 c hx; exact hx.1
      | cons x c1 ih => intro c2 c hx; exact ih c2 c hx.2
    have := SubtreeAt.unique ⟨hcl, hcH _ _ _ hH⟩ ht
    subst this
    exact ⟨c1, c2, rfl⟩
  obtain ⟨c1, c2, rfl⟩ := this
  have hsplit : ∀ (a b : List (RTree NodeId)), eventsL (a ++ b) = eventsL a ++ eventsL b := by
    intro a b
    induction a with
    | nil => rfl
    | cons x a ih => simp [eventsL, ih]
  have eR : tr.events = (pre0 ++ .opn v :: eventsL c1) ++ (eventsL (t :: c2) ++ (.cls v :: rest0)) := by
    rw [e0]; simp [events, hsplit]
  have C := W.dft_cursors har hroot htr
  obtain ⟨l, hl⟩ := events_eq_cons t
  have hi : tr.events[(pre0 ++ .opn v :: eventsL c1).length]? = some (.opn n) := by
    rw [eR, List.getElem?_append_right (Nat.le_refl _)]
    simp [eventsL, hl, ht.1]
  have hy := C.yields _ _ _ (.cls n) hi (Nat.le_refl _)
  rw [eR, List.drop_left] at hy
  obtain ⟨s1, hy1, e1⟩ := closeCurrent_list (t :: c2) 1 0 _ _ hy
  obtain ⟨s2, e2, -⟩ := hy1.cons_inv
  exact ⟨_, s2, by rw [StableDft.start, e1, closeCurrent, e2]; simp⟩

/-- C26, `DftEvent::close_current` in every case: it returns, and then the right node, exactly if no node
opens next, that is for the `Open` of a leaf and the `Close` of a node without a next sibling. -/
theorem C26_event_exact (W : WF h ch) (ha : h.alive n = true) :
    (ch n = [] → h.evCloseCurrent (.opn n) 1 0 = .ok (some n)) ∧
    (ch n ≠ [] → ∀ f, h.evCloseCurrent (.opn n) f 0 = .error .diverge) ∧
    ((∀ p l1 b l2, ch p ≠ l1 ++ n :: b :: l2) →
      h.evCloseCurrent (.cls n) 1 0 = .ok (h.parentLink n)) ∧
    ((∃ p l1 b l2, ch p = l1 ++ n :: b :: l2) → ∀ f, h.evCloseCurrent (.cls n) f 0 = .error .diverge) := by
  have h1 := C26_event_close_current_diverges W
  have h2 := C26_event_close_current_partial W
  refine ⟨fun hc => h2.1 n ha hc 0, fun hc f => h1.1 n ha hc f 0, fun hlast => ?_, ?_⟩
  · by_cases hr : ∀ p, n ∉ ch p
    · rw [h2.2.2 n ha hr 0, W.parentLink ha, W.toFShape.parent_none ha hr]
    · obtain ⟨p, hp⟩ : ∃ p, n ∈ ch p := by simpa using hr
      obtain ⟨l1, l2, hs⟩ := List.append_of_mem hp
      cases l2 with
      | cons b l2 => exact absurd hs (hlast _ _ _ _)
      | nil => rw [h2.2.1 p n l1 hs 0, W.parentLink ha, W.parent_of_mem hp]
  · rintro ⟨p, l1, b, l2, hs⟩ f
    exact h1.2 p n b l1 l2 hs f 0

/-! ### C27 -/

/-- C27, exactly what happens: all stable sibling traversers are two cursors on the whole list of
siblings, that do not notice each other or the end of the segment asked for. -/
theorem C27_exact (W : WF h ch) (hs : ch p = l1 ++ n :: l2) :
    (∃ s, StableSib.children h p = .ok s ∧ StableSib.siblings h n = .ok s ∧
      ∀ es, runSched (StableSib.next h) (StableSib.back h) es s =
        .ok (twoCursors (ch p) es (some (0, l1.length + l2.length)))) ∧
    (∃ s, StableSib.precedingOrSelf h n = .ok s ∧
      ∀ es, runSched (StableSib.next h) (StableSib.back h) es s =
        .ok (twoCursors (ch p) es (some (0, l1.length)))) ∧
    (∃ s, StableSib.preceding h n = .ok s ∧
      ∀ es, runSched (StableSib.next h) (StableSib.back h) es s =
        .ok (twoCursors (ch p) es (if ch p = [n] then none else some (1, l1.length)))) ∧
    (∃ s, StableSib.followingOrSelf h n = .ok s ∧
      ∀ es, runSched (StableSib.next h) (StableSib.back h) es s =
        .ok (twoCursors (ch p) es (some (l1.length, l1.length + l2.length)))) ∧
    (∃ s, StableSib.following h n = .ok s ∧
      ∀ es, runSched (StableSib.next h) (StableSib.back h) es s =
        .ok (twoCursors (ch p) es
          (if l2 = [] then none else some (l1.length + 1, l1.length + l2.length)))) := by
  have hm : n ∈ ch p := by simp [hs]
  have ha := W.alive_of_mem hm
  have hap := W.alive_parent hm
  have hpl : h.parentLink n = some p := by rw [W.parentLink ha]; exact W.parent_of_mem hm
  obtain ⟨last, hl1, hlast⟩ := W.coherent.lastSib p n hm
  obtain ⟨first, hf1, hfirst⟩ := W.coherent.firstSib p n hm
  have hfl := W.toShape.firstLast hap
  rw [hf1, hl1] at hfl
  have C := W.sib_cursors p
  have g0 : (ch p)[0]? = some first := by rw [← hf1, List.head?_eq_getElem?]
  have gn : (ch p)[l1.length]? = some n := by rw [hs, List.getElem?_append_right (Nat.le_refl _)]; simp
  have hlen : (ch p).length = l1.length + l2.length + 1 := by rw [hs]; simp; omega
  have gl : (ch p)[l1.length + l2.length]? = some last := by
    rw [← hl1, List.getLast?_eq_getElem?, hlen]; congr 1
  refine ⟨⟨some (first, last), hfl, ?_, fun es => C.run es _ _ _ _ g0 gl⟩,
    ⟨some (first, n), ?_, fun es => C.run es _ _ _ _ g0 gn⟩, ?_,
    ⟨some (n, last), ?_, fun es => C.run es _ _ _ _ gn gl⟩, ?_⟩
  · simp only [StableSib.siblings, hpl]; exact hfl
  · simp [StableSib.precedingOrSelf, hfirst, bind, Except.bind, pure, Except.pure]
  · have e := C.onFront 0 first n g0
    refine ⟨(ch p)[1]?.map (·, n), ?_, fun es => ?_⟩
    · simp [StableSib.preceding, StableSib.precedingOrSelf, hfirst, e, bind, Except.bind, pure, Except.pure]
    · cases hn : (ch p)[1]? with
      | none =>
        have hk : (ch p).length ≤ 1 := by simpa using hn
        have : ch p = [n] := by
          have h1 : l1 = [] := List.length_eq_zero_iff.1 (by omega)
          have h2 : l2 = [] := List.length_eq_zero_iff.1 (by omega)
          rw [hs, h1, h2]; rfl
        rw [if_pos this]; exact C.run0 es
      | some x =>
        have : ch p ≠ [n] := fun hx => by rw [hx] at hn; simp at hn
        rw [if_neg this]; exact C.run es _ _ _ _ hn gn
  · simp [StableSib.followingOrSelf, hlast, bind, Except.bind, pure, Except.pure]
  · have e := C.onFront _ n last gn
    refine ⟨(ch p)[l1.length + 1]?.map (·, last), ?_, fun es => ?_⟩
    · simp [StableSib.following, StableSib.followingOrSelf, hlast, e, bind, Except.bind, pure, Except.pure]
    · cases hn : (ch p)[l1.length + 1]? with
      | none =>
        have hk : (ch p).length ≤ l1.length + 1 := by simpa using hn
        have h2 : l2 = [] := List.length_eq_zero_iff.1 (by omega)
        rw [if_pos h2]; exact C.run0 es
      | some x =>
        have : l2 ≠ [] := by
          rintro rfl
          rw [List.getElem?_eq_some_iff] at hn
          obtain ⟨hx, -⟩ := hn
          simp at hlen; omega
        rw [if_neg this]; exact C.run es _ _ _ _ hn gl

/-- C27, when the stable sibling traversers are right: as double-ended iterators over the segment asked
for, `children_stable`, `siblings_stable`, `preceding_siblings_or_self_stable`,
`preceding_siblings_stable` and `following_siblings_or_self_stable` exactly if there is only one sibling,
and `following_siblings_stable` exactly if there is no following sibling. -/
theorem C27_double_ended_iff (W : WF h ch) (hs : ch p = l1 ++ n :: l2) :
    (∃ s, StableSib.children h p = .ok s ∧ StableSib.siblings h n = .ok s ∧
      (DoubleEnded (StableSib.next h) (StableSib.back h) s (ch p) ↔ ch p = [n])) ∧
    (∃ s, StableSib.precedingOrSelf h n = .ok s ∧
      (DoubleEnded (StableSib.next h) (StableSib.back h) s (l1 ++ [n]) ↔ ch p = [n])) ∧
    (∃ s, StableSib.preceding h n = .ok s ∧
      (DoubleEnded (StableSib.next h) (StableSib.back h) s l1 ↔ ch p = [n])) ∧
    (∃ s, StableSib.followingOrSelf h n = .ok s ∧
      (DoubleEnded (StableSib.next h) (StableSib.back h) s (n :: l2) ↔ ch p = [n])) ∧
    (∃ s, StableSib.following h n = .ok s ∧
      (DoubleEnded (StableSib.next h) (StableSib.back h) s l2 ↔ l2 = [])) := by
  obtain ⟨⟨s1, e1, e1', r1⟩, ⟨s2, e2, r2⟩, ⟨s3, e3, r3⟩, ⟨s4, e4, r4⟩, ⟨s5, e5, r5⟩⟩ := C27_exact W hs
  have hlen : (ch p).length = l1.length + l2.length + 1 := by rw [hs]; simp; omega
  have hone : (ch p).length = 1 ↔ ch p = [n] := by
    constructor
    · intro hk
      have h1 : l1 = [] := List.length_eq_zero_iff.1 (by omega)
      have h2 : l2 = [] := List.length_eq_zero_iff.1 (by omega)
      rw [hs, h1, h2]; rfl
    · intro hx; rw [hx]; rfl
  have key : ∀ {s : StableSib.State} {i j : Nat} {seg : List NodeId}, i ≤ j → j < (ch p).length →
      seg = ((ch p).take (j + 1)).drop i →
      (∀ es, runSched (StableSib.next h) (StableSib.back h) es s =
        .ok (twoCursors (ch p) es (some (i, j)))) →
      (DoubleEnded (StableSib.next h) (StableSib.back h) s seg ↔ ch p = [n]) := by
    intro s i j seg hij hj hseg hrun
    rw [← hone, ← twoCursors_double hij hj, ← hseg]
    constructor
    · intro hd es
      have := hd es
      rw [hrun es] at this
      exact Except.ok.inj this
    · intro hd es
      rw [hrun es, hd es]
  refine ⟨⟨s1, e1, e1', key (by omega) (by omega) ?_ r1⟩, ⟨s2, e2, key (by omega) (by omega) ?_ r2⟩,
    ⟨s3, e3, ?_⟩, ⟨s4, e4, key (by omega) (by omega) ?_ r4⟩, ⟨s5, e5, ?_⟩⟩
  · rw [List.drop_zero, List.take_of_length_le (by omega)]
  · rw [List.drop_zero, hs, List.take_length_add_append]; rfl
  · by_cases hx : ch p = [n]
    · have hl1 : l1 = [] := List.length_eq_zero_iff.1 (by rw [hx] at hlen; simp only [List.length_singleton] at hlen; omega)
      refine ⟨fun _ => hx, fun _ es => ?_⟩
      rw [r3 es, if_pos hx, twoCursors_none, hl1, dequeSched_nil]
    · refine ⟨fun hd => absurd ?_ hx, fun hy => absurd hy hx⟩
      simp only [if_neg hx] at r3
      have h1 : 1 < (ch p).length := by
        have : (ch p).length ≠ 1 := fun hk => hx (hone.1 hk)
        omega
      by_cases hl1 : l1 = []
      · refine absurd (fun es => ?_) (twoCursors_not_nil (L := ch p) (i := 1) (j := l1.length) h1)
        have := hd es
        rw [r3 es, hl1] at this
        rw [hl1]; exact Except.ok.inj this
      · -- `next` returns the second sibling instead of the first one
        have hd1 := hd [.front]
        rw [r3] at hd1
        have hd1 := Except.ok.inj hd1
        simp only [twoCursors, dequeSched, List.cons.injEq, and_true] at hd1
        obtain ⟨a, l1', rfl⟩ := List.exists_cons_of_ne_nil hl1
        have hnd := W.nodup p
        have h2 : (ch p)[0]? = some a := by rw [hs]; rfl
        rw [List.head?_cons, ← h2] at hd1
        have := (List.getElem?_inj (by omega) hnd).1 hd1.symm
        omega
  · rw [List.take_of_length_le (by omega), hs, List.drop_left]
  · by_cases hx : l2 = []
    · refine ⟨fun _ => hx, fun _ es => ?_⟩
      rw [r5 es, if_pos hx, twoCursors_none, hx, dequeSched_nil]
    · simp only [if_neg hx] at r5
      have hpos : 0 < l2.length := List.length_pos_iff.2 hx
      rw [key (i := l1.length + 1) (j := l1.length + l2.length) (by omega) (by omega) ?_ r5]
      · constructor
        · intro hy; rw [hy] at hlen; simp only [List.length_singleton] at hlen; omega
        · intro hy; exact absurd hy hx
      · rw [List.take_of_length_le (by omega), hs, show l1 ++ n :: l2 = (l1 ++ [n]) ++ l2 by simp,
          show l1.length + 1 = (l1 ++ [n]).length by simp, List.drop_left]

/-- C27, used from one end only.  From the front, `preceding_siblings_or_self_stable` yields all siblings
instead of those up to the node, and `preceding_siblings_stable` all siblings but the first; from the
back, `preceding_siblings_stable` yields the node itself, too, and the two `following` ones yield all
siblings.  They are right exactly in the cases where this makes no difference; the other uses are right. -/
theorem C27_one_ended_iff (W : WF h ch) (hs : ch p = l1 ++ n :: l2) :
    (∃ s, StableSib.precedingOrSelf h n = .ok s ∧ Yields (StableSib.next h) s (ch p) ∧
      (Yields (StableSib.next h) s (l1 ++ [n]) ↔ l2 = []) ∧
      Yields (StableSib.back h) s (l1 ++ [n]).reverse) ∧
    (∃ s, StableSib.preceding h n = .ok s ∧ Yields (StableSib.next h) s (ch p).tail ∧
      (Yields (StableSib.next h) s l1 ↔ ch p = [n]) ∧
      (ch p ≠ [n] → Yields (StableSib.back h) s (l1 ++ [n]).reverse) ∧
      (Yields (StableSib.back h) s l1.reverse ↔ ch p = [n])) ∧
    (∃ s, StableSib.followingOrSelf h n = .ok s ∧ Yields (StableSib.next h) s (n :: l2) ∧
      Yields (StableSib.back h) s (ch p).reverse ∧
      (Yields (StableSib.back h) s (n :: l2).reverse ↔ l1 = [])) ∧
    (∃ s, StableSib.following h n = .ok s ∧ Yields (StableSib.next h) s l2 ∧
      (l2 ≠ [] → Yields (StableSib.back h) s (ch p).reverse) ∧
      (Yields (StableSib.back h) s l2.reverse ↔ l2 = [])) := by
  have hm : n ∈ ch p := by simp [hs]
  have ha := W.alive_of_mem hm
  have hap := W.alive_parent hm
  obtain ⟨last, hl1, hlast⟩ := W.coherent.lastSib p n hm
  obtain ⟨first, hf1, hfirst⟩ := W.coherent.firstSib p n hm
  have C := W.sib_cursors p
  have hnd := W.nodup p
  have g0 : (ch p)[0]? = some first := by rw [← hf1, List.head?_eq_getElem?]
  have gn : (ch p)[l1.length]? = some n := by rw [hs, List.getElem?_append_right (Nat.le_refl _)]; simp
  have hlen : (ch p).length = l1.length + l2.length + 1 := by rw [hs]; simp; omega
  have gl : (ch p)[l1.length + l2.length]? = some last := by
    rw [← hl1, List.getLast?_eq_getElem?, hlen]; congr 1
  have hfull : (ch p).take (l1.length + l2.length + 1) = ch p := List.take_of_length_le (by omega)
  have hpre : (ch p).take (l1.length + 1) = l1 ++ [n] := by rw [hs, List.take_length_add_append]; rfl
  have hd1 : (ch p).drop l1.length = n :: l2 := by rw [hs, List.drop_left]
  have len_eq : ∀ {a b : List NodeId}, a = b → a.length = b.length := fun e => by rw [e]
  refine ⟨⟨some (first, n), ?_, ?_, ⟨fun hy => ?_, fun hx => ?_⟩, ?_⟩, ?_, ⟨some (n, last), ?_, ?_, ?_, ?_⟩, ?_⟩
  · simp [StableSib.precedingOrSelf, hfirst, bind, Except.bind, pure, Except.pure]
  · exact C.yields _ 0 _ n g0 (Nat.le_refl _)
  · have := len_eq (hy.unique (C.yields _ 0 _ n g0 (Nat.le_refl _)))
    simp at this
    exact List.length_eq_zero_iff.1 (by omega)
  · have := C.yields _ 0 _ n g0 (Nat.le_refl _)
    rwa [List.drop_zero, hs, hx] at this
  · have := C.back_yields _ first _ gn
    rwa [hpre] at this
  · have e := C.onFront 0 first n g0
    refine ⟨(ch p)[1]?.map (·, n), ?_, ?_⟩
    · simp [StableSib.preceding, StableSib.precedingOrSelf, hfirst, e, bind, Except.bind, pure, Except.pure]
    cases hn : (ch p)[1]? with
    | none =>
      have hk : (ch p).length ≤ 1 := by simpa using hn
      have h1 : l1 = [] := List.length_eq_zero_iff.1 (by omega)
      have h2 : l2 = [] := List.length_eq_zero_iff.1 (by omega)
      have hx : ch p = [n] := by rw [hs, h1, h2]; rfl
      have y0 : Yields (StableSib.next h) none [] := .done (s' := none) rfl rfl
      have y1 : Yields (StableSib.back h) none [] := .done (s' := none) rfl rfl
      simp only [hx, h1, Option.map_none, List.tail_cons, List.reverse_nil, iff_true]
      exact ⟨y0, y0, fun hh => absurd rfl hh, y1⟩
    | some x =>
      have hx : ch p ≠ [n] := fun hx => by rw [hx] at hn; simp at hn
      have yf : Yields (StableSib.next h) (some (x, n)) (ch p).tail := by
        have := C.yields _ 1 x n hn (Nat.le_refl _)
        rwa [List.drop_one] at this
      have yb : Yields (StableSib.back h) (some (x, n)) (l1 ++ [n]).reverse := by
        have := C.back_yields _ x _ gn
        rwa [hpre] at this
      refine ⟨yf, ⟨fun hy => ?_, fun hh => absurd hh hx⟩, fun _ => yb, ⟨fun hy => ?_, fun hh => absurd hh hx⟩⟩
      · exfalso
        have e2 := hy.unique yf
        cases hl : l1 with
        | nil =>
          rw [hl] at e2 hlen
          have := len_eq e2
          rw [List.length_tail, hlen] at this
          have h2 : l2 = [] := List.length_eq_zero_iff.1 (by simp at this; omega)
          exact hx (by rw [hs, hl, h2]; rfl)
        | cons a l1' =>
          have h2 : (ch p)[0]? = some a := by rw [hs, hl]; rfl
          have h3 : (ch p)[1]? = some a := by
            rw [← List.head?_drop, List.drop_one, ← e2, hl]; rfl
          have := (List.getElem?_inj (by omega) hnd).1 (h2.trans h3.symm)
          omega
      · exfalso
        have := len_eq (hy.unique yb)
        simp at this
  · simp [StableSib.followingOrSelf, hlast, bind, Except.bind, pure, Except.pure]
  · have := C.yields _ _ _ last gn (Nat.le_refl _)
    rwa [hd1] at this
  · have := C.back_yields _ n _ gl
    rwa [hfull] at this
  · have yb := C.back_yields _ n _ gl
    rw [hfull] at yb
    refine ⟨fun hy => ?_, fun hx => ?_⟩
    · have := len_eq (hy.unique yb)
      simp only [List.length_reverse, List.length_cons, hlen] at this
      exact List.length_eq_zero_iff.1 (by omega)
    · rw [hs, hx] at yb; exact yb
  · have e := C.onFront _ n last gn
    refine ⟨(ch p)[l1.length + 1]?.map (·, last), ?_, ?_⟩
    · simp [StableSib.following, StableSib.followingOrSelf, hlast, e, bind, Except.bind, pure, Except.pure]
    cases hn : (ch p)[l1.length + 1]? with
    | none =>
      have hk : (ch p).length ≤ l1.length + 1 := by simpa using hn
      have h2 : l2 = [] := List.length_eq_zero_iff.1 (by omega)
      have y0 : Yields (StableSib.next h) none [] := .done (s' := none) rfl rfl
      have y1 : Yields (StableSib.back h) none [] := .done (s' := none) rfl rfl
      simp only [h2, Option.map_none, List.reverse_nil, iff_true]
      exact ⟨y0, fun hh => absurd rfl hh, y1⟩
    | some x =>
      have hne : l2 ≠ [] := by
        rintro rfl
        rw [List.getElem?_eq_some_iff] at hn
        obtain ⟨hx, -⟩ := hn
        simp at hlen; omega
      have yb := C.back_yields _ x _ gl
      rw [hfull] at yb
      refine ⟨?_, fun _ => yb, ⟨fun hy => ?_, fun hh => absurd hh hne⟩⟩
      · have := C.yields _ _ _ last hn (Nat.le_refl _)
        rwa [hs, show l1 ++ n :: l2 = (l1 ++ [n]) ++ l2 by simp,
          show l1.length + 1 = (l1 ++ [n]).length by simp, List.drop_left] at this
      · exfalso
        have := len_eq (hy.unique yb)
        simp [hlen] at this
        omega

/-- C27 for a node without parent: it is its only sibling, and all traversers are right. -/
theorem C27_root (W : WF h ch) (ha : h.alive n = true) (hroot : ∀ p, n ∉ ch p) :
    (∃ s, StableSib.siblings h n = .ok s ∧ StableSib.precedingOrSelf h n = .ok s ∧
      StableSib.followingOrSelf h n = .ok s ∧
      DoubleEnded (StableSib.next h) (StableSib.back h) s [n]) ∧
    (∃ s, StableSib.preceding h n = .ok s ∧ StableSib.following h n = .ok s ∧
      DoubleEnded (StableSib.next h) (StableSib.back h) s []) := by
  have hp := W.toFShape.parent_none ha hroot
  have hpl : h.parentLink n = none := by rw [W.parentLink ha]; exact hp
  have hnl : h.nextLink n = none := W.rootNext n ha hp
  have hpv := W.toShape.root_prevLink ha hp
  have hfs : h.firstSibling n = .ok n ∧ h.lastSibling n = .ok n := by
    simp [Heap.firstSibling, Heap.lastSibling, hpl]
  have run0 : ∀ es, runSched (StableSib.next h) (StableSib.back h) es none =
      .ok (es.map fun _ => (none : Option NodeId)) := by
    intro es
    induction es with
    | nil => rfl
    | cons e es ih => cases e <;> simp [runSched, StableSib.next, StableSib.back, ih, Except.map]
  refine ⟨⟨some (n, n), ?_, ?_, ?_, ?_⟩, ⟨none, ?_, ?_, ?_⟩⟩
  · simp [StableSib.siblings, StableSib.followingOrSelf, hpl, hfs.2, bind, Except.bind, pure, Except.pure]
  · simp [StableSib.precedingOrSelf, hfs.1, bind, Except.bind, pure, Except.pure]
  · simp [StableSib.followingOrSelf, hfs.2, bind, Except.bind, pure, Except.pure]
  · intro es
    match es with
    | [] => rfl
    | .front :: es =>
      simp [runSched, StableSib.next, hnl, run0, dequeSched, dequeSched_nil, Except.map]
    | .back :: es =>
      simp [runSched, StableSib.back, hpv, run0, dequeSched, dequeSched_nil, Except.map, bind, Except.bind,
        pure, Except.pure]
  · simp [StableSib.preceding, StableSib.precedingOrSelf, hfs.1, StableSib.next, hnl, bind, Except.bind, pure,
      Except.pure]
  · simp [StableSib.following, StableSib.followingOrSelf, hfs.2, StableSib.next, hnl, bind, Except.bind, pure,
      Except.pure]
  · intro es
    rw [run0, dequeSched_nil]

/-! ### The hypotheses are met

Node 0 of the demo memory is a root with the children 1, 2 and 3; node 2 has the children 4 and 5. -/

example : WF Demo.heap Demo.ch ∧ Demo.heap.alive 0 = true ∧ (∀ p, 0 ∉ Demo.ch p) ∧
    SubtreeAt Demo.ch 0 Demo.tree ∧ Desc Demo.ch 0 2 ∧ 2 ∈ Demo.ch 0 ∧
    SubtreeAt Demo.ch 2 (.node 2 [.node 4 [], .node 5 []]) ∧ Demo.ch 0 = [1] ++ 2 :: [3] ∧
    Demo.ch 2 ≠ [] ∧ Demo.ch 3 = [] := by
  have hr : ∀ p, 0 ∉ Demo.ch p := by
    intro p hp; have := Demo.wf.parent_of_mem hp; simp [show Demo.heap.parent 0 = none from rfl] at this
  exact ⟨Demo.wf, rfl, hr, Demo.subtree, .step (.refl 0) (by simp [Demo.ch]), by simp [Demo.ch],
    by simp [SubtreeAt, Hier, HierL, label, Demo.ch], rfl, by simp [Demo.ch], by simp [Demo.ch]⟩

/-- The traverser of node 2, asked four times: the rear cursor leaves the subtree, the front one comes
after it. -/
example : runSched (StableDft.next Demo.heap) (StableDft.back Demo.heap) [.back, .back, .front, .front]
    (StableDft.start 2) = .ok [some (.cls 2), some (.cls 5), some (.opn 2), some (.opn 4)] := rfl

/-- `preceding_siblings_stable` of node 2 starts at node 2 instead of node 1. -/
example : twoCursors (Demo.ch 0) [.front, .front] (some (1, 1)) = [some 2, some 3] := rfl

/-- A state of the depth-limited traverser whose hint is wrong, and one whose hint is right. -/
example : Shallow.sizeHint (Shallow.start 2 none) = (2, some 2) ∧
    (RTree.node 2 [.node 4 [], .node 5 []] : RTree NodeId).eventsD none 0 =
      [.opn (2, 0), .opn (4, 1), .cls (4, 1), .opn (5, 1), .cls (5, 1), .cls (2, 0)] ∧
    Shallow.sizeHint (Shallow.start 3 none) = (2, some 2) := by
  refine ⟨by decide, by simp [eventsD, eventsDL], by decide⟩

end Dendron
