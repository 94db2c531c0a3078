import Verif.Proofs.Build

/-! Sequences of builder calls. -/

set_option linter.unusedSimpArgs false
set_option linter.unusedVariables false

set_option autoImplicit false

namespace Dendron
open RTree
variable {α β : Type} {h h' : Heap α} {w w' w0 : World α} {ch ch' ch0 : NodeId → List NodeId}
  {r x y : NodeId} {T : TreeId} {ks ks' : List (RTree NodeId)} {fs : List (Frame NodeId)}
  {E : List (Option α)} {N : List NodeId} {b : Builder} {k : Nat}

mutual
theorem steps_prefix : ∀ (t : RTree β) (A B : List (Option β)), A ++ B = t.steps →
    A = [] ∨ ∃ k u, Describes A k u
  | .node v cs, A, B, e => by
    cases A with
    | nil => exact .inl rfl
    | cons a A =>
      right
      rw [steps_node] at e
      simp only [List.cons_append, List.cons.injEq] at e
      obtain ⟨rfl, e⟩ := e
      rcases List.append_eq_append_iff.1 e with ⟨C, e1, e2⟩ | ⟨C, e1, e2⟩
      · obtain ⟨k, cs', h1⟩ := stepsL_prefix cs A C e1.symm
        refine ⟨k + 1, .node v cs', ?_⟩
        rw [Describes, steps_node, ← h1, List.replicate_succ']
        simp
      · cases C with
        | nil =>
          obtain ⟨k, cs', h1⟩ := stepsL_prefix cs A [] (by simpa using e1)
          refine ⟨k + 1, .node v cs', ?_⟩
          rw [Describes, steps_node, ← h1, List.replicate_succ']
          simp
        | cons c C =>
          simp only [List.cons_append, List.cons.injEq] at e2
          obtain ⟨rfl, e2⟩ := e2
          have := List.append_eq_nil_iff.1 e2.symm
          refine ⟨0, .node v cs, ?_⟩
          rw [Describes, steps_node, e1, this.1]; simp
theorem stepsL_prefix : ∀ (cs : List (RTree β)) (A B : List (Option β)), A ++ B = stepsL cs →
    ∃ k cs', A ++ List.replicate k none = stepsL cs'
  | [], A, B, e => by
    rw [stepsL_nil] at e
    have := (List.append_eq_nil_iff.1 e).1
    exact ⟨0, [], by simp [this, stepsL_nil]⟩
  | c :: cs, A, B, e => by
    rw [stepsL_cons] at e
    rcases List.append_eq_append_iff.1 e with ⟨C, e1, e2⟩ | ⟨C, e1, e2⟩
    · rcases steps_prefix c A C e1.symm with rfl | ⟨k, u, h1⟩
      · exact ⟨0, [], rfl⟩
      · exact ⟨k, [u], by rw [stepsL_cons, stepsL_nil, List.append_nil]; exact h1⟩
    · obtain ⟨k, cs', h1⟩ := stepsL_prefix cs C B e2.symm
      exact ⟨k, c :: cs', by rw [e1, stepsL_cons, ← h1]; simp⟩
end

theorem Describes.of_append {A B : List (Option β)} {t : RTree β} (h1 : Describes (A ++ B) k t) :
    A = [] ∨ ∃ k u, Describes A k u := by
  rw [Describes, List.append_assoc] at h1
  exact steps_prefix t A _ h1

/-- The builder `b` has made the steps `E`; `k` nodes are open. -/
inductive BState (w0 : World α) (ch0 : NodeId → List NodeId) (w : World α)
    (ch : NodeId → List NodeId) (r : NodeId) (T : TreeId) (N : List NodeId) (E : List (Option α)) :
    Builder → Nat → Prop
  | opened {x : NodeId} {ks : List (RTree NodeId)} {fs : List (Frame NodeId)} : Opened w0 ch0 w ch r T N E x ks fs →
      BState w0 ch0 w ch r T N E ⟨some r, some x⟩ (fs.length + 1)
  | complete {s : RTree NodeId} {cur : Option NodeId} : Complete w0 ch0 w ch r T N E s cur →
      BState w0 ch0 w ch r T N E ⟨some r, cur⟩ 0

namespace BState

/-- What has been built. -/
theorem facts (S : BState w0 ch0 w ch r T N E b k) :
    ∃ u s, Describes E k u ∧ SubtreeAt ch r s ∧ HasData w.heap s u ∧
      (∀ y ∈ s.nodes, w.heap.alive y = true) ∧
      (∀ y ∈ s.nodes, y ∈ N ∨ (w0.heap.alive y = false ∧ w.heap.mutB y = false)) := by
  cases S with
  | opened O =>
    obtain ⟨u, h1, h2⟩ := O.describes
    exact ⟨u, _, h1, O.subtree, h2, fun y hy => O.alive y (by rw [zipUp_nodes] at hy; exact hy),
      fun y hy => O.new y (by rw [zipUp_nodes] at hy; exact hy)⟩
  | complete C =>
    obtain ⟨u, h1, h2⟩ := C.describes
    exact ⟨u, _, h1, C.sub, h2, C.alive, C.new⟩

theorem run (S : BState w0 ch0 w ch r T N E b k) :
    Run w0 ch0 w ch r T [r] b.cur.toList := by
  cases S with
  | opened O => exact O.run
  | complete C => exact C.run

theorem root (S : BState w0 ch0 w ch r T N E b k) : b.root = some r := by
  cases S <;> rfl

theorem closed (S : BState w0 ch0 w ch r T N E b k) (hr : ∀ p, r ∉ ch p) :
    b.cur = none ↔ k = 0 := by
  cases S with
  | opened O => simp
  | complete C =>
    rename_i s cur
    have := C.cur
    cases cur with
    | none => simp
    | some p => exact absurd this (hr p)

/-- `push_event` with an event that fits. -/
theorem push_ok (S : BState w0 ch0 w ch r T N E b k) (e : Event α)
    (hg : ∃ j t, Describes (E ++ Event.expand [e]) j t) :
    ∃ w' ch' b' j, Builder.push w b e = .ok (w', b', .ok ()) ∧
      BState w0 ch0 w' ch' r T N (E ++ Event.expand [e]) b' j ∧
      (∀ p, r ∈ ch' p ↔ r ∈ ch p) ∧ Grow w.heap w'.heap := by
  obtain ⟨j, t, hg⟩ := hg
  obtain ⟨u, s, hd, hsub, hdat, hal, hnew⟩ := S.facts
  cases S with
  | opened O =>
    rename_i x ks fs
    cases e with
    | opn d =>
      obtain ⟨w', ch', e1, O', -, h0, G⟩ := O.opn d
      refine ⟨w', ch', _, ((x, ks) :: fs).length + 1, e1, ?_, ?_, G⟩
      · simp only [Event.expand]; exact .opened O'
      · intro p
        have I := O.run.inv
        have I' := O'.run.inv
        have ha := I.held_alive (O.run.held_of_ps (c := r) (by simp))
        have ha' := I'.held_alive (O'.run.held_of_ps (c := r) (by simp))
        have hfresh := I.wf.toFShape.fresh_not_alive
        have hrn : r ≠ w.heap.nNode := by rintro rfl; rw [hfresh] at ha; cases ha
        -- the parent of `r` is not changed by the call
        obtain ⟨w1, ec, F, R1⟩ := O.run.create (d := d) (c := x) (by simp) (by simp)
          (O.fresh (x, ks) (by simp))
        obtain ⟨w2, ed, S2, R2⟩ := R1.dropHot (c := x) (by simp) (by simp) (.inl (by simp))
        have e2 : Builder.opn w ⟨some r, some x⟩ d = .ok (w2, ⟨some r, some w.heap.nNode⟩, .ok ()) := by
          simp only [Builder.opn, bind, Except.bind, ec, ed, pure, Except.pure]
        rw [e2] at e1
        obtain rfl : w2 = w' := by simpa using e1
        have hu := I'.wf.toFShape.mem p r
        rw [hu, ← R2.inv.wf.toFShape.mem p r]
        by_cases hp : p = x
        · subst hp; simp [hrn]
        · rw [upd_ne _ _ hp]
    | close n =>
      cases n with
      | zero =>
        refine ⟨w, ch, _, fs.length + 1, rfl, ?_, fun _ => Iff.rfl, Grow.refl _⟩
        simp only [Event.expand, List.replicate_zero, List.nil_append, List.append_nil]
        exact .opened O
      | succ n =>
        simp only [Event.expand, List.append_nil] at hg ⊢
        rcases O.close n with ⟨h1, w', x', ks', fs', e1, S1, O1, hl⟩ | ⟨h1, w', s', cur, e1, S1, C1⟩ |
            ⟨h1, -⟩
        · exact ⟨w', ch, _, _, e1, .opened O1, fun _ => Iff.rfl, S1.grow⟩
        · exact ⟨w', ch, _, _, e1, .complete C1, fun _ => Iff.rfl, S1.grow⟩
        · have := (hd.depth hg).1; omega
  | complete C =>
    have := hd.complete hg
    cases e with
    | opn d => simp [Event.expand] at this
    | close n =>
      cases n with
      | zero =>
        refine ⟨w, ch, _, 0, rfl, ?_, fun _ => Iff.rfl, Grow.refl _⟩
        simp only [Event.expand, List.replicate_zero, List.nil_append, List.append_nil]
        exact .complete C
      | succ n => simp [Event.expand, List.replicate_succ] at this

/-- `push_event` with an event that does not fit, when the builder's root is a root. -/
theorem push_err (S : BState w0 ch0 w ch r T N E b k) (hr : ∀ p, r ∉ ch p) (e : Event α)
    (hg : ¬ ∃ j t, Describes (E ++ Event.expand [e]) j t) :
    ∃ w' b' E' j, Builder.push w b e = .ok (w', b', .error .rootClosed) ∧
      BState w0 ch0 w' ch r T N E' b' j ∧ Still w.heap w'.heap ∧
      ((w' = w ∧ b' = b ∧ E' = E) ∨
        (0 < k ∧ (∃ n, e = .close n) ∧ E' = E ++ List.replicate (k - 1) none ∧
          b' = ⟨some r, some r⟩)) := by
  obtain ⟨u, s, hd, hsub, hdat, hal, hnew⟩ := S.facts
  have hcl := S.closed hr
  cases S with
  | opened O =>
    rename_i x ks fs
    cases e with
    | opn d =>
      obtain ⟨w', ch', e1, O', -⟩ := O.opn d
      obtain ⟨u, h1, -⟩ := O'.describes
      exact absurd ⟨_, u, h1⟩ hg
    | close n =>
      cases n with
      | zero =>
        simp only [Event.expand, List.replicate_zero, List.nil_append, List.append_nil] at hg
        exact absurd ⟨_, u, hd⟩ hg
      | succ n =>
        simp only [Event.expand, List.append_nil] at hg ⊢
        rcases O.close n with ⟨h1, w', x', ks', fs', e1, S1, O1, hl⟩ | ⟨h1, w', s', cur, e1, S1, C1⟩ |
            ⟨h1, w', ks', e1, S1, O1⟩
        · obtain ⟨u, h1, -⟩ := O1.describes
          exact absurd ⟨_, u, h1⟩ hg
        · obtain ⟨u, h1, -⟩ := C1.describes
          exact absurd ⟨_, u, h1⟩ hg
        · exact ⟨w', _, _, _, e1, .opened O1, S1, .inr ⟨by omega, ⟨_, rfl⟩, by simp, rfl⟩⟩
  | complete C =>
    rename_i cur
    obtain rfl : cur = none := hcl.2 rfl
    cases e with
    | opn d => exact ⟨w, _, E, _, rfl, .complete C, Still.refl _, .inl ⟨rfl, rfl, rfl⟩⟩
    | close n =>
      cases n with
      | zero =>
        simp only [Event.expand, List.replicate_zero, List.nil_append, List.append_nil] at hg
        exact absurd ⟨_, u, hd⟩ hg
      | succ n =>
        refine ⟨w, _, E, _, ?_, .complete C, Still.refl _, .inl ⟨rfl, rfl, rfl⟩⟩
        simp [Builder.push, Builder.close]

/-- `push_events`. -/
theorem pushAll : ∀ (l : List (Event α)) {w : World α} {ch : NodeId → List NodeId} {b : Builder}
    {E : List (Option α)} {k : Nat}, BState w0 ch0 w ch r T N E b k → (∀ p, r ∉ ch p) →
    ∃ w' ch' b' E' j, (∀ p, r ∉ ch' p) ∧ BState w0 ch0 w' ch' r T N E' b' j ∧
      (((∃ i t, Describes (E ++ Event.expand l) i t) ∧ E' = E ++ Event.expand l ∧
        Builder.pushAll w b l = .ok (w', b', .ok ())) ∨
       ((¬ ∃ i t, Describes (E ++ Event.expand l) i t) ∧
        Builder.pushAll w b l = .ok (w', b', .error .rootClosed)))
  | [], w, ch, b, E, k, S, hr => by
    obtain ⟨u, s, hd, -⟩ := S.facts
    refine ⟨w, ch, b, E, k, hr, S, .inl ⟨⟨k, u, by simpa [Event.expand] using hd⟩, ?_, rfl⟩⟩
    simp [Event.expand]
  | e :: l, w, ch, b, E, k, S, hr => by
    have hexp : E ++ Event.expand (e :: l) = E ++ Event.expand [e] ++ Event.expand l := by
      rw [List.append_assoc, ← expand_append]; rfl
    by_cases hg : ∃ j t, Describes (E ++ Event.expand [e]) j t
    · obtain ⟨w1, ch1, b1, j1, e1, S1, h1, -⟩ := S.push_ok e hg
      obtain ⟨w', ch', b', E', j, h2, S2, h3⟩ := pushAll l S1 (fun p hp => hr p ((h1 p).1 hp))
      refine ⟨w', ch', b', E', j, h2, S2, ?_⟩
      rw [hexp]
      simp only [Builder.pushAll, e1, bind, Except.bind]
      exact h3
    · obtain ⟨w1, b1, E1, j1, e1, S1, -, -⟩ := S.push_err hr e hg
      refine ⟨w1, ch, b1, E1, j1, hr, S1, .inr ⟨?_, ?_⟩⟩
      · rintro ⟨i, t, h2⟩
        rw [hexp] at h2
        rcases h2.of_append with h3 | h3
        · obtain ⟨u, s, hd, -⟩ := S.facts
          have : E = [] := (List.append_eq_nil_iff.1 h3).1
          subst this
          exfalso
          have h4 : ¬ ∃ k u, Describes (β := α) [] k u := by
            rintro ⟨k, u, h⟩
            rw [Describes] at h
            cases u with
            | node v cs => rw [steps_node] at h; cases k <;> simp [List.replicate_succ] at h
          exact h4 ⟨_, _, hd⟩
        · exact hg h3
      · simp only [Builder.pushAll, e1, bind, Except.bind, pure, Except.pure]

/-- `finish`. -/
theorem finish (S : BState w0 ch0 w ch r T N E b k) :
    ∃ w', Builder.finish w b = .ok (w', .ok r) ∧ Still w.heap w'.heap ∧
      Run w0 ch0 w' ch r T [r] [] := by
  have R := S.run
  have hroot := S.root
  cases hc : b.cur with
  | none =>
    rw [hc] at R
    refine ⟨w, ?_, Still.refl _, R⟩
    simp only [Builder.finish, Builder.dropOpt, hc, hroot, bind, Except.bind, pure, Except.pure]
  | some c =>
    rw [hc] at R
    obtain ⟨w', e, S, R'⟩ := R.dropHot (c := c) (by simp) (by simp) (.inl (by simp))
    refine ⟨w', ?_, S, ?_⟩
    · simp only [Builder.finish, Builder.dropOpt, hc, hroot, bind, Except.bind, e, pure, Except.pure]
    · simpa using R'

end BState

/-- The first `open` of a new builder. -/
theorem Builder.opn_new {d : α} (I : Inv w ch) (hr : Reach w) (hroom : Room w.heap) :
    ∃ w' , Builder.opn w .new d = .ok (w', ⟨some w.heap.nNode, some w.heap.nNode⟩, .ok ()) ∧
      BState w ch w' ch w.heap.nNode w.heap.nTree [] [some d]
        ⟨some w.heap.nNode, some w.heap.nNode⟩ 1 ∧ (∀ p, w.heap.nNode ∉ ch p) := by
  obtain ⟨w1, e1, F, R1⟩ := Run.start (d := d) I hr hroom
  obtain ⟨w2, e2, S2, R2⟩ := R1.plainOf (c := w.heap.nNode) (by simp) (by simp)
  have hfresh := I.wf.toFShape.fresh_not_alive
  have hnm : ∀ p, w.heap.nNode ∉ ch p := fun p hp => by
    rw [I.wf.alive_of_mem hp] at hfresh; cases hfresh
  refine ⟨w2, ?_, .opened (ks := []) (fs := []) ⟨R2, ?_, rfl, ?_, ?_, ?_, ?_, ?_⟩, hnm⟩
  · simp only [Builder.opn, Builder.new, bind, Except.bind, e1, e2, pure, Except.pure]
  · exact ⟨by simp [I.wf.dead _ hfresh], trivial, trivial⟩
  · simp [nodesF, nodesL]
  · intro y hy
    simp only [nodesF, nodesL, List.nil_append, List.mem_singleton] at hy
    subst hy; rw [S2.alive]; exact F.alive_new
  · intro p hp; simp only [List.mem_singleton] at hp; subst hp; exact .inl rfl
  · rw [enc, stepsL_nil, enc, S2.data]; exact .some F.data
  · intro y hy
    simp only [nodesF, nodesL, List.nil_append, List.mem_singleton] at hy
    subst hy
    exact .inr ⟨hfresh, by rw [S2.mutB]; exact F.mutB⟩

/-- A sequence of calls on a new builder. -/
theorem Builder.pushAll_new : ∀ (l : List (Event α)) {w : World α} {ch : NodeId → List NodeId},
    Inv w ch → Reach w → Room w.heap →
    (Event.expand l = [] ∧ Builder.pushAll w .new l = .ok (w, .new, .ok ())) ∨
    (∃ w' ch' b' E' j, (∀ p, w.heap.nNode ∉ ch' p) ∧
        BState w ch w' ch' w.heap.nNode w.heap.nTree [] E' b' j ∧
        ((∃ i t, Describes (Event.expand l) i t) ∧ E' = Event.expand l ∧
          Builder.pushAll w .new l = .ok (w', b', .ok ()) ∨
         (¬ Event.Good l) ∧ Builder.pushAll w .new l = .ok (w', b', .error .rootClosed))) ∨
    ((¬ Event.Good l) ∧ Builder.pushAll w .new l = .ok (w, .new, .error .rootNotOpened))
  | [], w, ch, I, hr, hroom => .inl ⟨rfl, rfl⟩
  | .close 0 :: l, w, ch, I, hr, hroom => by
    have h1 := Builder.pushAll_new l I hr hroom
    have h2 : Builder.pushAll w .new (.close 0 :: l) = Builder.pushAll w .new l := by
      simp [Builder.pushAll, Builder.push, Builder.close, bind, Except.bind]
    have h3 : Event.expand (.close 0 :: l) = Event.expand l := by simp [Event.expand]
    have h4 : Event.Good (.close 0 :: l) ↔ Event.Good l := by simp only [Event.Good, h3]
    rw [h2, h3, h4]
    exact h1
  | .close (n + 1) :: l, w, ch, I, hr, hroom => by
    refine .inr (.inr ⟨?_, ?_⟩)
    · rintro (h | ⟨k, t, h⟩)
      · simp [Event.expand, List.replicate_succ] at h
      · simp only [Event.expand, List.replicate_succ, List.cons_append] at h
        exact not_describes_nil h
    · simp [Builder.pushAll, Builder.push, Builder.close, bind, Except.bind, Builder.new, pure,
        Except.pure]
  | .opn d :: l, w, ch, I, hr, hroom => by
    obtain ⟨w1, e1, S1, hnm⟩ := Builder.opn_new (d := d) I hr hroom
    obtain ⟨w', ch', b', E', j, h1, S', h2⟩ := S1.pushAll l hnm
    have he : Event.expand (.opn d :: l) = [some d] ++ Event.expand l := rfl
    refine .inr (.inl ⟨w', ch', b', E', j, h1, S', ?_⟩)
    have hp : Builder.pushAll w .new (.opn d :: l)
        = Builder.pushAll w1 ⟨some w.heap.nNode, some w.heap.nNode⟩ l := by
      simp only [Builder.pushAll, Builder.push, e1, bind, Except.bind]
    rw [he, hp]
    rcases h2 with h2 | ⟨h2, h3⟩
    · exact .inl h2
    · refine .inr ⟨?_, h3⟩
      rintro (h4 | h4)
      · simp [Event.expand] at h4
      · exact h2 h4

end Dendron
