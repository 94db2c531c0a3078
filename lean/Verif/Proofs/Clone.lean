import Verif.Proofs.BuildClose
import Verif.Proofs.Rehome

/-! Serializing a subtree into a builder while the memory grows. -/

set_option linter.unusedSimpArgs false
set_option linter.unusedVariables false

set_option autoImplicit false

namespace Dendron
open RTree
variable {α β : Type} {h : Heap α} {w w' w0 : World α} {ch ch' ch0 : NodeId → List NodeId}
  {r c x n : NodeId} {T : TreeId}
  {E : List (Option α)} {N : List NodeId} {b : Builder}

/-- The traverser state when `l` is still to come. -/
def Dft.rest (n : NodeId) (l : List (DftEvent NodeId)) : Dft.State := l.head?.map (fun e => (e, n))

theorem Dft.start_rest {t : RTree NodeId} (ht : t.label = n) : Dft.start n = Dft.rest n t.events := by
  cases t with
  | node v cs => subst ht; simp [Dft.start, Dft.rest, events, label]

theorem Dft.yields_tail {e : DftEvent NodeId} {l : List (DftEvent NodeId)}
    (hy : Yields (Dft.next h) (Dft.rest n (e :: l)) (e :: l)) :
    Dft.next h (Dft.rest n (e :: l)) = .ok (some e, Dft.rest n l) ∧
      Yields (Dft.next h) (Dft.rest n l) l := by
  cases hy with
  | more e1 hy =>
    rename_i s'
    have hs : s' = Dft.rest n l := by
      have h1 : s'.map Prod.fst = l.head? := by
        cases hy with
        | done e2 _ => exact Dft.peek_done e2
        | more e2 _ => exact Dft.peek_of e2
      have h2 : s' = s'.map (fun p => (p.1, n)) := by
        simp only [Dft.rest, List.head?_cons, Option.map_some, Dft.next, Except.ok.injEq,
          Prod.mk.injEq, true_and] at e1
        split at e1
        · subst e1; rfl
        · rw [← e1]; cases h.evNext e <;> rfl
      rw [h2, Dft.rest, ← h1]
      cases s' <;> rfl
    subst hs
    exact ⟨e1, hy⟩

theorem Dft.yields_drop : ∀ (pre : List (DftEvent NodeId)) {l : List (DftEvent NodeId)},
    Yields (Dft.next h) (Dft.rest n (pre ++ l)) (pre ++ l) → Yields (Dft.next h) (Dft.rest n l) l
  | [], _, hy => hy
  | _ :: pre, _, hy => yields_drop pre (yields_tail hy).2

theorem countCloses_rest : ∀ {l : List (DftEvent NodeId)} {f c : Nat},
    Yields (Dft.next h) (Dft.rest n l) l → l.length < f → c + l.length ≤ usizeMax →
    ∃ c' mid rest, l = mid ++ rest ∧ h.countCloses f c (Dft.rest n l) = .ok (c', Dft.rest n rest) ∧
      mid.map DftEvent.toStep = List.replicate (c' - c) none ∧ c ≤ c'
  | _, 0, c, _, hf, _ => by omega
  | [], f + 1, c, hy, hf, hc =>
    ⟨c, [], [], rfl, by simp [Heap.countCloses, Dft.rest, Dft.peek], by simp, Nat.le_refl _⟩
  | .opn v :: l, f + 1, c, hy, hf, hc =>
    ⟨c, [], .opn v :: l, rfl, by simp [Heap.countCloses, Dft.rest, Dft.peek], by simp, Nat.le_refl _⟩
  | .cls v :: l, f + 1, c, hy, hf, hc => by
    simp only [List.length_cons] at hf hc
    obtain ⟨e, hy'⟩ := Dft.yields_tail hy
    obtain ⟨c', mid, rest, h1, h2, h3, h4⟩ := countCloses_rest (f := f) (c := c + 1) hy' (by omega) (by omega)
    refine ⟨c', .cls v :: mid, rest, by simp [h1], ?_, ?_, by omega⟩
    · have hp : Dft.peek (Dft.rest n (.cls v :: l)) = some (.cls v) := rfl
      have : c ≠ usizeMax := by omega
      simp only [Heap.countCloses, hp, this, if_false, e, h2]
    · have : c' - c = (c' - (c + 1)) + 1 := by omega
      rw [this, List.replicate_succ, List.map_cons, h3]; rfl

/-- One call of the serializer. -/
theorem serNext_rest {l : List (DftEvent NodeId)} {e : DftEvent NodeId}
    (hy : Yields (Dft.next h) (Dft.rest n (e :: l)) (e :: l)) (hn : (e :: l).length ≤ 2 * h.nNode)
    (hu : (e :: l).length ≤ usizeMax) :
    (∃ v, e = .opn v ∧
      h.serNext (Dft.rest n (e :: l)) = .ok (some ((h.borrowData v).map .opn), Dft.rest n l)) ∨
    (∃ c mid rest, l = mid ++ rest ∧
      h.serNext (Dft.rest n (e :: l)) = .ok (some (.ok (.close c)), Dft.rest n rest) ∧
      (e :: mid).map DftEvent.toStep = List.replicate c none) := by
  obtain ⟨e1, hy'⟩ := Dft.yields_tail hy
  cases e with
  | opn v => exact .inl ⟨v, rfl, by simp [Heap.serNext, e1]⟩
  | cls v =>
    simp only [List.length_cons] at hn hu
    obtain ⟨c', mid, rest, h1, h2, h3, h4⟩ :=
      countCloses_rest (f := 2 * h.nNode + 2) (c := 1) hy' (by omega) (by omega)
    refine .inr ⟨c', mid, rest, h1, by simp [Heap.serNext, e1, h2], ?_⟩
    have : c' = (c' - 1) + 1 := by omega
    rw [this, List.replicate_succ, List.map_cons, h3]; rfl

theorem matches_prefix {f : NodeId → Option α} {t : RTree NodeId} {u : RTree α}
    (X : List (Option NodeId)) {A : List (Option NodeId)} (hd : t.map f = u.map Option.some)
    (hE : Matches f A E) (hA : A ++ X = t.steps) : ∃ Y, E ++ Y = u.steps := by
  have hm := (Matches.tree (f := f)).2 hd
  rw [Matches, ← hA, List.map_append, hE] at hm
  refine ⟨u.steps.drop E.length, ?_⟩
  have inj : ∀ {a b c : List (Option α)} {z : List (Option (Option α))},
      a.map (Option.map some) ++ z = b.map (Option.map some) → a ++ b.drop a.length = b := by
    intro a
    induction a with
    | nil => intro b c z _; simp
    | cons p a ih =>
      intro b c z e
      cases b with
      | nil => simp at e
      | cons q b =>
        simp only [List.map_cons, List.cons_append, List.cons.injEq] at e
        have hpq : p = q := by
          have := e.1
          cases p <;> cases q <;> simp_all
        subst hpq
        simp only [List.length_cons, List.drop_succ_cons, List.cons_append, List.cons.injEq, true_and]
        exact ih (c := c) e.2
  exact inj (c := []) hm

mutual
theorem map_congr_nodes {β γ : Type} {f g : β → γ} : ∀ t : RTree β, (∀ x ∈ t.nodes, f x = g x) →
    t.map f = t.map g
  | .node v cs, h => by
    rw [map, map, h v (by simp [nodes]), mapL_congr_nodes cs (fun x hx => h x (by simp [nodes, hx]))]
theorem mapL_congr_nodes {β γ : Type} {f g : β → γ} : ∀ cs : List (RTree β),
    (∀ x ∈ nodesL cs, f x = g x) → mapL f cs = mapL g cs
  | [], _ => by simp [mapL]
  | c :: cs, h => by
    rw [mapL, mapL, map_congr_nodes c (fun x hx => h x (by simp [nodesL, hx])),
      mapL_congr_nodes cs (fun x hx => h x (by simp [nodesL, hx]))]
end

/-- The source of a copy is not touched by the copying. -/
structure Source (w0 : World α) (ch0 : NodeId → List NodeId) (r n : NodeId) (t : RTree NodeId)
    (u : RTree α) : Prop where
  sub : SubtreeAt ch0 n t
  alive : ∀ x ∈ t.nodes, w0.heap.alive x = true
  out : r ∉ t.nodes
  data : t.map w0.heap.data = u.map some
  size : 2 * t.size ≤ usizeMax

/-- The loop of the cloning methods. -/
theorem BState.fold {t : RTree NodeId} {u : RTree α} (Z : Source w0 ch0 r n t u) :
    ∀ (f : Nat) {l pre : List (DftEvent NodeId)} {w : World α} {ch : NodeId → List NodeId} {b : Builder}
      {E : List (Option α)} {k : Nat}, BState w0 ch0 w ch r T N E b k → t.events = pre ++ l →
      Matches w0.heap.data (pre.map DftEvent.toStep) E → l.length < f →
      ∃ w' ch' b' E' j, BState w0 ch0 w' ch' r T N E' b' j ∧ (∀ p, r ∈ ch' p ↔ r ∈ ch p) ∧
        (((∀ x, DftEvent.opn x ∈ l → w0.heap.mutB x = false) ∧
            Builder.fold f w (Dft.rest n l) b = .ok (w', b', .ok ()) ∧ E' = u.steps) ∨
          ((∃ x, DftEvent.opn x ∈ l ∧ w0.heap.mutB x = true) ∧
            Builder.fold f w (Dft.rest n l) b = .ok (w', b', .error .borrowData)))
  | 0, l, pre, w, ch, b, E, k, S, he, hE, hf => by omega
  | f + 1, [], pre, w, ch, b, E, k, S, he, hE, hf => by
    refine ⟨w, ch, b, E, k, S, fun _ => Iff.rfl, .inl ⟨by simp, ?_, ?_⟩⟩
    · have : w.heap.serNext (Dft.rest n []) = .ok (none, none) := rfl
      simp only [Builder.fold, this]
    · rw [List.append_nil] at he
      have hm := (Matches.tree (f := w0.heap.data)).2 Z.data
      rw [RTree.steps, he] at hm
      rw [Matches] at hm hE
      rw [hE] at hm
      have inj : ∀ {a b : List (Option α)}, a.map (Option.map some) = b.map (Option.map some) → a = b := by
        intro a
        induction a with
        | nil => intro b e; cases b <;> simp_all
        | cons a l ih =>
          intro b e
          cases b with
          | nil => simp at e
          | cons b m =>
            simp only [List.map_cons, List.cons.injEq] at e
            rw [ih e.2]
            have := e.1
            cases a <;> cases b <;> simp_all
      exact inj hm
  | f + 1, e :: l, pre, w, ch, b, E, k, S, he, hE, hf => by
    have R := S.run
    have hsub : SubtreeAt ch n t := by
      refine ⟨Z.sub.1, Z.sub.2.congr ?_⟩
      intro x hx
      refine R.keep x (Z.alive x hx) ?_
      rintro rfl; exact Z.out hx
    have hna : w.heap.alive n = true := by
      refine R.grow.alive n (Z.alive n ?_)
      rw [← Z.sub.1]; exact label_mem_nodes t
    have hy : Yields (Dft.next w.heap) (Dft.rest n (e :: l)) (e :: l) := by
      have := R.inv.wf.toShape.dft_yields hna hsub
      rw [Dft.start_rest hsub.1, he] at this
      exact Dft.yields_drop pre this
    have hlen : (e :: l).length ≤ t.events.length := by rw [he]; simp
    have h1 := hsub.size_le R.inv.wf.toFShape hna
    have h2 := events_length t
    have h3 := Z.size
    unfold RTree.size at h3
    rcases serNext_rest hy (by omega) (by omega) with ⟨v, rfl, e1⟩ | ⟨c, mid, rest, rfl, e1, hmid⟩
    · have hv : v ∈ t.nodes := (mem_events_opn t).1 (by rw [he]; simp)
      have hva := Z.alive v hv
      obtain ⟨d, hd⟩ := Option.isSome_iff_exists.1 hva
      have hbd : w.heap.borrowData v = if w0.heap.mutB v then .error .mk else .ok d := by
        simp only [Heap.borrowData, R.grow.mutB v hva, R.grow.data v hva, hd]
      cases hb : w0.heap.mutB v with
      | true =>
        refine ⟨w, ch, b, E, k, S, fun _ => Iff.rfl, .inr ⟨⟨v, by simp, hb⟩, ?_⟩⟩
        simp only [Builder.fold, e1, hbd, hb, if_true, Except.map]
      | false =>
        have hE' : Matches w0.heap.data ((pre ++ [DftEvent.opn v]).map DftEvent.toStep) (E ++ [some d]) := by
          rw [List.map_append]; exact hE.append (.some hd)
        have hgood : ∃ j t, Describes (E ++ Event.expand [Event.opn d]) j t := by
          obtain ⟨Y, hY⟩ := matches_prefix (l.map DftEvent.toStep) Z.data hE'
            (by rw [RTree.steps, he]; simp)
          rcases steps_prefix u _ _ hY with h | h
          · simp at h
          · simpa [Event.expand] using h
        obtain ⟨w1, ch1, b1, j, e2, S1, hp1, -⟩ := S.push_ok (.opn d) hgood
        have hx : Event.expand [Event.opn d] = [some d] := by simp [Event.expand]
        rw [hx] at S1
        obtain ⟨w2, ch2, b2, E2, j2, S2, hp2, h4⟩ := BState.fold Z f (l := l) (pre := pre ++ [.opn v])
          S1 (by rw [he]; simp) hE' (by simp at hf; omega)
        have hfold : Builder.fold (f + 1) w (Dft.rest n (.opn v :: l)) b =
            Builder.fold f w1 (Dft.rest n l) b1 := by
          simp only [Builder.fold, e1, hbd, hb, Except.map, Bool.false_eq_true, if_false, e2, bind,
            Except.bind]
        refine ⟨w2, ch2, b2, E2, j2, S2, fun p => (hp2 p).trans (hp1 p), ?_⟩
        rw [hfold]
        rcases h4 with ⟨g1, g2, g3⟩ | ⟨⟨x, g1, g2⟩, g3⟩
        · refine .inl ⟨?_, g2, g3⟩
          intro x hx
          simp only [List.mem_cons, DftEvent.opn.injEq] at hx
          rcases hx with rfl | hx
          · exact hb
          · exact g1 x hx
        · exact .inr ⟨⟨x, by simp [g1], g2⟩, g3⟩
    · have hx : Event.expand [Event.close c] = List.replicate c (none : Option α) := by
        simp [Event.expand]
      have hE' : Matches w0.heap.data ((pre ++ (e :: mid)).map DftEvent.toStep)
          (E ++ List.replicate c none) := by
        rw [List.map_append, hmid]; exact hE.append (.none _)
      have hgood : ∃ j t, Describes (E ++ Event.expand [Event.close c]) j t := by
        obtain ⟨Y, hY⟩ := matches_prefix (rest.map DftEvent.toStep) Z.data hE'
          (by rw [RTree.steps, he]; simp)
        rw [hx]
        rcases steps_prefix u _ _ hY with h | h
        · obtain ⟨u0, s0, hd0, -⟩ := S.facts
          rw [h]
          rw [(List.append_eq_nil_iff.1 h).1] at hd0
          exact ⟨_, _, hd0⟩
        · exact h
      obtain ⟨w1, ch1, b1, j, e2, S1, hp1, -⟩ := S.push_ok (.close c) hgood
      rw [hx] at S1
      obtain ⟨w2, ch2, b2, E2, j2, S2, hp2, h4⟩ := BState.fold Z f (l := rest)
        (pre := pre ++ (e :: mid)) S1 (by rw [he]; simp) hE' (by simp at hf; omega)
      have hfold : Builder.fold (f + 1) w (Dft.rest n (e :: (mid ++ rest))) b =
          Builder.fold f w1 (Dft.rest n rest) b1 := by
        simp only [Builder.fold, e1, e2, bind, Except.bind]
      have hmo : ∀ x, DftEvent.opn x ∉ e :: mid := by
        intro x hm
        have := List.mem_map_of_mem (f := DftEvent.toStep) hm
        rw [hmid] at this
        have := List.eq_of_mem_replicate this
        simp [DftEvent.toStep] at this
      have hmem : ∀ x, DftEvent.opn x ∈ e :: (mid ++ rest) ↔ DftEvent.opn x ∈ rest := by
        intro x
        have h5 : DftEvent.opn x ∈ e :: (mid ++ rest) ↔ DftEvent.opn x ∈ (e :: mid) ∨ .opn x ∈ rest := by
          simp [or_assoc]
        rw [h5]; simp [hmo x]
      refine ⟨w2, ch2, b2, E2, j2, S2, fun p => (hp2 p).trans (hp1 p), ?_⟩
      rw [hfold]
      simp only [hmem]
      exact h4

end Dendron
