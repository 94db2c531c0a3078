import Verif.Spec.Loops
import Verif.Proofs.WTraverseEval

/-! Loops over an iterator that change the tree. -/

set_option linter.unusedSimpArgs false
set_option linter.unusedVariables false

set_option autoImplicit false

namespace Dendron
variable {α σ ι : Type} {w w1 : World α} {ch : NodeId → List NodeId} {n p : NodeId} {h : Heap α}

theorem walk_follows {owns : σ → List NodeId} {next : σ → Prog α (Option ι × σ)} {node : ι → NodeId}
    {P : (NodeId → List NodeId) → ι → Option ι → Prop} {nx : Heap α → σ → Except Fault (Option ι × σ)}
    {peek : σ → Option ι} {Good : σ → Prop}
    (hn : ∀ s, Prog.Uses (fun r => handles .plain (r.1.toList.map node ++ owns r.2)) (next s) (handles .plain (owns s)))
    (he : ∀ (h : Heap α) s, (next s).eval h = nx h s)
    (hp : ∀ s x, peek s = some x → node x ∈ owns s)
    (hx : ∀ (w : World α) ch s, Inv w ch → w.Has (handles .plain (owns s)) → Good s →
      ∃ s', nx w.heap s = .ok (peek s, s') ∧ Good s' ∧ (peek s = none → peek s' = none) ∧
        ∀ e, peek s = some e → P ch e (peek s'))
    {s : σ} (hr : Reach w) (R : w.Roomy) (hh : w.Has (handles .plain (owns s))) (hg : Good s) :
    Follows owns next node P w s (peek s) := by
  intro calls w1 s1 W
  induction W with
  | nil w s =>
    obtain ⟨ch, I⟩ := hr.inv
    obtain ⟨s', e, -⟩ := hx w ch s I hh hg
    have := Prog.sound hr R hh (hn s)
    rw [he, e] at this
    obtain ⟨w2, e2, -⟩ := this
    refine ⟨fun v x h => by simp at h, ?_, fun v x h => by simp at h, w2, _, _, e2⟩
    intro i w w' y
    exact ⟨fun h => by simp at h, fun x h => by simp at h⟩
  | other st hh' R' _ ih => exact ih (.step hr st) R' hh' hg
  | @call w w' w1 s s' s1 x calls e W ih =>
    obtain ⟨ch, I⟩ := hr.inv
    obtain ⟨s0, e0, hg', hnone, hsome⟩ := hx w ch s I hh hg
    have := Prog.sound hr R hh (hn s)
    rw [he, e0] at this
    obtain ⟨w2, e2, D⟩ := this
    rw [e] at e2
    simp only [Except.ok.injEq, Prod.mk.injEq] at e2
    obtain ⟨rfl, rfl, rfl⟩ := e2
    have hh' : w'.Has (handles .plain (owns s')) := by
      intro k m
      have h1 := D.exch.held k m
      have h2 := hh k m
      simp only [handles, List.map_append, List.count_append] at h1 h2 ⊢
      omega
    obtain ⟨i1, i2, i3, i4⟩ := ih D.reach D.roomy hh' hg'
    refine ⟨?_, ?_, ?_, i4⟩
    · intro v x h
      simp only [List.head?_cons, Option.some.injEq, Prod.mk.injEq] at h
      exact h.2.symm
    · intro i v v' y
      cases i with
      | zero =>
        simp only [List.getElem?_cons_zero, Option.some.injEq, Prod.mk.injEq, List.getElem?_cons_succ]
        have hy : calls[0]? = some (v', y) → y = peek s' := by
          intro h; exact i1 v' y (by rw [List.head?_eq_getElem?]; exact h)
        refine ⟨?_, ?_⟩
        · rintro ⟨rfl, e1⟩ h2
          rw [hy h2]; exact hnone e1
        · rintro x ⟨rfl, e1⟩ h2
          rw [hy h2]; exact ⟨ch, I.wf.toFShape, hsome x e1⟩
      | succ i => simpa only [List.getElem?_cons_succ] using i2 i v v' y
    · intro v x h
      rcases List.mem_cons.1 h with e1 | h
      · simp only [Prod.mk.injEq] at e1
        obtain ⟨rfl, e1⟩ := e1
        exact I.held_alive (k := .plain) (hh.pos (List.mem_map.2 ⟨_, hp s x e1.symm, rfl⟩))
      · exact i3 v x h

theorem alive_split (S : FShape h ch) (ha : h.alive n = true) :
    (∃ p l1 l2, ch p = l1 ++ n :: l2) ∨ ((∀ p, n ∉ ch p) ∧ h.parent n = none) := by
  cases e : h.parent n with
  | none =>
    refine .inr ⟨fun p hp => ?_, rfl⟩
    have := S.parent_of_mem hp
    rw [e] at this; cases this
  | some p =>
    obtain ⟨l1, l2, h1⟩ := List.append_of_mem ((S.mem p n).2 ⟨ha, e⟩)
    exact .inl ⟨p, l1, l2, h1⟩

theorem nextSib_spec (S : Shape h ch) (ha : h.alive n = true) : NextSib ch n (h.nextLink n) := by
  rcases alive_split S.toFShape ha with ⟨p, l1, l2, e⟩ | ⟨h1, h2⟩
  · have : h.nextLink n = l2.head? := S.toFShape.next_at e
    rw [this]
    cases l2 with
    | nil => exact .last e
    | cons m l2 => exact .next e
  · have : h.nextLink n = none := S.rootNext n ha h2
    rw [this]; exact .out h1

theorem prevSib_spec (S : Shape h ch) (ha : h.alive n = true) :
    ∃ o, h.prevLink n = .ok o ∧ PrevSib ch n o := by
  rcases alive_split S.toFShape ha with ⟨p, l1, l2, e⟩ | ⟨h1, h2⟩
  · refine ⟨_, S.prevLink_at e, ?_⟩
    rcases List.eq_nil_or_concat l1 with rfl | ⟨l, m, rfl⟩
    · exact .first e
    · have : (l.concat m).getLast? = some m := by simp
      rw [this]
      exact .prev (l1 := l) (l2 := l2) (by rw [e]; simp)
  · exact ⟨none, S.root_prevLink ha h2, .out h1⟩

theorem parent_spec (S : Shape h ch) (ha : h.alive n = true) : ParentIs ch n (h.parentLink n) := by
  rw [S.parentLink ha]
  rcases alive_split S.toFShape ha with ⟨p, l1, l2, e⟩ | ⟨h1, h2⟩
  · have hm : n ∈ ch p := by simp [e]
    rw [S.parent_of_mem hm]; exact .up hm
  · rw [h2]; exact .out h1

theorem after_spec (S : Shape h ch) {e : DftEvent NodeId} (ha : h.alive e.value = true) :
    After ch e (h.evNext e) := by
  cases e with
  | opn n =>
    replace ha : h.alive n = true := ha
    have h1 : h.firstChildLink n = (ch n).head? := S.first n ha
    simp only [Heap.evNext, h1]
    cases e : ch n with
    | nil => exact .leave e
    | cons c l => exact .enter e
  | cls n =>
    replace ha : h.alive n = true := ha
    simp only [Heap.evNext]
    rcases alive_split S.toFShape ha with ⟨p, l1, l2, e⟩ | ⟨h3, h4⟩
    · have h5 : h.nextLink n = l2.head? := S.toFShape.next_at e
      rw [h5]
      cases l2 with
      | nil =>
        have hm : n ∈ ch p := by simp [e]
        have : h.parentLink n = some p := by rw [S.parentLink ha]; exact S.parent_of_mem hm
        simp only [List.head?_nil, this, Option.map_some]
        exact .up e
      | cons m l2 => exact .next e
    · have h5 : h.nextLink n = none := S.rootNext n ha h4
      have h6 : h.parentLink n = none := by rw [S.parentLink ha]; exact h4
      simp only [h5, h6, Option.map_none]
      exact .out h3

theorem before_spec (S : Shape h ch) {e : DftEvent NodeId} (ha : h.alive e.value = true) :
    ∃ o, h.evPrev e = .ok o ∧ Before ch e o := by
  cases e with
  | cls n =>
    replace ha : h.alive n = true := ha
    have h1 : h.lastChildLink n = .ok (ch n).getLast? := S.lastChildLink ha
    simp only [Heap.evPrev, h1, bind, Except.bind]
    rcases List.eq_nil_or_concat (ch n) with e | ⟨l, c, e⟩
    · rw [e]; exact ⟨_, rfl, .leave e⟩
    · rw [e]
      simp only [List.concat_eq_append, List.getLast?_append, List.getLast?_singleton, Option.some_or]
      exact ⟨_, rfl, .enter (l := l) (by rw [e]; simp)⟩
  | opn n =>
    replace ha : h.alive n = true := ha
    simp only [Heap.evPrev, bind, Except.bind]
    rcases alive_split S.toFShape ha with ⟨p, l1, l2, e⟩ | ⟨h3, h4⟩
    · rw [S.prevLink_at e]
      rcases List.eq_nil_or_concat l1 with rfl | ⟨l, m, rfl⟩
      · have hm : n ∈ ch p := by simp [e]
        have : h.parentLink n = some p := by rw [S.parentLink ha]; exact S.parent_of_mem hm
        simp only [List.getLast?_nil, this, Option.map_some]
        exact ⟨_, rfl, .up e⟩
      · simp only [List.concat_eq_append, List.getLast?_append, List.getLast?_singleton, Option.some_or]
        exact ⟨_, rfl, .prev (l1 := l) (l2 := l2) (by rw [e]; simp)⟩
    · have h6 : h.parentLink n = none := by rw [S.parentLink ha]; exact h4
      have h5 := S.root_prevLink (n := n) ha h4
      rw [h5]
      simp only [h6, Option.map_none]
      exact ⟨_, rfl, .out h3⟩

/-! ### The iterators -/

theorem Dft.follows {st : NodeId} (hr : Reach w) (R : w.Roomy) {s : Dft.State}
    (hh : w.Has (handles .plain (Dft.owns s))) (hg : ∀ e t, s = some (e, t) → t = st) :
    Follows Dft.owns Dft.nextP DftEvent.value
      (fun ch x y => if x = .cls st then y = none else After ch x y) w s (Dft.peek s) := by
  refine walk_follows (nx := Dft.next) (peek := Dft.peek) (Good := fun s => ∀ e t, s = some (e, t) → t = st)
    Dft.nextP_uses Dft.nextP_eval ?_ ?_ hr R hh hg
  · rintro (_ | ⟨e, t⟩) x h
    · cases h
    · cases h; simp [Dft.owns]
  · rintro w ch (_ | ⟨e, t⟩) I hh hg
    · exact ⟨none, rfl, hg, fun _ => rfl, fun e h => by cases h⟩
    · obtain rfl := hg e t rfl
      refine ⟨_, rfl, ?_, fun h => by simp [Dft.peek] at h, ?_⟩
      · intro e' t' h
        split at h
        · cases h
        · cases h1 : w.heap.evNext e <;> simp [h1] at h; exact h.2.symm
      · intro e' h
        simp only [Dft.peek, Option.map_some, Option.some.injEq] at h
        subst h
        split
        · rfl
        · have : Dft.peek ((w.heap.evNext e).map (fun e => (e, t))) = w.heap.evNext e := by
            cases w.heap.evNext e <;> rfl
          rw [this]
          exact after_spec I.wf.toShape
            (I.held_alive (k := .plain) (hh.pos (List.mem_map.2 ⟨e.value, by simp [Dft.owns], rfl⟩)))

theorem RevDft.follows {st : NodeId} (hr : Reach w) (R : w.Roomy) {s : RevDft.State}
    (hh : w.Has (handles .plain (RevDft.owns s))) (hg : ∀ e t, s = some (e, t) → t = st) :
    Follows RevDft.owns RevDft.nextP DftEvent.value
      (fun ch x y => if x = .opn st then y = none else Before ch x y) w s (RevDft.peek s) := by
  refine walk_follows (nx := RevDft.next) (peek := RevDft.peek)
    (Good := fun s => ∀ e t, s = some (e, t) → t = st) RevDft.nextP_uses RevDft.nextP_eval ?_ ?_ hr R hh hg
  · rintro (_ | ⟨e, t⟩) x h
    · cases h
    · cases h; simp [RevDft.owns]
  · rintro w ch (_ | ⟨e, t⟩) I hh hg
    · exact ⟨none, rfl, hg, fun _ => rfl, fun e h => by cases h⟩
    · obtain rfl := hg e t rfl
      by_cases h1 : e = .opn t
      · refine ⟨none, by simp [RevDft.next, h1, RevDft.peek, pure, Except.pure], fun _ _ h => (by cases h),
          fun _ => rfl, ?_⟩
        intro e' h
        simp only [RevDft.peek, Option.map_some, Option.some.injEq] at h
        subst h
        simp [h1, RevDft.peek]
      · obtain ⟨o, h2, h3⟩ := before_spec I.wf.toShape (e := e)
          (I.held_alive (k := .plain) (hh.pos (List.mem_map.2 ⟨e.value, by simp [RevDft.owns], rfl⟩)))
        refine ⟨o.map (fun e => (e, t)), by simp [RevDft.next, h1, h2, RevDft.peek, bind, Except.bind, pure, Except.pure],
          ?_, fun h => by simp [RevDft.peek] at h, ?_⟩
        · intro e' t' h
          cases o <;> simp at h; exact h.2.symm
        · intro e' h
          simp only [RevDft.peek, Option.map_some, Option.some.injEq] at h
          subst h
          have : RevDft.peek (o.map (fun e => (e, t))) = o := by cases o <;> rfl
          rw [if_neg h1, this]
          exact h3

theorem Sib.follows {next : Sib.State → Prog α (Option NodeId × Sib.State)}
    {nx : Heap α → Sib.State → Except Fault (Option NodeId × Sib.State)}
    {P : (NodeId → List NodeId) → NodeId → Option NodeId → Prop}
    (hn : ∀ s, Prog.Uses (fun r => handles .plain (r.1.toList ++ Sib.owns r.2)) (next s) (handles .plain (Sib.owns s)))
    (he : ∀ (h : Heap α) s, (next s).eval h = nx h s)
    (h0 : ∀ h : Heap α, nx h none = .ok (none, none))
    (h1 : ∀ (h : Heap α) ch n, Shape h ch → h.alive n = true → ∃ o, nx h (some n) = .ok (some n, o) ∧ P ch n o)
    (hr : Reach w) (R : w.Roomy) {s : Sib.State} (hh : w.Has (handles .plain (Sib.owns s))) :
    Follows Sib.owns next id P w s s := by
  refine walk_follows (nx := nx) (peek := Sib.peek) (Good := fun _ => True) ?_ he ?_ ?_ hr R hh trivial
  · intro s; simpa using hn s
  · rintro (_ | n) x h
    · cases h
    · cases h; simp [Sib.owns]
  · rintro w ch (_ | n) I hh -
    · exact ⟨none, h0 _, trivial, fun _ => rfl, fun e h => by cases h⟩
    · obtain ⟨o, e1, e2⟩ := h1 w.heap ch n I.wf.toShape
        (I.held_alive (k := .plain) (hh.pos (List.mem_map.2 ⟨n, by simp [Sib.owns], rfl⟩)))
      refine ⟨o, e1, trivial, fun h => (by cases h), fun e h => ?_⟩
      cases h; exact e2

theorem Sib.nextFollows (hr : Reach w) (R : w.Roomy) {s : Sib.State} (hh : w.Has (handles .plain (Sib.owns s))) :
    Follows Sib.owns Sib.nextP id NextSib w s s :=
  Sib.follows Sib.nextP_uses Sib.nextP_eval (fun _ => rfl)
    (fun _ _ _ S ha => ⟨_, rfl, nextSib_spec S ha⟩) hr R hh

theorem Sib.upFollows (hr : Reach w) (R : w.Roomy) {s : Sib.State} (hh : w.Has (handles .plain (Sib.owns s))) :
    Follows Sib.owns Sib.upP id ParentIs w s s :=
  Sib.follows Sib.upP_uses Sib.upP_eval (fun _ => rfl)
    (fun _ _ _ S ha => ⟨_, rfl, parent_spec S ha⟩) hr R hh

theorem Sib.prevFollows (hr : Reach w) (R : w.Roomy) {s : Sib.State} (hh : w.Has (handles .plain (Sib.owns s))) :
    Follows Sib.owns Sib.prevP id PrevSib w s s := by
  refine Sib.follows Sib.prevP_uses Sib.prevP_eval (fun _ => rfl) (fun h ch n S ha => ?_) hr R hh
  obtain ⟨o, h1, h2⟩ := prevSib_spec S ha
  exact ⟨o, by simp [Sib.prev, h1, bind, Except.bind, pure, Except.pure], h2⟩

/-! ### Starting them -/

theorem loop_follows {k : Kind} {start : Prog α σ} {owns : σ → List NodeId}
    {next : σ → Prog α (Option ι × σ)} {node : ι → NodeId} {first : Option ι → Prop}
    {P : (NodeId → List NodeId) → ι → Option ι → Prop} {peek : σ → Option ι} {s : σ}
    (hr : Reach w) (R : w.Roomy) (hk : 0 < w.held k n)
    (hu : Prog.Uses (fun s => (.plain, n) :: handles .plain (owns s)) start [(.plain, n)])
    (es : start.eval w.heap = .ok s) (hf : first (peek s))
    (hw : ∀ w', Reach w' → w'.Roomy → w'.Has (handles .plain (owns s)) → Follows owns next node P w' s (peek s)) :
    LoopFollows k n start owns next node first P w := by
  have h1 : w.Has [(k, n)] := by
    intro k' m
    rw [List.count_cons, List.count_nil]
    by_cases e : (k, n) = (k', m)
    · cases e; simp; exact hk
    · simp [e]
  have := Prog.sound hr R h1 (methodP_uses (k := k) hu)
  rw [methodP_eval, es] at this
  obtain ⟨w', e, D⟩ := this
  refine ⟨w', s, _, e, hf, hw w' D.reach D.roomy ?_⟩
  intro k' m
  have h2 := D.exch.held k' m
  have h3 := h1 k' m
  simp only [List.count_cons, List.count_nil] at h2 h3
  omega

end Dendron
