import Verif.Proofs.Serial

/-! `try_eq` decides structural equality. -/

set_option autoImplicit false

namespace Dendron
open RTree

variable {α β γ δ : Type} {h : Heap α} {g : Heap β} {ch : NodeId → List NodeId} {n : NodeId}

/-- `DepthFirstLinkTraverser` in state `s` yields the list. -/
inductive LYields (h : Heap α) : Dft.State → List (DftEvent NodeId) → Prop
  | done {s s'} : h.linkDftNext s = (none, s') → LYields h s []
  | more {s x s' l} : h.linkDftNext s = (some x, s') → LYields h s' l → LYields h s (x :: l)

theorem LYields.of {st : NodeId} : ∀ (l : List (DftEvent NodeId)) (a : DftEvent NodeId),
    Linked (fun a b => h.evNext a = some b) (a :: l) → (a :: l).Nodup →
    (a :: l).getLast? = some (.cls st) → LYields h (some (a, st)) (a :: l).dropLast
  | [], a, _, _, hl => by
    simp only [List.getLast?_singleton, Option.some.injEq] at hl
    subst hl
    exact .done (s' := none) (by simp [Heap.linkDftNext])
  | b :: l, a, hk, hn, hl => by
    have hne : a ≠ .cls st := by
      intro e
      rw [List.getLast?_cons_cons] at hl
      exact (List.nodup_cons.1 hn).1 (e ▸ List.mem_of_getLast? hl)
    refine .more (s' := some (b, st)) (by simp [Heap.linkDftNext, hne, hk.1]) ?_
    exact LYields.of l b hk.2 (List.nodup_cons.1 hn).2 (by simpa [List.getLast?_cons_cons] using hl)

/-- Comparison of two event lists as `try_eq` does it. -/
def cmpEv (eq : α → β → Bool) (h : Heap α) (g : Heap β) :
    List (DftEvent NodeId) → List (DftEvent NodeId) → Except BorrowError Bool
  | [], [] => .ok true
  | .opn l :: ls, .opn r :: rs =>
    match h.borrowData l with
    | .error e => .error e
    | .ok a =>
      match g.borrowData r with
      | .error e => .error e
      | .ok b => if eq a b then cmpEv eq h g ls rs else .ok false
  | .cls _ :: ls, .cls _ :: rs => cmpEv eq h g ls rs
  | _, _ => .ok false

theorem eqLoop_spec (eq : α → β → Bool) : ∀ {l m : List (DftEvent NodeId)} {s s' : Dft.State}
    {f : Nat}, LYields h s l → LYields g s' m → l.length < f →
    Heap.eqLoop eq h g f s s' = .ok (cmpEv eq h g l m)
  | _, _, _, _, 0, _, _, hf => by omega
  | [], [], s, s', f + 1, .done e, .done e', _ => by simp [Heap.eqLoop, e, e', cmpEv]
  | [], y :: _, s, s', f + 1, .done e, .more e' _, _ => by
    cases y <;> simp [Heap.eqLoop, e, e', cmpEv]
  | x :: _, [], s, s', f + 1, .more e _, .done e', _ => by
    cases x <;> simp [Heap.eqLoop, e, e', cmpEv]
  | x :: l, y :: m, s, s', f + 1, .more e h1, .more e' h2, hf => by
    simp only [List.length_cons] at hf
    have ih := eqLoop_spec eq h1 h2 (f := f) (by omega)
    cases x <;> cases y <;> simp only [Heap.eqLoop, e, e', cmpEv, ih]
    cases h.borrowData _ with
    | error e => rfl
    | ok a =>
      cases g.borrowData _ with
      | error e => rfl
      | ok b => simp only; split <;> rfl

/-- Equality of the data of two nodes. -/
def eqN (eq : α → β → Bool) (h : Heap α) (g : Heap β) (a b : NodeId) : Bool :=
  match h.data a, g.data b with
  | some x, some y => eq x y
  | _, _ => false

theorem cmp_opn {eq : α → β → Bool} {a b : NodeId} {ls rs : List (DftEvent NodeId)} {r : Bool}
    (e : cmpEv eq h g (.opn a :: ls) (.opn b :: rs) = .ok r) :
    (eqN eq h g a b = true ∧ cmpEv eq h g ls rs = .ok r) ∨ (eqN eq h g a b = false ∧ r = false) := by
  simp only [cmpEv, Heap.borrowData] at e
  unfold eqN
  by_cases h1 : h.mutB a = true
  · simp [h1] at e
  · cases h2 : h.data a with
    | none => simp [h1, h2] at e
    | some x =>
      by_cases h3 : g.mutB b = true
      · simp [h1, h2, h3] at e
      · cases h4 : g.data b with
        | none => simp [h1, h2, h3, h4] at e
        | some y =>
          simp only [h1, h2, h3, h4, Bool.false_eq_true, if_false] at e
          cases h5 : eq x y with
          | true => exact .inl ⟨h5, by simpa [h5] using e⟩
          | false => exact .inr ⟨h5, by simpa [h5] using e.symm⟩

/-- The list is empty or starts with a closing. -/
def ClsHead : List (DftEvent β) → Prop
  | .opn _ :: _ => False
  | _ => True

mutual
theorem cmp_true (eq : α → β → Bool) : ∀ (t u : RTree NodeId) (l m : List (DftEvent NodeId)),
    cmpEv eq h g (t.events ++ l) (u.events ++ m) = .ok true →
    Equal (eqN eq h g) t u ∧ cmpEv eq h g l m = .ok true
  | .node v cs, .node w ds, l, m, e => by
    simp only [events, List.cons_append, List.append_assoc] at e
    rcases cmp_opn e with ⟨h1, h2⟩ | ⟨_, h2⟩
    · have h3 := cmp_trueL eq cs ds (.cls v :: l) (.cls w :: m) trivial trivial (by simpa using h2)
      exact ⟨⟨h1, h3.1⟩, by simpa [cmpEv] using h3.2⟩
    · simp at h2
theorem cmp_trueL (eq : α → β → Bool) : ∀ (cs ds : List (RTree NodeId))
    (l m : List (DftEvent NodeId)), ClsHead l → ClsHead m →
    cmpEv eq h g (eventsL cs ++ l) (eventsL ds ++ m) = .ok true →
    EqualL (eqN eq h g) cs ds ∧ cmpEv eq h g l m = .ok true
  | [], [], l, m, _, _, e => ⟨by simp [EqualL], by simpa [eventsL] using e⟩
  | [], .node w ds :: us, l, m, hl, _, e => by
    simp only [eventsL, events, List.nil_append, List.cons_append] at e
    cases l with
    | nil => simp [cmpEv] at e
    | cons x l => cases x <;> simp [cmpEv, ClsHead] at e hl
  | .node v cs :: ts, [], l, m, _, hm, e => by
    simp only [eventsL, events, List.nil_append, List.cons_append] at e
    cases m with
    | nil => simp [cmpEv] at e
    | cons x l => cases x <;> simp [cmpEv, ClsHead] at e hm
  | c :: cs, d :: ds, l, m, hl, hm, e => by
    simp only [eventsL, List.append_assoc] at e
    have h1 := cmp_true eq c d _ _ e
    have h2 := cmp_trueL eq cs ds l m hl hm h1.2
    exact ⟨⟨h1.1, h2.1⟩, h2.2⟩
end

mutual
theorem cmp_false (eq : α → β → Bool) : ∀ (t u : RTree NodeId) (l m : List (DftEvent NodeId)),
    Equal (eqN eq h g) t u → cmpEv eq h g (t.events ++ l) (u.events ++ m) = .ok false →
    cmpEv eq h g l m = .ok false
  | .node v cs, .node w ds, l, m, q, e => by
    simp only [events, List.cons_append, List.append_assoc] at e
    simp only [Equal] at q
    rcases cmp_opn e with ⟨h1, h2⟩ | ⟨h1, h2⟩
    · have h3 := cmp_falseL eq cs ds (.cls v :: l) (.cls w :: m) q.2 (by simpa using h2)
      simpa [cmpEv] using h3
    · simp [q.1] at h1
theorem cmp_falseL (eq : α → β → Bool) : ∀ (cs ds : List (RTree NodeId))
    (l m : List (DftEvent NodeId)), EqualL (eqN eq h g) cs ds →
    cmpEv eq h g (eventsL cs ++ l) (eventsL ds ++ m) = .ok false →
    cmpEv eq h g l m = .ok false
  | [], [], l, m, _, e => by simpa [eventsL] using e
  | [], _ :: _, l, m, q, e => by simp [EqualL] at q
  | _ :: _, [], l, m, q, e => by simp [EqualL] at q
  | c :: cs, d :: ds, l, m, q, e => by
    simp only [EqualL] at q
    simp only [eventsL, List.append_assoc] at e
    exact cmp_falseL eq cs ds l m q.2 (cmp_false eq c d _ _ q.1 e)
end

theorem cmp_error (eq : α → β → Bool) {x : BorrowError} : ∀ (l m : List (DftEvent NodeId)),
    (∀ n, DftEvent.opn n ∈ l → h.alive n = true) → (∀ n, DftEvent.opn n ∈ m → g.alive n = true) →
    cmpEv eq h g l m = .error x →
    (∃ n, DftEvent.opn n ∈ l ∧ h.mutB n = true) ∨ (∃ n, DftEvent.opn n ∈ m ∧ g.mutB n = true)
  | [], [], _, _, e => by simp [cmpEv] at e
  | [], y :: _, _, _, e => by cases y <;> simp [cmpEv] at e
  | x :: _, [], _, _, e => by cases x <;> simp [cmpEv] at e
  | .opn _ :: _, .cls _ :: _, _, _, e => by simp [cmpEv] at e
  | .cls _ :: _, .opn _ :: _, _, _, e => by simp [cmpEv] at e
  | .cls _ :: l, .cls _ :: m, hl, hm, e => by
    rcases cmp_error eq l m (fun n hn => hl n (by simp [hn])) (fun n hn => hm n (by simp [hn]))
      (by simpa [cmpEv] using e) with ⟨n, h1, h2⟩ | ⟨n, h1, h2⟩
    · exact .inl ⟨n, by simp [h1], h2⟩
    · exact .inr ⟨n, by simp [h1], h2⟩
  | .opn a :: l, .opn b :: m, hl, hm, e => by
    have ha := hl a (by simp)
    have hb := hm b (by simp)
    simp only [Heap.alive, Option.isSome_iff_exists] at ha hb
    obtain ⟨da, ha⟩ := ha
    obtain ⟨db, hb⟩ := hb
    by_cases h1 : h.mutB a = true
    · exact .inl ⟨a, by simp, h1⟩
    by_cases h2 : g.mutB b = true
    · exact .inr ⟨b, by simp, h2⟩
    simp only [cmpEv, Heap.borrowData, ha, hb, h1, h2, Bool.false_eq_true, if_false] at e
    split at e
    · rcases cmp_error eq l m (fun n hn => hl n (by simp [hn])) (fun n hn => hm n (by simp [hn])) e
        with ⟨n, h1, h2⟩ | ⟨n, h1, h2⟩
      · exact .inl ⟨n, by simp [h1], h2⟩
      · exact .inr ⟨n, by simp [h1], h2⟩
    · simp at e

theorem cmp_error_iff (eq : α → β → Bool) : ∀ (l m : List (DftEvent NodeId)),
    (∀ n, DftEvent.opn n ∈ l → h.alive n = true) → (∀ n, DftEvent.opn n ∈ m → g.alive n = true) →
    ((∃ x, cmpEv eq h g l m = .error x) ↔
      ∃ pre pre' a b rest rest', l = pre ++ .opn a :: rest ∧ m = pre' ++ .opn b :: rest' ∧
        Zip (SameStep eq h g) pre pre' ∧ (h.mutB a = true ∨ g.mutB b = true))
  | [], m, _, _ => by
    constructor
    · rintro ⟨x, e⟩
      cases m with
      | nil => simp [cmpEv] at e
      | cons y m => cases y <;> simp [cmpEv] at e
    · rintro ⟨pre, pre', a, b, rest, rest', e, -⟩
      simp at e
  | x :: l, [], _, _ => by
    constructor
    · rintro ⟨y, e⟩
      cases x <;> simp [cmpEv] at e
    · rintro ⟨pre, pre', a, b, rest, rest', -, e, -⟩
      simp at e
  | .opn _ :: _, .cls _ :: _, _, _ => by
    constructor
    · rintro ⟨y, e⟩
      simp [cmpEv] at e
    · rintro ⟨pre, pre', a, b, rest, rest', e, e', hz, -⟩
      cases hz with
      | nil => simp at e'
      | cons hz _ =>
        simp only [List.cons_append, List.cons.injEq] at e e'
        rw [← e.1, ← e'.1] at hz; cases hz
  | .cls _ :: _, .opn _ :: _, _, _ => by
    constructor
    · rintro ⟨y, e⟩
      simp [cmpEv] at e
    · rintro ⟨pre, pre', a, b, rest, rest', e, e', hz, -⟩
      cases hz with
      | nil => simp at e
      | cons hz _ =>
        simp only [List.cons_append, List.cons.injEq] at e e'
        rw [← e.1, ← e'.1] at hz; cases hz
  | .cls u :: l, .cls v :: m, hl, hm => by
    have ih := cmp_error_iff eq l m (fun n hn => hl n (by simp [hn])) (fun n hn => hm n (by simp [hn]))
    simp only [cmpEv, ih]
    constructor
    · rintro ⟨pre, pre', a, b, rest, rest', rfl, rfl, hz, hb⟩
      exact ⟨.cls u :: pre, .cls v :: pre', a, b, rest, rest', rfl, rfl, .cons .cls hz, hb⟩
    · rintro ⟨pre, pre', a, b, rest, rest', e, e', hz, hb⟩
      cases hz with
      | nil => simp at e
      | cons _ hz =>
        simp only [List.cons_append, List.cons.injEq] at e e'
        exact ⟨_, _, a, b, rest, rest', e.2, e'.2, hz, hb⟩
  | .opn u :: l, .opn v :: m, hl, hm => by
    have hu := hl u (by simp)
    have hv := hm v (by simp)
    simp only [Heap.alive, Option.isSome_iff_exists] at hu hv
    obtain ⟨du, hu⟩ := hu
    obtain ⟨dv, hv⟩ := hv
    have ih := cmp_error_iff eq l m (fun n hn => hl n (by simp [hn])) (fun n hn => hm n (by simp [hn]))
    by_cases h1 : h.mutB u = true
    · simp only [cmpEv, Heap.borrowData, h1, if_true]
      exact ⟨fun _ => ⟨[], [], u, v, l, m, rfl, rfl, .nil, .inl h1⟩, fun _ => ⟨.mk, trivial⟩⟩
    by_cases h2 : g.mutB v = true
    · simp only [cmpEv, Heap.borrowData, h1, h2, hu, if_true, Bool.false_eq_true, if_false]
      exact ⟨fun _ => ⟨[], [], u, v, l, m, rfl, rfl, .nil, .inr h2⟩, fun _ => ⟨.mk, trivial⟩⟩
    simp only [cmpEv, Heap.borrowData, hu, hv, h1, h2, Bool.false_eq_true, if_false]
    cases hq : eq du dv with
    | true =>
      simp only [if_true, ih]
      constructor
      · rintro ⟨pre, pre', a, b, rest, rest', rfl, rfl, hz, hb⟩
        exact ⟨.opn u :: pre, .opn v :: pre', a, b, rest, rest', rfl, rfl,
          .cons (.opn (by simpa using h1) (by simpa using h2) hu hv hq) hz, hb⟩
      · rintro ⟨pre, pre', a, b, rest, rest', e, e', hz, hb⟩
        cases hz with
        | nil =>
          simp only [List.nil_append, List.cons.injEq, DftEvent.opn.injEq] at e e'
          rw [← e.1, ← e'.1] at hb
          rcases hb with hb | hb
          · exact absurd hb h1
          · exact absurd hb h2
        | cons _ hz =>
          simp only [List.cons_append, List.cons.injEq] at e e'
          exact ⟨_, _, a, b, rest, rest', e.2, e'.2, hz, hb⟩
    | false =>
      simp only [Bool.false_eq_true, if_false]
      constructor
      · rintro ⟨x, e⟩; simp at e
      · rintro ⟨pre, pre', a, b, rest, rest', e, e', hz, hb⟩
        exfalso
        cases hz with
        | nil =>
          simp only [List.nil_append, List.cons.injEq, DftEvent.opn.injEq] at e e'
          rw [← e.1, ← e'.1] at hb
          rcases hb with hb | hb
          · exact absurd hb h1
          · exact absurd hb h2
        | cons hz _ =>
          simp only [List.cons_append, List.cons.injEq] at e e'
          rw [← e.1, ← e'.1] at hz
          cases hz with
          | opn _ _ f1 f2 f3 =>
            rw [hu] at f1; rw [hv] at f2
            cases f1; cases f2
            rw [hq] at f3; cases f3

mutual
theorem mem_events_opn {v : β} : ∀ (t : RTree β), DftEvent.opn v ∈ t.events ↔ v ∈ t.nodes
  | .node w cs => by simp [events, nodes, mem_eventsL_opn cs]
theorem mem_eventsL_opn {v : β} : ∀ (cs : List (RTree β)), DftEvent.opn v ∈ eventsL cs ↔ v ∈ nodesL cs
  | [] => by simp [eventsL, nodesL]
  | c :: cs => by simp [eventsL, nodesL, mem_events_opn c, mem_eventsL_opn cs]
end

mutual
theorem equal_data {eq : α → β → Bool} : ∀ {t u : RTree NodeId} {t' : RTree α} {u' : RTree β},
    HasData h t t' → HasData g u u' → (Equal (eqN eq h g) t u ↔ Equal eq t' u')
  | .node v cs, .node w ds, .node v' cs', .node w' ds', ht, hu => by
    simp only [HasData, map, node.injEq] at ht hu
    simp only [Equal, eqN, ht.1, hu.1, equalL_data ht.2 hu.2]
theorem equalL_data {eq : α → β → Bool} : ∀ {t u : List (RTree NodeId)} {t' : List (RTree α)}
    {u' : List (RTree β)}, mapL h.data t = mapL some t' → mapL g.data u = mapL some u' →
    (EqualL (eqN eq h g) t u ↔ EqualL eq t' u')
  | [], [], [], [], _, _ => by simp [EqualL]
  | [], [], [], _ :: _, _, e => by simp [mapL] at e
  | [], [], _ :: _, _, e, _ => by simp [mapL] at e
  | [], _ :: _, [], [], _, e => by simp [mapL] at e
  | [], _ :: _, [], _ :: _, _, _ => by simp [EqualL]
  | [], _ :: _, _ :: _, _, e, _ => by simp [mapL] at e
  | _ :: _, _, [], _, e, _ => by simp [mapL] at e
  | _ :: _, [], _ :: _, [], _, _ => by simp [EqualL]
  | _ :: _, [], _ :: _, _ :: _, _, e => by simp [mapL] at e
  | _ :: _, _ :: _, _ :: _, [], _, e => by simp [mapL] at e
  | c :: cs, d :: ds, c' :: cs', d' :: ds', ht, hu => by
    simp only [mapL, List.cons.injEq] at ht hu
    have q := equal_data (eq := eq) (t := c) (u := d) (t' := c') (u' := d') ht.1 hu.1
    simp only [EqualL, q, equalL_data ht.2 hu.2]
end

mutual
theorem exists_data : ∀ (t : RTree NodeId), (∀ x ∈ t.nodes, h.alive x = true) →
    ∃ u : RTree α, HasData h t u
  | .node v cs, H => by
    simp only [nodes, List.mem_cons, forall_eq_or_imp] at H
    obtain ⟨us, hu⟩ := exists_dataL cs H.2
    obtain ⟨d, hd⟩ := Option.isSome_iff_exists.1 H.1
    exact ⟨.node d us, by simp [HasData, map, hd, hu]⟩
theorem exists_dataL : ∀ (cs : List (RTree NodeId)), (∀ x ∈ nodesL cs, h.alive x = true) →
    ∃ us : List (RTree α), mapL h.data cs = mapL some us
  | [], _ => ⟨[], by simp [mapL]⟩
  | c :: cs, H => by
    simp only [nodesL, List.mem_append] at H
    obtain ⟨u, hu⟩ := exists_data c (fun x hx => H x (.inl hx))
    obtain ⟨us, hus⟩ := exists_dataL cs (fun x hx => H x (.inr hx))
    exact ⟨u :: us, by simp only [HasData] at hu; simp [mapL, hu, hus]⟩
end

mutual
theorem map_some_inj : ∀ {t u : RTree α}, t.map some = u.map some → t = u
  | .node v cs, .node w ds, e => by
    simp only [map, node.injEq, Option.some.injEq] at e
    rw [e.1, mapL_some_inj e.2]
theorem mapL_some_inj : ∀ {t u : List (RTree α)}, mapL some t = mapL some u → t = u
  | [], [], _ => rfl
  | [], _ :: _, e => by simp [mapL] at e
  | _ :: _, [], e => by simp [mapL] at e
  | c :: cs, d :: ds, e => by
    simp only [mapL, List.cons.injEq] at e
    rw [map_some_inj e.1, mapL_some_inj e.2]
end

theorem HasData.unique {t : RTree NodeId} {u v : RTree α} (hu : HasData h t u)
    (hv : HasData h t v) : u = v := map_some_inj (hu.symm.trans hv)

mutual
theorem Equal.refl {eq : α → α → Bool} (he : ∀ a, eq a a = true) : ∀ t : RTree α, Equal eq t t
  | .node v cs => by simp only [Equal]; exact ⟨he v, EqualL.refl he cs⟩
theorem EqualL.refl {eq : α → α → Bool} (he : ∀ a, eq a a = true) :
    ∀ t : List (RTree α), EqualL eq t t
  | [] => by simp [EqualL]
  | c :: cs => by simp only [EqualL]; exact ⟨Equal.refl he c, EqualL.refl he cs⟩
end

mutual
theorem Equal.symm {eq : α → β → Bool} {eq' : β → α → Bool}
    (he : ∀ a b, eq a b = true → eq' b a = true) :
    ∀ {t : RTree α} {u : RTree β}, Equal eq t u → Equal eq' u t
  | .node v cs, .node w ds, e => by
    simp only [Equal] at e ⊢; exact ⟨he _ _ e.1, EqualL.symm he e.2⟩
theorem EqualL.symm {eq : α → β → Bool} {eq' : β → α → Bool}
    (he : ∀ a b, eq a b = true → eq' b a = true) :
    ∀ {t : List (RTree α)} {u : List (RTree β)}, EqualL eq t u → EqualL eq' u t
  | [], [], _ => by simp [EqualL]
  | [], _ :: _, e => by simp [EqualL] at e
  | _ :: _, [], e => by simp [EqualL] at e
  | c :: cs, d :: ds, e => by
    simp only [EqualL] at e ⊢; exact ⟨Equal.symm he e.1, EqualL.symm he e.2⟩
end

mutual
theorem Equal.trans {e1 : α → β → Bool} {e2 : β → γ → Bool} {e3 : α → γ → Bool}
    (he : ∀ a b c, e1 a b = true → e2 b c = true → e3 a c = true) :
    ∀ {t : RTree α} {u : RTree β} {v : RTree γ}, Equal e1 t u → Equal e2 u v → Equal e3 t v
  | .node _ _, .node _ _, .node _ _, h1, h2 => by
    simp only [Equal] at h1 h2 ⊢; exact ⟨he _ _ _ h1.1 h2.1, EqualL.trans he h1.2 h2.2⟩
theorem EqualL.trans {e1 : α → β → Bool} {e2 : β → γ → Bool} {e3 : α → γ → Bool}
    (he : ∀ a b c, e1 a b = true → e2 b c = true → e3 a c = true) :
    ∀ {t : List (RTree α)} {u : List (RTree β)} {v : List (RTree γ)}, EqualL e1 t u →
    EqualL e2 u v → EqualL e3 t v
  | [], [], [], _, _ => by simp [EqualL]
  | [], [], _ :: _, _, e => by simp [EqualL] at e
  | [], _ :: _, _, e, _ => by simp [EqualL] at e
  | _ :: _, [], _, e, _ => by simp [EqualL] at e
  | _ :: _, _ :: _, [], _, e => by simp [EqualL] at e
  | _ :: _, _ :: _, _ :: _, h1, h2 => by
    simp only [EqualL] at h1 h2 ⊢; exact ⟨Equal.trans he h1.1 h2.1, EqualL.trans he h1.2 h2.2⟩
end

mutual
theorem Equal.eq [DecidableEq α] : ∀ {t u : RTree α}, Equal (fun a b => decide (a = b)) t u ↔ t = u
  | .node v cs, .node w ds => by simp [Equal, EqualL.eq (t := cs) (u := ds)]
theorem EqualL.eq [DecidableEq α] : ∀ {t u : List (RTree α)},
    EqualL (fun a b => decide (a = b)) t u ↔ t = u
  | [], [] => by simp [EqualL]
  | [], _ :: _ => by simp [EqualL]
  | _ :: _, [] => by simp [EqualL]
  | c :: cs, d :: ds => by simp [EqualL, Equal.eq (t := c) (u := d), EqualL.eq (t := cs) (u := ds)]
end

theorem FShape.lyields (W : FShape h ch) {t : RTree NodeId} (ha : h.alive n = true)
    (ht : SubtreeAt ch n t) : LYields h (Dft.start n) t.events.dropLast := by
  obtain ⟨l, hl⟩ := events_eq_cons t
  have h1 := W.linked_next ha ht
  have h2 := events_nodup t (ht.nodup W)
  have h3 := events_last t
  have hlab := ht.1
  rw [hl] at h1 h2 h3 ⊢
  rw [hlab] at h1 h2 h3 ⊢
  exact LYields.of _ _ h1 h2 h3

theorem events_dropLast (v : β) (cs : List (RTree β)) :
    (node v cs).events.dropLast = .opn v :: eventsL cs := by
  rw [events, ← List.cons_append, List.dropLast_concat]

theorem FShape.tryEqHet {ch' : NodeId → List NodeId} (W : FShape h ch) (W' : FShape g ch') {n m : NodeId}
    {t u : RTree NodeId} {t' : RTree α} {u' : RTree β} (eq : α → β → Bool)
    (ha : h.alive n = true) (hb : g.alive m = true)
    (ht : SubtreeAt ch n t) (hu : SubtreeAt ch' m u) (dt : HasData h t t') (du : HasData g u u') :
    ∃ r, Heap.tryEqHet eq h g n m = .ok r ∧ (r = .ok true → Equal eq t' u') ∧
      (r = .ok false → ¬ Equal eq t' u') ∧
      (∀ e, r = .error e → (∃ x ∈ t.nodes, h.mutB x = true) ∨ ∃ x ∈ u.nodes, g.mutB x = true) := by
  have hl := ht.size_le W ha
  have hlen := events_length t
  refine ⟨_, eqLoop_spec eq (W.lyields ha ht) (W'.lyields hb hu) (by
    rw [List.length_dropLast]; omega), ?_, ?_, ?_⟩
  · intro e
    rw [← equal_data dt du]
    cases t with
    | node v cs =>
      cases u with
      | node w ds =>
        rw [events_dropLast, events_dropLast] at e
        rcases cmp_opn e with ⟨h1, h2⟩ | ⟨_, h2⟩
        · have := cmp_trueL eq cs ds [] [] trivial trivial (by simpa using h2)
          simp only [Equal]; exact ⟨h1, this.1⟩
        · simp at h2
  · intro e q
    rw [← equal_data dt du] at q
    cases t with
    | node v cs =>
      cases u with
      | node w ds =>
        rw [events_dropLast, events_dropLast] at e
        simp only [Equal] at q
        rcases cmp_opn e with ⟨h1, h2⟩ | ⟨h1, h2⟩
        · have := cmp_falseL eq cs ds [] [] q.2 (by simpa using h2)
          simp [cmpEv] at this
        · simp [q.1] at h1
  · intro e he
    have hd : ∀ (a : NodeId) (v : RTree NodeId), DftEvent.opn a ∈ v.events.dropLast → a ∈ v.nodes :=
      fun a v hm => (mem_events_opn v).1 (List.dropLast_subset _ hm)
    rcases cmp_error eq _ _
      (fun x hx => W.desc_alive ha ((ht.mem_nodes_iff x).1 (hd _ _ hx)))
      (fun x hx => W'.desc_alive hb ((hu.mem_nodes_iff x).1 (hd _ _ hx))) he
      with ⟨x, h1, h2⟩ | ⟨x, h1, h2⟩
    · exact .inl ⟨x, hd _ _ h1, h2⟩
    · exact .inr ⟨x, hd _ _ h1, h2⟩

theorem FShape.tryEqHet_error {ch' : NodeId → List NodeId} (W : FShape h ch) (W' : FShape g ch') {n m : NodeId}
    {t u : RTree NodeId} (eq : α → β → Bool)
    (ha : h.alive n = true) (hb : g.alive m = true)
    (ht : SubtreeAt ch n t) (hu : SubtreeAt ch' m u) :
    (∃ e, Heap.tryEqHet eq h g n m = .ok (.error e)) ↔ Blocked eq h g t u := by
  have hl := ht.size_le W ha
  have hlen := events_length t
  have e0 : Heap.tryEqHet eq h g n m = .ok (cmpEv eq h g t.events.dropLast u.events.dropLast) :=
    eqLoop_spec eq (W.lyields ha ht) (W'.lyields hb hu) (by rw [List.length_dropLast]; omega)
  have hd : ∀ (a : NodeId) (v : RTree NodeId), DftEvent.opn a ∈ v.events.dropLast → a ∈ v.nodes :=
    fun a v hm => (mem_events_opn v).1 (List.dropLast_subset _ hm)
  have ends : ∀ (v : RTree NodeId), v.events = v.events.dropLast ++ [.cls v.label] := by
    rintro ⟨x, cs⟩
    rw [events_dropLast]; simp [events, label]
  rw [e0]
  simp only [Except.ok.injEq]
  rw [cmp_error_iff eq _ _
      (fun x hx => W.desc_alive ha ((ht.mem_nodes_iff x).1 (hd _ _ hx)))
      (fun x hx => W'.desc_alive hb ((hu.mem_nodes_iff x).1 (hd _ _ hx)))]
  constructor
  · rintro ⟨pre, pre', a, b, rest, rest', e, e', hz, hbb⟩
    refine ⟨pre, pre', a, b, rest ++ [.cls t.label], rest' ++ [.cls u.label], ?_, ?_, hz, hbb⟩
    · rw [ends t, e]; simp
    · rw [ends u, e']; simp
  · rintro ⟨pre, pre', a, b, rest, rest', e, e', hz, hbb⟩
    have key : ∀ (v : RTree NodeId) (p r : List (DftEvent NodeId)) (x : NodeId),
        v.events = p ++ .opn x :: r → v.events.dropLast = p ++ .opn x :: r.dropLast := by
      intro v p r x hx
      cases hr : r with
      | nil =>
        have := ends v
        rw [hx, hr] at this
        have := (List.append_inj' this rfl).2
        simp at this
      | cons y r' =>
        rw [hx, hr, List.dropLast_append_of_ne_nil (by simp)]
        simp
    exact ⟨pre, pre', a, b, rest.dropLast, rest'.dropLast, key _ _ _ _ e, key _ _ _ _ e', hz, hbb⟩

end Dendron
