import Verif.Proofs.Iter

/-! `close_current`, size hints and breadth-first order. -/

set_option linter.unusedSimpArgs false
set_option linter.unusedVariables false

set_option autoImplicit false

namespace Dendron
open RTree

variable {α β : Type} {h : Heap α} {ch : NodeId → List NodeId} {n p : NodeId}

/-! ### Splitting event sequences -/

theorem openStack_append : ∀ (a b : List (DftEvent β)) (st : List β),
    openStack (a ++ b) st = openStack b (openStack a st)
  | [], b, st => rfl
  | .opn v :: a, b, st => by simp [openStack, openStack_append a b]
  | .cls v :: a, b, st => by simp [openStack, openStack_append a b]

mutual
theorem openStack_events : ∀ (t : RTree β) (st : List β), openStack t.events st = st
  | .node v cs, st => by
    simp [events, openStack, openStack_append, openStack_eventsL cs]
theorem openStack_eventsL : ∀ (cs : List (RTree β)) (st : List β), openStack (eventsL cs) st = st
  | [], st => rfl
  | c :: cs, st => by
    simp [eventsL, openStack_append, openStack_events c, openStack_eventsL cs]
end

mutual
theorem events_split : ∀ (t : RTree β) (st : List β) (pre l : List (DftEvent β)),
    t.events = pre ++ l → pre = [] ∨ l = [] ∨ ∃ ds v rest stk,
      l = eventsL ds ++ .cls v :: rest ∧ openStack pre st = v :: stk
  | .node v cs, st, pre, l, he => by
    cases pre with
    | nil => exact .inl rfl
    | cons e pre =>
      refine .inr ?_
      simp only [events, List.cons_append, List.cons.injEq] at he
      obtain ⟨rfl, he⟩ := he
      rcases List.eq_nil_or_concat l with rfl | ⟨l', z, rfl⟩
      · exact .inl rfl
      · refine .inr ?_
        rw [List.concat_eq_append, ← List.append_assoc] at he
        obtain ⟨h1, h2⟩ := List.append_inj' he rfl
        simp only [List.cons.injEq, and_true] at h2
        subst h2
        rcases eventsL_split cs (v :: st) pre l' h1 with ⟨ds, e1, e2⟩ | ⟨ds, w, rest, stk, e1, e2⟩
        · exact ⟨ds, v, [], st, by simp [e1], by simpa [openStack] using e2⟩
        · exact ⟨ds, w, rest ++ [.cls v], stk, by simp [e1], by simpa [openStack] using e2⟩
theorem eventsL_split : ∀ (cs : List (RTree β)) (st : List β) (pre l : List (DftEvent β)),
    eventsL cs = pre ++ l → (∃ ds, l = eventsL ds ∧ openStack pre st = st) ∨ ∃ ds v rest stk,
      l = eventsL ds ++ .cls v :: rest ∧ openStack pre st = v :: stk
  | [], st, pre, l, he => by
    simp only [eventsL, List.nil_eq, List.append_eq_nil_iff] at he
    exact .inl ⟨[], by simp [eventsL, he.2], by simp [he.1, openStack]⟩
  | c :: cs, st, pre, l, he => by
    rw [eventsL, List.append_eq_append_iff] at he
    rcases he with ⟨a', h1, h2⟩ | ⟨c', h1, h2⟩
    · have hs : openStack pre st = openStack a' st := by
        rw [h1, openStack_append, openStack_events]
      rw [hs]
      exact eventsL_split cs st a' l h2
    · rcases events_split c st pre c' h1 with rfl | rfl | ⟨ds, v, rest, stk, e1, e2⟩
      · exact .inl ⟨c :: cs, by simp at h1; simp [eventsL, h2, h1], rfl⟩
      · refine .inl ⟨cs, by simpa using h2, ?_⟩
        simp at h1
        rw [← h1, openStack_events]
      · exact .inr ⟨ds, v, rest ++ eventsL cs, stk, by simp [h2, e1], e2⟩
end

theorem events_suffix {t : RTree β} {pre l : List (DftEvent β)} {v : β} {stk : List β}
    (he : t.events = pre ++ l) (hs : openStack pre [] = v :: stk) :
    ∃ ds rest, l = eventsL ds ++ .cls v :: rest := by
  rcases events_split t [] pre l he with rfl | rfl | ⟨ds, w, rest, stk', e1, e2⟩
  · simp [openStack] at hs
  · rw [List.append_nil] at he
    rw [← he, openStack_events] at hs
    simp at hs
  · rw [hs] at e2
    exact ⟨ds, rest, by rw [e1]; simp [(List.cons.inj e2).1]⟩

theorem closeCurrent_suffix {σ ν : Type} {next : σ → Except Fault (Option (DftEvent ν) × σ)}
    {t : RTree ν} {pre l : List (DftEvent ν)} {s : σ} (he : t.events = pre ++ l)
    (hn : t.events.Nodup) (hy : Yields next s l) : ClosesCurrent next s pre l := by
  constructor
  · intro v stk hs
    obtain ⟨ds, rest, rfl⟩ := events_suffix he hs
    obtain ⟨s1, hy1, e1⟩ := closeCurrent_list ds 1 0 s _ hy
    obtain ⟨s2, e2, hy2⟩ := hy1.cons_inv
    refine ⟨_, s2, _, rest, rfl, ?_, by rw [e1, closeCurrent, e2]; simp, hy2⟩
    intro hm
    rw [he, List.nodup_append] at hn
    have := hn.2.1
    rw [List.nodup_append] at this
    exact this.2.2 _ hm _ (by simp) rfl
  · intro hs
    have key : ∃ ds, l = eventsL ds := by
      rcases events_split t [] pre l he with rfl | rfl | ⟨ds, w, rest, stk', e1, e2⟩
      · exact ⟨[t], by simp at he; simp [eventsL, he]⟩
      · exact ⟨[], rfl⟩
      · rw [hs] at e2; simp at e2
    obtain ⟨ds, rfl⟩ := key
    have hy' : Yields next s (eventsL ds ++ []) := by simpa using hy
    obtain ⟨s1, hy1, e1⟩ := closeCurrent_list ds 1 0 s _ hy'
    obtain ⟨s2, e2, hy2⟩ := hy1.nil_inv
    exact ⟨_, s2, by rw [e1, closeCurrent, e2], hy2⟩

/-! ### The depth-limited sequence is the event sequence of a pruned tree -/

mutual
/-- prune below depth `lim`, label with depths -/
def RTree.prune (lim : Option Nat) (d : Nat) : RTree β → RTree (β × Nat)
  | .node v cs => .node (v, d) (if lim = some d then [] else pruneL lim (d + 1) cs)
/-- the same for lists -/
def RTree.pruneL (lim : Option Nat) (d : Nat) : List (RTree β) → List (RTree (β × Nat))
  | [] => []
  | c :: cs => prune lim d c :: pruneL lim d cs
end

mutual
theorem prune_events (lim : Option Nat) : ∀ (d : Nat) (t : RTree β),
    (t.prune lim d).events = t.eventsD lim d
  | d, .node v cs => by
    simp only [prune, events, eventsD]
    split
    · simp [eventsL]
    · simp [pruneL_events lim (d + 1) cs]
theorem pruneL_events (lim : Option Nat) : ∀ (d : Nat) (cs : List (RTree β)),
    eventsL (pruneL lim d cs) = eventsDL lim d cs
  | d, [] => rfl
  | d, c :: cs => by simp [pruneL, eventsL, eventsDL, prune_events lim d c, pruneL_events lim d cs]
end

/-! ### Reachable states -/

theorem Yields.reaches {σ ι : Type} {next : σ → Except Fault (Option ι × σ)} {s s' : σ}
    {l : List ι} (hy : Yields next s l) (hr : Reaches next s s') :
    ∃ pre l', l = pre ++ l' ∧ Yields next s' l' := by
  induction hr with
  | refl => exact ⟨[], l, rfl, hy⟩
  | @step s1 s2 x _ hx ih =>
    obtain ⟨pre, l', e, hy'⟩ := ih
    cases l' with
    | nil =>
      obtain ⟨s3, e3, hy3⟩ := hy'.nil_inv
      rw [hx] at e3
      simp only [Except.ok.injEq, Prod.mk.injEq] at e3
      exact ⟨pre, [], e, e3.2 ▸ hy3⟩
    | cons y l' =>
      obtain ⟨s3, e3, hy3⟩ := hy'.cons_inv
      rw [hx] at e3
      simp only [Except.ok.injEq, Prod.mk.injEq] at e3
      exact ⟨pre ++ [y], l', by simp [e], e3.2 ▸ hy3⟩

theorem Yields.unique {σ ι : Type} {next : σ → Except Fault (Option ι × σ)} :
    ∀ {l l' : List ι} {s : σ}, Yields next s l → Yields next s l' → l = l'
  | [], [], s, _, _ => rfl
  | [], x :: l', s, h1, h2 => by
    obtain ⟨_, e1, _⟩ := h1.nil_inv
    obtain ⟨_, e2, _⟩ := h2.cons_inv
    rw [e1] at e2; simp at e2
  | x :: l, [], s, h1, h2 => by
    obtain ⟨_, e1, _⟩ := h1.cons_inv
    obtain ⟨_, e2, _⟩ := h2.nil_inv
    rw [e1] at e2; simp at e2
  | x :: l, y :: l', s, h1, h2 => by
    obtain ⟨_, e1, k1⟩ := h1.cons_inv
    obtain ⟨_, e2, k2⟩ := h2.cons_inv
    rw [e1] at e2
    simp only [Except.ok.injEq, Prod.mk.injEq, Option.some.injEq] at e2
    obtain ⟨rfl, rfl⟩ := e2
    rw [k1.unique k2]

theorem drain_of_yields {σ ι : Type} {next : σ → Except Fault (Option ι × σ)} :
    ∀ {l : List ι} {s : σ} {f : Nat}, Yields next s l → l.length < f → drain next f s = .ok l
  | [], s, f + 1, hy, _ => by
    obtain ⟨_, e, _⟩ := hy.nil_inv
    simp [drain, e]
  | x :: l, s, f + 1, hy, hf => by
    obtain ⟨s1, e, hy1⟩ := hy.cons_inv
    have := drain_of_yields (f := f) hy1 (by simpa using hf)
    simp [drain, e, this]
  | _, s, 0, _, hf => by simp at hf

/-! ### Size hints of the depth-first traversers -/

theorem suffix_last {γ : Type} {l pre l' : List γ} {z : γ} (e : l = pre ++ l')
    (hz : l.getLast? = some z) (hne : l' ≠ []) : l'.getLast? = some z := by
  rw [e, List.getLast?_append] at hz
  cases l' with
  | nil => exact absurd rfl hne
  | cons a l' =>
    rw [List.getLast?_eq_some_getLast (List.cons_ne_nil _ _)] at hz ⊢
    simpa using hz

theorem hint_single {γ : Type} {l : List γ} {z : γ} (hn : (z :: l).Nodup)
    (hz : (z :: l).getLast? = some z) : l = [] := by
  cases l with
  | nil => rfl
  | cons a l =>
    rw [List.getLast?_cons_cons] at hz
    exact absurd (List.mem_of_getLast? hz) (List.nodup_cons.1 hn).1

theorem Dft.reaches_start {s : Dft.State} (hr : Reaches (Dft.next h) (Dft.start n) s) :
    s = none ∨ ∃ e, s = some (e, n) := by
  induction hr with
  | refl => exact .inr ⟨_, rfl⟩
  | @step s1 s2 x _ hx ih =>
    rcases ih with rfl | ⟨e, rfl⟩
    · simp only [Dft.next, Except.ok.injEq, Prod.mk.injEq] at hx
      exact .inl hx.2.symm
    · simp only [Dft.next, Except.ok.injEq, Prod.mk.injEq] at hx
      have := hx.2
      split at this
      · exact .inl this.symm
      · cases he : h.evNext e with
        | none => rw [he] at this; exact .inl this.symm
        | some e' => rw [he] at this; exact .inr ⟨e', this.symm⟩

theorem RevDft.reaches_start {s : RevDft.State} (hr : Reaches (RevDft.next h) (RevDft.start n) s) :
    s = none ∨ ∃ e, s = some (e, n) := by
  induction hr with
  | refl => exact .inr ⟨_, rfl⟩
  | @step s1 s2 x _ hx ih =>
    rcases ih with rfl | ⟨e, rfl⟩
    · simp only [RevDft.next, Except.ok.injEq, Prod.mk.injEq] at hx
      exact .inl hx.2.symm
    · simp only [RevDft.next, bind, Except.bind, pure, Except.pure] at hx
      split at hx
      · simp only [Except.ok.injEq, Prod.mk.injEq] at hx; exact .inl hx.2.symm
      · cases he : h.evPrev e with
        | error _ => simp [he] at hx
        | ok e' =>
          simp only [he, Except.ok.injEq, Prod.mk.injEq] at hx
          cases e' with
          | none => exact .inl hx.2.symm
          | some e' => exact .inr ⟨e', hx.2.symm⟩

theorem Shape.dft_hint (S : Shape h ch) {t : RTree NodeId} (ha : h.alive n = true)
    (ht : SubtreeAt ch n t) {s : Dft.State} (hr : Reaches (Dft.next h) (Dft.start n) s) :
    ∃ l, Yields (Dft.next h) s l ∧ HintSound (Dft.sizeHint s) l.length := by
  obtain ⟨pre, l, e, hy⟩ := (S.dft_yields ha ht).reaches hr
  refine ⟨l, hy, ?_⟩
  have hlast := events_last t
  rw [ht.1] at hlast
  have hnd := events_nodup t (ht.nodup S.toFShape)
  rcases Dft.reaches_start hr with rfl | ⟨ev, rfl⟩
  · cases l with
    | nil => simp [HintSound, Dft.sizeHint]
    | cons x l => obtain ⟨_, e1, _⟩ := hy.cons_inv; simp [Dft.next] at e1
  · cases l with
    | nil => obtain ⟨_, e1, _⟩ := hy.nil_inv; simp [Dft.next] at e1
    | cons x l =>
      obtain ⟨_, e1, _⟩ := hy.cons_inv
      simp only [Dft.next, Except.ok.injEq, Prod.mk.injEq, Option.some.injEq] at e1
      have hx := e1.1
      subst hx
      have hl := suffix_last e hlast (by simp)
      have hn2 : (ev :: l).Nodup := by rw [e, List.nodup_append] at hnd; exact hnd.2.1
      cases ev with
      | opn m =>
        cases l with
        | nil => simp at hl
        | cons y l => simp [HintSound, Dft.sizeHint]
      | cls m =>
        simp only [Dft.sizeHint]
        split
        · rename_i hm; subst hm
          have := hint_single hn2 hl
          subst this
          simp [HintSound]
        · simp [HintSound]

theorem Shape.revDft_hint (S : Shape h ch) {t : RTree NodeId} (ha : h.alive n = true)
    (ht : SubtreeAt ch n t) {s : RevDft.State} (hr : Reaches (RevDft.next h) (RevDft.start n) s) :
    ∃ l, Yields (RevDft.next h) s l ∧ HintSound (RevDft.sizeHint s) l.length := by
  obtain ⟨pre, l, e, hy⟩ := (S.revDft_yields ha ht).reaches hr
  refine ⟨l, hy, ?_⟩
  have hlast : t.events.reverse.getLast? = some (.opn n) := by
    rw [List.getLast?_reverse, events_head, ht.1]
  have hnd : t.events.reverse.Nodup :=
    List.pairwise_reverse.2 ((events_nodup t (ht.nodup S.toFShape)).imp Ne.symm)
  rcases RevDft.reaches_start hr with rfl | ⟨ev, rfl⟩
  · cases l with
    | nil => simp [HintSound, RevDft.sizeHint]
    | cons x l => obtain ⟨_, e1, _⟩ := hy.cons_inv; simp [RevDft.next] at e1
  · have hfst : ∀ y s', RevDft.next h (some (ev, n)) = .ok (y, s') → y = some ev := by
      intro y s' hh
      simp only [RevDft.next, bind, Except.bind, pure, Except.pure] at hh
      split at hh
      · simp only [Except.ok.injEq, Prod.mk.injEq] at hh; exact hh.1.symm
      · split at hh
        · simp at hh
        · simp only [Except.ok.injEq, Prod.mk.injEq] at hh; exact hh.1.symm
    cases l with
    | nil => obtain ⟨_, e1, _⟩ := hy.nil_inv; simpa using hfst _ _ e1
    | cons x l =>
      obtain ⟨_, e1, _⟩ := hy.cons_inv
      have hx := hfst _ _ e1
      simp only [Option.some.injEq] at hx
      subst hx
      have hl := suffix_last e hlast (by simp)
      have hn2 : (x :: l).Nodup := by rw [e, List.nodup_append] at hnd; exact hnd.2.1
      cases x with
      | cls m =>
        cases l with
        | nil => simp at hl
        | cons y l => simp [HintSound, RevDft.sizeHint]
      | opn m =>
        simp only [RevDft.sizeHint]
        split
        · rename_i hm; subst hm
          have := hint_single hn2 hl
          subst this
          simp [HintSound]
        · simp [HintSound]

/-! ### Size hint of the depth-limited traverser: lower bounds -/

/-- lower bound on the number of events from one event to another, by depths -/
def evDist : Shallow.Ev → Shallow.Ev → Nat
  | .opn (_, d), .opn (_, e) => if e < d then d - e + 3 else e - d + 1
  | .cls (_, d), .cls (_, e) => if d < e then e - d + 3 else d - e + 1
  | .opn (_, d), .cls (_, e) => if e < d then d - e + 2 else e - d + 2
  | .cls (_, d), .opn (_, e) => if e < d then d - e + 2 else e - d + 2

/-- the possible next events, by depths -/
def EvStep : Shallow.Ev → Shallow.Ev → Prop
  | .opn (n, d), .cls (m, e) => n = m ∧ d = e
  | .opn (_, d), .opn (_, e) => e = d + 1
  | .cls (_, d), .opn (_, e) => e = d
  | .cls (_, d), .cls (_, e) => d = e + 1

theorem Shallow.fwd_step {lim : Option Nat} {a b : Shallow.Ev}
    (hf : Shallow.fwd h lim a = .ok (some b)) : EvStep a b := by
  rcases a with ⟨n, d⟩ | ⟨n, d⟩
  · simp only [Shallow.fwd] at hf
    split at hf
    · simp only [Except.ok.injEq, Option.some.injEq] at hf; subst hf; exact ⟨rfl, rfl⟩
    · split at hf
      · simp only [Except.ok.injEq, Option.some.injEq] at hf; subst hf; exact rfl
      · simp only [Except.ok.injEq, Option.some.injEq] at hf; subst hf; exact ⟨rfl, rfl⟩
  · simp only [Shallow.fwd, bind, Except.bind, pure, Except.pure] at hf
    split at hf
    · simp only [Except.ok.injEq, Option.some.injEq] at hf; subst hf; exact rfl
    · split at hf
      · simp at hf
      · simp only [Shallow.decDepth] at hf
        split at hf
        · simp at hf
        · rename_i x _ he
          split at he
          · simp at he
          · simp only [Except.ok.injEq] at he
            simp only [Except.ok.injEq, Option.some.injEq] at hf
            subst hf
            simp only [EvStep]; omega

theorem evDist_step {a b z : Shallow.Ev} (hs : EvStep a b) : evDist a z ≤ evDist b z + 1 := by
  rcases a with ⟨n, d⟩ | ⟨n, d⟩ <;> rcases b with ⟨m, e⟩ | ⟨m, e⟩ <;>
    rcases z with ⟨k, f⟩ | ⟨k, f⟩ <;> simp only [EvStep, evDist] at hs ⊢ <;>
    (repeat' split) <;> omega

theorem evDist_le : ∀ {l : List Shallow.Ev} {a z : Shallow.Ev}, Linked EvStep (a :: l) →
    (a :: l).getLast? = some z → evDist a z ≤ (a :: l).length
  | [], a, z, _, hz => by
    simp only [List.getLast?_singleton, Option.some.injEq] at hz
    subst hz
    rcases a with ⟨n, d⟩ | ⟨n, d⟩ <;> simp [evDist]
  | b :: l, a, z, hl, hz => by
    have := evDist_le (l := l) (a := b) hl.2 (by simpa [List.getLast?_cons_cons] using hz)
    have := evDist_step (z := z) hl.1
    simp only [List.length_cons] at *
    omega

theorem Shallow.Inv.lower {s : Shallow.State} {l : List Shallow.Ev} (I : Shallow.Inv h s l) :
    (Shallow.sizeHint s).1 ≤ l.length := by
  have hl : Linked EvStep l := I.link.mono (fun a b hab => Shallow.fwd_step hab.1)
  match l, I, hl with
  | [], I, _ => simp [Shallow.sizeHint, I.ends]
  | [a], I, _ =>
    have he := I.ends
    simp only [List.head?_cons, List.getLast?_singleton] at he
    rcases a with ⟨n, d⟩ | ⟨n, d⟩ <;> simp [Shallow.sizeHint, he]
  | a :: b :: l, I, hl =>
    have he := I.ends
    obtain ⟨z, hz⟩ : ∃ z, (b :: l).getLast? = some z := by
      rw [List.getLast?_eq_some_getLast (List.cons_ne_nil _ _)]; exact ⟨_, rfl⟩
    simp only [List.getLast?_cons_cons, List.head?_cons, hz] at he
    have h1 := evDist_le (l := l) (a := b) hl.2 hz
    have h2 := hl.1
    have hne : z = b → l = [] := by
      rintro rfl
      have := I.nodup
      have hn : (z :: l).Nodup := by
        rw [List.map_cons, List.nodup_cons] at this
        have h4 := this.2
        clear this
        exact List.Pairwise.of_map (R := fun a b => a ≠ b) (S := fun a b => a ≠ b)
          (DftEvent.map Prod.fst) (fun a b hab e => hab (by rw [e])) h4
      exact hint_single hn hz
    have hcls : ∀ n d, b = .cls (n, d) → z = .cls (n, d) ∨ ∃ c l', l = c :: l' ∧ EvStep b c ∧
        evDist c z ≤ l.length := by
      intro n d hb
      cases l with
      | nil => simp only [List.getLast?_singleton, Option.some.injEq] at hz; exact .inl (by rw [← hz, hb])
      | cons c l' =>
        exact .inr ⟨c, l', rfl, hl.2.1, evDist_le (l := l') hl.2.2
          (by simpa [List.getLast?_cons_cons] using hz)⟩
    simp only [Shallow.sizeHint, he, List.length_cons] at h1 ⊢
    rcases a with ⟨n, d⟩ | ⟨n, d⟩ <;> rcases z with ⟨k, f⟩ | ⟨k, f⟩ <;>
      rcases b with ⟨m, e⟩ | ⟨m, e⟩ <;> simp only [EvStep, evDist] at h1 h2 ⊢
    all_goals first
      | ((repeat' split) <;> (try (simp only [])) <;> (repeat' split at h1) <;> omega)
      | skip
    obtain ⟨rfl, rfl⟩ := h2
    rcases hcls n d rfl with hk | ⟨c, l', rfl, h3, h4⟩
    · simp only [DftEvent.cls.injEq, Prod.mk.injEq] at hk
      obtain ⟨rfl, rfl⟩ := hk
      simp
    · simp only [List.length_cons] at h1 h4 ⊢
      rcases c with ⟨m, e⟩ | ⟨m, e⟩ <;> simp only [EvStep, evDist] at h3 h4 <;>
        (repeat' split) <;> (try (simp only [])) <;> (repeat' split at h1) <;>
        (repeat' split at h4) <;> omega

end Dendron
