import Verif.Spec.Steady
import Verif.Proofs.WideFacts
import Verif.Proofs.IterMore
import Verif.Proofs.IterLast
import Verif.Proofs.Bfs
import Verif.Proofs.MoveMore

/-! Traversals in a tree that nobody edits are independent of everything else. -/

set_option linter.unusedSimpArgs false
set_option autoImplicit false

namespace Dendron
variable {α σ ι : Type} {h h' : Heap α} {ch : NodeId → List NodeId} {n : NodeId} {t : TreeId}
  {T : NodeId → Prop} {w w' : World α}

/-- The nodes `T` are linked in `h'` as they are in `h`, among themselves. -/
structure Agree (T : NodeId → Prop) (h h' : Heap α) : Prop where
  nodes : h.nNode ≤ h'.nNode
  first : ∀ n, T n → h'.firstChildLink n = h.firstChildLink n
  last : ∀ n, T n → h'.lastChildLink n = h.lastChildLink n
  next : ∀ n, T n → h'.nextLink n = h.nextLink n
  prev : ∀ n, T n → h'.prevLink n = h.prevLink n
  parent : ∀ n, T n → h'.parentLink n = h.parentLink n
  firstLast : ∀ n, T n → h'.firstLastChildLink n = h.firstLastChildLink n

/-- The nodes `T` are linked among themselves. -/
structure LinkClosed (T : NodeId → Prop) (h : Heap α) : Prop where
  first : ∀ n m, T n → h.firstChildLink n = some m → T m
  last : ∀ n m, T n → h.lastChildLink n = .ok (some m) → T m
  next : ∀ n m, T n → h.nextLink n = some m → T m
  prev : ∀ n m, T n → h.prevLink n = .ok (some m) → T m
  parent : ∀ n m, T n → h.parentLink n = some m → T m
  firstLast : ∀ n a b, T n → h.firstLastChildLink n = .ok (some (a, b)) → T a ∧ T b

/-- `next` behaves in `h'` as in `h` on the states `P`. -/
def Transfers (P : σ → Prop) (h h' : Heap α) (next : Heap α → σ → Except Fault (Option ι × σ)) : Prop :=
  ∀ s x s', P s → next h s = .ok (x, s') → next h' s = .ok (x, s') ∧ P s'

theorem callsAt_of {P : σ → Prop} {next : Heap α → σ → Except Fault (Option ι × σ)} :
    ∀ {ws : List (World α)} {s : σ} {l : List ι}, (∀ w ∈ ws, Transfers P h w.heap next) → P s →
      Yields (next h) s l → callsAt next ws s = .ok ((List.range ws.length).map (fun i => l[i]?))
  | [], _, _, _, _, _ => rfl
  | w :: ws, s, l, ht, hp, hy => by
    cases hy with
    | @done _ s' h1 h2 =>
      obtain ⟨e1, hp'⟩ := ht w (by simp) _ _ _ hp h1
      have ih := callsAt_of (l := []) (fun v hv => ht v (List.mem_cons_of_mem _ hv)) hp' (.done h2 h2)
      rw [callsAt, e1]
      simp only [ih, Except.map, List.length_cons, List.range_succ_eq_map, List.map_cons, List.map_map]
      simp [Function.comp_def]
    | @more _ x s' l h1 h2 =>
      obtain ⟨e1, hp'⟩ := ht w (by simp) _ _ _ hp h1
      have ih := callsAt_of (fun v hv => ht v (List.mem_cons_of_mem _ hv)) hp' h2
      rw [callsAt, e1]
      simp only [ih, Except.map, List.length_cons, List.range_succ_eq_map, List.map_cons, List.map_map]
      simp [Function.comp_def]

theorem callsAt2_of {P : σ → Prop} {next back : Heap α → σ → Except Fault (Option ι × σ)} :
    ∀ {ws : List (World α × Side)} {s : σ} {l : List (Option ι)},
      (∀ w ∈ ws.map Prod.fst, Transfers P h w.heap next) →
      (∀ w ∈ ws.map Prod.fst, Transfers P h w.heap back) → P s →
      runSched (next h) (back h) (ws.map Prod.snd) s = .ok l → callsAt2 next back ws s = .ok l
  | [], _, _, _, _, _, e => e
  | (w, .front) :: ws, s, l, ht, hb, hp, e => by
    simp only [List.map_cons, runSched] at e
    split at e
    · cases e
    · rename_i x s' h1
      obtain ⟨e1, hp'⟩ := ht w (by simp) _ _ _ hp h1
      cases e2 : runSched (next h) (back h) (ws.map Prod.snd) s' with
      | error f => rw [e2] at e; cases e
      | ok L =>
        have ih := callsAt2_of (fun v hv => ht v (List.mem_cons_of_mem _ hv))
          (fun v hv => hb v (List.mem_cons_of_mem _ hv)) hp' e2
        rw [e2] at e
        simp only [callsAt2, e1, ih]
        exact e
  | (w, .back) :: ws, s, l, ht, hb, hp, e => by
    simp only [List.map_cons, runSched] at e
    split at e
    · cases e
    · rename_i x s' h1
      obtain ⟨e1, hp'⟩ := hb w (by simp) _ _ _ hp h1
      cases e2 : runSched (next h) (back h) (ws.map Prod.snd) s' with
      | error f => rw [e2] at e; cases e
      | ok L =>
        have ih := callsAt2_of (fun v hv => ht v (List.mem_cons_of_mem _ hv))
          (fun v hv => hb v (List.mem_cons_of_mem _ hv)) hp' e2
        rw [e2] at e
        simp only [callsAt2, e1, ih]
        exact e

/-! ### The traversers -/

theorem Agree.evNext (A : Agree T h h') (C : LinkClosed T h) {a : DftEvent NodeId} (ha : T a.value) :
    h'.evNext a = h.evNext a ∧ ∀ b, h.evNext a = some b → T b.value := by
  cases a with
  | opn n =>
    simp only [DftEvent.value] at ha
    refine ⟨by simp only [Heap.evNext, A.first n ha], ?_⟩
    intro b e
    simp only [Heap.evNext] at e
    cases h1 : h.firstChildLink n with
    | none => rw [h1] at e; simp at e; subst e; exact ha
    | some c => rw [h1] at e; simp at e; subst e; exact C.first n c ha h1
  | cls n =>
    simp only [DftEvent.value] at ha
    refine ⟨by simp only [Heap.evNext, A.next n ha, A.parent n ha], ?_⟩
    intro b e
    simp only [Heap.evNext] at e
    cases h1 : h.nextLink n with
    | none =>
      rw [h1] at e
      cases h2 : h.parentLink n with
      | none => rw [h2] at e; simp at e
      | some c => rw [h2] at e; simp at e; subst e; exact C.parent n c ha h2
    | some c => rw [h1] at e; simp at e; subst e; exact C.next n c ha h1

theorem Agree.evPrev (A : Agree T h h') (C : LinkClosed T h) {a : DftEvent NodeId} (ha : T a.value) :
    h'.evPrev a = h.evPrev a ∧ ∀ b, h.evPrev a = .ok (some b) → T b.value := by
  cases a with
  | cls n =>
    simp only [DftEvent.value] at ha
    refine ⟨by simp only [Heap.evPrev, A.last n ha], ?_⟩
    intro b e
    simp only [Heap.evPrev, bind, Except.bind] at e
    cases h1 : h.lastChildLink n with
    | error f => rw [h1] at e; simp at e
    | ok o =>
      cases o with
      | none => rw [h1] at e; simp [pure, Except.pure] at e; subst e; exact ha
      | some c => rw [h1] at e; simp [pure, Except.pure] at e; subst e; exact C.last n c ha h1
  | opn n =>
    simp only [DftEvent.value] at ha
    refine ⟨by simp only [Heap.evPrev, A.prev n ha, A.parent n ha], ?_⟩
    intro b e
    simp only [Heap.evPrev, bind, Except.bind] at e
    cases h1 : h.prevLink n with
    | error f => rw [h1] at e; simp at e
    | ok o =>
      cases o with
      | none =>
        rw [h1] at e
        cases h2 : h.parentLink n with
        | none => rw [h2] at e; simp [pure, Except.pure] at e
        | some c => rw [h2] at e; simp [pure, Except.pure] at e; subst e; exact C.parent n c ha h2
      | some c => rw [h1] at e; simp [pure, Except.pure] at e; subst e; exact C.prev n c ha h1

/-- The nodes a `StableDepthFirstTraverser` holds. -/
def StableDft.In (T : NodeId → Prop) : StableDft.State → Prop
  | none => True
  | some (a, b) => T a.value ∧ T b.value

theorem StableDft.transfers (A : Agree T h h') (C : LinkClosed T h) :
    Transfers (StableDft.In T) h h' StableDft.next := by
  intro s x s' hp e
  cases s with
  | none => simp only [StableDft.next, Except.ok.injEq, Prod.mk.injEq] at e ⊢; exact ⟨e, e.2 ▸ trivial⟩
  | some ab =>
    obtain ⟨a, b⟩ := ab
    obtain ⟨e1, e2⟩ := A.evNext C hp.1
    simp only [StableDft.next, e1, Except.ok.injEq, Prod.mk.injEq] at e ⊢
    refine ⟨e, ?_⟩
    rw [← e.2]
    cases h1 : h.evNext a with
    | none => trivial
    | some c => exact ⟨e2 c h1, hp.2⟩

theorem StableDft.transfers_back (A : Agree T h h') (C : LinkClosed T h) :
    Transfers (StableDft.In T) h h' StableDft.back := by
  intro s x s' hp e
  cases s with
  | none => simp only [StableDft.back, Except.ok.injEq, Prod.mk.injEq] at e ⊢; exact ⟨e, e.2 ▸ trivial⟩
  | some ab =>
    obtain ⟨a, b⟩ := ab
    obtain ⟨e1, e2⟩ := A.evPrev C hp.2
    simp only [StableDft.back, e1, bind, Except.bind] at e ⊢
    refine ⟨e, ?_⟩
    cases h1 : h.evPrev b with
    | error f => rw [h1] at e; cases e
    | ok o =>
      rw [h1] at e
      simp only [pure, Except.pure, Except.ok.injEq, Prod.mk.injEq] at e
      rw [← e.2]
      cases o with
      | none => trivial
      | some c => exact ⟨hp.1, e2 c h1⟩

/-- The nodes a `StableSiblingsTraverser` holds. -/
def StableSib.In (T : NodeId → Prop) : StableSib.State → Prop
  | none => True
  | some (a, b) => T a ∧ T b

theorem StableSib.transfers (A : Agree T h h') (C : LinkClosed T h) :
    Transfers (StableSib.In T) h h' StableSib.next := by
  intro s x s' hp e
  cases s with
  | none => simp only [StableSib.next, Except.ok.injEq, Prod.mk.injEq] at e ⊢; exact ⟨e, e.2 ▸ trivial⟩
  | some ab =>
    obtain ⟨a, b⟩ := ab
    simp only [StableSib.next, A.next a hp.1, Except.ok.injEq, Prod.mk.injEq] at e ⊢
    refine ⟨e, ?_⟩
    rw [← e.2]
    cases h1 : h.nextLink a with
    | none => trivial
    | some c => exact ⟨C.next a c hp.1 h1, hp.2⟩

theorem StableSib.transfers_back (A : Agree T h h') (C : LinkClosed T h) :
    Transfers (StableSib.In T) h h' StableSib.back := by
  intro s x s' hp e
  cases s with
  | none => simp only [StableSib.back, Except.ok.injEq, Prod.mk.injEq] at e ⊢; exact ⟨e, e.2 ▸ trivial⟩
  | some ab =>
    obtain ⟨a, b⟩ := ab
    simp only [StableSib.back, A.prev b hp.2, bind, Except.bind] at e ⊢
    refine ⟨e, ?_⟩
    cases h1 : h.prevLink b with
    | error f => rw [h1] at e; cases e
    | ok o =>
      rw [h1] at e
      simp only [pure, Except.pure, Except.ok.injEq, Prod.mk.injEq] at e
      rw [← e.2]
      cases o with
      | none => trivial
      | some c => exact ⟨hp.1, C.prev b c hp.2 h1⟩

/-- The nodes a `StableShallowDepthFirstTraverser` holds. -/
def Shallow.In (T : NodeId → Prop) (s : Shallow.State) : Prop :=
  ∀ a b, s.next = some (a, b) → T a.value.1 ∧ T b.value.1

theorem Agree.fwd (A : Agree T h h') (C : LinkClosed T h) (lim : Option Nat) {a : Shallow.Ev} (ha : T a.value.1) :
    Shallow.fwd h' lim a = Shallow.fwd h lim a ∧
      ∀ b, Shallow.fwd h lim a = .ok (some b) → T b.value.1 := by
  cases a with
  | opn p =>
    obtain ⟨n, d⟩ := p
    simp only [DftEvent.value] at ha
    refine ⟨by simp only [Shallow.fwd, A.first n ha], ?_⟩
    intro b e
    simp only [Shallow.fwd] at e
    split at e
    · simp at e; subst e; exact ha
    · cases h1 : h.firstChildLink n with
      | none => rw [h1] at e; simp at e; subst e; exact ha
      | some c => rw [h1] at e; simp at e; subst e; exact C.first n c ha h1
  | cls p =>
    obtain ⟨n, d⟩ := p
    simp only [DftEvent.value] at ha
    refine ⟨by simp only [Shallow.fwd, A.next n ha, A.parent n ha], ?_⟩
    intro b e
    simp only [Shallow.fwd] at e
    cases h1 : h.nextLink n with
    | some c => rw [h1] at e; simp at e; subst e; exact C.next n c ha h1
    | none =>
      rw [h1] at e
      cases h2 : h.parentLink n with
      | none => rw [h2] at e; simp at e
      | some c =>
        rw [h2] at e
        simp only [bind, Except.bind] at e
        split at e
        · cases e
        · simp [pure, Except.pure] at e; subst e; exact C.parent n c ha h2

theorem Agree.bwd (A : Agree T h h') (C : LinkClosed T h) (lim : Option Nat) {a : Shallow.Ev} (ha : T a.value.1) :
    Shallow.bwd h' lim a = Shallow.bwd h lim a ∧
      ∀ b, Shallow.bwd h lim a = .ok (some b) → T b.value.1 := by
  cases a with
  | cls p =>
    obtain ⟨n, d⟩ := p
    simp only [DftEvent.value] at ha
    refine ⟨by simp only [Shallow.bwd, A.last n ha], ?_⟩
    intro b e
    simp only [Shallow.bwd] at e
    split at e
    · simp at e; subst e; exact ha
    · simp only [bind, Except.bind] at e
      cases h1 : h.lastChildLink n with
      | error f => rw [h1] at e; simp at e
      | ok o =>
        cases o with
        | none => rw [h1] at e; simp [pure, Except.pure] at e; subst e; exact ha
        | some c => rw [h1] at e; simp [pure, Except.pure] at e; subst e; exact C.last n c ha h1
  | opn p =>
    obtain ⟨n, d⟩ := p
    simp only [DftEvent.value] at ha
    refine ⟨by simp only [Shallow.bwd, A.prev n ha, A.parent n ha], ?_⟩
    intro b e
    simp only [Shallow.bwd, bind, Except.bind] at e
    cases h1 : h.prevLink n with
    | error f => rw [h1] at e; simp at e
    | ok o =>
      cases o with
      | some c => rw [h1] at e; simp [pure, Except.pure] at e; subst e; exact C.prev n c ha h1
      | none =>
        rw [h1] at e
        cases h2 : h.parentLink n with
        | none => rw [h2] at e; simp [pure, Except.pure] at e
        | some c =>
          rw [h2] at e
          simp only [bind, Except.bind] at e
          split at e
          · cases e
          · simp [pure, Except.pure] at e; subst e; exact C.parent n c ha h2

theorem Shallow.transfers (A : Agree T h h') (C : LinkClosed T h) :
    Transfers (Shallow.In T) h h' Shallow.next := by
  intro s x s' hp e
  unfold Shallow.next at e ⊢
  split at e
  · rename_i h0
    simp only [Except.ok.injEq, Prod.mk.injEq] at e
    exact ⟨by rw [e.1, e.2], e.2 ▸ hp⟩
  · rename_i a b h0
    obtain ⟨ha, hb⟩ := hp a b h0
    obtain ⟨e1, e2⟩ := A.fwd C s.lim ha
    simp only [bind, Except.bind, e1] at e ⊢
    refine ⟨e, ?_⟩
    split at e
    · cases e
    · split at e
      · simp only [pure, Except.pure, Except.ok.injEq, Prod.mk.injEq] at e
        rw [← e.2]; intro _ _ h1; cases h1
      · cases h1 : Shallow.fwd h s.lim a with
        | error f => rw [h1] at e; cases e
        | ok o =>
          rw [h1] at e
          simp only [pure, Except.pure, Except.ok.injEq, Prod.mk.injEq] at e
          rw [← e.2]
          intro c d h2
          cases o with
          | none => cases h2
          | some c' =>
            simp only [Option.map_some, Option.some.injEq, Prod.mk.injEq] at h2
            rw [← h2.1, ← h2.2]
            exact ⟨e2 c' h1, hb⟩

theorem Shallow.transfers_back (A : Agree T h h') (C : LinkClosed T h) :
    Transfers (Shallow.In T) h h' Shallow.back := by
  intro s x s' hp e
  unfold Shallow.back at e ⊢
  split at e
  · rename_i h0
    simp only [Except.ok.injEq, Prod.mk.injEq] at e
    exact ⟨by rw [e.1, e.2], e.2 ▸ hp⟩
  · rename_i a b h0
    obtain ⟨ha, hb⟩ := hp a b h0
    obtain ⟨e1, e2⟩ := A.bwd C s.lim hb
    simp only [bind, Except.bind, e1] at e ⊢
    refine ⟨e, ?_⟩
    split at e
    · cases e
    · split at e
      · simp only [pure, Except.pure, Except.ok.injEq, Prod.mk.injEq] at e
        rw [← e.2]; intro _ _ h1; cases h1
      · cases h1 : Shallow.bwd h s.lim b with
        | error f => rw [h1] at e; cases e
        | ok o =>
          rw [h1] at e
          simp only [pure, Except.pure, Except.ok.injEq, Prod.mk.injEq] at e
          rw [← e.2]
          intro c d h2
          cases o with
          | none => cases h2
          | some c' =>
            simp only [Option.map_some, Option.some.injEq, Prod.mk.injEq] at h2
            rw [← h2.1, ← h2.2]
            exact ⟨ha, e2 c' h1⟩

/-! ### Breadth-first -/

theorem NaBfs.skip_transfers (A : Agree T h h') (C : LinkClosed T h) (d : Nat) :
    ∀ (f f' : Nat) (s : Shallow.State) (x : Option NodeId) (s' : Shallow.State), f ≤ f' →
      Shallow.In T s → NaBfs.skip h d f s = .ok (x, s') →
      NaBfs.skip h' d f' s = .ok (x, s') ∧ Shallow.In T s'
  | 0, _, _, _, _, _, _, e => by cases e
  | f + 1, 0, _, _, _, hf, _, _ => by omega
  | f + 1, f' + 1, s, x, s', hf, hp, e => by
    simp only [NaBfs.skip] at e ⊢
    split at e
    · cases e
    · rename_i s1 h1
      obtain ⟨e1, hp'⟩ := Shallow.transfers A C _ _ _ hp h1
      simp only [Except.ok.injEq, Prod.mk.injEq] at e
      rw [e1]; simp only [Except.ok.injEq, Prod.mk.injEq]
      exact ⟨e, e.2 ▸ hp'⟩
    · rename_i m e' s1 h1
      obtain ⟨e1, hp'⟩ := Shallow.transfers A C _ _ _ hp h1
      rw [e1]
      simp only
      split at e
      · rename_i hd
        simp only [Except.ok.injEq, Prod.mk.injEq] at e
        rw [if_pos hd]; simp only [Except.ok.injEq, Prod.mk.injEq]
        exact ⟨e, e.2 ▸ hp'⟩
      · rename_i hd
        rw [if_neg hd]
        exact NaBfs.skip_transfers A C d f f' s1 x s' (by omega) hp' e
    · rename_i m s1 h1
      obtain ⟨e1, hp'⟩ := Shallow.transfers A C _ _ _ hp h1
      rw [e1]
      exact NaBfs.skip_transfers A C d f f' s1 x s' (by omega) hp' e

/-- The nodes a `NonAllocatingBreadthFirstTraverser` holds. -/
def NaBfs.In (T : NodeId → Prop) (s : NaBfs.State) : Prop :=
  Shallow.In T s.inner ∧ ∀ r, s.root = some r → T r

theorem Shallow.start_in {lim : Option Nat} (hn : T n) : Shallow.In T (Shallow.start n lim) := by
  intro a b e
  simp only [Shallow.start, Option.some.injEq, Prod.mk.injEq] at e
  rw [← e.1, ← e.2]
  exact ⟨hn, hn⟩

theorem NaBfs.transfers (A : Agree T h h') (C : LinkClosed T h) :
    Transfers (NaBfs.In T) h h' NaBfs.next := by
  intro s x s' hp e
  have hf : NaBfs.fuel h ≤ NaBfs.fuel h' := by
    have := A.nodes
    simp only [NaBfs.fuel]; omega
  unfold NaBfs.next at e ⊢
  split at e
  · simp only [Except.ok.injEq, Prod.mk.injEq] at e
    exact ⟨by rw [e.1, e.2], e.2 ▸ hp⟩
  · rename_i r hr
    simp only [bind, Except.bind] at e ⊢
    cases h1 : NaBfs.skip h s.depth (NaBfs.fuel h) s.inner with
    | error f => rw [h1] at e; cases e
    | ok v =>
      obtain ⟨o, i⟩ := v
      obtain ⟨e1, hp1⟩ := NaBfs.skip_transfers A C _ _ _ _ _ _ hf hp.1 h1
      rw [h1] at e
      rw [e1]
      cases o with
      | some m =>
        simp only [pure, Except.pure, Except.ok.injEq, Prod.mk.injEq] at e ⊢
        refine ⟨e, ?_⟩
        rw [← e.2]
        exact ⟨hp1, fun r' hr' => hp.2 r' hr'⟩
      | none =>
        simp only at e ⊢
        cases h2 : NaBfs.skip h (s.depth + 1) (NaBfs.fuel h) (Shallow.start r (some (s.depth + 1))) with
        | error f => rw [h2] at e; cases e
        | ok v =>
          obtain ⟨o, j⟩ := v
          obtain ⟨e2, hp2⟩ := NaBfs.skip_transfers A C _ _ _ _ _ _ hf (Shallow.start_in (hp.2 r hr)) h2
          rw [h2] at e
          rw [e2]
          cases o with
          | some m =>
            simp only [pure, Except.pure, Except.ok.injEq, Prod.mk.injEq] at e ⊢
            refine ⟨e, ?_⟩
            rw [← e.2]
            exact ⟨hp2, fun r' hr' => by cases hr'; exact hp.2 r hr⟩
          | none =>
            simp only [pure, Except.pure, Except.ok.injEq, Prod.mk.injEq] at e ⊢
            refine ⟨e, ?_⟩
            rw [← e.2]
            exact ⟨hp2, fun r' hr' => by cases hr'⟩

theorem drain_transfers {P : σ → Prop} {next : Heap α → σ → Except Fault (Option ι × σ)}
    (ht : Transfers P h h' next) {Q : ι → Prop} (hq : ∀ s x s', P s → next h s = .ok (some x, s') → Q x) :
    ∀ (f f' : Nat) (s : σ) (l : List ι), f ≤ f' → P s → drain (next h) f s = .ok l →
      drain (next h') f' s = .ok l ∧ ∀ x ∈ l, Q x
  | 0, _, _, _, _, _, e => by cases e
  | f + 1, 0, _, _, hf, _, _ => by omega
  | f + 1, f' + 1, s, l, hf, hp, e => by
    simp only [drain] at e ⊢
    split at e
    · cases e
    · rename_i s1 h1
      rw [(ht _ _ _ hp h1).1]
      simp only [Except.ok.injEq] at e
      subst e
      exact ⟨rfl, by simp⟩
    · rename_i x s1 h1
      obtain ⟨e1, hp'⟩ := ht _ _ _ hp h1
      rw [e1]
      cases h2 : drain (next h) f s1 with
      | error f => rw [h2] at e; cases e
      | ok l1 =>
        obtain ⟨i1, i2⟩ := drain_transfers ht hq f f' s1 l1 (by omega) hp' h2
        rw [h2] at e
        simp only [Except.ok.injEq] at e
        subst e
        refine ⟨by simp only [i1], ?_⟩
        intro y hy
        rcases List.mem_cons.1 hy with rfl | hy
        · exact hq _ _ _ hp h1
        · exact i2 y hy

theorem AlBfs.childList_transfers (A : Agree T h h') (C : LinkClosed T h) (hn : T n) {l : List NodeId}
    (e : AlBfs.childList h n = .ok l) : AlBfs.childList h' n = .ok l ∧ ∀ x ∈ l, T x := by
  simp only [AlBfs.childList, StableSib.children, bind, Except.bind, A.firstLast n hn] at e ⊢
  cases h1 : h.firstLastChildLink n with
  | error f => rw [h1] at e; cases e
  | ok o =>
    rw [h1] at e
    have hp : StableSib.In T o := by
      cases o with
      | none => trivial
      | some ab => exact C.firstLast n ab.1 ab.2 hn h1
    have hA := A.nodes
    refine drain_transfers (StableSib.transfers A C) (Q := T) ?_ (h.nNode + 2) (h'.nNode + 2) o l
      (by omega) hp e
    intro s x s' hs e
    cases s with
    | none => simp [StableSib.next] at e
    | some ab =>
      obtain ⟨a, b⟩ := ab
      simp only [StableSib.next, Except.ok.injEq, Prod.mk.injEq, Option.some.injEq] at e
      exact e.1 ▸ hs.1

/-- The nodes an `AllocatingBreadthFirstTraverser` holds. -/
def AlBfs.In (T : NodeId → Prop) (s : AlBfs.State) : Prop := ∀ m, some m ∈ s.events → T m

theorem AlBfs.nextF_transfers (A : Agree T h h') (C : LinkClosed T h) :
    ∀ (f : Nat), Transfers (AlBfs.In T) h h' (fun h => AlBfs.nextF h f)
  | 0 => by intro s x s' _ e; cases e
  | f + 1 => by
    intro s x s' hp e
    simp only [AlBfs.nextF] at e ⊢
    split at e
    · rename_i h0
      simp only [Except.ok.injEq, Prod.mk.injEq] at e
      exact ⟨by rw [e.1, e.2], e.2 ▸ hp⟩
    · rename_i m es h0
      simp only [bind, Except.bind] at e ⊢
      have hm : T m := hp m (by rw [h0]; simp)
      cases h1 : AlBfs.childList h m with
      | error f => rw [h1] at e; cases e
      | ok cs =>
        obtain ⟨e1, e2⟩ := AlBfs.childList_transfers A C hm h1
        rw [h1] at e
        rw [e1]
        simp only [pure, Except.pure, Except.ok.injEq, Prod.mk.injEq] at e ⊢
        refine ⟨e, ?_⟩
        rw [← e.2]
        intro k hk
        simp only [List.mem_append, List.mem_map, Option.some.injEq, exists_eq_right] at hk
        rcases hk with hk | hk
        · exact hp k (by rw [h0]; simp [hk])
        · exact e2 k hk
    · rename_i es h0
      split at e
      · rename_i hes
        rw [if_pos hes]
        simp only [Except.ok.injEq, Prod.mk.injEq] at e ⊢
        refine ⟨e, ?_⟩
        rw [← e.2]
        intro k hk; cases hk
      · rename_i hes
        rw [if_neg hes]
        refine AlBfs.nextF_transfers A C f _ _ _ ?_ e
        intro k hk
        simp only [List.mem_append, List.mem_singleton, reduceCtorEq, or_false] at hk
        exact hp k (by rw [h0]; simp [hk])

theorem AlBfs.transfers (A : Agree T h h') (C : LinkClosed T h) : Transfers (AlBfs.In T) h h' AlBfs.next := by
  intro s x s' hp e
  exact AlBfs.nextF_transfers A C _ s x s' hp e

end Dendron

namespace Dendron
variable {α σ ι : Type} {h h' : Heap α} {ch : NodeId → List NodeId} {n : NodeId} {t : TreeId}
  {T : NodeId → Prop} {w w' : World α}

/-! ### A prohibited tree -/

theorem WF.linkClosed (W : WF h ch) (hT : ∀ n, T n ↔ h.alive n = true ∧ h.memTree n = some t) :
    LinkClosed T h := by
  have key : ∀ n m q, T n → h.navTo n q = .ok (some m) → T m := by
    intro n m q hn e
    obtain ⟨ha, hm⟩ := (hT n).1 hn
    obtain ⟨o, h1, h2⟩ := W.navTo ha q
    rw [h1] at e
    obtain ⟨h3, h4⟩ := h2 m (Except.ok.inj e)
    exact (hT m).2 ⟨h3, h4.trans hm⟩
  refine ⟨fun n m hn e => key n m .firstChild hn (by simp [Heap.navTo, e]),
    fun n m hn e => key n m .lastChild hn (by simp [Heap.navTo, e]),
    fun n m hn e => key n m .nextSibling hn (by simp [Heap.navTo, e]),
    fun n m hn e => key n m .prevSibling hn (by simp [Heap.navTo, e]),
    fun n m hn e => key n m .parent hn (by simp [Heap.navTo, e]), ?_⟩
  intro n a b hn e
  obtain ⟨ha, -⟩ := (hT n).1 hn
  have C := W.coherent
  rw [C.firstLastChild n ha] at e
  have h1 := C.firstChild n ha
  have h2 := C.lastChild n ha
  cases e1 : (ch n).head? with
  | none => rw [e1] at e; simp at e
  | some f =>
    cases e2 : (ch n).getLast? with
    | none => rw [e1, e2] at e; simp at e
    | some l =>
      rw [e1, e2] at e
      simp only [Except.ok.injEq, Option.some.injEq, Prod.mk.injEq] at e
      rw [e1, e.1] at h1
      rw [e2, e.2] at h2
      exact ⟨key n a .firstChild hn (by simp [Heap.navTo, h1]),
        key n b .lastChild hn (by simp [Heap.navTo, h2])⟩

theorem Agree.refl (T : NodeId → Prop) (h : Heap α) : Agree T h h :=
  ⟨Nat.le_refl _, fun _ _ => rfl, fun _ _ => rfl, fun _ _ => rfl, fun _ _ => rfl, fun _ _ => rfl,
    fun _ _ => rfl⟩

theorem Agree.trans {h'' : Heap α} (A : Agree T h h') (B : Agree T h' h'') : Agree T h h'' :=
  ⟨Nat.le_trans A.nodes B.nodes, fun n hn => (B.first n hn).trans (A.first n hn),
    fun n hn => (B.last n hn).trans (A.last n hn), fun n hn => (B.next n hn).trans (A.next n hn),
    fun n hn => (B.prev n hn).trans (A.prev n hn), fun n hn => (B.parent n hn).trans (A.parent n hn),
    fun n hn => (B.firstLast n hn).trans (A.firstLast n hn)⟩

/-- What is known about the nodes `T` of the prohibited tree `t`. -/
structure Kept2 (T : NodeId → Prop) (t : TreeId) (w v : World α) (ch : NodeId → List NodeId) : Prop where
  wide : Wide w v ch
  mem : ∀ n, T n → w.heap.alive n = true ∧ w.heap.memTree n = some t
  up : ∀ n p, T n → n ∈ ch p → T p
  down : ∀ n c, T n → (ch n).head? = some c → T c
  right : ∀ n, T n → LastRight w.heap ch n

/-- Both memories have the same links there. -/
theorem Kept2.agree {v : World α} (K : Kept2 T t w v ch) : Agree T v.heap w.heap := by
  have W := K.wide
  have hal : ∀ n, T n → v.heap.alive n = true := fun n hn => by
    rw [W.sim.heap.alive]; exact (K.mem n hn).1
  have hD : ∀ n, T n → ¬ (w.heap.prevCyc n ≠ v.heap.prevCyc n) := by
    intro n hn hd
    obtain ⟨p, hp⟩ := (W.heads n hd).2 (hal n hn)
    exact hd (W.lastRight (K.right p (K.up n p hn (List.mem_of_head? hp))) hp)
  have hF : ∀ n, T n → FirstNot (fun x => w.heap.prevCyc x ≠ v.heap.prevCyc x) v.heap n := by
    intro n hn f hf
    have hf : v.heap.firstChild n = some f := hf
    rw [W.inv.wf.first n (hal n hn)] at hf
    exact hD f (K.down n f hn hf)
  have S := W.sim.heap.symm
  refine ⟨Nat.le_of_eq S.nNode.symm, fun n hn => by rw [S.firstChildLink], fun n hn => S.lastChildLink (hF n hn),
    fun n hn => by rw [S.nextLink], fun n hn => S.prevLink (hD n hn), fun n hn => by rw [S.parentLink],
    fun n hn => S.firstLastChildLink (hF n hn)⟩

/-- A call while tree `t` is prohibited and stays alive leaves its nodes and their links alone. -/
theorem World.StepW.agree {op : Op α} {r : Res} {v : World α} (Kt : Kept2 T t w v ch) (s : w.StepW op w' r)
    (hp : w.ProhAlive t) (hh : w'.TreeHeld t) :
    ∃ v' ch', Kept2 T t w' v' ch' ∧ Agree T v.heap v'.heap := by
  have W := Kt.wide
  obtain ⟨v', ch', W', K, hlast, -⟩ := s.wide W
  have hta' := W'.treeHeld_iff.1 hh
  have hta2 : v'.heap.treeAlive t = true := by rw [W'.sim.heap.treeAlive]; exact hta'
  have hta : w.heap.treeAlive t = true ∧ t < w.heap.nTree := by
    have hlt : t < w.heap.nTree := by
      rcases hp with h1 | ⟨x, h1, h2⟩
      · exact W.toks t (Nat.lt_of_lt_of_le h1 (Nat.le_add_left _ _))
      · exact W.fwd.tree.bound t (W.fwd.tree_alive (W.held_alive h1) ((W.nodeTree_held h1).1 h2))
    refine ⟨?_, hlt⟩
    cases e : w.heap.treeAlive t with
    | true => rfl
    | false =>
      rw [K.freshTree t (by rw [W.sim.heap.nTree]; exact hlt) (by rw [W.sim.heap.treeAlive]; exact e)] at hta2
      cases hta2
  have hu : ¬ Edits w.heap op t := by
    intro he
    have h1 := W.edits_grants s.allowed s.tokenOK he
    have h2 := (W.alive_locks hta.1).2.1 hp
    omega
  have hu' : ¬ Edits v.heap op t := fun he => hu ((W.edits t).1 he)
  have hdrops : ∀ p, w.heap.memTree p = some t → ¬ DropsLast ch op p := by
    intro p hpt hd
    have key : ∀ n, LastOf ch n p → w.heap.memTree n = some t := by
      rintro n ⟨l, a, e⟩
      have hm : n ∈ ch p := by rw [e]; simp
      rw [W.fwd.tree.child n p (W.shape.alive_of_mem hm) (W.shape.parent_of_mem hm)]; exact hpt
    cases op <;> simp only [DropsLast] at hd
    case detach a n => exact hu (key n hd)
    case replace a n => exact hu (key n hd.2)
    case move a n dest => exact hu (.inl (key n hd))
  have key : ∀ n, T n → v'.heap.alive n = true ∧ v'.heap.memTree n = some t ∧ ch' n = ch n ∧
      (∀ p, n ∈ ch' p ↔ n ∈ ch p) ∧ ∀ q, v'.heap.navTo n q = v.heap.navTo n q := by
    intro n hn
    obtain ⟨ha, hm⟩ := Kt.mem n hn
    rw [← W.sim.heap.alive] at ha
    rw [← W.sim.heap.memTree] at hm
    have ha' : v'.heap.alive n = true := by
      cases hx : v'.heap.alive n with
      | true => rfl
      | false => rw [K.died n t ha hx hm] at hta2; cases hta2
    obtain ⟨h1, h2, h3, h4⟩ := K.navTo W.inv.wf W'.inv.wf hu' ha hm ha'
    exact ⟨ha', h1, h2, h3, h4⟩
  have hal : ∀ n, T n → v.heap.alive n = true := fun n hn => by
    rw [W.sim.heap.alive]; exact (Kt.mem n hn).1
  have hal' : ∀ n, T n → w'.heap.alive n = true := fun n hn => by
    rw [← W'.sim.heap.alive]; exact (key n hn).1
  refine ⟨v', ch', ⟨W', fun n hn => ⟨hal' n hn, ?_⟩, ?_, ?_, ?_⟩, ⟨K.nodes, ?_, ?_, ?_, ?_, ?_, ?_⟩⟩
  · rw [← W'.sim.heap.memTree]; exact (key n hn).2.1
  · intro n p hn hm; exact Kt.up n p hn (((key n hn).2.2.2.1 p).1 hm)
  · intro n c hn hc
    rw [(key n hn).2.2.1] at hc
    exact Kt.down n c hn hc
  · intro n hn
    obtain ⟨ha, hm⟩ := Kt.mem n hn
    exact hlast n ha (hal' n hn) (Kt.right n hn) (hdrops n hm)
  · intro n hn; exact Except.ok.inj ((key n hn).2.2.2.2 .firstChild)
  · intro n hn; exact (key n hn).2.2.2.2 .lastChild
  · intro n hn; exact Except.ok.inj ((key n hn).2.2.2.2 .nextSibling)
  · intro n hn; exact (key n hn).2.2.2.2 .prevSibling
  · intro n hn; exact Except.ok.inj ((key n hn).2.2.2.2 .parent)
  · intro n hn
    rw [W.inv.wf.coherent.firstLastChild n (hal n hn), W'.inv.wf.coherent.firstLastChild n (key n hn).1,
      (key n hn).2.2.1]

theorem During.agree {h0 : Heap α} {ws : List (World α)} {v : World α} (D : During t w ws)
    (K : Kept2 T t w v ch) (hp : w.ProhAlive t)
    (A : Agree T h0 v.heap) : ∀ x ∈ ws, Agree T h0 x.heap := by
  induction D generalizing v ch with
  | nil => intro v hv; cases hv
  | other s hp' hh _ ih =>
    obtain ⟨v', ch', K', A'⟩ := s.agree K hp hh
    exact ih K' hp' (A.trans A')
  | call _ ih =>
    intro x hx
    rcases List.mem_cons.1 hx with rfl | hx
    · exact A.trans K.agree
    · exact ih K hp A x hx

/-- Everything about a tree prohibited in a reachable state: there is a consistent memory `h` with the same
links in this tree. -/
theorem ReachW.steady (hr : ReachW w) (hp : w.ProhAlive t) (hF : FShape w.heap ch)
    (hL : TreeRight w.heap ch t) :
    ∃ h : Heap α, WF h ch ∧ h.alive = w.heap.alive ∧ h.memTree = w.heap.memTree ∧ h.nNode = w.heap.nNode ∧
      LinkClosed (fun n => w.heap.alive n = true ∧ w.heap.memTree n = some t) h ∧
      Agree (fun n => w.heap.alive n = true ∧ w.heap.memTree n = some t) h w.heap ∧
      (∀ n, w.heap.alive n = true → w.heap.memTree n = some t → h.lastSibling n = w.heap.lastSibling n) ∧
      ∀ ws, During t w ws → ∀ v ∈ ws,
        Agree (fun n => w.heap.alive n = true ∧ w.heap.memTree n = some t) h v.heap := by
  obtain ⟨v, ch1, W⟩ := hr.wide
  obtain rfl := W.shape.unique hF
  have hL' : ∀ p, w.heap.alive p = true → w.heap.memTree p = some t → LastRight w.heap ch1 p :=
    fun p ha hm => hL p ha ((W.fwd.tree.treeCore_iff ha).2 hm)
  have hup : ∀ n p, (w.heap.alive n = true ∧ w.heap.memTree n = some t) → n ∈ ch1 p →
      w.heap.alive p = true ∧ w.heap.memTree p = some t := fun n p hn hm =>
    ⟨W.shape.alive_parent hm, by
      rw [← W.fwd.tree.child n p hn.1 (W.shape.parent_of_mem hm)]; exact hn.2⟩
  have K : Kept2 (fun n => w.heap.alive n = true ∧ w.heap.memTree n = some t) t w v ch1 := by
    refine ⟨W, fun n hn => hn, hup, fun n c hn hc => ?_, fun n hn => hL' n hn.1 hn.2⟩
    have hm := List.mem_of_head? hc
    have ha := W.shape.alive_of_mem hm
    exact ⟨ha, by rw [W.fwd.tree.child c n ha (W.shape.parent_of_mem hm)]; exact hn.2⟩
  refine ⟨v.heap, W.inv.wf, W.sim.heap.alive, W.sim.heap.memTree, W.sim.heap.nNode,
    W.inv.wf.linkClosed (fun n => by rw [W.sim.heap.alive, W.sim.heap.memTree]), K.agree, ?_,
    fun ws D => D.agree K hp (Agree.refl _ _)⟩
  intro n ha hm
  have := W.navTo (n := n) (q := .lastSibling) (kd := .plain) ha (by
    intro p hp'
    obtain ⟨h1, h2⟩ := hup n p ⟨ha, hm⟩ hp'
    exact hL' p h1 h2)
  simp only [Heap.navTo] at this
  cases e1 : v.heap.lastSibling n with
  | error e =>
    cases e2 : w.heap.lastSibling n with
    | error e' => rw [e1, e2] at this; simpa [Except.map] using this.symm
    | ok x => rw [e1, e2] at this; simp [Except.map] at this
  | ok y =>
    cases e2 : w.heap.lastSibling n with
    | error e' => rw [e1, e2] at this; simp [Except.map] at this
    | ok x => rw [e1, e2] at this; simpa [Except.map] using this.symm

end Dendron
