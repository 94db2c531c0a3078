import Verif.Model.Cost
import Verif.Spec.Cost
import Verif.Proofs.Bfs

/-! Costs of the breadth-first traversals. -/

set_option linter.unusedSimpArgs false
set_option linter.unusedVariables false

set_option autoImplicit false

namespace Dendron
open RTree

variable {α β : Type} {h : Heap α} {ch : NodeId → List NodeId} {n p : NodeId}

/-! ### The counting versions do the same -/

theorem drainC_erase {σ ι : Type} (next : σ → Step σ ι) : ∀ (f : Nat) (s : σ),
    Counts (drain next f s) (drainC next f s)
  | 0, s => rfl
  | f + 1, s => by
    have ih := drainC_erase next f
    simp only [Counts] at ih ⊢
    simp only [drain, drainC]
    rcases next s with e | ⟨_ | x, s'⟩
    · rfl
    · rfl
    · simp only
      rw [ih s']
      cases drainC next f s' <;> rfl

theorem NaBfs.skipC_erase (h : Heap α) (d : Nat) : ∀ (f : Nat) (s : Shallow.State),
    Counts (NaBfs.skip h d f s) (NaBfs.skipC h d f s)
  | 0, s => rfl
  | f + 1, s => by
    have ih := NaBfs.skipC_erase h d f
    simp only [Counts] at ih ⊢
    simp only [NaBfs.skip, NaBfs.skipC]
    rcases Shallow.next h s with e | ⟨_ | ⟨n, e⟩ | _, s'⟩
    · rfl
    · rfl
    · simp only
      by_cases he : e = d
      · simp only [he, if_true, Except.map]
      · simp only [he, if_false]
        rw [ih s']
        cases NaBfs.skipC h d f s' <;> rfl
    · simp only
      rw [ih s']
      cases NaBfs.skipC h d f s' <;> rfl

theorem NaBfs.nextC_erase (h : Heap α) (s : NaBfs.State) : Counts (NaBfs.next h s) (NaBfs.nextC h s) := by
  have h1 := NaBfs.skipC_erase h s.depth (NaBfs.fuel h) s.inner
  simp only [Counts] at h1 ⊢
  simp only [NaBfs.next, NaBfs.nextC, bind, Except.bind, pure, Except.pure]
  cases hr : s.root with
  | none => rfl
  | some r =>
    simp only
    have h2 := NaBfs.skipC_erase h (s.depth + 1) (NaBfs.fuel h) (Shallow.start r (some (s.depth + 1)))
    simp only [Counts] at h2
    rw [h1]
    cases h3 : NaBfs.skipC h s.depth (NaBfs.fuel h) s.inner with
    | error e => rfl
    | ok v =>
      obtain ⟨⟨x, i⟩, c⟩ := v
      cases x with
      | some m => rfl
      | none =>
        simp only [Except.map]
        rw [h2]
        cases h4 : NaBfs.skipC h (s.depth + 1) (NaBfs.fuel h) (Shallow.start r (some (s.depth + 1))) with
        | error e => rfl
        | ok v =>
          obtain ⟨⟨y, j⟩, c'⟩ := v
          cases y <;> rfl

theorem AlBfs.startC_erase (h : Heap α) (n : NodeId) (d : Nat) :
    Counts (AlBfs.start h n d) (AlBfs.startC h n d) := by
  have h1 := drainC_erase (Shallow.next h) (NaBfs.fuel h) (Shallow.start n (some d))
  simp only [Counts] at h1 ⊢
  simp only [AlBfs.start, AlBfs.startC, bind, Except.bind, pure, Except.pure]
  split
  · rfl
  · rw [h1]
    cases drainC (Shallow.next h) (NaBfs.fuel h) (Shallow.start n (some d)) <;> rfl

theorem AlBfs.childListC_erase (h : Heap α) (n : NodeId) :
    Counts (AlBfs.childList h n) (AlBfs.childListC h n) := by
  simp only [Counts, AlBfs.childList, AlBfs.childListC, bind, Except.bind, pure, Except.pure]
  cases StableSib.children h n with
  | error e => rfl
  | ok s =>
    have h1 := drainC_erase (StableSib.next h) (h.nNode + 2) s
    simp only [Counts] at h1
    simp only [h1]
    cases drainC (StableSib.next h) (h.nNode + 2) s <;> rfl

theorem AlBfs.nextFC_erase (h : Heap α) : ∀ (f : Nat) (s : AlBfs.State),
    Counts (AlBfs.nextF h f s) (AlBfs.nextFC h f s)
  | 0, s => rfl
  | f + 1, s => by
    have ih := AlBfs.nextFC_erase h f
    simp only [Counts] at ih ⊢
    simp only [AlBfs.nextF, AlBfs.nextFC, bind, Except.bind, pure, Except.pure]
    cases hs : s.events with
    | nil => rfl
    | cons a es =>
      cases a with
      | some m =>
        have h1 := AlBfs.childListC_erase h m
        simp only [Counts] at h1
        simp only [h1]
        cases AlBfs.childListC h m <;> rfl
      | none =>
        simp only
        split
        · rfl
        · rw [ih]
          cases AlBfs.nextFC h f ⟨es ++ [none], s.depth + 1⟩ <;> rfl

theorem AlBfs.nextC_erase (h : Heap α) (s : AlBfs.State) :
    Counts (AlBfs.next h s) (AlBfs.nextC h s) := AlBfs.nextFC_erase h _ s

theorem Counts.ok_inv {α : Type} {f : Except Fault α} {g : Except Fault (α × Nat)} (hc : Counts f g)
    {x : α} (e : f = .ok x) : ∃ c, g = .ok (x, c) := by
  simp only [Counts] at hc
  cases g with
  | error e' => rw [e] at hc; cases hc
  | ok v =>
    obtain ⟨y, c⟩ := v
    rw [e] at hc
    simp only [Except.map, Except.ok.injEq] at hc
    exact ⟨c, by rw [hc]⟩

/-! ### Non-allocating traverser -/

/-- what a scan costs: the events before the next node of the level, or all of them and the final
`None` -/
theorem NaBfs.skipC_cost (d : Nat) : ∀ {l : List Shallow.Ev} {s : Shallow.State} {f : Nat},
    Shallow.Inv h s l → l.length < f →
    match opensAt d l with
    | [] => ∃ s', NaBfs.skipC h d f s = .ok ((none, s'), l.length + 1)
    | x :: r => ∃ s' l' c, NaBfs.skipC h d f s = .ok ((some x, s'), c) ∧ Shallow.Inv h s' l' ∧
        opensAt d l' = r ∧ l'.length + c = l.length
  | [], s, f + 1, I, hf => by
    obtain ⟨s', e, _⟩ := I.front
    exact ⟨s', by simp [NaBfs.skipC, e]⟩
  | .cls x :: l, s, f + 1, I, hf => by
    obtain ⟨s', e, I', _⟩ := I.front
    have ih := NaBfs.skipC_cost d (f := f) I' (by simpa using hf)
    have ho : opensAt d (.cls x :: l) = opensAt d l := by simp [opensAt]
    simp only [List.tail_cons] at ih
    rw [ho]
    split at ih
    · rename_i hh
      obtain ⟨s2, e2⟩ := ih
      exact ⟨s2, by simp [NaBfs.skipC, e, e2]⟩
    · rename_i hh
      obtain ⟨s2, l', c, e2, I2, hr, hl⟩ := ih
      exact ⟨s2, l', c + 1, by simp [NaBfs.skipC, e, e2], I2, hr, by simp; omega⟩
  | .opn (m, k) :: l, s, f + 1, I, hf => by
    obtain ⟨s', e, I', _⟩ := I.front
    by_cases hk : k = d
    · have ho : opensAt d (.opn (m, k) :: l) = m :: opensAt d l := by simp [opensAt, hk]
      rw [ho]
      exact ⟨s', l, 1, by simp [NaBfs.skipC, e, hk], I', rfl, by simp⟩
    · have ih := NaBfs.skipC_cost d (f := f) I' (by simpa using hf)
      have ho : opensAt d (.opn (m, k) :: l) = opensAt d l := by simp [opensAt, hk]
      simp only [List.tail_cons] at ih
      rw [ho]
      split at ih
      · rename_i hh
        obtain ⟨s2, e2⟩ := ih
        exact ⟨s2, by simp [NaBfs.skipC, e, e2, hk]⟩
      · rename_i hh
        obtain ⟨s2, l', c, e2, I2, hr, hl⟩ := ih
        exact ⟨s2, l', c + 1, by simp [NaBfs.skipC, e, e2, hk], I2, hr, by simp; omega⟩
  | _, s, 0, _, hf => by simp at hf

/-- what the traversal costs: one scan of the nodes of depth at most `k` for every `k` from `d` to
one more than the height -/
def scans (t : RTree β) (d : Nat) : Nat → Nat
  | 0 => (t.eventsD (some d) 0).length + 1
  | k + 1 => (t.eventsD (some d) 0).length + 1 + scans t (d + 1) k

theorem NaBfs.cost_from (S : Shape h ch) {t : RTree NodeId} (ha : h.alive n = true)
    (ht : SubtreeAt ch n t) : ∀ (k d : Nat) (l : List Shallow.Ev) (s : Shallow.State),
    t.height - d = k → Shallow.Inv h s l → l.length < NaBfs.fuel h →
    YieldsIn (NaBfs.nextC h) ⟨s, some n, d⟩
      ((opensAt d l).map (fun v => (v, d)) ++ t.bfs (d + 1)) (l.length + 1 + scans t (d + 1) k) := by
  have hsize : ∀ lim, (t.eventsD lim 0).length < NaBfs.fuel h := by
    intro lim
    have h1 := eventsD_length_le lim 0 t
    have h2 := ht.size_le S.toFShape ha
    simp only [NaBfs.fuel]; omega
  have here : ∀ (d : Nat) (l : List Shallow.Ev) (s : Shallow.State) (x : NodeId) (r : List NodeId) (C : Nat)
      (b : List (NodeId × Nat)), Shallow.Inv h s l → l.length < NaBfs.fuel h → opensAt d l = x :: r →
      (∀ l' s', Shallow.Inv h s' l' → l'.length < NaBfs.fuel h → opensAt d l' = r →
        YieldsIn (NaBfs.nextC h) ⟨s', some n, d⟩ (r.map (fun v => (v, d)) ++ b) (l'.length + 1 + C)) →
      YieldsIn (NaBfs.nextC h) ⟨s, some n, d⟩ ((x :: r).map (fun v => (v, d)) ++ b) (l.length + 1 + C) := by
    intro d l s x r C b I hf ho ih
    have h1 := NaBfs.skipC_cost d I hf
    rw [ho] at h1
    obtain ⟨s1, l', c, e1, I1, hr, hl⟩ := h1
    have hy := YieldsIn.more (next := NaBfs.nextC h) (s := ⟨s, some n, d⟩) (s' := ⟨s1, some n, d⟩)
      (x := (x, d)) (c := c) (by simp only [NaBfs.nextC, e1, bind, Except.bind, pure, Except.pure]) (ih l' s1 I1 (by omega) hr)
    have ec : c + (l'.length + 1 + C) = l.length + 1 + C := by omega
    rw [ec] at hy
    exact hy
  intro k
  induction k with
  | zero =>
    intro d l s hk I hf
    have hnil : t.level (d + 1) = [] :=
      Classical.not_not.1 (fun hc => by have := (level_ne_nil _ t).1 hc; omega)
    rw [bfs_nil hnil]
    generalize ho : opensAt d l = os
    induction os generalizing l s with
    | nil =>
      have h1 := NaBfs.skipC_cost d I hf
      rw [ho] at h1
      obtain ⟨s1, e1⟩ := h1
      have h2 := NaBfs.skipC_cost (d + 1) (S.shallow_inv (some (d + 1)) ha ht) (hsize _)
      rw [opensAt_level, hnil] at h2
      obtain ⟨s2, e2⟩ := h2
      exact .done (s' := ⟨s2, none, d + 1⟩)
        (by simp [NaBfs.nextC, e1, e2, bind, Except.bind, pure, Except.pure, scans])
    | cons x r ih => exact here d l s x r _ _ I hf ho (fun l' s' I' hf' ho' => ih l' s' I' hf' ho')
  | succ k ihk =>
    intro d l s hk I hf
    generalize ho : opensAt d l = os
    induction os generalizing l s with
    | nil =>
      have h1 := NaBfs.skipC_cost d I hf
      rw [ho] at h1
      obtain ⟨s1, e1⟩ := h1
      have h2 := NaBfs.skipC_cost (d + 1) (S.shallow_inv (some (d + 1)) ha ht) (hsize _)
      rw [opensAt_level] at h2
      rw [bfs_unfold]
      cases hlev : t.level (d + 1) with
      | nil => exact absurd hlev ((level_ne_nil _ t).2 (by omega))
      | cons x r =>
        rw [hlev] at h2
        obtain ⟨s2, l', c, e2, I2, hr, hl⟩ := h2
        have := ihk (d + 1) l' s2 (by omega) I2 (by have := hsize (some (d + 1)); omega)
        rw [hr] at this
        have hy := YieldsIn.more (next := NaBfs.nextC h) (s := ⟨s, some n, d⟩) (x := (x, d + 1)) (s' := ⟨s2, some n, d + 1⟩)
          (c := l.length + 1 + c)
          (by simp [NaBfs.nextC, e1, e2, bind, Except.bind, pure, Except.pure]) this
        have ec : l.length + 1 + c + (l'.length + 1 + scans t (d + 1 + 1) k) =
            l.length + 1 + scans t (d + 1) (k + 1) := by simp only [scans]; omega
        rw [ec] at hy
        exact hy
    | cons x r ih => exact here d l s x r _ _ I hf ho (fun l' s' I' hf' ho' => ih l' s' I' hf' ho')

theorem Shape.nabfs_cost (S : Shape h ch) {t : RTree NodeId} (ha : h.alive n = true)
    (ht : SubtreeAt ch n t) (d : Nat) :
    YieldsIn (NaBfs.nextC h) (NaBfs.start n d) (t.bfs d) (scans t d (t.height - d + 1)) := by
  have hsize : (t.eventsD (some d) 0).length < NaBfs.fuel h := by
    have h1 := eventsD_length_le (some d) 0 t
    have h2 := ht.size_le S.toFShape ha
    simp only [NaBfs.fuel]; omega
  have := NaBfs.cost_from S ha ht _ d _ _ rfl (S.shallow_inv (some d) ha ht) hsize
  rw [opensAt_level, ← bfs_unfold] at this
  exact this

theorem scans_le (t : RTree β) : ∀ (k d : Nat), scans t d k ≤ (k + 1) * (2 * t.nodes.length + 1)
  | 0, d => by have := eventsD_length_le (some d) 0 t; simp only [scans]; omega
  | k + 1, d => by
    have h1 := eventsD_length_le (some d) 0 t
    have h2 := scans_le t k (d + 1)
    simp only [scans]
    rw [Nat.succ_mul (k + 1)]
    omega

mutual
theorem eventsD_length_ge : ∀ (k j : Nat) (t : RTree β), k ≤ t.height →
    2 * (k + 1) ≤ (t.eventsD (some (j + k)) j).length
  | 0, j, .node v cs, hk => by simp [eventsD]
  | k + 1, j, .node v cs, hk => by
    have hne : ¬ (j + (k + 1) = j) := by omega
    have e : j + 1 + k = j + (k + 1) := by omega
    have ih := eventsDL_length_ge k (j + 1) cs (by simpa [height] using hk)
    rw [e] at ih
    simp only [eventsD, Option.some.injEq, hne, if_false, List.length_cons, List.length_append, List.length_nil]
    omega
theorem eventsDL_length_ge : ∀ (k j : Nat) (cs : List (RTree β)), k + 1 ≤ heightL cs →
    2 * (k + 1) ≤ (eventsDL (some (j + k)) j cs).length
  | k, j, [], hk => by simp [heightL] at hk
  | k, j, c :: cs, hk => by
    simp only [heightL] at hk
    simp only [eventsDL, List.length_append]
    by_cases h1 : k ≤ c.height
    · have := eventsD_length_ge k j c h1; omega
    · have := eventsDL_length_ge k j cs (by omega); omega
end

theorem scans_ge (t : RTree β) : ∀ (k d : Nat), d + k = t.height + 1 →
    (t.height + 1) * (t.height + 1) ≤ scans t d k + d * d
  | 0, d, e => by
    simp only [Nat.add_zero] at e
    rw [e]; omega
  | k + 1, d, e => by
    have h1 := eventsD_length_ge d 0 t (by omega)
    have h2 := scans_ge t k (d + 1) (by omega)
    simp only [Nat.zero_add] at h1
    simp only [scans]
    have e2 : (d + 1) * (d + 1) = d * d + 2 * d + 1 := by
      rw [Nat.succ_mul, Nat.mul_succ]; omega
    omega

mutual
theorem height_lt : ∀ t : RTree β, t.height < t.nodes.length
  | .node v cs => by
    have := heightL_le cs
    simp only [height, nodes, List.length_cons]; omega
theorem heightL_le : ∀ cs : List (RTree β), heightL cs ≤ (nodesL cs).length
  | [] => by simp [heightL]
  | c :: cs => by
    have h1 := height_lt c
    have h2 := heightL_le cs
    simp only [heightL, nodesL, List.length_append]; omega
end

/-! ### Allocating traverser -/

theorem drainC_of_yields {σ ι : Type} {next : σ → Step σ ι} : ∀ {l : List ι} {s : σ} {f : Nat},
    Yields next s l → l.length < f → drainC next f s = .ok (l, l.length + 1)
  | [], s, f + 1, hy, hf => by
    cases hy with
    | done e1 e2 => simp [drainC, e1]
  | x :: l, s, f + 1, hy, hf => by
    cases hy with
    | more e hy' =>
      have := drainC_of_yields hy' (f := f) (by simpa using hf)
      simp [drainC, e, this]
  | _, s, 0, _, hf => by simp at hf

theorem Shape.childListC (S : Shape h ch) (ha : h.alive p = true) :
    AlBfs.childListC h p = .ok (ch p, (ch p).length + 2) := by
  obtain ⟨s, e, hy⟩ := S.children_stable ha
  have hl := S.toFShape.length_le p
  have := drainC_of_yields (f := h.nNode + 2) hy (by omega)
  simp [AlBfs.childListC, e, this, bind, Except.bind, pure, Except.pure]

theorem AlBfs.nextFC_step (S : Shape h ch) {t : RTree NodeId} (f : Nat) {s : AlBfs.State} {x : NodeId}
    {r nxt : List NodeId} (I : AlBfs.Inv h ch t s (x :: r) nxt) :
    ∃ s', AlBfs.nextFC h (f + 1) s = .ok ((some (x, s.depth), s'), (ch x).length + 3) ∧ s'.depth = s.depth ∧
      AlBfs.Inv h ch t s' r (nxt ++ ch x) := by
  obtain ⟨s', e, hd, I'⟩ := AlBfs.nextF_step S f I
  refine ⟨s', ?_, hd, I'⟩
  have hax : h.alive x = true := I.alive x (by simp)
  rw [AlBfs.nextF, I.queue] at e
  rw [AlBfs.nextFC, I.queue]
  simp only [List.map_cons, List.cons_append, S.childList hax, bind, Except.bind, pure, Except.pure,
    Except.ok.injEq, Prod.mk.injEq, true_and] at e
  simp [S.childListC hax, bind, Except.bind, pure, Except.pure, ← e]

theorem AlBfs.cost_from (S : Shape h ch) {t : RTree NodeId} (hH : Hier ch t) :
    ∀ (k : Nat) (cur nxt : List NodeId) (s : AlBfs.State),
    t.height + 1 - s.depth = k → AlBfs.Inv h ch t s cur nxt →
    ∃ c, YieldsIn (AlBfs.nextC h) s (cur.map (fun v => (v, s.depth)) ++ t.bfs (s.depth + 1)) c ∧
      c ≤ 3 * cur.length + (cur.flatMap ch).length + 4 * (t.bfs (s.depth + 1)).length +
        (t.bfs (s.depth + 2)).length + 1 := by
  have here : ∀ (x : NodeId) (r nxt : List NodeId) (s : AlBfs.State),
      AlBfs.Inv h ch t s (x :: r) nxt →
      (∀ s' nxt', s'.depth = s.depth → AlBfs.Inv h ch t s' r nxt' →
        ∃ c, YieldsIn (AlBfs.nextC h) s' (r.map (fun v => (v, s'.depth)) ++ t.bfs (s'.depth + 1)) c ∧
        c ≤ 3 * r.length + (r.flatMap ch).length + 4 * (t.bfs (s'.depth + 1)).length +
          (t.bfs (s'.depth + 2)).length + 1) →
      ∃ c, YieldsIn (AlBfs.nextC h) s ((x :: r).map (fun v => (v, s.depth)) ++ t.bfs (s.depth + 1)) c ∧
        c ≤ 3 * (x :: r).length + ((x :: r).flatMap ch).length + 4 * (t.bfs (s.depth + 1)).length +
          (t.bfs (s.depth + 2)).length + 1 := by
    intro x r nxt s I ih
    obtain ⟨s', e, hd, I'⟩ := AlBfs.nextFC_step S (s.events.length) I
    obtain ⟨c, hy, hc⟩ := ih s' _ hd I'
    rw [hd] at hy hc
    exact ⟨_, .more e hy, by simp only [List.length_cons, List.flatMap_cons, List.length_append]; omega⟩
  intro k
  induction k with
  | zero =>
    intro cur nxt s hk I
    induction cur generalizing nxt s with
    | nil =>
      have hnil : t.level (s.depth + 1) = [] :=
        Classical.not_not.1 (fun hc => by have := (level_ne_nil _ t).1 hc; omega)
      have hn := I.next
      rw [hnil] at hn
      simp at hn
      subst hn
      rw [bfs_nil hnil]
      exact ⟨1, .done (s' := ⟨[], s.depth⟩) (by simp [AlBfs.nextC, AlBfs.nextFC, I.queue]), by omega⟩
    | cons x r ih => exact here x r nxt s I (fun s' nxt' hd I' => ih _ _ (by omega) I')
  | succ k ihk =>
    intro cur nxt s hk I
    induction cur generalizing nxt s with
    | nil =>
      have hn := I.next
      simp at hn
      have hq : s.events = none :: nxt.map some := by simpa using I.queue
      cases nxt with
      | nil =>
        rw [bfs_nil hn]
        exact ⟨1, .done (s' := ⟨[], s.depth⟩) (by simp [AlBfs.nextC, AlBfs.nextFC, hq]), by omega⟩
      | cons x r =>
        have IM := I.mark hH
        obtain ⟨c, hy, hc⟩ := ihk _ _ ⟨_, s.depth + 1⟩ (by simp; omega) IM
        have hb1 := bfs_unfold (s.depth + 1) t
        have hb2 := bfs_unfold (s.depth + 2) t
        obtain ⟨s', e, hd, I'⟩ := AlBfs.nextFC_step S r.length IM
        have hnext : AlBfs.nextC h s = .ok ((some (x, s.depth + 1), s'), (ch x).length + 3 + 1) := by
          rw [AlBfs.nextC, hq]
          simp only [List.length_cons, List.length_map]
          rw [AlBfs.nextFC, hq]
          simp only [List.map_cons, List.cons_ne_nil, if_false, reduceCtorEq]
          simp only [List.map_cons] at e
          have e' : AlBfs.nextFC h (r.length + 1 + 1) ⟨some x :: List.map some r ++ [none], s.depth + 1⟩ =
            AlBfs.nextFC h (r.length + 1) ⟨some x :: List.map some r ++ [none], s.depth + 1⟩ := by
            simp only [List.map_cons, List.cons_append, AlBfs.nextFC]
          rw [e', e]
        have e3 : AlBfs.nextC h ⟨(x :: r).map some ++ [none], s.depth + 1⟩
            = .ok ((some (x, s.depth + 1), s'), (ch x).length + 3) := by
          have e5 : AlBfs.nextFC h (r.length + 1) ⟨(x :: r).map some ++ [none], s.depth + 1⟩ =
            AlBfs.nextFC h (((x :: r).map some ++ [none]).length + 1)
              ⟨(x :: r).map some ++ [none], s.depth + 1⟩ := by
            simp only [List.map_cons, List.cons_append, AlBfs.nextFC]
          rw [AlBfs.nextC, ← e5]; exact e
        simp only [List.map_cons, List.cons_append] at hy e3
        cases hy with
        | more e4 hy' =>
          rename_i s4 c4 k4
          rw [e3] at e4
          simp only [Except.ok.injEq, Prod.mk.injEq, true_and] at e4
          obtain ⟨e4, e6⟩ := e4
          subst e4
          refine ⟨(ch x).length + 3 + 1 + k4, ?_, ?_⟩
          · rw [hb1, hn]
            exact .more hnext hy'
          · have hl1 := congrArg List.length hb1
            have hl2 := congrArg List.length hb2
            have hl3 := congrArg List.length (level_succ (s.depth + 1) t hH)
            rw [hn] at hl1 hl3
            simp only [List.length_append, List.length_map, List.length_cons] at hl1 hl2 hl3 hc
            have a1 : s.depth + 1 + 1 = s.depth + 2 := rfl
            have a2 : s.depth + 2 + 1 = s.depth + 1 + 2 := by omega
            simp only [a1, a2] at hl1 hl2 hl3 hc
            simp only [List.length_nil, List.flatMap_nil]
            omega
    | cons x r ih => exact here x r nxt s I (fun s' nxt' hd I' => ih _ _ (by omega) I')

theorem Shape.albfs_cost (S : Shape h ch) {t : RTree NodeId} (ha : h.alive n = true)
    (ht : SubtreeAt ch n t) (d : Nat) :
    ∃ s c k, AlBfs.startC h n d = .ok (s, c) ∧ c ≤ 2 * t.nodes.length + 1 ∧ (d = 0 → c = 0) ∧
      YieldsIn (AlBfs.nextC h) s (t.bfs d) k ∧ k ≤ 5 * (t.bfs d).length + 1 := by
  obtain ⟨s, e, I, hd⟩ := S.albfs_start ha ht d
  obtain ⟨c, hc⟩ := (AlBfs.startC_erase h n d).ok_inv e
  obtain ⟨k, hy, hk⟩ := AlBfs.cost_from S ht.2 _ _ _ s rfl I
  have h1 := eventsD_length_le (some d) 0 t
  have h2 := ht.size_le S.toFShape ha
  rw [hd, ← bfs_unfold] at hy
  rw [hd] at hk
  refine ⟨s, c, k, hc, ?_, ?_, hy, ?_⟩
  · by_cases h0 : d = 0
    · subst h0
      simp only [AlBfs.startC, if_true, Except.ok.injEq, Prod.mk.injEq] at hc
      omega
    · have hs := drainC_of_yields (S.shallow_inv (some d) ha ht).yields (f := NaBfs.fuel h)
        (by simp only [NaBfs.fuel]; omega)
      simp only [AlBfs.startC, h0, if_false, hs, bind, Except.bind, pure, Except.pure, Except.ok.injEq,
        Prod.mk.injEq] at hc
      omega
  · intro h0
    subst h0
    simp only [AlBfs.startC, if_true, Except.ok.injEq, Prod.mk.injEq] at hc
    exact hc.2.symm
  · have hl1 := congrArg List.length (bfs_unfold d t)
    have hl2 := congrArg List.length (bfs_unfold (d + 1) t)
    have hl3 := congrArg List.length (level_succ d t ht.2)
    simp only [List.length_append, List.length_map] at hl1 hl2 hl3
    have a1 : d + 1 + 1 = d + 2 := rfl
    rw [a1] at hl2
    omega

end Dendron
