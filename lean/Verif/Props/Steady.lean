import Verif.Proofs.Steady
import Verif.Proofs.DemoWorld

/-!
# C54: stable traversals are not disturbed by the rest of the program

`During t w ws`: from state `w` on the program makes any calls of the wider histories (`Verif.Spec.Wide`), keeping tree `t`
and an edit prohibition of it alive, and calls the iterator at the states `ws`.  `YieldsDuring t w next s l`:
whatever is done in between, the calls return the items of `l` in order and then `None` forever.
`TreeRight w.heap ch t`: no earlier call has left a stale `last_child` in tree `t`.
-/

set_option autoImplicit false

namespace Dendron
open RTree

variable {α : Type} {w : World α} {ch : NodeId → List NodeId} {n : NodeId} {t : TreeId}
  {tr : RTree NodeId}

private theorem frozen_start (hr : ReachW w) (hk : 0 < w.held .frozen n)
    (ht : w.heap.nodeTree n = .ok t) :
    w.heap.alive n = true ∧ w.heap.memTree n = some t ∧ w.ProhAlive t := by
  obtain ⟨v, ch0, W⟩ := hr.wide
  exact ⟨W.held_alive hk, (W.nodeTree_held hk).1 ht, .inr ⟨n, hk, ht⟩⟩

/-- C54: in the histories of calls without a known defect the hypothesis `TreeRight` always holds. -/
theorem C54_tree_right (hr : Reach w) (hF : FShape w.heap ch) : TreeRight w.heap ch t := by
  obtain ⟨ch', I⟩ := hr.inv
  rw [hF.unique I.wf.toFShape]
  exact fun p ha _ => LastRight.of_inv I ha

/-- C54: `shallow_depth_first_traverse_stable` of a `FrozenNode` yields the events of its subtree as it
was at the start, under every interleaving of `next`, `next_back` and other calls of the program. -/
theorem C54_shallow_depth_first (hr : ReachW w) (hF : FShape w.heap ch) (hL : TreeRight w.heap ch t)
    (hk : 0 < w.held .frozen n)
    (ht : w.heap.nodeTree n = .ok t) (hs : SubtreeAt ch n tr) (lim : Option Nat) :
    DoubleEndedDuring t w Shallow.next Shallow.back (Shallow.start n lim) (tr.eventsD lim 0) := by
  obtain ⟨ha, hm, hp⟩ := frozen_start hr hk ht
  obtain ⟨h, W, hal, hmt, hnn, C, hAw, hsib, hA⟩ := hr.steady hp hF hL
  have ha0 : h.alive n = true := by rw [hal]; exact ha
  intro ws D
  exact callsAt2_of (fun v hv => Shallow.transfers (hA _ D v hv) C)
    (fun v hv => Shallow.transfers_back (hA _ D v hv) C) (Shallow.start_in ⟨ha, hm⟩)
    ((W.shallow_inv lim ha0 hs).sched _)

/-- C54: the same for `depth_first_traverse_stable` of the root of a tree, from either end. -/
theorem C54_stable_depth_first_partial (hr : ReachW w) (hF : FShape w.heap ch) (hL : TreeRight w.heap ch t)
    (hk : 0 < w.held .frozen n) (ht : w.heap.nodeTree n = .ok t) (hroot : ∀ p, n ∉ ch p)
    (hs : SubtreeAt ch n tr) :
    YieldsDuring t w StableDft.next (StableDft.start n) tr.events ∧
    YieldsDuring t w StableDft.back (StableDft.start n) tr.events.reverse := by
  obtain ⟨ha, hm, hp⟩ := frozen_start hr hk ht
  obtain ⟨h, W, hal, hmt, hnn, C, hAw, hsib, hA⟩ := hr.steady hp hF hL
  have ha0 : h.alive n = true := by rw [hal]; exact ha
  constructor
  · intro ws D
    exact callsAt_of (fun v hv => StableDft.transfers (hA _ D v hv) C) ⟨⟨ha, hm⟩, ⟨ha, hm⟩⟩
      (W.stableDft_yields ha0 hs hroot)
  · intro ws D
    exact callsAt_of (fun v hv => StableDft.transfers_back (hA _ D v hv) C) ⟨⟨ha, hm⟩, ⟨ha, hm⟩⟩
      (W.stableDft_back_yields ha0 hs hroot)

/-- C54: both breadth-first traversers of a `FrozenNode`, from depth `d` on. -/
theorem C54_breadth_first (hr : ReachW w) (hF : FShape w.heap ch) (hL : TreeRight w.heap ch t)
    (hk : 0 < w.held .frozen n)
    (ht : w.heap.nodeTree n = .ok t) (hs : SubtreeAt ch n tr) (d : Nat) :
    YieldsDuring t w NaBfs.next (NaBfs.start n d) (tr.bfs d) ∧
    ∃ s, AlBfs.start w.heap n d = .ok s ∧ YieldsDuring t w AlBfs.next s (tr.bfs d) := by
  obtain ⟨ha, hm, hp⟩ := frozen_start hr hk ht
  obtain ⟨h, W, hal, hmt, hnn, C, hAw, hsib, hA⟩ := hr.steady hp hF hL
  have ha0 : h.alive n = true := by rw [hal]; exact ha
  constructor
  · intro ws D
    exact callsAt_of (fun v hv => NaBfs.transfers (hA _ D v hv) C)
      ⟨Shallow.start_in ⟨ha, hm⟩, fun r e => by cases e; exact ⟨ha, hm⟩⟩ (W.nabfs_yields ha0 hs d)
  · obtain ⟨s, e, hy⟩ := W.albfs_yields ha0 hs d
    have hS := Shallow.transfers hAw C
    have hQ : ∀ (s : Shallow.State) (x : DftEvent (NodeId × Nat)) (s' : Shallow.State),
        Shallow.In (fun n => w.heap.alive n = true ∧ w.heap.memTree n = some t) s →
        Shallow.next h s = .ok (some x, s') →
        w.heap.alive x.value.1 = true ∧ w.heap.memTree x.value.1 = some t := by
      intro s x s' hp' e'
      simp only [Shallow.next] at e'
      split at e'
      · cases e'
      · rename_i a b h0
        simp only [bind, Except.bind, pure, Except.pure] at e'
        split at e'
        · cases e'
        · split at e'
          · cases e'; exact (hp' _ _ h0).1
          · split at e'
            · cases e'
            · cases e'; exact (hp' _ _ h0).1
    have hstart : AlBfs.start w.heap n d = .ok s ∧
        AlBfs.In (fun n => w.heap.alive n = true ∧ w.heap.memTree n = some t) s := by
      simp only [AlBfs.start] at e ⊢
      split at e
      · rename_i hd
        obtain rfl := Except.ok.inj e
        refine ⟨by simp only [hd, if_true], ?_⟩
        intro m hm'
        simp only [List.mem_cons, Option.some.injEq, List.not_mem_nil, or_false, reduceCtorEq] at hm'
        exact hm' ▸ ⟨ha, hm⟩
      · rename_i hd
        simp only [bind, Except.bind, pure, Except.pure] at e ⊢
        split at e
        · cases e
        · rename_i l hl
          obtain rfl := Except.ok.inj e
          obtain ⟨hl', hq⟩ := drain_transfers hS
            (Q := fun ev => w.heap.alive ev.value.1 = true ∧ w.heap.memTree ev.value.1 = some t)
            hQ _ _ _ _ (Nat.le_refl _) (Shallow.start_in ⟨ha, hm⟩) hl
          have hfu : NaBfs.fuel h = NaBfs.fuel w.heap := by simp only [NaBfs.fuel, hnn]
          rw [hfu] at hl'
          refine ⟨by simp only [hd, if_false, hl'], ?_⟩
          intro m hm'
          simp only [List.mem_append, List.mem_map, Option.some.injEq, exists_eq_right, List.mem_singleton,
            reduceCtorEq, or_false, List.mem_filterMap] at hm'
          obtain ⟨ev, h1, h2⟩ := hm'
          have := hq ev h1
          cases ev with
          | opn p =>
            obtain ⟨x, y⟩ := p
            simp only at h2
            split at h2
            · cases h2; exact this
            · cases h2
          | cls p => cases h2
    exact ⟨s, hstart.1, fun ws D => callsAt_of (fun v hv => AlBfs.transfers (hA _ D v hv) C) hstart.2 hy⟩

/-- C54: `children_stable` of a `FrozenNode` from either end; `following_siblings_or_self_stable` and
`following_siblings_stable` from the front.  Missing: what the code gets wrong even without
interference (`C27_*`). -/
theorem C54_siblings_partial (hr : ReachW w) (hF : FShape w.heap ch) (hL : TreeRight w.heap ch t)
    (hk : 0 < w.held .frozen n)
    (ht : w.heap.nodeTree n = .ok t) :
    (∃ s, StableSib.children w.heap n = .ok s ∧ YieldsDuring t w StableSib.next s (ch n) ∧
      YieldsDuring t w StableSib.back s (ch n).reverse) ∧
    (∀ p l1 l2, ch p = l1 ++ n :: l2 →
      (∃ s, StableSib.followingOrSelf w.heap n = .ok s ∧ YieldsDuring t w StableSib.next s (n :: l2)) ∧
      (∃ s, StableSib.following w.heap n = .ok s ∧ YieldsDuring t w StableSib.next s l2)) := by
  obtain ⟨ha, hm, hp⟩ := frozen_start hr hk ht
  obtain ⟨h, W, hal, hmt, hnn, C, hAw, hsib, hA⟩ := hr.steady hp hF hL
  have ha0 : h.alive n = true := by rw [hal]; exact ha
  constructor
  · obtain ⟨s, e, hy⟩ := W.children_stable ha0
    obtain ⟨s', e', hy'⟩ := W.children_stable_back ha0
    rw [e] at e'
    obtain rfl := Except.ok.inj e'
    have hs : StableSib.In (fun n => w.heap.alive n = true ∧ w.heap.memTree n = some t) s := by
      cases s with
      | none => trivial
      | some ab => exact C.firstLast n ab.1 ab.2 ⟨ha, hm⟩ e
    have e' : StableSib.children w.heap n = .ok s := (hAw.firstLast n ⟨ha, hm⟩).trans e
    exact ⟨s, e', fun ws D => callsAt_of (fun v hv => StableSib.transfers (hA _ D v hv) C) hs hy,
      fun ws D => callsAt_of (fun v hv => StableSib.transfers_back (hA _ D v hv) C) hs hy'⟩
  · intro p l1 l2 hs
    have hmem : n ∈ ch p := by simp [hs]
    obtain ⟨last, hl1, hlast⟩ := W.coherent.lastSib p n hmem
    have hT : w.heap.alive last = true ∧ w.heap.memTree last = some t := by
      obtain ⟨o, h1, h2⟩ := W.navTo ha0 .lastSibling
      simp only [Heap.navTo, hlast, Except.map, Except.ok.injEq] at h1
      obtain ⟨h3, h4⟩ := h2 last h1.symm
      rw [hal] at h3
      rw [hmt] at h4
      exact ⟨h3, h4.trans hm⟩
    have hseg : Seg h.next (n :: l2) none := by
      have := W.seg p
      rw [hs, Seg.append] at this
      exact this.2
    have hlast' : w.heap.lastSibling n = .ok last := by rw [← hsib n ha hm]; exact hlast
    have hf : Yields (StableSib.next h) (some (n, last)) (n :: l2) := StableSib.yields_of l2 n hseg
    refine ⟨⟨some (n, last), ?_, fun ws D => callsAt_of (fun v hv => StableSib.transfers (hA _ D v hv) C)
      ⟨⟨ha, hm⟩, hT⟩ hf⟩, ?_⟩
    · simp [StableSib.followingOrSelf, hlast', bind, Except.bind, pure, Except.pure]
    · obtain ⟨s, e, hy⟩ := hf.cons_inv
      have e' : StableSib.next w.heap (some (n, last)) = .ok (some n, s) :=
        (StableSib.transfers hAw C (some (n, last)) _ _ ⟨⟨ha, hm⟩, hT⟩ e).1
      refine ⟨s, by simp [StableSib.following, StableSib.followingOrSelf, hlast', e', bind, Except.bind,
        pure, Except.pure], fun ws D => callsAt_of (fun v hv => StableSib.transfers (hA _ D v hv) C)
          (StableSib.transfers (Agree.refl _ _) C (some (n, last)) _ _ ⟨⟨ha, hm⟩, hT⟩ e).2 hy⟩

/-! ### A concrete case -/

/-- A program with a frozen tree 0 (nodes 0 and 1) and a hot tree 1 (node 2). -/
def DemoWorld.frozenOps : List (Op Nat) :=
  [.newTree true 10, .create .hot 0 11 .lastChild, .drop .hot 1, .plainOf .hot 0, .drop .hot 0,
   .bundle .frozen 0, .newTree true 20]

/-- Its state. -/
def DemoWorld.frozenW : World Nat := DemoWorld.run DemoWorld.frozenOps .init

/-- The state after the program has also added a node to tree 1. -/
def DemoWorld.frozenW' : World Nat :=
  DemoWorld.run (DemoWorld.frozenOps ++ [.create .hot 2 21 .firstChild]) .init

private theorem room_run (l : List (Op Nat)) (h0 : ∀ s, (DemoWorld.run l .init).heap.grants (s + 2) = 0)
    (h1 : ∀ t, t < 2 → -(2 : Int) ^ 62 < (DemoWorld.run l .init).heap.grants t ∧
      (DemoWorld.run l .init).heap.grants t < (2 : Int) ^ 62) : Room (DemoWorld.run l .init).heap :=
  DemoWorld.room_of 2 (fun t ht => by
    obtain ⟨s, rfl⟩ : ∃ s, t = s + 2 := ⟨t - 2, (Nat.sub_add_cancel ht).symm⟩
    exact h0 s) h1

theorem DemoWorld.frozen_reach : Reach DemoWorld.frozenW := by
  have r0 : Reach (run [] .init) := .init
  have r1 : Reach (run (frozenOps.take 1) .init) := .step r0 (op := .newTree true 10) (r := .node (some 0))
    ⟨trivial, fun _ _ => trivial, room_run [] (fun _ => rfl) (by decide +kernel), rfl⟩
  have r2 : Reach (run (frozenOps.take 2) .init) := .step r1 (op := .create .hot 0 11 .lastChild)
    (r := .node (some 1)) ⟨show 0 < _ by decide, fun _ _ => trivial,
      room_run (frozenOps.take 1) (fun _ => rfl) (by decide +kernel), rfl⟩
  have r3 : Reach (run (frozenOps.take 3) .init) := .step r2 (op := .drop .hot 1) (r := .unit)
    ⟨show 0 < _ by decide, fun _ _ => trivial,
      room_run (frozenOps.take 2) (fun _ => rfl) (by decide +kernel), rfl⟩
  have r4 : Reach (run (frozenOps.take 4) .init) := .step r3 (op := .plainOf .hot 0) (r := .unit)
    ⟨⟨by decide, by decide⟩, fun _ _ => trivial,
      room_run (frozenOps.take 3) (fun _ => rfl) (by decide +kernel), rfl⟩
  have r5 : Reach (run (frozenOps.take 5) .init) := .step r4 (op := .drop .hot 0) (r := .unit)
    ⟨show 0 < _ by decide, fun _ _ => trivial,
      room_run (frozenOps.take 4) (fun _ => rfl) (by decide +kernel), rfl⟩
  have r6 : Reach (run (frozenOps.take 6) .init) := .step r5 (op := .bundle .frozen 0) (r := .unit)
    ⟨⟨by decide, by decide⟩, fun _ _ => trivial,
      room_run (frozenOps.take 5) (fun _ => rfl) (by decide +kernel), rfl⟩
  exact .step r6 (op := .newTree true 20) (r := .node (some 2))
    ⟨trivial, fun _ _ => trivial, room_run (frozenOps.take 6) (fun _ => rfl) (by decide +kernel), rfl⟩

/-- The hypotheses of C54 are met: node 0 of the frozen tree has the child 1; between the first and the
second call of the iterator a node is added to the other tree; the calls return the first three events
of the frozen tree. -/
example : ∃ ch tr, ReachW DemoWorld.frozenW ∧ FShape DemoWorld.frozenW.heap ch ∧
    TreeRight DemoWorld.frozenW.heap ch 0 ∧ 0 < DemoWorld.frozenW.held .frozen 0 ∧
    DemoWorld.frozenW.heap.nodeTree 0 = .ok 0 ∧ (∀ p, 0 ∉ ch p) ∧ SubtreeAt ch 0 tr ∧
    During 0 DemoWorld.frozenW [DemoWorld.frozenW, DemoWorld.frozenW', DemoWorld.frozenW'] ∧
    callsAt StableDft.next [DemoWorld.frozenW, DemoWorld.frozenW', DemoWorld.frozenW'] (StableDft.start 0) =
      .ok [some (.opn 0), some (.opn 1), some (.cls 1)] := by
  obtain ⟨ch, I⟩ := DemoWorld.frozen_reach.inv
  have W := I.wf
  obtain ⟨tr, hs⟩ := W.exists_subtree 0
  refine ⟨ch, tr, DemoWorld.frozen_reach.toW, W.toFShape, fun p ha _ => LastRight.of_inv I ha, by decide +kernel, rfl, ?_, hs, ?_, rfl⟩
  · intro p hp
    have := W.toFShape.parent_of_mem hp
    cases this
  · refine .call (.other (op := .create .hot 2 21 .firstChild) (r := .node (some 3))
      (World.Step.toW ⟨show 0 < _ by decide, fun _ _ => trivial,
        room_run DemoWorld.frozenOps (fun _ => rfl) (by decide +kernel), rfl⟩ I)
      (.inr ⟨0, by decide +kernel, rfl⟩) (.inr ⟨.frozen, 0, by decide +kernel, rfl⟩)
      (.call (.call (.nil _))))

end Dendron
