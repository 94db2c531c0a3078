import Verif.Proofs.WideRead
import Verif.Props.Handles
import Verif.Props.WideLoops
import Verif.Props.WideBuild

/-!
# C55 in the wider histories

The same as in `Verif.Props.Handles`, where the last of several siblings may have been taken away by any earlier
calls.  The forward iterators of `Node` need nothing more.  The others need `last_child` to be right where they ask
for it; for simplicity it is asked for in the whole tree (`TreeRight`), but any other tree may have a wrong one.
-/

set_option autoImplicit false

namespace Dendron
open RTree Prog

variable {α β : Type} {w : World α} {ch : NodeId → List NodeId} {n p : NodeId} {t : RTree NodeId} {T : TreeId}

private theorem ends {out : β → Handles} {q : Prog α β} {O : Handles} {res : Except Fault β} (hr : ReachW w)
    (F : FShape w.heap ch) (R : w.Roomy) (h : w.Has O) (u : Uses out q O) (st : Steers w.heap ch q)
    (e : q.eval w.heap = res) : EndsW w q.run O res out := by
  obtain ⟨a, S⟩ := Shows.exists hr
  obtain rfl := F.unique S.children
  have := sound_wide hr S (S.roomy.1 R) h u st
  rw [e] at this
  cases res with
  | error e => exact this
  | ok b =>
    obtain ⟨w', a', e1, D⟩ := this
    exact ⟨w', e1, D.reads, D.reach, D.exch⟩

/-- C55, one call of `next` of an unstable traverser: the forward ones. -/
theorem C55_next_forward_wide (hr : ReachW w) (R : w.Roomy) :
    (∀ s, w.Has (handles .plain (Dft.owns s)) → EndsW w (Dft.nextP s).run (handles .plain (Dft.owns s))
      (Dft.next w.heap s) (fun r => handles .plain (r.1.toList.map DftEvent.value ++ Dft.owns r.2))) ∧
    (∀ s, w.Has (handles .plain (Sib.owns s)) → EndsW w (Sib.nextP s).run (handles .plain (Sib.owns s))
      (Sib.next w.heap s) (fun r => handles .plain (r.1.toList ++ Sib.owns r.2))) ∧
    (∀ s, w.Has (handles .plain (Sib.owns s)) → EndsW w (Sib.upP s).run (handles .plain (Sib.owns s))
      (Sib.up w.heap s) (fun r => handles .plain (r.1.toList ++ Sib.owns r.2))) := by
  obtain ⟨v, ch, W⟩ := hr.wide
  exact ⟨fun s h => ends hr W.shape R h (Dft.nextP_uses s) (Dft.nextP_steers s) (Dft.nextP_eval _ s),
    fun s h => ends hr W.shape R h (Sib.nextP_uses s) (Sib.nextP_steers s) (Sib.nextP_eval _ s),
    fun s h => ends hr W.shape R h (Sib.upP_uses s) (Sib.upP_steers s) (Sib.upP_eval _ s)⟩

/-- C55, one call of `next` of an unstable traverser: the backward ones. -/
theorem C55_next_backward_wide (hr : ReachW w) (R : w.Roomy) :
    (∀ s, RevDft.BackOk w s → w.Has (handles .plain (RevDft.owns s)) →
      EndsW w (RevDft.nextP s).run (handles .plain (RevDft.owns s))
      (RevDft.next w.heap s) (fun r => handles .plain (r.1.toList.map DftEvent.value ++ RevDft.owns r.2))) ∧
    (∀ s, Sib.BackOk w s → w.Has (handles .plain (Sib.owns s)) → EndsW w (Sib.prevP s).run (handles .plain (Sib.owns s))
      (Sib.prev w.heap s) (fun r => handles .plain (r.1.toList ++ Sib.owns r.2))) := by
  obtain ⟨v, ch, W⟩ := hr.wide
  exact ⟨fun s hb h => ends hr W.shape R h (RevDft.nextP_uses s) (RevDft.nextP_steers W.shape hb) (RevDft.nextP_eval _ s),
    fun s hb h => ends hr W.shape R h (Sib.prevP_uses s) (Sib.prevP_steers W.shape hb) (Sib.prevP_eval _ s)⟩

private theorem right {out : β → Handles} {q : Prog α β} {k : Kind} {l : List NodeId} {res : Except Fault β}
    (hr : ReachW w) (F : FShape w.heap ch) (R : w.Roomy) (hL : TreeRight w.heap ch T) (h : w.Has (handles k l))
    (ht : ∀ x ∈ l, w.heap.nodeTree x = .ok T) (u : Uses out q (handles k l))
    (e : q.eval w.heap = res) : EndsW w q.run (handles k l) res out := by
  obtain ⟨v, ch', W⟩ := hr.wide
  obtain rfl := W.shape.unique F
  refine ends hr F R h u (Prog.eval_right hr W hL u fun x hx => ?_).1 e
  obtain ⟨y, hy, rfl⟩ := List.mem_map.1 hx
  have hk : 0 < w.held k y := h.pos hx
  exact ⟨W.held_alive hk, (W.nodeTree_held hk).1 (ht y hy)⟩

/-- C55, one call of `next` or `next_back` of a stable traverser in a tree whose last children are right. -/
theorem C55_next_stable_wide (hr : ReachW w) (R : w.Roomy) (hF : FShape w.heap ch) (hL : TreeRight w.heap ch T) :
    (∀ s, w.Has (handles .frozen (StableDft.owns s)) → (∀ x ∈ StableDft.owns s, w.heap.nodeTree x = .ok T) →
      EndsW w (StableDft.nextP s).run (handles .frozen (StableDft.owns s)) (StableDft.next w.heap s)
        (fun r => handles .frozen (r.1.toList.map DftEvent.value ++ StableDft.owns r.2)) ∧
      EndsW w (StableDft.backP s).run (handles .frozen (StableDft.owns s)) (StableDft.back w.heap s)
        (fun r => handles .frozen (r.1.toList.map DftEvent.value ++ StableDft.owns r.2))) ∧
    (∀ s, w.Has (handles .frozen (Shallow.owns s)) → (∀ x ∈ Shallow.owns s, w.heap.nodeTree x = .ok T) →
      EndsW w (Shallow.nextP s).run (handles .frozen (Shallow.owns s)) (Shallow.next w.heap s)
        (fun r => handles .frozen (r.1.toList.map Shallow.evNode ++ Shallow.owns r.2)) ∧
      EndsW w (Shallow.backP s).run (handles .frozen (Shallow.owns s)) (Shallow.back w.heap s)
        (fun r => handles .frozen (r.1.toList.map Shallow.evNode ++ Shallow.owns r.2))) ∧
    (∀ s, w.Has (handles .frozen (StableSib.owns s)) → (∀ x ∈ StableSib.owns s, w.heap.nodeTree x = .ok T) →
      EndsW w (StableSib.nextP s).run (handles .frozen (StableSib.owns s)) (StableSib.next w.heap s)
        (fun r => handles .frozen (r.1.toList ++ StableSib.owns r.2)) ∧
      EndsW w (StableSib.backP s).run (handles .frozen (StableSib.owns s)) (StableSib.back w.heap s)
        (fun r => handles .frozen (r.1.toList ++ StableSib.owns r.2))) ∧
    (∀ s, w.Has (handles .frozen (NaBfs.owns s)) → (∀ x ∈ NaBfs.owns s, w.heap.nodeTree x = .ok T) →
      EndsW w (NaBfs.nextP (NaBfs.fuel w.heap) s).run (handles .frozen (NaBfs.owns s)) (NaBfs.next w.heap s)
        (fun r => handles .frozen (r.1.toList.map Prod.fst ++ NaBfs.owns r.2))) ∧
    (∀ s, w.Has (handles .frozen (AlBfs.owns s)) → (∀ x ∈ AlBfs.owns s, w.heap.nodeTree x = .ok T) →
      EndsW w (AlBfs.nextP (w.heap.nNode + 2) s).run (handles .frozen (AlBfs.owns s)) (AlBfs.next w.heap s)
        (fun r => handles .frozen (r.1.toList.map Prod.fst ++ AlBfs.owns r.2))) :=
  ⟨fun s h ht => ⟨right hr hF R hL h ht (StableDft.nextP_uses s) (StableDft.nextP_eval _ s),
      right hr hF R hL h ht (StableDft.backP_uses s) (StableDft.backP_eval _ s)⟩,
   fun s h ht => ⟨right hr hF R hL h ht (Shallow.nextP_uses s) (Shallow.nextP_eval _ s),
      right hr hF R hL h ht (Shallow.backP_uses s) (Shallow.backP_eval _ s)⟩,
   fun s h ht => ⟨right hr hF R hL h ht (StableSib.nextP_uses s) (StableSib.nextP_eval _ s),
      right hr hF R hL h ht (StableSib.backP_uses s) (StableSib.backP_eval _ s)⟩,
   fun s h ht => right hr hF R hL h ht (NaBfs.nextP_uses _ s) (NaBfs.nextP_eval _ s),
   fun s h ht => right hr hF R hL h ht (AlBfs.nextP_uses _ s) (AlBfs.nextP_eval _ s)⟩

/-! ### Whole loops -/

/-- C55, `clone` of any traverser, wherever it stands: the copy is in the same state, both own the handles in their
states. -/
theorem C55_clone_wide {σ : Type} {k : Kind} (hr : ReachW w) (R : w.Roomy) (owns : σ → List NodeId) (s : σ)
    (h : w.Has (handles k (owns s))) :
    EndsW w (cloneStateP k owns s).run (handles k (owns s)) (.ok s) (fun _ => handles k (owns s ++ owns s)) := by
  obtain ⟨v, ch, W⟩ := hr.wide
  refine ends hr W.shape R h (q := cloneStateP k owns s)
    (Uses.bind (cloneAll_uses (owns s) _ (fun x hx => List.mem_map_of_mem hx))
      (fun _ z => by simp [handles, List.map_append, List.count_append]))
    (Steers.bind (cloneAll_steers _) fun _ _ => trivial) ?_
  show Prog.eval (Prog.bind _ _) _ = _
  rw [eval_bind, cloneAll_eval]; rfl

/-- C55, `peek` of the allocating breadth-first traverser. -/
theorem C55_peek_wide (hr : ReachW w) (R : w.Roomy) (s : AlBfs.State) (h : w.Has (handles .frozen (AlBfs.owns s))) :
    EndsW w (AlBfs.peekP s).run (handles .frozen (AlBfs.owns s)) (AlBfs.peek s)
      (fun r => handles .frozen (r.toList.map Prod.fst ++ AlBfs.owns s)) := by
  obtain ⟨v, ch, W⟩ := hr.wide
  obtain ⟨es, d⟩ := s
  refine ends hr W.shape R h ?_ ?_ ?_
  · unfold AlBfs.peekP
    rcases es with _ | ⟨_ | x, _ | ⟨_ | y, es⟩⟩
    all_goals simp [Uses, AlBfs.owns, handles, Bind.bind, Pure.pure, Prog.bind, cloneP]
  · unfold AlBfs.peekP
    rcases es with _ | ⟨_ | x, _ | ⟨_ | y, es⟩⟩ <;> trivial
  · unfold AlBfs.peekP AlBfs.peek
    rcases es with _ | ⟨_ | x, _ | ⟨_ | y, es⟩⟩ <;> rfl

/-- C55, `close_current`: that of `DftTraverser` anywhere, those of the stable traversers in a tree whose last children
are right. -/
theorem C55_close_current_wide (hr : ReachW w) (R : w.Roomy) (hF : FShape w.heap ch) (hL : TreeRight w.heap ch T)
    (f : Nat) :
    (∀ s, w.Has (handles .plain (Dft.owns s)) →
      EndsW w (closeCurrentP .plain id Dft.nextP f 0 s).run (handles .plain (Dft.owns s))
        (closeCurrent (Dft.next w.heap) f 0 s) (fun r => handles .plain (r.1.toList ++ Dft.owns r.2))) ∧
    (∀ s, w.Has (handles .frozen (StableDft.owns s)) → (∀ x ∈ StableDft.owns s, w.heap.nodeTree x = .ok T) →
      EndsW w (closeCurrentP .frozen id StableDft.nextP f 0 s).run (handles .frozen (StableDft.owns s))
        (closeCurrent (StableDft.next w.heap) f 0 s)
        (fun r => handles .frozen (r.1.toList ++ StableDft.owns r.2))) ∧
    (∀ s, w.Has (handles .frozen (Shallow.owns s)) → (∀ x ∈ Shallow.owns s, w.heap.nodeTree x = .ok T) →
      EndsW w (closeCurrentP .frozen Prod.fst Shallow.nextP f 0 s).run (handles .frozen (Shallow.owns s))
        (closeCurrent (Shallow.next w.heap) f 0 s)
        (fun r => handles .frozen (r.1.toList.map Prod.fst ++ Shallow.owns r.2))) := by
  refine ⟨fun s h => ?_, fun s h ht => ?_, fun s h ht => ?_⟩
  · have := ends hr hF R h (closeCurrentP_uses (node := id) Dft.nextP_uses f 0 s)
      (closeCurrentP_steers Dft.nextP_steers f 0 s) (closeCurrentP_eval (Dft.nextP_eval _) f 0 s)
    simpa only [List.map_id] using this
  · have := right hr hF R hL h ht (closeCurrentP_uses (node := id) StableDft.nextP_uses f 0 s)
      (closeCurrentP_eval (StableDft.nextP_eval _) f 0 s)
    simpa only [List.map_id] using this
  · exact right hr hF R hL h ht (closeCurrentP_uses (node := Prod.fst) Shallow.nextP_uses f 0 s)
      (closeCurrentP_eval (Shallow.nextP_eval _) f 0 s)

private theorem sib_forward {k : Kind} {next : Sib.State → Prog α (Option NodeId × Sib.State)}
    {nx : Sib.State → Step Sib.State NodeId} {start : Prog α Sib.State} {s : Sib.State} {l : List NodeId}
    (hr : ReachW w) (R : w.Roomy) (hF : FShape w.heap ch) (hk : 0 < w.held k n)
    (hu : Uses (fun s => (.plain, n) :: handles .plain (Sib.owns s)) start [(.plain, n)])
    (hn : ∀ s, Uses (fun r => handles .plain (r.1.toList ++ Sib.owns r.2)) (next s)
      (handles .plain (Sib.owns s)))
    (s1 : Steers w.heap ch start) (s2 : ∀ s, Steers w.heap ch (next s))
    (es : start.eval w.heap = .ok s) (en : ∀ s, (next s).eval w.heap = nx s) (hy : Yields nx s l) (j : Nat) :
    (loopP .plain id Sib.owns (methodP k n start) next j).run w = .ok (w, l.take j) :=
  loop_forward hr R hk hF (methodP_uses hu) (by simpa only [List.map_id] using hn) (methodP_steers s1) s2
    (methodP_eval.trans es) en hy j

/-- C55: the forward traversers of a handle of any kind, stopped after any number of items: the items are those of
the hierarchy, and afterwards the program state is exactly the one before. -/
theorem C55_forward_loop_wide {k : Kind} (hr : ReachW w) (R : w.Roomy) (hF : FShape w.heap ch) (hk : 0 < w.held k n)
    (j : Nat) :
    (∀ t, SubtreeAt ch n t →
      (loopP .plain DftEvent.value Dft.owns (methodP k n (Dft.startP n)) Dft.nextP j).run w =
        .ok (w, t.events.take j)) ∧
    (loopP .plain id Sib.owns (methodP k n (Sib.childrenP n)) Sib.nextP j).run w = .ok (w, (ch n).take j) ∧
    (∀ l, AncPath ch n l →
      (loopP .plain id Sib.owns (methodP k n (Sib.orSelfP n)) Sib.upP j).run w = .ok (w, (n :: l).take j) ∧
      (loopP .plain id Sib.owns (methodP k n (Sib.ancestorsP n)) Sib.upP j).run w = .ok (w, l.take j)) ∧
    (∀ p l1 l2, ch p = l1 ++ n :: l2 →
      (loopP .plain id Sib.owns (methodP k n (Sib.siblingsP n)) Sib.nextP j).run w = .ok (w, (ch p).take j) ∧
      (loopP .plain id Sib.owns (methodP k n (Sib.orSelfP n)) Sib.nextP j).run w = .ok (w, (n :: l2).take j) ∧
      (loopP .plain id Sib.owns (methodP k n (Sib.followingP n)) Sib.nextP j).run w = .ok (w, l2.take j)) := by
  obtain ⟨v, ch', W⟩ := hr.wide
  obtain rfl := hF.unique W.shape
  have C := W.coherent
  have ha := W.held_alive hk
  have hc : ∀ p, w.heap.alive p = true → Yields (Sib.next w.heap) (Sib.children w.heap p) (ch p) := by
    intro p hp
    have := Sib.yields_next (hF.seg p)
    rwa [← hF.first p hp] at this
  refine ⟨fun t ht => ?_, ?_, fun l hl => ?_, fun p l1 l2 hs => ?_⟩
  · exact loop_forward hr R hk hF (methodP_uses (Dft.startP_uses n)) Dft.nextP_uses (methodP_steers (Dft.startP_steers n))
      Dft.nextP_steers methodP_eval (Dft.nextP_eval _) (hF.dft_yields ha ht) j
  · exact sib_forward hr R hF hk (Sib.childrenP_uses n) Sib.nextP_uses (Sib.childrenP_steers n) Sib.nextP_steers
      (Sib.childrenP_eval _ n) (Sib.nextP_eval _) (hc n ha) j
  · obtain ⟨h3, s4, e4, h4⟩ := C21_ancestors hF ha hl
    exact ⟨sib_forward hr R hF hk (Sib.orSelfP_uses n) Sib.upP_uses (Sib.orSelfP_steers n) Sib.upP_steers rfl
        (Sib.upP_eval _) h3 j,
      sib_forward hr R hF hk (Sib.ancestorsP_uses n) Sib.upP_uses (Sib.ancestorsP_steers n) Sib.upP_steers
        ((Sib.ancestorsP_eval _ n).trans e4) (Sib.upP_eval _) h4 j⟩
  · have hm : n ∈ ch p := by simp [hs]
    have hpl : w.heap.parentLink n = some p := (C.parent p n ha).2 hm
    have hf : Yields (Sib.next w.heap) (some n) (n :: l2) := by
      have := hF.seg p
      rw [hs, Seg.append] at this
      exact Sib.yields_next (l := n :: l2) this.2
    obtain ⟨s, e, hy⟩ := hf.cons_inv
    have e4 : Sib.following w.heap n = .ok s := by
      simp [Sib.following, Sib.followingOrSelf, e, Bind.bind, Except.bind, Pure.pure, Except.pure]
    have h1 : Yields (Sib.next w.heap) (Sib.siblings w.heap n) (ch p) := by
      simpa [Sib.siblings, hpl] using hc p (C.alive p n hm).1
    exact ⟨sib_forward hr R hF hk (Sib.siblingsP_uses n) Sib.nextP_uses (Sib.siblingsP_steers n) Sib.nextP_steers
        (Sib.siblingsP_eval _ n) (Sib.nextP_eval _) h1 j,
      sib_forward hr R hF hk (Sib.orSelfP_uses n) Sib.nextP_uses (Sib.orSelfP_steers n) Sib.nextP_steers rfl
        (Sib.nextP_eval _) hf j,
      sib_forward hr R hF hk (Sib.followingP_uses n) Sib.nextP_uses (Sib.followingP_steers n) Sib.nextP_steers
        ((Sib.followingP_eval _ n).trans e4) (Sib.nextP_eval _) hy j⟩

private theorem sib_right {v : World α} {k : Kind} {next : Sib.State → Prog α (Option NodeId × Sib.State)}
    {nx : Sib.State → Step Sib.State NodeId} {start : Prog α Sib.State} {s : Sib.State} {l : List NodeId}
    (hr : ReachW w) (R : w.Roomy) (W : Wide w v ch) (hk : 0 < w.held k n) (hT : w.heap.nodeTree n = .ok T)
    (hL : TreeRight w.heap ch T)
    (hu : Uses (fun s => (.plain, n) :: handles .plain (Sib.owns s)) start [(.plain, n)])
    (hn : ∀ s, Uses (fun r => handles .plain (r.1.toList ++ Sib.owns r.2)) (next s)
      (handles .plain (Sib.owns s)))
    (es : start.eval v.heap = .ok s) (en : ∀ s, (next s).eval v.heap = nx s) (hy : Yields nx s l) (j : Nat) :
    (loopP .plain id Sib.owns (methodP k n start) next j).run w = .ok (w, l.take j) :=
  loop_right hr R W hk hT hL (methodP_uses hu) (by simpa only [List.map_id] using hn) (methodP_eval.trans es) en hy j

/-- C55: the backward traversers, in a tree whose last children are right. -/
theorem C55_backward_loop_wide {k : Kind} (hr : ReachW w) (R : w.Roomy) (hF : FShape w.heap ch) (hk : 0 < w.held k n)
    (hT : w.heap.nodeTree n = .ok T) (hL : TreeRight w.heap ch T) (j : Nat) :
    (∀ t, SubtreeAt ch n t →
      (loopP .plain DftEvent.value RevDft.owns (methodP k n (RevDft.startP n)) RevDft.nextP j).run w =
        .ok (w, t.events.reverse.take j)) ∧
    (loopP .plain id Sib.owns (methodP k n (Sib.childrenReverseP n)) Sib.prevP j).run w =
      .ok (w, (ch n).reverse.take j) ∧
    (∀ p l1 l2, ch p = l1 ++ n :: l2 →
      (loopP .plain id Sib.owns (methodP k n (Sib.siblingsReverseP n)) Sib.prevP j).run w =
        .ok (w, (ch p).reverse.take j) ∧
      (loopP .plain id Sib.owns (methodP k n (Sib.orSelfP n)) Sib.prevP j).run w =
        .ok (w, (n :: l1.reverse).take j) ∧
      (loopP .plain id Sib.owns (methodP k n (Sib.precedingReverseP n)) Sib.prevP j).run w =
        .ok (w, l1.reverse.take j)) := by
  obtain ⟨v, ch', W⟩ := hr.wide
  obtain rfl := hF.unique W.shape
  have V := W.inv.wf
  have ha : v.heap.alive n = true := by rw [W.sim.heap.alive]; exact W.held_alive hk
  refine ⟨fun t ht => ?_, ?_, fun p l1 l2 hs => ?_⟩
  · exact loop_right hr R W hk hT hL (methodP_uses (RevDft.startP_uses n)) RevDft.nextP_uses methodP_eval
      (RevDft.nextP_eval _) (V.revDft_yields ha ht) j
  · obtain ⟨-, s2, e2, h2⟩ := C21_children V ha
    exact sib_right hr R W hk hT hL (Sib.childrenReverseP_uses n) Sib.prevP_uses
      ((Sib.childrenReverseP_eval _ n).trans e2) (Sib.prevP_eval _) h2 j
  · obtain ⟨-, ⟨s2, e2, h2⟩, -, -, h5, s6, e6, h6⟩ := C21_siblings V hs
    exact ⟨sib_right hr R W hk hT hL (Sib.siblingsReverseP_uses n) Sib.prevP_uses
        ((Sib.siblingsReverseP_eval _ n).trans e2) (Sib.prevP_eval _) h2 j,
      sib_right hr R W hk hT hL (Sib.orSelfP_uses n) Sib.prevP_uses rfl (Sib.prevP_eval _) h5 j,
      sib_right hr R W hk hT hL (Sib.precedingReverseP_uses n) Sib.prevP_uses
        ((Sib.precedingReverseP_eval _ n).trans e6) (Sib.prevP_eval _) h6 j⟩

/-- C55: the stable traversers of a `FrozenNode`, in a tree whose last children are right. -/
theorem C55_stable_loop_wide (hr : ReachW w) (R : w.Roomy) (hF : FShape w.heap ch)
    (hk : 0 < w.held .frozen n) (hT : w.heap.nodeTree n = .ok T) (hL : TreeRight w.heap ch T)
    (ht : SubtreeAt ch n t) (j : Nat) :
    (∀ lim,
      (loopP .frozen Shallow.evNode Shallow.owns (Shallow.startP n lim) Shallow.nextP j).run w =
        .ok (w, (t.eventsD lim 0).take j) ∧
      (loopP .frozen Shallow.evNode Shallow.owns (Shallow.startP n lim) Shallow.backP j).run w =
        .ok (w, (t.eventsD lim 0).reverse.take j)) ∧
    (∀ d,
      (loopP .frozen Prod.fst NaBfs.owns (NaBfs.startP n d) (NaBfs.nextP (NaBfs.fuel w.heap)) j).run w =
        .ok (w, (t.bfs d).take j) ∧
      (loopP .frozen Prod.fst AlBfs.owns (AlBfs.startP (NaBfs.fuel w.heap) n d)
        (AlBfs.nextP (w.heap.nNode + 2)) j).run w = .ok (w, (t.bfs d).take j)) ∧
    (loopP .frozen id StableSib.owns (StableSib.childrenP n) StableSib.nextP j).run w =
      .ok (w, (ch n).take j) ∧
    (loopP .frozen id StableSib.owns (StableSib.childrenP n) StableSib.backP j).run w =
      .ok (w, (ch n).reverse.take j) ∧
    ((∀ p, n ∉ ch p) →
      (loopP .frozen DftEvent.value StableDft.owns (StableDft.startP n) StableDft.nextP j).run w =
        .ok (w, t.events.take j) ∧
      (loopP .frozen DftEvent.value StableDft.owns (StableDft.startP n) StableDft.backP j).run w =
        .ok (w, t.events.reverse.take j)) := by
  obtain ⟨v, ch', W⟩ := hr.wide
  obtain rfl := hF.unique W.shape
  have V := W.inv.wf
  have ha : v.heap.alive n = true := by rw [W.sim.heap.alive]; exact W.held_alive hk
  have hnn : w.heap.nNode = v.heap.nNode := W.sim.heap.nNode.symm
  have hfu : NaBfs.fuel w.heap = NaBfs.fuel v.heap := by simp only [NaBfs.fuel, hnn]
  rw [hfu, hnn]
  refine ⟨fun lim => ⟨?_, ?_⟩, fun d => ⟨?_, ?_⟩, ?_, ?_, fun hroot => ⟨?_, ?_⟩⟩
  · exact loop_right hr R W hk hT hL (Shallow.startP_uses n lim) Shallow.nextP_uses rfl (Shallow.nextP_eval _)
      (V.shallow_inv lim ha ht).yields j
  · exact loop_right hr R W hk hT hL (Shallow.startP_uses n lim) Shallow.backP_uses rfl (Shallow.backP_eval _)
      (Shallow.back_yields _ rfl (V.shallow_inv lim ha ht)) j
  · exact loop_right hr R W hk hT hL (NaBfs.startP_uses n d) (NaBfs.nextP_uses _) rfl (NaBfs.nextP_eval _)
      (V.nabfs_yields ha ht d) j
  · obtain ⟨s, e, hy⟩ := V.albfs_yields ha ht d
    exact loop_right hr R W hk hT hL (AlBfs.startP_uses _ n d) (AlBfs.nextP_uses _)
      ((AlBfs.startP_eval _ n d).trans e) (AlBfs.nextP_eval _) hy j
  · obtain ⟨s, e, hy⟩ := V.children_stable ha
    exact loop_right hr R W hk hT hL (StableSib.childrenP_uses n) (by simpa only [List.map_id] using StableSib.nextP_uses)
      ((StableSib.childrenP_eval _ n).trans e) (StableSib.nextP_eval _) hy j
  · obtain ⟨s, e, hy⟩ := V.children_stable_back ha
    exact loop_right hr R W hk hT hL (StableSib.childrenP_uses n) (by simpa only [List.map_id] using StableSib.backP_uses)
      ((StableSib.childrenP_eval _ n).trans e) (StableSib.backP_eval _) hy j
  · exact loop_right hr R W hk hT hL (StableDft.startP_uses n) StableDft.nextP_uses rfl (StableDft.nextP_eval _)
      (V.stableDft_yields ha ht hroot) j
  · exact loop_right hr R W hk hT hL (StableDft.startP_uses n) StableDft.backP_uses rfl (StableDft.backP_eval _)
      (V.stableDft_back_yields ha ht hroot) j

/-- The hypotheses of the forward loops, in a state where `last_child` of the node is wrong. -/
example : ReachW (DemoWorld.wide 5) ∧ (DemoWorld.wide 5).Roomy ∧ 0 < (DemoWorld.wide 5).held .hot 0 ∧
    (DemoWorld.wide 5).heap.lastChildLink 0 = .ok (some 3) ∧
    (loopP .plain id Sib.owns (methodP .hot 0 (Sib.childrenP 0)) Sib.nextP 5).run (DemoWorld.wide 5) =
      .ok (DemoWorld.wide 5, [1, 2]) := by
  refine ⟨DemoWorld.wideReach5, DemoWorld.wide5_roomy, by decide +kernel, rfl, ?_⟩
  obtain ⟨v, ch, W⟩ := DemoWorld.wideReach5.wide
  have h := (C55_forward_loop_wide (k := .hot) (n := 0) DemoWorld.wideReach5 DemoWorld.wide5_roomy W.shape
    (by decide +kernel) 5).2.1
  rw [(DemoWorld.wideChildren W.shape).1] at h
  exact h

/-- The hypotheses of the others. -/
example : ∃ ch tr, ReachW DemoWorld.frozenW ∧ DemoWorld.frozenW.Roomy ∧ FShape DemoWorld.frozenW.heap ch ∧
    0 < DemoWorld.frozenW.held .frozen 0 ∧ DemoWorld.frozenW.heap.nodeTree 0 = .ok 0 ∧
    TreeRight DemoWorld.frozenW.heap ch 0 ∧ SubtreeAt ch 0 tr := by
  obtain ⟨ch, I⟩ := DemoWorld.frozen_reach.inv
  obtain ⟨tr, hs⟩ := I.wf.exists_subtree 0
  exact ⟨ch, tr, DemoWorld.frozen_reach.toW, DemoWorld.frozen_roomy, I.wf.toFShape, by decide +kernel, rfl,
    C54_tree_right DemoWorld.frozen_reach I.wf.toFShape, hs⟩

/-- The hypotheses of `C55_clone_wide`, `C55_peek_wide` and `C55_close_current_wide`: traversers at node 0, and one
which has come from node 0 to node 2. -/
example : ReachW DemoWorld.frozenW ∧ DemoWorld.frozenW.Roomy ∧
    DemoWorld.frozenW.Has (handles .frozen (AlBfs.owns ⟨[some 0, none], 0⟩)) ∧
    ReachW (DemoWorld.at_ 8) ∧ (DemoWorld.at_ 8).Roomy ∧
    (DemoWorld.at_ 8).Has (handles .plain (Dft.owns (some (.opn 2, 0)))) ∧
    closeCurrent (Dft.next (DemoWorld.at_ 8).heap) 9 0 (some (.opn 2, 0)) = .ok (some 0, none) := by
  refine ⟨DemoWorld.frozen_reach.toW, DemoWorld.frozen_roomy, has_oneW (by decide +kernel), DemoWorld.reach8.toW,
    DemoWorld.at8_roomy, ?_, rfl⟩
  intro k x
  have h2 : 0 < (DemoWorld.at_ 8).held .plain 2 := by decide +kernel
  have h0 : 0 < (DemoWorld.at_ 8).held .plain 0 := by decide +kernel
  show List.count (k, x) [(.plain, 2), (.plain, 0)] ≤ _
  by_cases e2 : (Kind.plain, (2 : NodeId)) = (k, x)
  · cases e2; exact Nat.le_trans (Nat.le_of_eq rfl) h2
  · by_cases e0 : (Kind.plain, (0 : NodeId)) = (k, x)
    · cases e0; exact Nat.le_trans (Nat.le_of_eq rfl) h0
    · rw [List.count_cons_of_ne e2, List.count_cons_of_ne e0]; exact Nat.zero_le _

/-- A tree with right last children beside one with a wrong one: the detached node 3 and the node 0. -/
example : ∃ ch, FShape (DemoWorld.wide 5).heap ch ∧ (DemoWorld.wide 5).heap.nodeTree 3 = .ok 1 ∧
    TreeRight (DemoWorld.wide 5).heap ch 1 ∧ ¬ TreeRight (DemoWorld.wide 5).heap ch 0 := by
  obtain ⟨v, ch, W⟩ := DemoWorld.wideReach5.wide
  obtain ⟨h0, -, -⟩ := DemoWorld.wideChildren W.shape
  have h3 : ch 3 = [] := by
    have e : (DemoWorld.wide 5).heap.firstChild 3 = none := rfl
    have := W.shape.first 3 rfl
    rw [e] at this
    cases h : ch 3 with
    | nil => rfl
    | cons a l => rw [h] at this; cases this
  refine ⟨ch, W.shape, rfl, ?_, fun h => ?_⟩
  · intro p hp ht
    have hm := (W.fwd.tree.treeCore_iff hp).1 ht
    have hlt : ∀ p, p < 4 → (DemoWorld.wide 5).heap.memTree p = some 1 → p = 3 := by decide +kernel
    have hb : p < 4 := by
      rcases Nat.lt_or_ge p 4 with h | h
      · exact h
      · obtain ⟨s, rfl⟩ : ∃ s, p = s + 4 := ⟨p - 4, (Nat.sub_add_cancel h).symm⟩
        cases hp
    obtain rfl := hlt p hb hm
    show (DemoWorld.wide 5).heap.navTo 3 .lastChild = .ok (ch 3).getLast?
    rw [h3]; rfl
  · have : (DemoWorld.wide 5).heap.navTo 0 .lastChild = .ok (ch 0).getLast? := h 0 rfl rfl
    rw [h0] at this
    cases this

end Dendron
