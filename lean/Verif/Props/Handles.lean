import Verif.Proofs.WTraverseEval
import Verif.Props.Traverse
import Verif.Props.Steady
import Verif.Props.Locks

/-!
# C55: what traversers do to handles, reference counts and locks

`Prog.run` performs the code of a traverser on the program state, each clone, drop and navigation being a
call of the API as in `Op`.  `loopP`: make a traverser, take at most `j` items, dropping each, drop the
traverser.
-/

set_option autoImplicit false

namespace Dendron
open RTree Prog

variable {α β : Type} {w : World α} {ch : NodeId → List NodeId} {n p : NodeId} {t : RTree NodeId}

private theorem ends {out : β → Handles} {q : Prog α β} {O : Handles} {res : Except Fault β} (hr : Reach w)
    (R : w.Roomy) (h : w.Has O) (u : Uses out q O) (e : q.eval w.heap = res) : Ends w q.run O res out := by
  have := sound hr R h u
  rw [e] at this
  cases res with
  | error e => exact this
  | ok b =>
    obtain ⟨w', e1, D⟩ := this
    exact ⟨w', e1, D.reads, D.exch⟩

private theorem has_one {k : Kind} (hk : 0 < w.held k n) : w.Has [(k, n)] := by
  intro k' m
  rw [List.count_cons, List.count_nil]
  by_cases e : (k, n) = (k', m)
  · cases e; simp; exact hk
  · simp [e]

private theorem loop_run {σ ι : Type} {k k0 : Kind} {node : ι → NodeId} {owns : σ → List NodeId}
    {next : σ → Prog α (Option ι × σ)} {nx : σ → Step σ ι} {start : Prog α σ} {s : σ} {l : List ι}
    (hr : Reach w) (R : w.Roomy) (hk : 0 < w.held k0 n)
    (hu : Uses (fun s => (k0, n) :: handles k (owns s)) start [(k0, n)])
    (hn : ∀ s, Uses (fun r => handles k (r.1.toList.map node ++ owns r.2)) (next s) (handles k (owns s)))
    (es : start.eval w.heap = .ok s) (en : ∀ s, (next s).eval w.heap = nx s) (hy : Yields nx s l)
    (j : Nat) : (loopP k node owns start next j).run w = .ok (w, l.take j) := by
  have := sound hr R (has_one hk) (loopP_uses (F := [(k0, n)]) hu hn j)
  rw [loopP_eval es en hy j] at this
  obtain ⟨w', e, D⟩ := this
  rw [e]
  have hh : w'.held = w.held := by
    funext k' m
    have := D.exch.held k' m
    omega
  rw [D.reads.eq hr hh D.exch.trees D.exch.grantTok D.exch.prohTok]

private theorem wf_of (hr : Reach w) (hF : FShape w.heap ch) : WF w.heap ch := by
  obtain ⟨ch0, I⟩ := hr.inv
  obtain rfl := hF.unique I.wf.toFShape
  exact I.wf

private theorem alive_of (hr : Reach w) {k : Kind} (hk : 0 < w.held k n) : w.heap.alive n = true := by
  obtain ⟨ch0, I⟩ := hr.inv
  exact I.held_alive hk

/-! ### One call -/

/-- C55, one call of `next` of an unstable traverser: owning the handles in its state, it does what
`Verif.Model.Traverse` says on the memory, and afterwards its user owns the handle of the item returned
and the traverser exactly the handles in its new state. -/
theorem C55_next_plain (hr : Reach w) (R : w.Roomy) :
    (∀ s, w.Has (handles .plain (Dft.owns s)) → Ends w (Dft.nextP s).run (handles .plain (Dft.owns s))
      (Dft.next w.heap s) (fun r => handles .plain (r.1.toList.map DftEvent.value ++ Dft.owns r.2))) ∧
    (∀ s, w.Has (handles .plain (RevDft.owns s)) → Ends w (RevDft.nextP s).run (handles .plain (RevDft.owns s))
      (RevDft.next w.heap s) (fun r => handles .plain (r.1.toList.map DftEvent.value ++ RevDft.owns r.2))) ∧
    (∀ s, w.Has (handles .plain (Sib.owns s)) → Ends w (Sib.nextP s).run (handles .plain (Sib.owns s))
      (Sib.next w.heap s) (fun r => handles .plain (r.1.toList ++ Sib.owns r.2))) ∧
    (∀ s, w.Has (handles .plain (Sib.owns s)) → Ends w (Sib.prevP s).run (handles .plain (Sib.owns s))
      (Sib.prev w.heap s) (fun r => handles .plain (r.1.toList ++ Sib.owns r.2))) ∧
    (∀ s, w.Has (handles .plain (Sib.owns s)) → Ends w (Sib.upP s).run (handles .plain (Sib.owns s))
      (Sib.up w.heap s) (fun r => handles .plain (r.1.toList ++ Sib.owns r.2))) :=
  ⟨fun s h => ends hr R h (Dft.nextP_uses s) (Dft.nextP_eval _ s),
   fun s h => ends hr R h (RevDft.nextP_uses s) (RevDft.nextP_eval _ s),
   fun s h => ends hr R h (Sib.nextP_uses s) (Sib.nextP_eval _ s),
   fun s h => ends hr R h (Sib.prevP_uses s) (Sib.prevP_eval _ s),
   fun s h => ends hr R h (Sib.upP_uses s) (Sib.upP_eval _ s)⟩

/-- C55, one call of `next` or `next_back` of a stable traverser. -/
theorem C55_next_stable (hr : Reach w) (R : w.Roomy) :
    (∀ s, w.Has (handles .frozen (StableDft.owns s)) →
      Ends w (StableDft.nextP s).run (handles .frozen (StableDft.owns s)) (StableDft.next w.heap s)
        (fun r => handles .frozen (r.1.toList.map DftEvent.value ++ StableDft.owns r.2)) ∧
      Ends w (StableDft.backP s).run (handles .frozen (StableDft.owns s)) (StableDft.back w.heap s)
        (fun r => handles .frozen (r.1.toList.map DftEvent.value ++ StableDft.owns r.2))) ∧
    (∀ s, w.Has (handles .frozen (Shallow.owns s)) →
      Ends w (Shallow.nextP s).run (handles .frozen (Shallow.owns s)) (Shallow.next w.heap s)
        (fun r => handles .frozen (r.1.toList.map Shallow.evNode ++ Shallow.owns r.2)) ∧
      Ends w (Shallow.backP s).run (handles .frozen (Shallow.owns s)) (Shallow.back w.heap s)
        (fun r => handles .frozen (r.1.toList.map Shallow.evNode ++ Shallow.owns r.2))) ∧
    (∀ s, w.Has (handles .frozen (StableSib.owns s)) →
      Ends w (StableSib.nextP s).run (handles .frozen (StableSib.owns s)) (StableSib.next w.heap s)
        (fun r => handles .frozen (r.1.toList ++ StableSib.owns r.2)) ∧
      Ends w (StableSib.backP s).run (handles .frozen (StableSib.owns s)) (StableSib.back w.heap s)
        (fun r => handles .frozen (r.1.toList ++ StableSib.owns r.2))) ∧
    (∀ s, w.Has (handles .frozen (NaBfs.owns s)) →
      Ends w (NaBfs.nextP (NaBfs.fuel w.heap) s).run (handles .frozen (NaBfs.owns s)) (NaBfs.next w.heap s)
        (fun r => handles .frozen (r.1.toList.map Prod.fst ++ NaBfs.owns r.2))) ∧
    (∀ s, w.Has (handles .frozen (AlBfs.owns s)) →
      Ends w (AlBfs.nextP (w.heap.nNode + 2) s).run (handles .frozen (AlBfs.owns s)) (AlBfs.next w.heap s)
        (fun r => handles .frozen (r.1.toList.map Prod.fst ++ AlBfs.owns r.2))) :=
  ⟨fun s h => ⟨ends hr R h (StableDft.nextP_uses s) (StableDft.nextP_eval _ s),
      ends hr R h (StableDft.backP_uses s) (StableDft.backP_eval _ s)⟩,
   fun s h => ⟨ends hr R h (Shallow.nextP_uses s) (Shallow.nextP_eval _ s),
      ends hr R h (Shallow.backP_uses s) (Shallow.backP_eval _ s)⟩,
   fun s h => ⟨ends hr R h (StableSib.nextP_uses s) (StableSib.nextP_eval _ s),
      ends hr R h (StableSib.backP_uses s) (StableSib.backP_eval _ s)⟩,
   fun s h => ends hr R h (NaBfs.nextP_uses _ s) (NaBfs.nextP_eval _ s),
   fun s h => ends hr R h (AlBfs.nextP_uses _ s) (AlBfs.nextP_eval _ s)⟩

/-- C55, the remaining constructors (those not covered by the loops below): they keep the handle they are
called on, and the new traverser owns the handles in its state. -/
theorem C55_make_stable_siblings (hr : Reach w) (R : w.Roomy) (hk : 0 < w.held .frozen n) :
    Ends w (StableSib.siblingsP n).run [(.frozen, n)] (StableSib.siblings w.heap n)
      (fun s => (.frozen, n) :: handles .frozen (StableSib.owns s)) ∧
    Ends w (StableSib.followingOrSelfP n).run [(.frozen, n)] (StableSib.followingOrSelf w.heap n)
      (fun s => (.frozen, n) :: handles .frozen (StableSib.owns s)) ∧
    Ends w (StableSib.followingP n).run [(.frozen, n)] (StableSib.following w.heap n)
      (fun s => (.frozen, n) :: handles .frozen (StableSib.owns s)) ∧
    Ends w (StableSib.precedingOrSelfP n).run [(.frozen, n)] (StableSib.precedingOrSelf w.heap n)
      (fun s => (.frozen, n) :: handles .frozen (StableSib.owns s)) ∧
    Ends w (StableSib.precedingP n).run [(.frozen, n)] (StableSib.preceding w.heap n)
      (fun s => (.frozen, n) :: handles .frozen (StableSib.owns s)) :=
  ⟨ends hr R (has_one hk) (StableSib.siblingsP_uses n) (StableSib.siblingsP_eval _ n),
   ends hr R (has_one hk) (StableSib.followingOrSelfP_uses n) (StableSib.followingOrSelfP_eval _ n),
   ends hr R (has_one hk) (StableSib.followingP_uses n) (StableSib.followingP_eval _ n),
   ends hr R (has_one hk) (StableSib.precedingOrSelfP_uses n) (StableSib.precedingOrSelfP_eval _ n),
   ends hr R (has_one hk) (StableSib.precedingP_uses n) (StableSib.precedingP_eval _ n)⟩

theorem cloneAll_uses {k : Kind} : ∀ (l : List NodeId) (O : Handles), (∀ x ∈ l, (k, x) ∈ O) →
    Uses (fun _ => handles k l ++ O) (cloneAll k l : Prog α Unit) O
  | [], O, _ => fun z => rfl
  | x :: l, O, h => by
    refine ⟨h x (by simp), ?_⟩
    refine Uses.mono ?_
      (cloneAll_uses l ((k, x) :: O) (fun y hy => List.mem_cons_of_mem _ (h y (by simp [hy]))))
    intro _ z
    simp only [handles, List.map_cons, List.count_append, List.count_cons]
    omega

theorem cloneAll_eval {k : Kind} (h : Heap α) : ∀ l : List NodeId,
    (cloneAll k l : Prog α Unit).eval h = .ok ()
  | [] => rfl
  | _ :: l => cloneAll_eval h l

private theorem cloneState {σ : Type} {k : Kind} (hr : Reach w) (R : w.Roomy) (owns : σ → List NodeId) (s : σ)
    (h : w.Has (handles k (owns s))) :
    Transacts w (cloneStateP k owns s).run (handles k (owns s)) s (handles k (owns s ++ owns s)) := by
  have := ends (res := .ok s) hr R h (q := cloneStateP k owns s) (out := fun _ => handles k (owns s ++ owns s))
    (Uses.bind (cloneAll_uses (owns s) _ (fun x hx => List.mem_map_of_mem hx))
      (fun _ z => by simp [handles, List.map_append, List.count_append]))
    (by
      show Prog.eval (Prog.bind _ _) _ = _
      rw [eval_bind, cloneAll_eval]; rfl)
  exact this

/-- C55, `clone` of a traverser: the copy is in the same state, and both own the handles in their
states; nothing else changes. -/
theorem C55_clone (hr : Reach w) (R : w.Roomy) :
    (∀ s, w.Has (handles .plain (Dft.owns s)) → Transacts w (cloneStateP .plain Dft.owns s).run
      (handles .plain (Dft.owns s)) s (handles .plain (Dft.owns s ++ Dft.owns s))) ∧
    (∀ s, w.Has (handles .plain (RevDft.owns s)) → Transacts w (cloneStateP .plain RevDft.owns s).run
      (handles .plain (RevDft.owns s)) s (handles .plain (RevDft.owns s ++ RevDft.owns s))) ∧
    (∀ s, w.Has (handles .plain (Sib.owns s)) → Transacts w (cloneStateP .plain Sib.owns s).run
      (handles .plain (Sib.owns s)) s (handles .plain (Sib.owns s ++ Sib.owns s))) ∧
    (∀ s, w.Has (handles .frozen (StableDft.owns s)) → Transacts w (cloneStateP .frozen StableDft.owns s).run
      (handles .frozen (StableDft.owns s)) s (handles .frozen (StableDft.owns s ++ StableDft.owns s))) ∧
    (∀ s, w.Has (handles .frozen (Shallow.owns s)) → Transacts w (cloneStateP .frozen Shallow.owns s).run
      (handles .frozen (Shallow.owns s)) s (handles .frozen (Shallow.owns s ++ Shallow.owns s))) ∧
    (∀ s, w.Has (handles .frozen (StableSib.owns s)) → Transacts w (cloneStateP .frozen StableSib.owns s).run
      (handles .frozen (StableSib.owns s)) s (handles .frozen (StableSib.owns s ++ StableSib.owns s))) ∧
    (∀ s, w.Has (handles .frozen (NaBfs.owns s)) → Transacts w (cloneStateP .frozen NaBfs.owns s).run
      (handles .frozen (NaBfs.owns s)) s (handles .frozen (NaBfs.owns s ++ NaBfs.owns s))) ∧
    (∀ s, w.Has (handles .frozen (AlBfs.owns s)) → Transacts w (cloneStateP .frozen AlBfs.owns s).run
      (handles .frozen (AlBfs.owns s)) s (handles .frozen (AlBfs.owns s ++ AlBfs.owns s))) :=
  ⟨fun s h => cloneState hr R _ s h, fun s h => cloneState hr R _ s h, fun s h => cloneState hr R _ s h,
   fun s h => cloneState hr R _ s h, fun s h => cloneState hr R _ s h, fun s h => cloneState hr R _ s h,
   fun s h => cloneState hr R _ s h, fun s h => cloneState hr R _ s h⟩

/-- C55, `peek` of the allocating breadth-first traverser, the only one that returns a handle: it returns
what `Verif.Model.Traverse` says with one new handle. -/
theorem C55_peek (hr : Reach w) (R : w.Roomy) (s : AlBfs.State)
    (h : w.Has (handles .frozen (AlBfs.owns s))) :
    Ends w (AlBfs.peekP s).run (handles .frozen (AlBfs.owns s)) (AlBfs.peek s)
      (fun r => handles .frozen (r.toList.map Prod.fst ++ AlBfs.owns s)) := by
  obtain ⟨es, d⟩ := s
  refine ends hr R h ?_ ?_
  · unfold AlBfs.peekP
    rcases es with _ | ⟨_ | x, _ | ⟨_ | y, es⟩⟩
    all_goals simp [Uses, AlBfs.owns, handles, Bind.bind, Pure.pure, Prog.bind, cloneP]
  · unfold AlBfs.peekP AlBfs.peek
    rcases es with _ | ⟨_ | x, _ | ⟨_ | y, es⟩⟩ <;> rfl

/-- C55, `close_current` of the three depth-first traversers (`f` the fuel of its loop). -/
theorem C55_close_current (hr : Reach w) (R : w.Roomy) (f : Nat) :
    (∀ s, w.Has (handles .plain (Dft.owns s)) →
      Ends w (closeCurrentP .plain id Dft.nextP f 0 s).run (handles .plain (Dft.owns s))
        (closeCurrent (Dft.next w.heap) f 0 s) (fun r => handles .plain (r.1.toList ++ Dft.owns r.2))) ∧
    (∀ s, w.Has (handles .frozen (StableDft.owns s)) →
      Ends w (closeCurrentP .frozen id StableDft.nextP f 0 s).run (handles .frozen (StableDft.owns s))
        (closeCurrent (StableDft.next w.heap) f 0 s)
        (fun r => handles .frozen (r.1.toList ++ StableDft.owns r.2))) ∧
    (∀ s, w.Has (handles .frozen (Shallow.owns s)) →
      Ends w (closeCurrentP .frozen Prod.fst Shallow.nextP f 0 s).run (handles .frozen (Shallow.owns s))
        (closeCurrent (Shallow.next w.heap) f 0 s)
        (fun r => handles .frozen (r.1.toList.map Prod.fst ++ Shallow.owns r.2))) := by
  refine ⟨fun s h => ?_, fun s h => ?_, fun s h => ?_⟩
  · have := ends hr R h (closeCurrentP_uses (node := id) Dft.nextP_uses f 0 s)
      (closeCurrentP_eval (Dft.nextP_eval _) f 0 s)
    simpa only [List.map_id] using this
  · have := ends hr R h (closeCurrentP_uses (node := id) StableDft.nextP_uses f 0 s)
      (closeCurrentP_eval (StableDft.nextP_eval _) f 0 s)
    simpa only [List.map_id] using this
  · exact ends hr R h (closeCurrentP_uses (node := Prod.fst) Shallow.nextP_uses f 0 s)
      (closeCurrentP_eval (Shallow.nextP_eval _) f 0 s)

/-! ### Whole loops -/

theorem Shallow.back_yields {h : Heap α} : ∀ (m : Nat) {l : List Shallow.Ev} {s : Shallow.State},
    l.length = m → Shallow.Inv h s l → Yields (Shallow.back h) s l.reverse := by
  intro m
  induction m with
  | zero =>
    intro l s hl I
    obtain rfl := List.eq_nil_of_length_eq_zero hl
    have := I.ends
    exact .done (s' := s) (by simp [Shallow.back, this]) (by simp [Shallow.back, this])
  | succ m ih =>
    intro l s hl I
    obtain ⟨s', h1, I', _⟩ := I.rear
    rcases List.eq_nil_or_concat l with rfl | ⟨l', z, rfl⟩
    · simp at hl
    · simp only [List.concat_eq_append, List.dropLast_concat, List.getLast?_concat, List.reverse_append,
        List.reverse_cons, List.reverse_nil, List.nil_append, List.cons_append, List.length_append,
        List.length_cons, List.length_nil] at *
      exact .more h1 (ih (by omega) I')

/-- C55: `depth_first_traverse` and `depth_first_reverse_traverse` of a handle of any kind, stopped after
any number of items: the items are the events of the subtree, and afterwards the program state is exactly
the one before. -/
theorem C55_depth_first_loop {k : Kind} (hr : Reach w) (R : w.Roomy) (hF : FShape w.heap ch)
    (hk : 0 < w.held k n) (ht : SubtreeAt ch n t) (j : Nat) :
    (loopP .plain DftEvent.value Dft.owns (methodP k n (Dft.startP n)) Dft.nextP j).run w =
      .ok (w, t.events.take j) ∧
    (loopP .plain DftEvent.value RevDft.owns (methodP k n (RevDft.startP n)) RevDft.nextP j).run w =
      .ok (w, t.events.reverse.take j) := by
  have W := wf_of hr hF
  have ha := alive_of hr hk
  exact ⟨loop_run hr R hk (methodP_uses (Dft.startP_uses n)) Dft.nextP_uses methodP_eval (Dft.nextP_eval _)
      (W.dft_yields ha ht) j,
    loop_run hr R hk (methodP_uses (RevDft.startP_uses n)) RevDft.nextP_uses methodP_eval
      (RevDft.nextP_eval _) (W.revDft_yields ha ht) j⟩

private theorem sib_loop {k : Kind} {next : Sib.State → Prog α (Option NodeId × Sib.State)}
    {nx : Sib.State → Step Sib.State NodeId} {start : Prog α Sib.State} {s : Sib.State} {l : List NodeId}
    (hr : Reach w) (R : w.Roomy) (hk : 0 < w.held k n)
    (hu : Uses (fun s => (.plain, n) :: handles .plain (Sib.owns s)) start [(.plain, n)])
    (hn : ∀ s, Uses (fun r => handles .plain (r.1.toList ++ Sib.owns r.2)) (next s)
      (handles .plain (Sib.owns s)))
    (es : start.eval w.heap = .ok s) (en : ∀ s, (next s).eval w.heap = nx s) (hy : Yields nx s l) (j : Nat) :
    (loopP .plain id Sib.owns (methodP k n start) next j).run w = .ok (w, l.take j) :=
  loop_run hr R hk (methodP_uses hu) (by simpa only [List.map_id] using hn) (methodP_eval.trans es) en hy j

/-- C55: `children`, `children_reverse`, `ancestors_or_self`, `ancestors` (`l` the ancestors). -/
theorem C55_children_ancestors_loop {k : Kind} (hr : Reach w) (R : w.Roomy) (hF : FShape w.heap ch)
    (hk : 0 < w.held k n) {l : List NodeId} (hl : AncPath ch n l) (j : Nat) :
    (loopP .plain id Sib.owns (methodP k n (Sib.childrenP n)) Sib.nextP j).run w = .ok (w, (ch n).take j) ∧
    (loopP .plain id Sib.owns (methodP k n (Sib.childrenReverseP n)) Sib.prevP j).run w =
      .ok (w, (ch n).reverse.take j) ∧
    (loopP .plain id Sib.owns (methodP k n (Sib.orSelfP n)) Sib.upP j).run w = .ok (w, (n :: l).take j) ∧
    (loopP .plain id Sib.owns (methodP k n (Sib.ancestorsP n)) Sib.upP j).run w = .ok (w, l.take j) := by
  have W := wf_of hr hF
  have ha := alive_of hr hk
  obtain ⟨h1, s2, e2, h2⟩ := C21_children W ha
  obtain ⟨h3, s4, e4, h4⟩ := C21_ancestors W.toFShape ha hl
  exact ⟨sib_loop hr R hk (Sib.childrenP_uses n) Sib.nextP_uses (Sib.childrenP_eval _ n) (Sib.nextP_eval _) h1 j,
    sib_loop hr R hk (Sib.childrenReverseP_uses n) Sib.prevP_uses ((Sib.childrenReverseP_eval _ n).trans e2)
      (Sib.prevP_eval _) h2 j,
    sib_loop hr R hk (Sib.orSelfP_uses n) Sib.upP_uses rfl (Sib.upP_eval _) h3 j,
    sib_loop hr R hk (Sib.ancestorsP_uses n) Sib.upP_uses ((Sib.ancestorsP_eval _ n).trans e4)
      (Sib.upP_eval _) h4 j⟩

/-- C55: the siblings iterators of a node between the siblings `l1` and `l2`. -/
theorem C55_siblings_loop {k : Kind} (hr : Reach w) (R : w.Roomy) (hF : FShape w.heap ch)
    (hk : 0 < w.held k n) {l1 l2 : List NodeId} (hs : ch p = l1 ++ n :: l2) (j : Nat) :
    (loopP .plain id Sib.owns (methodP k n (Sib.siblingsP n)) Sib.nextP j).run w = .ok (w, (ch p).take j) ∧
    (loopP .plain id Sib.owns (methodP k n (Sib.siblingsReverseP n)) Sib.prevP j).run w =
      .ok (w, (ch p).reverse.take j) ∧
    (loopP .plain id Sib.owns (methodP k n (Sib.orSelfP n)) Sib.nextP j).run w = .ok (w, (n :: l2).take j) ∧
    (loopP .plain id Sib.owns (methodP k n (Sib.followingP n)) Sib.nextP j).run w = .ok (w, l2.take j) ∧
    (loopP .plain id Sib.owns (methodP k n (Sib.orSelfP n)) Sib.prevP j).run w =
      .ok (w, (n :: l1.reverse).take j) ∧
    (loopP .plain id Sib.owns (methodP k n (Sib.precedingReverseP n)) Sib.prevP j).run w =
      .ok (w, l1.reverse.take j) := by
  have W := wf_of hr hF
  obtain ⟨h1, ⟨s2, e2, h2⟩, h3, ⟨s4, e4, h4⟩, h5, s6, e6, h6⟩ := C21_siblings W hs
  exact ⟨sib_loop hr R hk (Sib.siblingsP_uses n) Sib.nextP_uses (Sib.siblingsP_eval _ n) (Sib.nextP_eval _) h1 j,
    sib_loop hr R hk (Sib.siblingsReverseP_uses n) Sib.prevP_uses ((Sib.siblingsReverseP_eval _ n).trans e2)
      (Sib.prevP_eval _) h2 j,
    sib_loop hr R hk (Sib.orSelfP_uses n) Sib.nextP_uses rfl (Sib.nextP_eval _) h3 j,
    sib_loop hr R hk (Sib.followingP_uses n) Sib.nextP_uses ((Sib.followingP_eval _ n).trans e4)
      (Sib.nextP_eval _) h4 j,
    sib_loop hr R hk (Sib.orSelfP_uses n) Sib.prevP_uses rfl (Sib.prevP_eval _) h5 j,
    sib_loop hr R hk (Sib.precedingReverseP_uses n) Sib.prevP_uses ((Sib.precedingReverseP_eval _ n).trans e6)
      (Sib.prevP_eval _) h6 j⟩

/-- C55: the stable traversers of a `FrozenNode`: `shallow_depth_first_traverse_stable` from either end,
both breadth-first traversers, `children_stable` from either end; and `depth_first_traverse_stable` if the
node is the root (elsewhere it runs past the subtree, `C22_runs_past_subtree`). -/
theorem C55_stable_loop (hr : Reach w) (R : w.Roomy) (hF : FShape w.heap ch)
    (hk : 0 < w.held .frozen n) (ht : SubtreeAt ch n t) (j : Nat) :
    (∀ lim,
      (loopP .frozen Shallow.evNode Shallow.owns (Shallow.startP n lim) Shallow.nextP j).run w =
        .ok (w, (t.eventsD lim 0).take j) ∧
      (loopP .frozen Shallow.evNode Shallow.owns (Shallow.startP n lim) Shallow.backP j).run w =
        .ok (w, (t.eventsD lim 0).reverse.take j)) ∧
    (∀ d,
      (loopP .frozen Prod.fst NaBfs.owns (NaBfs.startP n d) (NaBfs.nextP (NaBfs.fuel w.heap)) j).run w =
        .ok (w, (t.bfs d).take j) ∧
      (loopP .frozen Prod.fst AlBfs.owns (AlBfs.startP (NaBfs.fuel w.heap) n d)
        (AlBfs.nextP (w.heap.nNode + 2)) j).run w = .ok (w, (t.bfs d).take j)) ∧
    (loopP .frozen id StableSib.owns (StableSib.childrenP n) StableSib.nextP j).run w =
      .ok (w, (ch n).take j) ∧
    (loopP .frozen id StableSib.owns (StableSib.childrenP n) StableSib.backP j).run w =
      .ok (w, (ch n).reverse.take j) ∧
    ((∀ p, n ∉ ch p) →
      (loopP .frozen DftEvent.value StableDft.owns (StableDft.startP n) StableDft.nextP j).run w =
        .ok (w, t.events.take j) ∧
      (loopP .frozen DftEvent.value StableDft.owns (StableDft.startP n) StableDft.backP j).run w =
        .ok (w, t.events.reverse.take j)) := by
  have W := wf_of hr hF
  have ha := alive_of hr hk
  refine ⟨fun lim => ⟨?_, ?_⟩, fun d => ⟨?_, ?_⟩, ?_, ?_, fun hroot => ⟨?_, ?_⟩⟩
  · exact loop_run hr R hk (Shallow.startP_uses n lim) Shallow.nextP_uses rfl (Shallow.nextP_eval _)
      (W.shallow_inv lim ha ht).yields j
  · exact loop_run hr R hk (Shallow.startP_uses n lim) Shallow.backP_uses rfl (Shallow.backP_eval _)
      (Shallow.back_yields _ rfl (W.shallow_inv lim ha ht)) j
  · exact loop_run hr R hk (NaBfs.startP_uses n d) (NaBfs.nextP_uses _) rfl (NaBfs.nextP_eval _)
      (W.nabfs_yields ha ht d) j
  · obtain ⟨s, e, hy⟩ := W.albfs_yields ha ht d
    exact loop_run hr R hk (AlBfs.startP_uses _ n d) (AlBfs.nextP_uses _)
      ((AlBfs.startP_eval _ n d).trans e) (AlBfs.nextP_eval _) hy j
  · obtain ⟨s, e, hy⟩ := W.children_stable ha
    exact loop_run hr R hk (StableSib.childrenP_uses n) (by simpa only [List.map_id] using StableSib.nextP_uses)
      ((StableSib.childrenP_eval _ n).trans e) (StableSib.nextP_eval _) hy j
  · obtain ⟨s, e, hy⟩ := W.children_stable_back ha
    exact loop_run hr R hk (StableSib.childrenP_uses n) (by simpa only [List.map_id] using StableSib.backP_uses)
      ((StableSib.childrenP_eval _ n).trans e) (StableSib.backP_eval _) hy j
  · exact loop_run hr R hk (StableDft.startP_uses n) StableDft.nextP_uses rfl (StableDft.nextP_eval _)
      (W.stableDft_yields ha ht hroot) j
  · exact loop_run hr R hk (StableDft.startP_uses n) StableDft.backP_uses rfl (StableDft.backP_eval _)
      (W.stableDft_back_yields ha ht hroot) j

/-! ### The lock of a stable traverser -/

/-- C55: a stable traverser holding a handle of tree `tr` prohibits edits of the tree: acquiring an edit
grant is denied. -/
theorem C55_traverser_prohibits {a : List NodeId} {tr : TreeId} (hr : Reach w)
    (h : w.Has (handles .frozen a)) (hm : n ∈ a) (ht : w.heap.nodeTree n = .ok tr) :
    w.ProhAlive tr ∧ (0 < w.trees tr → w.exec (.acquire true tr) = .ok (w, .denied)) := by
  have hk : 0 < w.held .frozen n := h.pos (List.mem_map.2 ⟨n, hm, rfl⟩)
  have hp : w.ProhAlive tr := .inr ⟨n, hk, ht⟩
  exact ⟨hp, fun h0 => (C38_grant hr.any h0).1 hp⟩

/-- C55: the traversers own handles exactly as long as they are not exhausted: a state whose next call
returns an item owns a handle of that item's node, a state that owns nothing returns `None`. -/
theorem C55_owns_pending {h : Heap α} :
    (∀ s x s', StableDft.next h s = .ok (x, s') →
      (StableDft.owns s = [] ↔ x = none) ∧ ∀ y, x = some y → y.value ∈ StableDft.owns s) ∧
    (∀ s x s', Shallow.next h s = .ok (x, s') →
      (Shallow.owns s = [] ↔ x = none) ∧ ∀ y, x = some y → y.value.1 ∈ Shallow.owns s) ∧
    (∀ s x s', StableSib.next h s = .ok (x, s') →
      (StableSib.owns s = [] ↔ x = none) ∧ ∀ y, x = some y → y ∈ StableSib.owns s) ∧
    (∀ s x s', Dft.next h s = .ok (x, s') →
      (Dft.owns s = [] ↔ x = none) ∧ ∀ y, x = some y → y.value ∈ Dft.owns s) ∧
    (∀ s x s', RevDft.next h s = .ok (x, s') →
      (RevDft.owns s = [] ↔ x = none) ∧ ∀ y, x = some y → y.value ∈ RevDft.owns s) ∧
    (∀ s x s', Sib.next h s = .ok (x, s') →
      (Sib.owns s = [] ↔ x = none) ∧ ∀ y, x = some y → y ∈ Sib.owns s) := by
  refine ⟨?_, ?_, ?_, ?_, ?_, ?_⟩
  · rintro (_ | ⟨a, b⟩) x s' e
    · simp only [StableDft.next, Except.ok.injEq, Prod.mk.injEq] at e
      simp [StableDft.owns, ← e.1]
    · have := C28_peek.2.2.1 _ _ _ e
      simp only [StableDft.peek] at this
      subst this
      simp [StableDft.owns]
  · rintro ⟨_ | ⟨a, b⟩, lim⟩ x s' e
    · have := C28_peek.2.2.2.2.1 _ _ _ e
      simp only [Shallow.peek] at this
      subst this
      simp [Shallow.owns]
    · have := C28_peek.2.2.2.2.1 _ _ _ e
      simp only [Shallow.peek] at this
      subst this
      simp [Shallow.owns, Shallow.evNode]
  · rintro (_ | ⟨a, b⟩) x s' e
    · have := C28_peek.2.2.2.2.2.2.2.2.2.1 _ _ _ e
      simp only [StableSib.peek] at this
      subst this
      simp [StableSib.owns]
    · have := C28_peek.2.2.2.2.2.2.2.2.2.1 _ _ _ e
      simp only [StableSib.peek] at this
      subst this
      simp [StableSib.owns]
  · rintro (_ | ⟨a, b⟩) x s' e
    all_goals
      have := C28_peek.1 _ _ _ e
      simp only [Dft.peek] at this
      subst this
      simp [Dft.owns]
  · rintro (_ | ⟨a, b⟩) x s' e
    all_goals
      have := C28_peek.2.1 _ _ _ e
      simp only [RevDft.peek] at this
      subst this
      simp [RevDft.owns]
  · rintro (_ | a) x s' e
    all_goals
      have := C28_peek.2.2.2.2.2.2.1 _ _ _ e
      simp only [Sib.peek] at this
      subst this
      simp [Sib.owns]

private theorem shallow_none {h : Heap α} {s s' : Shallow.State} (e : Shallow.next h s = .ok (none, s')) :
    Shallow.owns s' = [] := by
  obtain ⟨_ | ⟨a, b⟩, lim⟩ := s
  · simp only [Shallow.next, Except.ok.injEq, Prod.mk.injEq, true_and] at e
    subst e; rfl
  · have := C28_peek.2.2.2.2.1 _ _ _ e
    simp [Shallow.peek] at this

private theorem skip_none {h : Heap α} {d f : Nat} : ∀ {s s' : Shallow.State},
    NaBfs.skip h d f s = .ok (none, s') → Shallow.owns s' = [] := by
  induction f with
  | zero => intro s s' e; cases e
  | succ f ih =>
    intro s s' e
    simp only [NaBfs.skip] at e
    split at e
    · cases e
    · rename_i h0
      cases e
      exact shallow_none h0
    · split at e
      · cases e
      · exact ih e
    · exact ih e

private theorem albfs_none {h : Heap α} : ∀ {f : Nat} {s s' : AlBfs.State},
    AlBfs.nextF h f s = .ok (none, s') → AlBfs.owns s' = [] := by
  intro f
  induction f with
  | zero => intro s s' e; cases e
  | succ f ih =>
    intro s s' e
    simp only [AlBfs.nextF] at e
    split at e
    · rename_i h0
      cases e
      simp [AlBfs.owns, h0]
    · simp only [Bind.bind, Except.bind, Pure.pure, Except.pure] at e
      split at e <;> cases e
    · split at e
      · cases e; rfl
      · exact ih e

/-- C55: a stable traverser that has returned `None` holds no handle, so it no longer prohibits edits. -/
theorem C55_exhausted_owns_nothing {h : Heap α} :
    (∀ s s', StableDft.next h s = .ok (none, s') → StableDft.owns s' = []) ∧
    (∀ s s', StableDft.back h s = .ok (none, s') → StableDft.owns s' = []) ∧
    (∀ s s', Shallow.next h s = .ok (none, s') → Shallow.owns s' = []) ∧
    (∀ s s', Shallow.back h s = .ok (none, s') → Shallow.owns s' = []) ∧
    (∀ s s', StableSib.next h s = .ok (none, s') → StableSib.owns s' = []) ∧
    (∀ s s', StableSib.back h s = .ok (none, s') → StableSib.owns s' = []) ∧
    (∀ s s', NaBfs.next h s = .ok (none, s') → s'.root = none ∧
      (s.root ≠ none → NaBfs.owns s' = [])) ∧
    (∀ s s', AlBfs.next h s = .ok (none, s') → AlBfs.owns s' = []) := by
  refine ⟨?_, ?_, fun s s' e => shallow_none e, ?_, ?_, ?_, ?_, fun s s' e => albfs_none e⟩
  · rintro (_ | ⟨a, b⟩) s' e
    · cases e; rfl
    · cases C28_peek.2.2.1 _ _ _ e
  · rintro (_ | ⟨a, b⟩) s' e
    · cases e; rfl
    · cases C28_peek.2.2.2.1 _ _ _ e
  · rintro ⟨_ | ⟨a, b⟩, lim⟩ s' e
    · cases e; rfl
    · have := C28_peek.2.2.2.2.2.1 _ _ _ e
      simp [Shallow.peekBack] at this
  · rintro (_ | ⟨a, b⟩) s' e
    · cases e; rfl
    · cases C28_peek.2.2.2.2.2.2.2.2.2.1 _ _ _ e
  · rintro (_ | ⟨a, b⟩) s' e
    · cases e; rfl
    · cases C28_peek.2.2.2.2.2.2.2.2.2.2 _ _ _ e
  · rintro ⟨i, _ | r, d⟩ s' e
    · cases e; exact ⟨rfl, fun h => absurd rfl h⟩
    · simp only [NaBfs.next, Bind.bind, Except.bind, Pure.pure, Except.pure] at e
      rcases h1 : NaBfs.skip h d (NaBfs.fuel h) i with _ | ⟨_ | x, i'⟩ <;> simp only [h1] at e
      · cases e
      · rcases h2 : NaBfs.skip h (d + 1) (NaBfs.fuel h) (Shallow.start r (some (d + 1))) with
          _ | ⟨_ | x, i''⟩ <;> simp only [h2] at e
        · cases e
        · cases e
          refine ⟨rfl, fun _ => ?_⟩
          simp only [NaBfs.owns, Option.toList_none, List.append_nil]
          exact skip_none h2
        · cases e
      · cases e

/-! ### Concrete cases -/

/-- The frozen program of C54 meets the hypotheses of the stable loops, with the subtree `0(1)`. -/
theorem DemoWorld.frozen_roomy : DemoWorld.frozenW.Roomy := by
  intro t
  have h : ∀ s, frozenW.grantTok s + frozenW.prohTok s + frozenW.heap.nNode = 3 := fun s => rfl
  rw [h t]; decide

example : ∃ ch tr, FShape DemoWorld.frozenW.heap ch ∧ 0 < DemoWorld.frozenW.held .frozen 0 ∧
    SubtreeAt ch 0 tr ∧ (∀ p, 0 ∉ ch p) ∧ Reach DemoWorld.frozenW ∧ DemoWorld.frozenW.Roomy := by
  obtain ⟨ch, I⟩ := DemoWorld.frozen_reach.inv
  obtain ⟨tr, hs⟩ := I.wf.exists_subtree 0
  refine ⟨ch, tr, I.wf.toFShape, by decide +kernel, hs, ?_, DemoWorld.frozen_reach, DemoWorld.frozen_roomy⟩
  intro p hp
  have := I.wf.toFShape.parent_of_mem hp
  cases this

/-- What the loops return there. -/
example :
    ((loopP .frozen DftEvent.value StableDft.owns (StableDft.startP 0) StableDft.nextP 9).run
      DemoWorld.frozenW).map Prod.snd = .ok [.opn 0, .opn 1, .cls 1, .cls 0] := rfl

/-- A program with a plain handle of node 1, a child with a sibling, meets the others (`DemoWorld` before
its move). -/
example : Reach (DemoWorld.at_ 8) ∧ (DemoWorld.at_ 8).Roomy ∧ 0 < (DemoWorld.at_ 8).held .plain 2 ∧
    0 < (DemoWorld.at_ 8).held .hot 1 ∧
    ((loopP .plain id Sib.owns (methodP .hot 1 (Sib.siblingsP 1)) Sib.nextP 9).run
      (DemoWorld.at_ 8)).map Prod.snd = .ok [1, 2] := by
  refine ⟨DemoWorld.reach8, ?_, by decide +kernel, by decide +kernel, rfl⟩
  intro t
  rcases Nat.lt_or_ge t 1 with h | h
  · obtain rfl : t = 0 := Nat.lt_one_iff.1 h
    decide +kernel
  · obtain ⟨s, rfl⟩ : ∃ s, t = s + 1 := ⟨t - 1, (Nat.sub_add_cancel h).symm⟩
    have : (DemoWorld.at_ 8).grantTok (s + 1) + (DemoWorld.at_ 8).prohTok (s + 1) +
      (DemoWorld.at_ 8).heap.nNode = 5 := rfl
    rw [this]; decide

/-- A traverser of the frozen program made and cloned: each of the two owns two frozen handles. -/
example : ((StableDft.startP 0 >>= fun s => cloneStateP .frozen StableDft.owns s).run
    DemoWorld.frozenW).map (fun r => (r.1.held .frozen 0, r.2)) =
      .ok (DemoWorld.frozenW.held .frozen 0 + 4, StableDft.start 0) := rfl

end Dendron
