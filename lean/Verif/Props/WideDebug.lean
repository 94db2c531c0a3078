import Verif.Proofs.Undo
import Verif.Proofs.ReadAny
import Verif.Proofs.DemoWide
import Verif.Props.Debug

/-!
# C56 in the wider histories

`Debug` of a node asks for the previous sibling, for which `last_child` of the parent must be right if the node is the
first child.  The printers of whole subtrees and trees ask for first children and next siblings only: what is proved in
`Verif.Props.Debug` holds for them in the wider histories as it stands.
-/

set_option autoImplicit false

namespace Dendron
open RTree

variable {α : Type} {w : World α} {ch : NodeId → List NodeId} {n : NodeId} {t : RTree NodeId} {tr : TreeId}

private theorem shownW {h : Heap α} (ha : h.alive n = true) : h.shownData n (h.debugData n) := by
  unfold Heap.shownData Heap.debugData
  cases hm : h.mutB n with
  | true => exact .inl ⟨rfl, by simp⟩
  | false =>
    obtain ⟨d, hd⟩ := Option.isSome_iff_exists.1 (show (h.data n).isSome = true from ha)
    exact .inr ⟨rfl, d, hd, by simp [hd]⟩

private theorem cons_inj {x : NodeId} : ∀ {a b c d : List NodeId}, x ∉ c → x ∉ a →
    c ++ x :: d = a ++ x :: b → a = c ∧ b = d
  | [], b, [], d, _, _, e => by simp at e; exact ⟨rfl, e.symm⟩
  | [], b, y :: c, d, h1, _, e => by simp at e; exact absurd (by simp [e.1]) h1
  | y :: a, b, [], d, _, h2, e => by simp at e; exact absurd (by simp [e.1]) h2
  | y :: a, b, z :: c, d, h1, h2, e => by
    simp only [List.cons_append, List.cons.injEq] at e
    obtain ⟨rfl, rfl⟩ := cons_inj (fun h => h1 (by simp [h])) (fun h => h2 (by simp [h])) e.2
    exact ⟨by rw [e.1], rfl⟩

/-- C56, `Debug` of a node and `debug_print_local`, in the wider histories. -/
theorem C56_local_wide (hr : ReachW w) (F : FShape w.heap ch) (ha : w.heap.alive n = true)
    (ht : w.heap.nodeTree n = .ok tr) (hl : ∀ p, (ch p).head? = some n → LastRight w.heap ch p) (k : Kind) :
    ∃ d p v x f, w.heap.debugLocal k n = .ok (.struct
        (match k with | .plain => "Node" | .hot => "HotNode" | .frozen => "FrozenNode")
        [("data", d), ("parent", p), ("prev_sibling", v), ("next_sibling", x), ("first_child", f),
         ("tree", .struct "Tree" [("lock_manager", Dbg.ofLock (w.heap.grants tr))])]) ∧
      w.heap.shownData n d ∧
      Dbg.optional (∃ q, n ∈ ch q) p ∧
      Dbg.optional (∃ q l1 m l2, ch q = l1 ++ m :: n :: l2) v ∧
      Dbg.optional (∃ q l1 m l2, ch q = l1 ++ n :: m :: l2) x ∧
      Dbg.optional (ch n ≠ []) f := by
  obtain ⟨u, ch', W⟩ := hr.wide
  obtain rfl := W.shape.unique F
  have C := W.coherent
  have fake : ∀ (b : Bool) (P : Prop), (b = true ↔ P) → Dbg.optional P (Dbg.fakeOption (α := α) b) := by
    intro b P hb
    cases b with
    | true => exact .inl ⟨hb.1 rfl, rfl⟩
    | false => exact .inr ⟨fun hp => Bool.noConfusion (hb.2 hp), rfl⟩
  have hpar : (!w.heap.isRoot n) = true ↔ ∃ q, n ∈ ch' q := by
    simp only [Heap.isRoot, Bool.not_eq_true', Option.isNone_eq_false_iff, Option.isSome_iff_exists]
    exact ⟨fun ⟨q, e⟩ => ⟨q, (C.parent q n ha).1 e⟩, fun ⟨q, e⟩ => ⟨q, (C.parent q n ha).2 e⟩⟩
  have hch : w.heap.hasChildren n = true ↔ ch' n ≠ [] := W.counts.has n ha
  have hpn : ∃ b, w.heap.hasPrev n = .ok b ∧ (b = true ↔ ∃ q l1 m l2, ch' q = l1 ++ m :: n :: l2) ∧
      (w.heap.hasNext n = true ↔ ∃ q l1 m l2, ch' q = l1 ++ n :: m :: l2) := by
    by_cases hq : ∃ q, n ∈ ch' q
    · obtain ⟨q, hq⟩ := hq
      obtain ⟨l1, l2, e⟩ := List.append_of_mem hq
      have nd := F.nodup q
      have only : ∀ q' a b, ch' q' = a ++ n :: b → a = l1 ∧ b = l2 := by
        intro q' a b e'
        obtain rfl : q = q' := (C.uniq q' q n (by simp [e']) hq).symm
        have nd' : (a ++ n :: b).Nodup := by rw [← e']; exact F.nodup q
        rw [e] at e' nd
        rw [List.nodup_append, List.nodup_cons] at nd
        rw [List.nodup_append] at nd'
        exact cons_inj (x := n) (fun hx => nd.2.2 n hx n (by simp) rfl)
          (fun hx => nd'.2.2 n hx n (by simp) rfl) e'
      have ok : LastRight w.heap ch' q ∨ l1 ≠ [] := by
        cases l1 with
        | nil => exact .inl (hl q (by rw [e]; rfl))
        | cons _ _ => exact .inr (by simp)
      refine ⟨_, C.hasPrev q l1 n l2 e ok, ?_, ?_⟩
      · constructor
        · intro h1
          rcases List.eq_nil_or_concat l1 with rfl | ⟨l', m, rfl⟩
          · simp at h1
          · exact ⟨q, l', m, l2, by rw [e]; simp⟩
        · rintro ⟨q', a, m, b, e'⟩
          have := (only q' (a ++ [m]) b (by simp [e'])).1
          rw [← this]; simp
      · rw [C.hasNext q l1 n l2 e]
        constructor
        · intro h1
          cases l2 with
          | nil => simp at h1
          | cons m l2 => exact ⟨q, l1, m, l2, e⟩
        · rintro ⟨q', a, m, b, e'⟩
          have := (only q' a (m :: b) e').2
          rw [← this]; rfl
    · have hr : ∀ q, n ∉ ch' q := fun q hm => hq ⟨q, hm⟩
      obtain ⟨-, -, h1, h2, -⟩ := C.top n ha hr
      refine ⟨false, h2, ⟨fun h => (Bool.noConfusion h), fun ⟨q, a, m, b, e⟩ => absurd (by simp [e]) (hr q)⟩, ?_⟩
      rw [h1]
      exact ⟨fun h => (Bool.noConfusion h), fun ⟨q, a, m, b, e⟩ => absurd (by simp [e]) (hr q)⟩
  obtain ⟨b, e1, hb, hn⟩ := hpn
  have htc : w.heap.treeCore n = .ok tr := ht
  refine ⟨_, _, _, _, _, ?_, shownW ha, fake _ _ hpar, fake _ _ hb, fake _ _ hn, fake _ _ hch⟩
  simp only [Heap.debugLocal, e1, htc, bind, Except.bind, pure, Except.pure]
  cases k <;> rfl

/-- C56, `Debug` of a `NodeWeak`, in the wider histories: `NodeWeak(<dropped>)` if the node is gone, otherwise exactly
what `debug_print_local` of a `Node` prints (with its panic, should it panic); afterwards the program state is exactly
the one before. -/
theorem C56_node_weak_wide (hr : ReachW w) (R : w.Spare) :
    (w.heap.alive n = false → w.debugWeak n = .ok (w, .raw "NodeWeak(<dropped>)")) ∧
    (w.heap.alive n = true →
      (∀ d, w.heap.debugLocal .plain n = .ok d → w.debugWeak n = .ok (w, .tuple "NodeWeak" d)) ∧
      (∀ e, w.heap.debugLocal .plain n = .error e → w.debugWeak n = .error e)) := by
  constructor
  · intro ha
    have : w.exec (.upgrade n) = .ok (w, .node none) := by
      simp [World.exec, Heap.upgrade, Option.filter, ha]
    simp only [World.debugWeak, this, bind, Except.bind, pure, Except.pure]
  · intro ha
    obtain ⟨v, ch, W⟩ := hr.wide
    obtain ⟨a, S⟩ := Shows.exists hr
    obtain ⟨u, ht, hta⟩ := W.fwd.tree.live n ha
    obtain ⟨m, e, hc⟩ : ∃ m, w.heap.withNodeCore n = .ok (w.heap.setMem n m) ∧
        (w.heap.setMem n m).treeCore n = .ok u := by
      unfold Heap.withNodeCore Heap.incRef
      cases hm : w.heap.mem n with
      | strong u rc l =>
        refine ⟨_, rfl, ?_⟩
        rw [memTree_strong hm] at ht
        simp only [Option.some.injEq] at ht
        subst ht
        simp [Heap.treeCore, Heap.treeCoreOpt, Heap.setMem]
      | weak o =>
        have ho : o = some u := by simpa [Heap.memTree, hm] using ht
        subst ho
        simp only [Option.filter, hta, if_true]
        exact ⟨_, rfl, by simp [Heap.treeCore, Heap.treeCoreOpt, Heap.setMem]⟩
    have ex : w.exec (.upgrade n) =
        .ok (({ w with heap := w.heap.setMem n m } : World α).give .plain n, .node (some n)) := by
      simp only [World.exec, Heap.upgrade, Option.filter, ha, if_true, Heap.wrap, e, bind, Except.bind,
        Heap.acqLock, Heap.expectLock, pure, Except.pure]
    have hd : (w.heap.setMem n m).debugLocal .plain n = w.heap.debugLocal .plain n := by
      unfold Heap.debugLocal
      rw [hc, (W.fwd.tree.treeCore_iff ha).2 ht]; rfl
    have room : Room w.heap := W.room_of_roomy (fun t => by have := R t; omega)
    have s1 : w.StepW (.upgrade n) (({ w with heap := w.heap.setMem n m } : World α).give .plain n) (.node (some n)) :=
      ⟨trivial, fun _ _ => ⟨trivial, fun _ h => h.elim⟩, room, ex⟩
    obtain ⟨w2, s2, S2⟩ := hr.undo S R s1 (.upgrade n n)
    have hw : w2 = w := ReadsAny.eq hr.any (.step (op := .drop .plain n) (.step (op := .upgrade n) (.refl w) trivial
        ⟨s1.allowed, s1.run⟩) trivial ⟨s2.allowed, s2.run⟩)
      (S2.held.symm.trans S.held) (S2.trees.symm.trans S.trees) (S2.grantTok.symm.trans S.grantTok)
      (S2.prohTok.symm.trans S.prohTok)
    subst hw
    constructor
    · intro d hd'
      simp only [World.debugWeak, ex, give_heap, hd, hd', s2.run, bind, Except.bind, pure, Except.pure]
    · intro f hf
      simp only [World.debugWeak, ex, give_heap, hd, hf, bind, Except.bind]

/-- C56, `Debug` of a `TreeWeak`, in the wider histories. -/
theorem C56_tree_weak_wide (hr : ReachW w) (R : w.Spare) :
    (¬ w.TreeHeld tr → w.debugTreeWeak tr = .ok (w, .raw "TreeWeak(<dropped>)")) ∧
    (w.TreeHeld tr →
      w.debugTreeWeak tr = .ok (w, .struct "Tree" [("lock_manager", Dbg.ofLock (w.heap.grants tr))])) := by
  constructor
  · intro h
    simp only [World.debugTreeWeak, (C45_tree_partial hr tr).2 h, bind, Except.bind, pure, Except.pure]
  · intro h
    obtain ⟨v, ch, W⟩ := hr.wide
    obtain ⟨a, S⟩ := Shows.exists hr
    have ha := W.treeHeld_iff.1 h
    have room : Room w.heap := W.room_of_roomy (fun t => by have := R t; omega)
    have e1 : w.exec (.upgradeTree tr) = .ok (⟨w.heap.acqTree tr, w.held,
        upd w.trees tr (w.trees tr + 1), w.grantTok, w.prohTok⟩, .tree (some tr)) := by
      simp only [World.exec, ha, if_true]
    have s1 : w.StepW (.upgradeTree tr) ⟨w.heap.acqTree tr, w.held,
        upd w.trees tr (w.trees tr + 1), w.grantTok, w.prohTok⟩ (.tree (some tr)) :=
      ⟨trivial, fun _ _ => ⟨trivial, fun _ h => h.elim⟩, room, e1⟩
    obtain ⟨w2, s2, S2⟩ := hr.undo S R s1 (.upgradeTree tr tr)
    have hw : w2 = w := ReadsAny.eq hr.any (.step (op := .dropTree tr) (.step (op := .upgradeTree tr) (.refl w) trivial
        ⟨s1.allowed, s1.run⟩) trivial ⟨s2.allowed, s2.run⟩)
      (S2.held.symm.trans S.held) (S2.trees.symm.trans S.trees) (S2.grantTok.symm.trans S.grantTok)
      (S2.prohTok.symm.trans S.prohTok)
    subst hw
    simp only [World.debugTreeWeak, e1, s2.run, bind, Except.bind, pure, Except.pure]
    rfl

/-! ### Concrete cases -/
/-- The second child of node 0 is printed rightly although `last_child` of node 0 is stale. -/
example : ∃ ch, ReachW (DemoWorld.wide 6) ∧ (DemoWorld.wide 6).Spare ∧ FShape (DemoWorld.wide 6).heap ch ∧
    (DemoWorld.wide 6).heap.alive 2 = true ∧ (DemoWorld.wide 6).heap.nodeTree 2 = .ok 0 ∧
    (∀ p, (ch p).head? = some 2 → LastRight (DemoWorld.wide 6).heap ch p) ∧
    (DemoWorld.wide 6).heap.lastChildLink 0 = .ok (some 3) ∧ (DemoWorld.wide 6).heap.parentLink 3 = none ∧
    (∃ d v x f l, ((DemoWorld.wide 6).debugWeak 2).map Prod.snd = .ok (.tuple "NodeWeak" (.struct "Node" [d, v,
      ("prev_sibling", .raw "Some(_)"), x, f, l]))) ∧
    (DemoWorld.wide 6).TreeHeld 0 := by
  obtain ⟨v, ch, W⟩ := DemoWorld.wideReach6.wide
  refine ⟨ch, DemoWorld.wideReach6, ?_, W.shape, rfl, rfl,
    fun p hp => absurd hp (DemoWorld.wideHead W.shape rfl rfl rfl (by decide)), rfl, rfl,
    ⟨_, _, _, _, _, rfl⟩, .inr ⟨.hot, 0, by decide, rfl⟩⟩
  intro t
  match t with
  | 0 => decide
  | 1 => decide
  | t + 2 => show 0 + 0 + 5 + 1 < 2 ^ 62; decide

/-- `LastRight` cannot be dropped from `C56_local_wide`: once the detached last child is gone, printing the first child
with `{:?}` panics, and so does printing a weak handle of it (C15). -/
example : ReachW (DemoWorld.wide 7) ∧ (DemoWorld.wide 7).heap.alive 1 = true ∧
    (DemoWorld.wide 7).heap.parentLink 1 = some 0 ∧
    (∃ e, (DemoWorld.wide 7).heap.debugLocal .plain 1 = .error e) ∧ ∃ e, (DemoWorld.wide 7).debugWeak 1 = .error e :=
  ⟨DemoWorld.wideReach7, rfl, rfl, ⟨_, rfl⟩, ⟨_, rfl⟩⟩

end Dendron
