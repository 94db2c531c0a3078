import Verif.Spec.Debug
import Verif.Proofs.Iter
import Verif.Proofs.Anc
import Verif.Proofs.Prog
import Verif.Props.Handles
import Verif.Proofs.Demo
import Verif.Props.Own

/-!
# C56: the `Debug` printers
-/

set_option autoImplicit false

namespace Dendron
open RTree

variable {α : Type} {h : Heap α} {w : World α} {ch : NodeId → List NodeId} {n : NodeId} {t : RTree NodeId}
  {tr : TreeId}

private theorem shown (ha : h.alive n = true) : h.shownData n (h.debugData n) := by
  unfold Heap.shownData Heap.debugData
  cases hm : h.mutB n with
  | true => exact .inl ⟨rfl, by simp⟩
  | false =>
    obtain ⟨d, hd⟩ := Option.isSome_iff_exists.1 (show (h.data n).isSome = true from ha)
    exact .inr ⟨rfl, d, hd, by simp [hd]⟩

mutual
private theorem kids_one (S : FShape h ch) : ∀ (t : RTree NodeId) (f : Nat), Hier ch t → h.alive t.label = true →
    t.nodes.length ≤ f →
    ∃ sub, h.debugKids f (h.firstChildLink t.label) = .ok sub ∧ ShowsNodes h t.children sub
  | .node v cs, f, hh, ha, hf => by
    simp only [label, RTree.children]
    rw [show h.firstChildLink v = (cs.map label).head? by rw [hh.1]; exact S.first v ha]
    have hseg : Seg h.next (cs.map label) none := by rw [hh.1]; exact S.seg v
    refine kids_list S cs f hh.2 (fun c hc => ?_) hseg (by simp only [nodes, List.length_cons] at hf; omega)
    exact S.alive_of_mem (p := v) (by rw [← hh.1]; exact List.mem_map_of_mem hc)
private theorem kids_list (S : FShape h ch) : ∀ (cs : List (RTree NodeId)) (f : Nat), HierL ch cs →
    (∀ c ∈ cs, h.alive c.label = true) → Seg h.next (cs.map label) none → (nodesL cs).length < f →
    ∃ l, h.debugKids f (cs.map label).head? = .ok l ∧ ShowsNodes h cs l
  | [], f + 1, _, _, _, _ => ⟨[], rfl, rfl⟩
  | c :: cs, f + 1, hh, ha, hs, hf => by
    simp only [nodesL, List.length_append] at hf
    have hpos : 0 < c.nodes.length := by cases c; simp [nodes]
    obtain ⟨sub, e1, h1⟩ := kids_one S c f hh.1 (ha c (by simp)) (by omega)
    simp only [List.map_cons] at hs
    have hn : h.nextLink c.label = (cs.map label).head? := by
      have := hs.1
      simp only [Option.or_none] at this
      exact this
    obtain ⟨l, e2, h2⟩ := kids_list S cs f hh.2 (fun x hx => ha x (by simp [hx])) hs.2 (by omega)
    refine ⟨_, by simp only [List.map_cons, List.head?_cons, Heap.debugKids, e1, hn, e2, bind, Except.bind, pure,
      Except.pure]; rfl, _, _, rfl, ?_, h2⟩
    cases c with
    | node v cs' => exact ⟨_, _, rfl, shown (ha (.node v cs') (by simp)), h1⟩
end

private theorem kids (W : FShape h ch) (ha : h.alive n = true) (ht : SubtreeAt ch n t) :
    ∃ sub, h.debugKids h.debugFuel (h.firstChildLink n) = .ok sub ∧ ShowsNodes h t.children sub := by
  have hl := nodup_length_le h.nNode t.nodes (ht.nodup W) (fun x hx => by
    refine W.bound x ?_
    cases (ht.mem_nodes_iff x).1 hx with
    | refl => exact ha
    | step _ hm => exact W.alive_of_mem hm)
  have := kids_one W t h.debugFuel ht.2 (by rw [ht.1]; exact ha) (by unfold Heap.debugFuel; omega)
  rwa [ht.1] at this

private theorem append_cons_inj {x : NodeId} : ∀ {a b c d : List NodeId}, x ∉ c → x ∉ a →
    c ++ x :: d = a ++ x :: b → a = c ∧ b = d
  | [], b, [], d, _, _, e => by simp at e; exact ⟨rfl, e.symm⟩
  | [], b, y :: c, d, h1, _, e => by simp at e; exact absurd (by simp [e.1]) h1
  | y :: a, b, [], d, _, h2, e => by simp at e; exact absurd (by simp [e.1]) h2
  | y :: a, b, z :: c, d, h1, h2, e => by
    simp only [List.cons_append, List.cons.injEq] at e
    obtain ⟨rfl, rfl⟩ := append_cons_inj (fun h => h1 (by simp [h])) (fun h => h2 (by simp [h])) e.2
    exact ⟨by rw [e.1], rfl⟩

private theorem treeCore_of (ht : h.nodeTree n = .ok tr) : h.treeCore n = .ok tr := ht

/-- C56, `Debug` of a node and `debug_print_local`: the data (or `<borrowed>` exactly while it is mutably
borrowed), and truthfully whether there is a parent, a previous sibling, a next sibling and a first
child, and the lock counter of the tree of the node. -/
theorem C56_local (W : WF h ch) (ha : h.alive n = true) (ht : h.nodeTree n = .ok tr) (k : Kind) :
    ∃ d p v x f, h.debugLocal k n = .ok (.struct
        (match k with | .plain => "Node" | .hot => "HotNode" | .frozen => "FrozenNode")
        [("data", d), ("parent", p), ("prev_sibling", v), ("next_sibling", x), ("first_child", f),
         ("tree", .struct "Tree" [("lock_manager", Dbg.ofLock (h.grants tr))])]) ∧
      h.shownData n d ∧
      Dbg.optional (∃ q, n ∈ ch q) p ∧
      Dbg.optional (∃ q l1 m l2, ch q = l1 ++ m :: n :: l2) v ∧
      Dbg.optional (∃ q l1 m l2, ch q = l1 ++ n :: m :: l2) x ∧
      Dbg.optional (ch n ≠ []) f := by
  have C := W.coherent
  have fake : ∀ (b : Bool) (P : Prop), (b = true ↔ P) → Dbg.optional P (Dbg.fakeOption (α := α) b) := by
    intro b P hb
    cases b with
    | true => exact .inl ⟨hb.1 rfl, rfl⟩
    | false => exact .inr ⟨fun hp => Bool.noConfusion (hb.2 hp), rfl⟩
  have hpar : (!h.isRoot n) = true ↔ ∃ q, n ∈ ch q := by
    simp only [Heap.isRoot, Bool.not_eq_true', Option.isNone_eq_false_iff, Option.isSome_iff_exists]
    exact ⟨fun ⟨q, e⟩ => ⟨q, (C.parent q n ha).1 e⟩, fun ⟨q, e⟩ => ⟨q, (C.parent q n ha).2 e⟩⟩
  have hch : h.hasChildren n = true ↔ ch n ≠ [] := W.counts.has n ha
  have hpn : ∃ b, h.hasPrev n = .ok b ∧ (b = true ↔ ∃ q l1 m l2, ch q = l1 ++ m :: n :: l2) ∧
      (h.hasNext n = true ↔ ∃ q l1 m l2, ch q = l1 ++ n :: m :: l2) := by
    by_cases hq : ∃ q, n ∈ ch q
    · obtain ⟨q, hq⟩ := hq
      obtain ⟨l1, l2, e⟩ := List.append_of_mem hq
      have nd := W.toFShape.nodup q
      have only : ∀ q' a b, ch q' = a ++ n :: b → a = l1 ∧ b = l2 := by
        intro q' a b e'
        obtain rfl : q = q' := (C.uniq q' q n (by simp [e']) hq).symm
        rw [e] at e' nd
        rw [List.nodup_append, List.nodup_cons] at nd
        exact append_cons_inj (x := n) (fun hx => nd.2.2 n hx n (by simp) rfl)
          (by
            intro hx
            have nd' : (a ++ n :: b).Nodup := by rw [← e', ← e]; exact W.toFShape.nodup q
            rw [List.nodup_append] at nd'
            exact nd'.2.2 n hx n (by simp) rfl) e'
      refine ⟨_, C.hasPrev q l1 n l2 e, ?_, ?_⟩
      · constructor
        · intro h1
          rcases List.eq_nil_or_concat l1 with rfl | ⟨l', m, rfl⟩
          · simp at h1
          · exact ⟨q, l', m, l2, by rw [e]; simp⟩
        · rintro ⟨q', a, m, b, e'⟩
          have := (only q' (a ++ [m]) b (by simp [e'])).1
          rw [← this]; simp
      · rw [C.hasNext q l1 n l2 e]
        constructor
        · intro h1
          cases l2 with
          | nil => simp at h1
          | cons m l2 => exact ⟨q, l1, m, l2, e⟩
        · rintro ⟨q', a, m, b, e'⟩
          have := (only q' a (m :: b) e').2
          rw [← this]; rfl
    · have hr : ∀ q, n ∉ ch q := fun q hm => hq ⟨q, hm⟩
      obtain ⟨-, -, h1, h2, -⟩ := C.top n ha hr
      refine ⟨false, h2, ⟨fun h => (Bool.noConfusion h), fun ⟨q, a, m, b, e⟩ => absurd (by simp [e]) (hr q)⟩, ?_⟩
      rw [h1]
      exact ⟨fun h => (Bool.noConfusion h), fun ⟨q, a, m, b, e⟩ => absurd (by simp [e]) (hr q)⟩
  obtain ⟨b, e1, hb, hn⟩ := hpn
  refine ⟨_, _, _, _, _, ?_, shown ha, fake _ _ hpar, fake _ _ hb, fake _ _ hn, fake _ _ hch⟩
  simp only [Heap.debugLocal, e1, treeCore_of ht, bind, Except.bind, pure, Except.pure]
  cases k <;> rfl

/-- C56, `debug_print_subtree` of a `Node` or `HotNode`: the lock counter of its tree, its data, and all
its descendants, nested and in order. -/
theorem C56_subtree_partial (W : FShape h ch) (ha : h.alive n = true) (ht : h.nodeTree n = .ok tr)
    (hs : SubtreeAt ch n t) (k : Kind) (hk : k ≠ .frozen) :
    ∃ d l, h.debugSubtree k n = .ok (.struct (if k = .hot then "HotNode" else "Node")
        [("tree", .struct "Tree" [("lock_manager", Dbg.ofLock (h.grants tr))]), ("data", d),
         ("children", .list l)]) ∧
      h.shownData n d ∧ ShowsNodes h t.children l := by
  obtain ⟨l, e, hl⟩ := kids W ha hs
  refine ⟨_, _, ?_, shown ha, hl⟩
  simp only [Heap.debugSubtree, e, treeCore_of ht, bind, Except.bind, pure, Except.pure]
  cases k with
  | plain => rfl
  | hot => rfl
  | frozen => exact absurd rfl hk

/-- C56 is violated in its name: a subtree printed through a `FrozenNode` looks as if printed through a
`Node` (`debug_print_local` of the same node says `FrozenNode`). -/
theorem C56_frozen_name_wrong : h.debugSubtree .frozen n = h.debugSubtree .plain n := rfl

/-- C56, `Tree::debug_print`: the lock counter and the whole tree. -/
theorem C56_tree (W : FShape h ch) {r : NodeId} (ha : h.alive r = true) (hr : h.root tr = some r)
    (hs : SubtreeAt ch r t) :
    ∃ x, h.debugTree tr = .ok (.struct "Tree" [("lock_manager", Dbg.ofLock (h.grants tr)), ("nodes", x)]) ∧
      ShowsNode h t x := by
  obtain ⟨l, e, hl⟩ := kids W ha hs
  have : h.rootLink tr = .ok r := by simp [Heap.rootLink, hr]
  refine ⟨.struct "Node" [("data", h.debugData r), ("children", .list l)], ?_, ?_⟩
  · simp only [Heap.debugTree, this, e, bind, Except.bind, pure, Except.pure]; rfl
  · cases t with
    | node v cs => exact ⟨_, _, rfl, by have := hs.1; simp only [label] at this; rw [this]; exact shown ha, hl⟩

/-! ### Weak handles -/

private theorem upgraded (hr : Reach w) (R : w.Roomy) (ha : w.heap.alive n = true) :
    ∃ m, ((w.heap.setMem n m).treeCore n = w.heap.treeCore n) ∧
      w.exec (.upgrade n) = .ok (({ w with heap := w.heap.setMem n m } : World α).give .plain n, .node (some n)) ∧
      Does w (({ w with heap := w.heap.setMem n m } : World α).give .plain n) [] [(.plain, n)] := by
  obtain ⟨ch, I⟩ := hr.inv
  have room := I.room_of_roomy R
  obtain ⟨t, ht, hta⟩ := I.wf.tree.live n ha
  obtain ⟨m, e, S⟩ : ∃ m, w.heap.withNodeCore n = .ok (w.heap.setMem n m) ∧
      (w.heap.setMem n m).treeCore n = .ok t := by
    unfold Heap.withNodeCore Heap.incRef
    cases hm : w.heap.mem n with
    | strong u rc l =>
      refine ⟨_, rfl, ?_⟩
      rw [memTree_strong hm] at ht
      simp only [Option.some.injEq] at ht
      subst ht
      simp [Heap.treeCore, Heap.treeCoreOpt, Heap.setMem]
    | weak o =>
      have ho : o = some t := by simpa [Heap.memTree, hm] using ht
      subst ho
      simp only [Option.filter, hta, if_true]
      exact ⟨_, rfl, by simp [Heap.treeCore, Heap.treeCoreOpt, Heap.setMem]⟩
  have ex : w.exec (.upgrade n) =
      .ok (({ w with heap := w.heap.setMem n m } : World α).give .plain n, .node (some n)) := by
    simp only [World.exec, Heap.upgrade, Option.filter, ha, if_true, Heap.wrap, e, bind, Except.bind,
        Heap.acqLock, Heap.expectLock, pure, Except.pure]
  have st : w.Step (.upgrade n) (({ w with heap := w.heap.setMem n m } : World α).give .plain n) (.node (some n)) :=
    ⟨trivial, fun _ _ => trivial, room, ex⟩
  refine ⟨m, by rw [S]; exact ((I.wf.tree.treeCore_iff ha).2 ht).symm, ex,
    .step (op := .upgrade n) (.refl w) trivial st, .step hr st, ?_, ?_⟩
  · intro t; have := R t; simp only [give_heap, give_grantTok, give_prohTok]; exact this
  · refine ⟨fun k' x => ?_, rfl, rfl, rfl⟩
    simp only [give_held, count_single, List.count_nil]
    split <;> rfl

/-- C56, `Debug` of a `NodeWeak`, in every reachable state: `NodeWeak(<dropped>)` if the node is gone,
otherwise what `debug_print_local` of a `Node` prints; afterwards the program state is exactly the one
before. -/
theorem C56_node_weak (hr : Reach w) (R : w.Roomy) :
    (w.heap.alive n = false → w.debugWeak n = .ok (w, .raw "NodeWeak(<dropped>)")) ∧
    (w.heap.alive n = true → ∃ d, w.heap.debugLocal .plain n = .ok d ∧
      w.debugWeak n = .ok (w, .tuple "NodeWeak" d)) := by
  constructor
  · intro ha
    have : w.exec (.upgrade n) = .ok (w, .node none) := by
      simp [World.exec, Heap.upgrade, Option.filter, ha]
    simp only [World.debugWeak, this, bind, Except.bind, pure, Except.pure]
  · intro ha
    obtain ⟨ch, I⟩ := hr.inv
    obtain ⟨t, ht, -⟩ := I.wf.tree.live n ha
    obtain ⟨_, _, _, _, _, e, -⟩ := C56_local I.wf ha ((I.wf.tree.treeCore_iff ha).2 ht) .plain
    obtain ⟨m, hc, ex, D⟩ := upgraded hr R ha
    have hd : (w.heap.setMem n m).debugLocal .plain n = w.heap.debugLocal .plain n := by
      unfold Heap.debugLocal
      rw [hc]; rfl
    obtain ⟨w2, ex2, D2⟩ := D.reach.drop_op D.roomy (k := .plain) (n := n) (by simp [give_held])
    have hw : w2 = w := (D.reads.trans D2.reads).eq hr
      (by
        funext k x
        have h1 := D.exch.held k x
        have h2 := D2.exch.held k x
        simp only [List.count_nil] at h1 h2
        omega)
      (D2.exch.trees.trans D.exch.trees) (D2.exch.grantTok.trans D.exch.grantTok)
      (D2.exch.prohTok.trans D.exch.prohTok)
    subst hw
    refine ⟨_, e, ?_⟩
    simp only [World.debugWeak, ex, give_heap, hd, e, ex2, bind, Except.bind, pure, Except.pure]

/-- C56, `Debug` of a `TreeWeak`, in every reachable state: `TreeWeak(<dropped>)` exactly if the program
holds no handle of the tree, otherwise what `Debug` of the `Tree` prints; afterwards the program state is
exactly the one before. -/
theorem C56_tree_weak (hr : Reach w) (R : Room w.heap) :
    (¬ w.TreeHeld tr → w.debugTreeWeak tr = .ok (w, .raw "TreeWeak(<dropped>)")) ∧
    (w.TreeHeld tr →
      w.debugTreeWeak tr = .ok (w, .struct "Tree" [("lock_manager", Dbg.ofLock (w.heap.grants tr))])) := by
  constructor
  · intro h
    simp only [World.debugTreeWeak, (C45_tree_partial hr.toW tr).2 h, bind, Except.bind, pure, Except.pure]
  · intro h
    obtain ⟨ch, I⟩ := hr.inv
    have ha := I.treeHeld_iff.1 h
    have e1 : w.exec (.upgradeTree tr) = .ok (⟨w.heap.acqTree tr, w.held,
        upd w.trees tr (w.trees tr + 1), w.grantTok, w.prohTok⟩, .tree (some tr)) := by
      simp only [World.exec, ha, if_true]
    have s1 : w.Step (.upgradeTree tr) ⟨w.heap.acqTree tr, w.held,
        upd w.trees tr (w.trees tr + 1), w.grantTok, w.prohTok⟩ (.tree (some tr)) := ⟨trivial, fun _ _ => trivial, R, e1⟩
    have hr1 : Reach _ := .step hr s1
    obtain ⟨ch1, I1⟩ := hr1.inv
    obtain ⟨w2, r2, _, ch2, _, e2, -⟩ := I1.step_dropTree (t := tr) (by simp)
    have s2 : World.Step ⟨w.heap.acqTree tr, w.held,
        upd w.trees tr (w.trees tr + 1), w.grantTok, w.prohTok⟩ (.dropTree tr) w2 r2 := ⟨(by simp : 0 < upd w.trees tr (w.trees tr + 1) tr),
      fun _ _ => trivial, (show Room (w.heap.acqTree tr) from R), e2⟩
    have hh : w2.held = w.held ∧ w2.trees = w.trees ∧ w2.grantTok = w.grantTok ∧ w2.prohTok = w.prohTok := by
      simp only [World.exec, bind, Except.bind, pure, Except.pure] at e2
      split at e2
      · cases e2
      · simp only [Except.ok.injEq, Prod.mk.injEq] at e2
        obtain ⟨rfl, -⟩ := e2
        refine ⟨rfl, ?_, rfl, rfl⟩
        funext u
        by_cases hu : u = tr
        · subst hu; simp
        · simp [upd, hu]
    have hw : w2 = w := (Reads.step (op := .dropTree tr) (.step (op := .upgradeTree tr) (.refl w) trivial s1)
      trivial s2).eq hr hh.1 hh.2.1 hh.2.2.1 hh.2.2.2
    subst hw
    simp only [World.debugTreeWeak, e1, e2, bind, Except.bind, pure, Except.pure]
    rfl

/-! ### Concrete cases -/

/-- The demonstration forest `0(1 2(4 5) 3)`, `6(7)` meets the hypotheses. -/
example : WF Demo.heap Demo.ch ∧ Demo.heap.alive 2 = true ∧ Demo.heap.nodeTree 2 = .ok 0 ∧
    SubtreeAt Demo.ch 2 (.node 2 [.node 4 [], .node 5 []]) ∧
    Demo.heap.debugSubtree .hot 2 = .ok (.struct "HotNode" [
      ("tree", .struct "Tree" [("lock_manager", Dbg.ofLock 0)]), ("data", .data 12),
      ("children", .list [.struct "Node" [("data", .data 14), ("children", .list [])],
        .struct "Node" [("data", .data 15), ("children", .list [])]])]) ∧
    Demo.heap.debugLocal .plain 2 = .ok (.struct "Node" [("data", .data 12), ("parent", .raw "Some(_)"),
      ("prev_sibling", .raw "Some(_)"), ("next_sibling", .raw "Some(_)"), ("first_child", .raw "Some(_)"),
      ("tree", .struct "Tree" [("lock_manager", Dbg.ofLock 0)])]) ∧
    Demo.heap.root 0 = some 0 :=
  ⟨Demo.wf, rfl, rfl, ⟨rfl, by simp [Hier, HierL, Demo.ch, label]⟩, rfl, rfl, rfl⟩

/-- The frozen subtree is printed with the wrong name, the frozen node with the right one. -/
example : (∃ l, Demo.heap.debugSubtree .frozen 0 = .ok (.struct "Node" l)) ∧
    ∃ l, Demo.heap.debugLocal .frozen 0 = .ok (.struct "FrozenNode" l) := ⟨⟨_, rfl⟩, ⟨_, rfl⟩⟩

/-- Weak handles: node 0 is alive before the last handle of its tree is dropped, and afterwards not. -/
example : Reach DemoWorld.frozenW ∧ DemoWorld.frozenW.Roomy ∧ DemoWorld.frozenW.heap.alive 1 = true ∧
    DemoWorld.frozenW.held .plain 1 = 0 ∧
    (DemoWorld.frozenW.debugWeak 1).map Prod.snd = .ok (.tuple "NodeWeak" (.struct "Node" [
      ("data", .data 11), ("parent", .raw "Some(_)"), ("prev_sibling", .raw "None"),
      ("next_sibling", .raw "None"), ("first_child", .raw "None"),
      ("tree", .struct "Tree" [("lock_manager", Dbg.ofLock (-1))])])) ∧
    Reach (DemoWorld.at_ 14) ∧ (DemoWorld.at_ 14).heap.alive 2 = false ∧
    (DemoWorld.frozenW.debugTreeWeak 0).map Prod.snd =
      .ok (.struct "Tree" [("lock_manager", Dbg.ofLock (-1))]) ∧
    ((DemoWorld.at_ 14).debugTreeWeak 0).map Prod.snd = .ok (.raw "TreeWeak(<dropped>)") :=
  ⟨DemoWorld.frozen_reach, DemoWorld.frozen_roomy, rfl, rfl, rfl, DemoWorld.reach14, rfl, rfl, rfl⟩

/-- A node with mutably borrowed data. -/
example : ({ Demo.heap with mutB := fun n => n = 4 }).debugSubtree .plain 2 = .ok (.struct "Node" [
      ("tree", .struct "Tree" [("lock_manager", Dbg.ofLock 0)]), ("data", .data 12),
      ("children", .list [.struct "Node" [("data", .raw "<borrowed>"), ("children", .list [])],
        .struct "Node" [("data", .data 15), ("children", .list [])]])]) := rfl

end Dendron
