import Verif.Proofs.CascadeFuel
import Verif.Proofs.CascadeDetach
import Verif.Proofs.CascadeKept
import Verif.Proofs.CascadeWorld
import Verif.Proofs.DemoWide
import Verif.Proofs.MachineRun

/-!
# C63, C64: data that owns handles

The data of the nodes may itself own handles, `Tree`s and tokens: `own n` is what the data of node `n` owns.
When a node is destroyed these are dropped by the destructor of the data, in the middle of the release of
its tree, which may destroy further trees, and so on (`Verif.Model.Cascade`).  `Drops own P w w'`
(`Verif.Spec.Cascade`) is what one would expect: the things `P` are dropped by ordinary calls, one after the
other, each at a time when nothing else is going on.  `OwnsAll own w P`: the things `P`, and what the data of
living nodes owns, are all different things.
-/

set_option autoImplicit false

namespace Dendron
variable {α : Type} {w w' w1 w2 : World α} {own own' : NodeId → List Asset} {P P' as : List Asset} {n p : NodeId}
  {t t' : TreeId} {k : Kind} {a : Auth} {dest : InsertAs NodeId}

/-- C63: dropping anything, whatever the data owns, neither panics nor runs forever, and has the effect of
ordinary drops made one after the other. -/
theorem C63_drop (hr : ReachW w) (hroom : Room w.heap) (hS : OwnsAll own w P) :
    ∃ w', (∀ f, w.heap.nNode ≤ f → w.heap.dropAllC (Heap.dtor own f) Nest.start P = .ok w'.heap) ∧
      Drops own P w w' ∧ ReachW w' := by
  obtain ⟨w', e, D⟩ := hr.dropAll_any hroom hS
  exact ⟨w', e, D, D.reach hr⟩

/-- C63: everything is dropped exactly once: the things given, and what the data of the destroyed nodes
owned. -/
theorem C63_account (hr : ReachW w) (D : Drops own P w w') :
    ∃ l : List NodeId, l.Nodup ∧ (∀ x, x ∈ l ↔ w.heap.alive x = true ∧ w'.heap.alive x = false) ∧
      ∀ a, w.count a = w'.count a + (P ++ l.flatMap own).count a := D.account hr

/-- C63: in which order the things are dropped, and in which order the data drops what it owns, makes no
difference to what is left. -/
theorem C63_order (hr : ReachW w) (D1 : Drops own P w w1) (D2 : Drops own' P' w w2) (hP : P.Perm P')
    (ho : ∀ x, (own x).Perm (own' x)) :
    (∀ x, w1.heap.alive x = w2.heap.alive x) ∧ (∀ t, w1.heap.treeAlive t = w2.heap.treeAlive t) ∧
      ∀ a, w1.count a = w2.count a := D1.unique D2 hP ho hr

/-- C63: what survives keeps its tree and its data owns what it owned. -/
theorem C63_survivors (hr : ReachW w) (hS : OwnsAll own w P) (D : Drops own P w w') {x : NodeId}
    (hx : w'.heap.alive x = true) :
    w.heap.alive x = true ∧ w'.heap.nodeTree x = w.heap.nodeTree x ∧ OwnsAll own w' [] := by
  have hx0 := (D.fade hr).alive hx
  obtain ⟨v, ch, W⟩ := hr.wide
  obtain ⟨v', ch', W'⟩ := (D.reach hr).wide
  obtain ⟨t, ht, -⟩ := W.fwd.tree.live x hx0
  refine ⟨hx0, ?_, D.stored hr (by simpa using hS)⟩
  rw [show w.heap.nodeTree x = .ok t from (W.fwd.tree.treeCore_iff hx0).2 ht]
  exact (W'.fwd.tree.treeCore_iff hx).2 ((D.members hr x hx).trans ht)

/-- C63: trees that keep each other, each one by something the data of a node of another (or of itself)
owns, are never destroyed. -/
theorem C63_cycle {C : TreeId → Prop} (hr : ReachW w) (hS : OwnsAll own w P)
    (hC : ∀ t, C t → ∃ x u a, w.heap.alive x = true ∧ w.heap.nodeTree x = .ok u ∧ C u ∧ a ∈ own x ∧ w.Keeping a t)
    (D : Drops own P w w') (ht : C t) : w'.heap.treeAlive t = true := by
  obtain ⟨v, ch, W⟩ := hr.wide
  refine D.cycle hr hS (fun t ht => ?_) t ht
  obtain ⟨x, u, a, h1, h2, h3, h4, h5⟩ := hC t ht
  refine ⟨x, u, a, h1, (W.fwd.tree.treeCore_iff h1).1 h2, h3, h4, h5.ties hr ?_⟩
  have := hS [x] (by simp) (by simpa using h1) a
  have h6 : 0 < (own x).count a := List.count_pos_iff.2 h4
  simp at this
  omega

/-- C63: without such a cycle nothing is leaked: if the program drops all it has apart from what the data
owns, every node and every tree is destroyed. -/
theorem C63_no_leak (hr : ReachW w) {A : List NodeId} (hA : A.Nodup) (hAm : ∀ x, x ∈ A ↔ w.heap.alive x = true)
    (hall : ∀ a, w.count a = (P ++ A.flatMap own).count a) (rank : TreeId → Nat)
    (hrank : ∀ x ∈ A, ∀ a ∈ own x, ∀ u t, w.heap.nodeTree x = .ok u → w.Keeping a t → rank t < rank u)
    (D : Drops own P w w') :
    (∀ x, w'.heap.alive x = false) ∧ (∀ t, w'.heap.treeAlive t = false) ∧ ∀ a, w'.count a = 0 := by
  obtain ⟨v, ch, W⟩ := hr.wide
  obtain ⟨v', ch', W'⟩ := (D.reach hr).wide
  have h1 : ∀ t, w'.heap.treeAlive t = false := by
    refine D.empty hr hA hAm hall rank (fun x hx a ha u t hu hat => ?_)
    refine hrank x hx a ha u t ((W.fwd.tree.treeCore_iff ((hAm x).1 hx)).2 hu) ?_
    cases a with
    | node k m =>
      refine (W.nodeTree_held (k := k) ?_).2 hat
      show 0 < w.count (.node k m)
      rw [hall]
      exact List.count_pos_iff.2 (List.mem_append_right _ (List.mem_flatMap.2 ⟨x, hx, ha⟩))
    | tree u => exact hat
    | token g u => exact hat
  have h2 : ∀ x, w'.heap.alive x = false := by
    intro x
    cases e : w'.heap.alive x with
    | false => rfl
    | true =>
      obtain ⟨t, -, h3⟩ := W'.fwd.tree.live x e
      rw [h1] at h3; cases h3
  refine ⟨h2, h1, fun a => ?_⟩
  obtain ⟨l, i1, i2, i3⟩ := D.account hr
  have hp : l.Perm A := by
    rw [List.perm_ext_iff_of_nodup i1 hA]
    intro x; rw [i2, hAm]; simp [h2]
  have e1 := i3 a
  have e2 := hall a
  have e3 := (List.Perm.flatMap_right own hp).count_eq a
  simp only [List.count_append] at e1 e2
  omega

/-! ### Edits -/

/-- A tree whose root has one child, in terms of the methods. -/
private theorem only_child {ch : NodeId → List NodeId} (I : Inv w ch) (hn : w.heap.navTo n .parent = .ok (some p))
    (hna : w.heap.alive n = true) (hpn : w.heap.navTo p .parent = .ok none)
    (hf : w.heap.navTo p .firstChild = .ok (some n)) (hx : w.heap.navTo n .nextSibling = .ok none) :
    ch p = [n] ∧ ∀ q, p ∉ ch q := by
  have C := I.wf.coherent
  simp only [Heap.navTo, Except.ok.injEq] at hn hpn hf hx
  have hm : n ∈ ch p := (C.parent p n hna).1 hn
  have hpa := (C.alive p n hm).1
  refine ⟨?_, fun q hq => ?_⟩
  · have h1 := I.wf.first p hpa
    rw [show w.heap.firstChild p = some n from hf] at h1
    cases hc : ch p with
    | nil => rw [hc] at hm; cases hm
    | cons c l =>
      rw [hc] at h1
      obtain rfl : n = c := by simpa using h1
      have := I.wf.toFShape.next_at (l1 := []) (l2 := l) hc
      rw [show w.heap.next n = none from hx] at this
      have : l = [] := List.head?_eq_none_iff.1 this.symm
      rw [this]
  · rw [(C.parent q p hpa).2 hq] at hpn; cases hpn

/-- The only handles of the tree are handles to `n`. -/
private theorem only_handles {ch : NodeId → List NodeId} (I : Inv w ch)
    (hh : ∀ k m, 0 < w.held k m → w.heap.nodeTree m = .ok t → m = n) (x : NodeId) (rc l : Nat) (hxn : x ≠ n) :
    w.heap.mem x ≠ .strong t rc l := by
  intro hxm
  obtain ⟨e1, -⟩ := I.strong x _ _ _ hxm
  have h5 := (I.wf.refs.pos _ _ _ _ hxm).1
  have : 0 < w.held .plain x ∨ 0 < w.held .hot x ∨ 0 < w.held .frozen x := by omega
  have hxt : ∀ k, 0 < w.held k x → w.heap.nodeTree x = .ok t := fun k hk =>
    (I.nodeTree_held hk).2 (memTree_strong hxm)
  rcases this with h | h | h <;> exact hxn (hh _ x h (hxt _ h))

/-- C64 (violation): a root `p` has one child `n`, and the handles of the tree are handles to `n`.  If the data
of `p` owns a handle to `n`, then `n.detach_subtree()` panics (with data that owns nothing it returns). -/
theorem C64_detach_violation (hr : Reach w) (ha : w.Allowed (.detach a n))
    (hn : w.heap.navTo n .parent = .ok (some p)) (hp : w.heap.navTo p .parent = .ok none)
    (hf : w.heap.navTo p .firstChild = .ok (some n)) (hx : w.heap.navTo n .nextSibling = .ok none)
    (ht : w.heap.nodeTree n = .ok t) (htr : w.trees t = 0)
    (hh : ∀ k m, 0 < w.held k m → w.heap.nodeTree m = .ok t → m = n) (ho : own p = .node k n :: as) (f : Nat) :
    w.heap.detachSubtreeC (Heap.dtor own (f + 1)) Nest.start n = .error Nest.nested := by
  obtain ⟨ch, I⟩ := hr.inv
  have hH : w.HasAuth n a := ha
  obtain ⟨u, rc, l, hm, hna, hta⟩ := I.tree_of_held hH.holds
  obtain rfl : u = t := by
    have := (I.wf.tree.treeCore_iff hna).1 ht
    rw [memTree_strong hm] at this; exact Option.some.inj this
  obtain ⟨hc, hroot⟩ := only_child I hn hna hp hf hx
  refine detach_busy I.wf hc hroot hm (only_handles I hh) (by rw [I.treeRc, htr]) ?_ ho
  intro hl hg
  obtain ⟨-, e2⟩ := I.strong n _ _ _ hm
  obtain ⟨L, -, hL, hmode, -⟩ := I.locks u hta
  have hnL : n ∈ L := (hL n).2 ⟨memTree_strong hm, by omega⟩
  have := List.length_pos_of_mem hnL
  rcases hmode with hM | hM
  · have := hM.2.2; omega
  · have := hM.2.2; omega

/-- C64 (violation): under the same circumstances `n.try_detach_insert_subtree(dest)` panics if the destination
is in another tree. -/
theorem C64_move_violation (hr : Reach w) (hroom : Room w.heap) (ha : w.Allowed (.move .hot n dest))
    (hn : w.heap.navTo n .parent = .ok (some p)) (hp : w.heap.navTo p .parent = .ok none)
    (hf : w.heap.navTo p .firstChild = .ok (some n)) (hx : w.heap.navTo n .nextSibling = .ok none)
    (ht : w.heap.nodeTree n = .ok t) (htr : w.trees t = 0)
    (hd : w.heap.nodeTree dest.anchor = .ok t') (hne : t' ≠ t)
    (hh : ∀ k m, 0 < w.held k m → w.heap.nodeTree m = .ok t → m = n) (ho : own p = .node k n :: as) (f : Nat) :
    w.heap.detachInsertC (Heap.dtor own (f + 1)) Nest.start n dest = .error Nest.nested := by
  obtain ⟨ch, I⟩ := hr.inv
  have hH : w.HasAuth n .hot := ha.1
  have hD : w.HasAuth dest.anchor .hot := ha.2
  obtain ⟨u, rc, l, hm, hna, hta⟩ := I.tree_of_held hH.holds
  obtain rfl : u = t := by
    have := (I.wf.tree.treeCore_iff hna).1 ht
    rw [memTree_strong hm] at this; exact Option.some.inj this
  obtain ⟨hc, hroot⟩ := only_child I hn hna hp hf hx
  have hda := I.held_alive hD.holds
  have hdt := (I.wf.tree.treeCore_iff hda).1 hd
  exact move_busy I.wf hc hroot hm (only_handles I hh) (by rw [I.treeRc, htr])
    (I.auth_grants hH trivial (memTree_strong hm)) hdt hda hne (I.auth_grants hD trivial hdt) hroom ho

/-- C64 (partial: nothing is destroyed): if `detach_subtree` with data that owns nothing destroys nothing, then
what the data owns makes no difference: no destructor runs. -/
theorem C64_detach_partial (hr : ReachW w) (s : w.StepW (.detach a n) w' .unit)
    (hk : ∀ x, w.heap.alive x = true → w'.heap.alive x = true)
    (hkt : ∀ t, w.heap.treeAlive t = true → w'.heap.treeAlive t = true) (f : Nat) :
    w.heap.detachSubtreeC (Heap.dtor own f) Nest.start n = .ok w'.heap := by
  obtain ⟨v, ch, W⟩ := hr.wide
  have hr' : ReachW w' := .step hr s
  obtain ⟨v', ch', W'⟩ := hr'.wide
  have S := W.shape.view
  obtain ⟨b, S', st⟩ := s.plays hr S
  have e := s.run
  simp only [World.exec, bind, Except.bind, pure, Except.pure] at e
  split at e
  · cases e
  split at e
  · cases e
  rename_i h1 e1
  cases e
  refine detachSubtree_kept e1 ⟨hk, hkt⟩ (fun hroot => ?_)
  have hH : w.HasAuth n a := s.allowed
  have hk0 := hH.holds
  have hna := W.held_alive hk0
  have C := W.coherent
  have ht : h1.memTree n = some w.heap.nTree := by
    cases st with
    | detachRoot _ htop =>
      exfalso
      have : w.heap.parentLink n = none := by
        cases e : w.heap.parentLink n with
        | none => rfl
        | some q => exact absurd ((C.parent q n hna).1 e) (by have := htop q; exact this)
      simp [Heap.isRoot, this] at hroot
    | detach _ _ =>
      have h2 := S'.tree n
      have h3 : h1.alive n = true := hk n hna
      simp only [h3, if_true] at h2
      rw [← h2]
      simp only [Forest.sweep]
      have key : ∀ q l, (∃ u, (((w.view ch).rehome (Desc (w.view ch).children n) (w.view ch).newTree).addTree
          n |>.setChildren q l).tree n = some u ∧ (((w.view ch).rehome (Desc (w.view ch).children n)
          (w.view ch).newTree).addTree n |>.setChildren q l).Holds u) := by
        intro q l
        have e : (((w.view ch).rehome (Desc (w.view ch).children n) (w.view ch).newTree).addTree
          n |>.setChildren q l).tree n = some w.heap.nTree := by
          simp [Forest.setChildren, Forest.addTree, Forest.rehome, Desc.refl, World.view]
        exact ⟨_, e, .inr ⟨a.kind, n, hk0, e⟩⟩
      rw [if_pos (key _ _)]
      simp [Forest.setChildren, Forest.addTree, Forest.rehome, Desc.refl, World.view]
  exact W'.fwd.tree_alive (hk n hna) ht

/-- C64 (partial: nothing is destroyed): the same for moves. -/
theorem C64_move_partial (s : w.StepW (.move a n dest) w' .unit)
    (hk : ∀ x, w.heap.alive x = true → w'.heap.alive x = true)
    (hkt : ∀ t, w.heap.treeAlive t = true → w'.heap.treeAlive t = true) (f : Nat) :
    w.heap.detachInsertC (Heap.dtor own f) Nest.start n dest = .ok (w'.heap, .ok ()) := by
  have e := s.run
  simp only [World.exec, bind, Except.bind, pure, Except.pure] at e
  split at e
  · cases e
  split at e
  · cases e
  rename_i v e1
  obtain ⟨h1, o⟩ := v
  simp only at e
  split at e
  · cases e
  · rename_i r1 
    cases e
    exact detachInsert_kept e1 ⟨hk, hkt⟩

/-- C64: what `n.detach_subtree()` does in every case.  Take the ordinary calls `let t = n.tree();
n.detach_subtree(); let u = n.tree();` of a program whose data owns nothing, and then drop `t` and `u`, with
everything that is destroyed by that.  The real call has this effect, unless dropping `t` drops a handle to one
particular node `m`: the last node of the subtree, in depth-first order, that has handles.  In that case it panics. -/
theorem C64_detach_exact {w3 : World α} {u : TreeId} {b : Forest α} {T : RTree NodeId} (hr : ReachW w)
    (hS : OwnsAll own w []) (hn : w.heap.navTo n .parent = .ok (some p))
    (s1 : w.StepW (.treeOf k n) w1 (.tree (some t))) (s2 : w1.StepW (.detach a n) w2 .unit)
    (s3 : w2.StepW (.treeOf k n) w3 (.tree (some u))) (hb : Shows w3 b) (hT : SubtreeAt b.children n T) :
    ∃ w4 w5 m D E, Drops own [.tree t] w3 w4 ∧ Drops own [.tree u] w4 w5 ∧ T.nodes = D ++ m :: E ∧
      (∃ k, 0 < w3.held k m) ∧ (∀ x ∈ E, ∀ k, w3.held k x = 0) ∧ ∀ f, w.heap.nNode ≤ f →
        ((∀ k, w4.held k m = w3.held k m) →
          w.heap.detachSubtreeC (Heap.dtor own f) Nest.start n = .ok w5.heap) ∧
        (∀ k, w4.held k m < w3.held k m →
          w.heap.detachSubtreeC (Heap.dtor own f) Nest.start n = .error Nest.nested) := by
  simp only [Heap.navTo, Except.ok.injEq] at hn
  exact hr.detach_late hS hn s1 s2 s3 hb.children hT

/-- C64: if the data of no node outside the subtree owns a handle to a node of the subtree, `n.detach_subtree()`
returns, with the effect of the ordinary calls. -/
theorem C64_detach_returns {w3 : World α} {u : TreeId} (hr : ReachW w) (hS : OwnsAll own w [])
    (hn : w.heap.navTo n .parent = .ok (some p))
    (s1 : w.StepW (.treeOf k n) w1 (.tree (some t))) (s2 : w1.StepW (.detach a n) w2 .unit)
    (s3 : w2.StepW (.treeOf k n) w3 (.tree (some u)))
    (ho : ∀ x k y, w3.heap.alive x = true → w3.heap.nodeTree x ≠ .ok u → .node k y ∈ own x →
      w3.heap.nodeTree y ≠ .ok u) :
    ∃ w4 w5, Drops own [.tree t] w3 w4 ∧ Drops own [.tree u] w4 w5 ∧ ∀ f, w.heap.nNode ≤ f →
      w.heap.detachSubtreeC (Heap.dtor own f) Nest.start n = .ok w5.heap := by
  have hr3 : ReachW w3 := .step (.step (.step hr s1) s2) s3
  obtain ⟨v3, ch3, W3⟩ := hr3.wide
  obtain ⟨T, hT⟩ := W3.shape.exists_subtree n
  obtain ⟨w4, w5, m, D, E, D4, D5, hD, ⟨k0, hk0⟩, -, H⟩ :=
    C64_detach_exact hr hS hn s1 s2 s3 W3.shape.view hT
  refine ⟨w4, w5, D4, D5, fun f hf => (H f hf).1 (fun k1 => ?_)⟩
  obtain ⟨c1, c2, -⟩ := treeOf_counts s3
  have hna : w3.heap.alive n = true := W3.held_alive (k := k) (by rw [(treeOf_counts s3).2.2.1]; exact s3.allowed)
  have hn3 : w3.heap.nodeTree n = .ok u := by rw [c2]; exact c1
  have hmT : m ∈ T.nodes := by rw [hD]; simp
  have hd := (hT.mem_nodes_iff m).1 hmT
  have hma := W3.shape.desc_alive hna hd
  have hm3 : w3.heap.nodeTree m = .ok u :=
    (W3.fwd.tree.treeCore_iff hma).2 ((W3.fwd.tree.desc_memTree W3.shape hd).trans ((W3.fwd.tree.treeCore_iff hna).1 hn3))
  have hr4 := D4.reach hr3
  obtain ⟨v4, ch4, W4⟩ := hr4.wide
  have hu4 : w4.heap.treeAlive u = true := by
    cases D5 with
    | cons s _ _ _ => exact W4.treesAlive u (Asset.pos_of (a := .tree u) s)
  obtain ⟨l, -, hl, hacc⟩ := D4.account hr3
  have := hacc (.node k1 m)
  rw [List.count_append] at this
  have h0 : (l.flatMap own).count (.node k1 m) = 0 := by
    rw [List.count_eq_zero]
    intro hmem
    obtain ⟨x, hx, hxo⟩ := List.mem_flatMap.1 hmem
    obtain ⟨hx1, hx2⟩ := (hl x).1 hx
    refine ho x k1 m hx1 (fun hxu => ?_) hxo hm3
    have := D4.saved hr3 x u hx1 ((W3.fwd.tree.treeCore_iff hx1).1 hxu) hu4
    rw [hx2] at this; cases this
  have h1 : ([Asset.tree t] : List Asset).count (.node k1 m) = 0 := by simp
  have h2 : w3.count (.node k1 m) = w3.held k1 m := rfl
  have h3 : w4.count (.node k1 m) = w4.held k1 m := rfl
  omega

/-- C64 (violation, in general): if no handle keeps what remains of the old tree, and the data of a node `x` in it
owns a handle to the last node `m` of the subtree, in depth-first order, that has handles, then `n.detach_subtree()`
panics. -/
theorem C64_detach_panics {w3 : World α} {u : TreeId} {b : Forest α} {T : RTree NodeId} {x m : NodeId} {k' : Kind}
    {D E : List NodeId} (hr : ReachW w)
    (hS : OwnsAll own w []) (hn : w.heap.navTo n .parent = .ok (some p))
    (s1 : w.StepW (.treeOf k n) w1 (.tree (some t))) (s2 : w1.StepW (.detach a n) w2 .unit)
    (s3 : w2.StepW (.treeOf k n) w3 (.tree (some u))) (hb : Shows w3 b) (hT : SubtreeAt b.children n T)
    (hD : T.nodes = D ++ m :: E) (hE : ∀ y ∈ E, ∀ k, w3.held k y = 0)
    (htr : w.trees t = 0) (hh : ∀ k y, 0 < w3.held k y → w3.heap.nodeTree y ≠ .ok t)
    (hxa : w3.heap.alive x = true) (hx : w3.heap.nodeTree x = .ok t) (hxo : .node k' m ∈ own x)
    {f : Nat} (hf : w.heap.nNode ≤ f) :
    w.heap.detachSubtreeC (Heap.dtor own f) Nest.start n = .error Nest.nested := by
  have hr1 : ReachW w1 := .step hr s1
  have hr2 : ReachW w2 := .step hr1 s2
  have hr3 : ReachW w3 := .step hr2 s3
  obtain ⟨w4, w5, m', D', E', D4, D5, hD', ⟨k0, hk0⟩, hE', H⟩ :=
    C64_detach_exact hr hS hn s1 s2 s3 hb hT
  obtain ⟨v3, ch3, W3⟩ := hr3.wide
  obtain ⟨v4, ch4, W4⟩ := (D4.reach hr3).wide
  obtain ⟨a1, a2, a3, a4, a5, a6⟩ := treeOf_counts s1
  obtain ⟨b1, b2, b3, b4, b5, b6⟩ := treeOf_counts s3
  obtain ⟨c1, c2, c3, c4, -⟩ := detach_counts s2
  -- the data of `x` owns a handle to `m`, so `m` has one
  have hxw : w.heap.alive x = true := by
    have h2 : w2.heap.alive x = true := by rw [b2] at hxa; exact hxa
    obtain ⟨v1, ch1, v2, ch2, W1, W2, K⟩ := hr1.step_wide s2
    cases e : w.heap.alive x with
    | true => rfl
    | false =>
      have e1 : w1.heap.alive x = false := by rw [a2]; exact e
      have hb2 := W2.shape.bound x h2
      have hN : w2.heap.nNode = w1.heap.nNode :=
        (detach_facts hr1 s2 (by
          simp only [Heap.navTo, Except.ok.injEq] at hn
          rw [a2]
          show w.heap.isRoot n = false
          simp [Heap.isRoot, hn])).2.2
      rw [hN] at hb2
      rw [K.fresh x hb2 e1] at h2; cases h2
  have hm0 : 0 < w3.held k' m := by
    rw [b3, c1, a3]
    have := hS [x] (by simp) (by simpa using hxw) (.node k' m)
    have h2 : 0 < (own x).count (.node k' m) := List.count_pos_iff.2 hxo
    simp [World.count] at this
    omega
  -- so it is the last one
  have hmm : m = m' := by
    have hsplit := hD.symm.trans hD'
    have hm_not : m ∉ E' := fun hm => by rw [hE' m hm k'] at hm0; exact absurd hm0 (Nat.lt_irrefl _)
    have hm'_not : m' ∉ E := fun hm => by rw [hE m' hm k0] at hk0; exact absurd hk0 (Nat.lt_irrefl _)
    rcases List.append_eq_append_iff.1 hsplit with ⟨as, h1, h2⟩ | ⟨as, h1, h2⟩
    · cases as with
      | nil => simpa using (List.cons.inj h2).1
      | cons y as =>
        exfalso
        rw [List.cons_append] at h2
        have := (List.cons.inj h2).2
        exact hm'_not (by rw [this]; simp)
    · cases as with
      | nil => simpa using (List.cons.inj h2).1.symm
      | cons y as =>
        exfalso
        rw [List.cons_append] at h2
        have := (List.cons.inj h2).2
        exact hm_not (by rw [this]; simp)
  subst hmm
  refine (H f hf).2 k' ?_
  -- the old tree is destroyed
  obtain ⟨l, -, hl, hacc⟩ := D4.account hr3
  have htu : t ≠ u := by
    rintro rfl
    refine hh k n (by rw [b3]; exact s3.allowed) ?_
    rw [b2]; exact b1
  have ht4 : w4.heap.treeAlive t = false := by
    cases e : w4.heap.treeAlive t with
    | false => rfl
    | true =>
      rcases W4.treeHeld_iff.2 e with h1 | ⟨k1, y, h1, h2⟩
      · have := hacc (.tree t)
        simp only [World.count, List.count_append, List.count_cons, List.count_nil] at this
        rw [b4, c2, a4] at this
        simp [upd_apply, htu, htr] at this
        omega
      · exfalso
        have hy3 : 0 < w3.held k1 y := Nat.lt_of_lt_of_le h1 (D4.count_le hr3 (.node k1 y))
        have hya := W4.held_alive h1
        have := (D4.members hr3 y hya).symm.trans ((W4.fwd.tree.treeCore_iff hya).1 h2)
        exact hh k1 y hy3 ((W3.fwd.tree.treeCore_iff (W3.held_alive hy3)).2 this)
  have hxd : w4.heap.alive x = false := by
    cases e : w4.heap.alive x with
    | false => rfl
    | true =>
      have := W4.fwd.tree_alive e ((D4.members hr3 x e).trans ((W3.fwd.tree.treeCore_iff hxa).1 hx))
      rw [ht4] at this; cases this
  have hxl : x ∈ l := (hl x).2 ⟨hxa, hxd⟩
  have h1 : 0 < (l.flatMap own).count (.node k' m) :=
    List.count_pos_iff.2 (List.mem_flatMap.2 ⟨x, hxl, hxo⟩)
  have := hacc (.node k' m)
  rw [List.count_append] at this
  have h2 : w3.count (.node k' m) = w3.held k' m := rfl
  have h3 : w4.count (.node k' m) = w4.held k' m := rfl
  omega

/-! ### Concrete cases -/

/-- To check `OwnsAll` it is enough to look at one list with all living nodes. -/
theorem OwnsAll.of_list {A : List NodeId} (hA : ∀ x, w.heap.alive x = true → x ∈ A)
    (h : ∀ a ∈ P ++ A.flatMap own, (P ++ A.flatMap own).count a ≤ w.count a) : OwnsAll own w P := by
  intro L hL hm a
  obtain ⟨l', hp⟩ := subset_perm hL (fun x hx => hA x (hm x hx))
  have h1 : (P ++ L.flatMap own).count a ≤ (P ++ A.flatMap own).count a := by
    rw [List.count_append, List.count_append, (List.Perm.flatMap_right own hp).count_eq, List.flatMap_append,
      List.count_append]
    omega
  by_cases ha : a ∈ P ++ A.flatMap own
  · exact Nat.le_trans h1 (h a ha)
  · rw [List.count_eq_zero.2 ha] at h1; omega

namespace DemoCascade
open DemoWorld

/-! Three trees.  The data of node 0 owns a handle to node 1, a `Tree` of the tree of node 1, and a grant for it;
the data of node 1 owns a hot handle to node 2, the root of the third tree. -/

def ops : List (Op Nat) :=
  [.newTree false 10, .newTree false 11, .treeOf .plain 1, .acquire true 1, .newTree true 12, .clone .plain 0]

/-- The state after the first `i` calls. -/
def st (i : Nat) : World Nat := run (ops.take i) .init

theorem stRoom (i : Nat) (hi : i ≤ 6) : Room (st i).heap := by
  have h2 : ∀ i, i ≤ 6 → ∀ t, 3 ≤ t → (st i).heap.grants t = 0 := by
    intro i hi t ht
    obtain ⟨s, rfl⟩ : ∃ s, t = s + 3 := ⟨t - 3, (Nat.sub_add_cancel ht).symm⟩
    match i, hi with
    | 0, _ => rfl
    | 1, _ => rfl
    | 2, _ => rfl
    | 3, _ => rfl
    | 4, _ => rfl
    | 5, _ => rfl
    | 6, _ => rfl
    | i + 7, h => omega
  refine room_of 3 (h2 i hi) ?_
  have : ∀ i, i < 7 → ∀ t, t < 3 → -(2 : Int) ^ 62 < (st i).heap.grants t ∧
      (st i).heap.grants t < (2 : Int) ^ 62 := by
    decide +kernel
  exact this i (by omega)

theorem stStep {i : Nat} (hr : Reach (st i)) {op : Op Nat} {r : Res} (hi : i ≤ 6)
    (ha : (st i).Allowed op) (hs : ∀ ch, FShape (st i).heap ch → SafeCall (st i).heap ch op)
    (e : (st i).exec op = .ok (st (i + 1), r)) : Reach (st (i + 1)) :=
  .step hr ⟨ha, hs, stRoom i hi, e⟩

theorem reach5 : Reach (st 5) := by
  have r0 : Reach (st 0) := .init
  have r1 : Reach (st 1) := stStep (r := .node (some 0)) r0 (by decide) (op := .newTree false 10) trivial (fun _ _ => trivial) rfl
  have r2 : Reach (st 2) := stStep (r := .node (some 1)) r1 (by decide) (op := .newTree false 11) trivial (fun _ _ => trivial) rfl
  have r3 : Reach (st 3) := stStep (r := .tree (some 1)) r2 (by decide) (op := .treeOf .plain 1) (show 0 < _ by decide) (fun _ _ => trivial) rfl
  have r4 : Reach (st 4) := stStep (r := .unit) r3 (by decide) (op := .acquire true 1) (show 0 < _ by decide) (fun _ _ => trivial) rfl
  exact stStep (r := .node (some 2)) r4 (by decide) (op := .newTree true 12) trivial (fun _ _ => trivial) rfl

theorem reach6 : Reach (st 6) :=
  stStep (r := .unit) reach5 (by decide) (op := .clone .plain 0) (show 0 < _ by decide) (fun _ _ => trivial) rfl

/-- A chain of three trees. -/
def chain : NodeId → List Asset
  | 0 => [.node .plain 1, .tree 1, .token true 1]
  | 1 => [.node .hot 2]
  | _ => []

/-- Two trees that keep each other. -/
def ring : NodeId → List Asset
  | 0 => [.node .plain 1]
  | 1 => [.node .plain 0]
  | _ => []

theorem alive_bound {i : Nat} (hr : Reach (st i)) (hN : (st i).heap.nNode ≤ 3) (x : NodeId)
    (hx : (st i).heap.alive x = true) : x ∈ [0, 1, 2] := by
  obtain ⟨ch, I⟩ := hr.inv
  have := Nat.lt_of_lt_of_le (I.wf.bound x hx) hN
  match x, this with
  | 0, _ => simp
  | 1, _ => simp
  | 2, _ => simp

theorem chainOwns : OwnsAll chain (st 5) [.node .plain 0] :=
  .of_list (A := [0, 1, 2]) (alive_bound reach5 (by decide)) (by decide +kernel)

theorem ringOwns : OwnsAll ring (st 6) [.node .plain 0] :=
  .of_list (A := [0, 1, 2]) (alive_bound reach6 (by decide)) (by decide +kernel)

end DemoCascade

open DemoCascade in
/-- C63_drop, C63_account, C63_survivors, C63_no_leak: dropping the handle to node 0 destroys the three trees. -/
example : ∃ w' : World Nat, (st 5).heap.dropAllC (Heap.dtor chain 3) Nest.start [.node .plain 0] = .ok w'.heap ∧
    ∀ x, w'.heap.alive x = false := by
  obtain ⟨w', e, D, -⟩ := C63_drop reach5.toW (stRoom 5 (by decide)) chainOwns
  refine ⟨w', e 3 (by decide), (C63_no_leak (A := [0, 1, 2]) reach5.toW (by decide) ?_ ?_ (fun t => 3 - t) ?_ D).1⟩
  · intro x
    constructor
    · intro hx; rcases List.mem_cons.1 hx with rfl | hx
      · rfl
      · rcases List.mem_cons.1 hx with rfl | hx
        · rfl
        · obtain rfl := List.mem_singleton.1 hx; rfl
    · exact alive_bound reach5 (by decide) x
  · intro a
    cases a with
    | node k n =>
      match k, n with
      | .plain, 0 => rfl
      | .plain, 1 => rfl
      | .plain, 2 => rfl
      | .hot, 0 => rfl
      | .hot, 1 => rfl
      | .hot, 2 => rfl
      | .frozen, 0 => rfl
      | .frozen, 1 => rfl
      | .frozen, 2 => rfl
      | .plain, n + 3 => rfl
      | .hot, n + 3 => rfl
      | .frozen, n + 3 => rfl
    | tree t =>
      match t with
      | 0 => rfl
      | 1 => rfl
      | t + 2 => rfl
    | token g t =>
      match g, t with
      | true, 0 => rfl
      | true, 1 => rfl
      | true, t + 2 => rfl
      | false, 0 => rfl
      | false, 1 => rfl
      | false, t + 2 => rfl
  · intro x hx a ha u t hu hk
    have key : ∀ x ∈ [0, 1, 2], ∀ a ∈ chain x, (match a with
        | .node _ n => (match (st 5).heap.nodeTree x, (st 5).heap.nodeTree n with
          | .ok u, .ok t => decide (3 - t < 3 - u) | _, _ => false)
        | .tree t => (match (st 5).heap.nodeTree x with
          | .ok u => decide (3 - t < 3 - u) | _ => false)
        | .token _ _ => true) = true := by
      decide +kernel
    have h1 := key x hx a ha
    cases a with
    | node k n =>
      have hk' : (st 5).heap.nodeTree n = .ok t := hk
      simp only [hu, hk'] at h1
      simpa using h1
    | tree v =>
      obtain rfl : v = t := hk
      simp only [hu] at h1
      simpa using h1
    | token g v => exact hk.elim

open DemoCascade in
/-- C63_cycle: the two trees stay. -/
example : ∃ w' : World Nat, (st 6).heap.dropAllC (Heap.dtor ring 3) Nest.start [.node .plain 0] = .ok w'.heap ∧
    w'.heap.treeAlive 0 = true ∧ w'.heap.treeAlive 1 = true := by
  obtain ⟨w', e, D, -⟩ := C63_drop reach6.toW (stRoom 6 (by decide)) ringOwns
  have hC : ∀ t, (t = 0 ∨ t = 1) → ∃ x u a, (st 6).heap.alive x = true ∧ (st 6).heap.nodeTree x = .ok u ∧
      (u = 0 ∨ u = 1) ∧ a ∈ ring x ∧ (st 6).Keeping a t := by
    rintro t (rfl | rfl)
    · exact ⟨1, 1, .node .plain 0, rfl, rfl, .inr rfl, by decide, rfl⟩
    · exact ⟨0, 0, .node .plain 1, rfl, rfl, .inl rfl, by decide, rfl⟩
  exact ⟨w', e 3 (by decide), C63_cycle reach6.toW ringOwns hC D (.inl rfl),
    C63_cycle reach6.toW ringOwns hC D (.inr rfl)⟩

open DemoCascade in
/-- C63_order: the data of node 0 may drop what it owns in any order. -/
example : ∃ w1 w2 : World Nat, Drops chain [.node .plain 0] (st 5) w1 ∧
    Drops (fun n => (chain n).reverse) [.node .plain 0] (st 5) w2 ∧ ∀ x, w1.heap.alive x = w2.heap.alive x := by
  obtain ⟨w1, -, D1, -⟩ := C63_drop reach5.toW (stRoom 5 (by decide)) chainOwns
  obtain ⟨w2, -, D2, -⟩ := C63_drop (own := fun n => (chain n).reverse) reach5.toW (stRoom 5 (by decide))
    (.of_list (A := [0, 1, 2]) (alive_bound reach5 (by decide)) (by decide +kernel) : OwnsAll _ _ [.node .plain 0])
  exact ⟨w1, w2, D1, D2, (C63_order reach5.toW D1 D2 (.refl _) (fun x => (List.reverse_perm _).symm)).1⟩

namespace DemoCascade
open DemoWorld

/-! `let n0 = HotNode::new_tree(..); let n1 = n0.create_as_last_child(..);`, a clone of `n1` is put into the data of
`n0`, `drop(n0)`, and there is another tree with the node 2. -/

def busyOps : List (Op Nat) :=
  [.newTree true 10, .create .hot 0 11 .lastChild, .clone .hot 1, .drop .hot 0, .newTree true 20]

/-- The state after the first `i` calls. -/
def bs (i : Nat) : World Nat := run (busyOps.take i) .init

theorem bsRoom (i : Nat) (hi : i ≤ 5) : Room (bs i).heap := by
  have h2 : ∀ i, i ≤ 5 → ∀ t, 2 ≤ t → (bs i).heap.grants t = 0 := by
    intro i hi t ht
    obtain ⟨s, rfl⟩ : ∃ s, t = s + 2 := ⟨t - 2, (Nat.sub_add_cancel ht).symm⟩
    match i, hi with
    | 0, _ => rfl
    | 1, _ => rfl
    | 2, _ => rfl
    | 3, _ => rfl
    | 4, _ => rfl
    | 5, _ => rfl
    | i + 6, h => omega
  refine room_of 2 (h2 i hi) ?_
  have : ∀ i, i < 6 → ∀ t, t < 2 → -(2 : Int) ^ 62 < (bs i).heap.grants t ∧
      (bs i).heap.grants t < (2 : Int) ^ 62 := by
    decide +kernel
  exact this i (by omega)

theorem bsStep {i : Nat} (hr : Reach (bs i)) {op : Op Nat} {r : Res} (hi : i ≤ 5)
    (ha : (bs i).Allowed op) (hs : ∀ ch, FShape (bs i).heap ch → SafeCall (bs i).heap ch op)
    (e : (bs i).exec op = .ok (bs (i + 1), r)) : Reach (bs (i + 1)) :=
  .step hr ⟨ha, hs, bsRoom i hi, e⟩

theorem bsReach : Reach (bs 5) := by
  have r0 : Reach (bs 0) := .init
  have r1 : Reach (bs 1) := bsStep (r := .node (some 0)) r0 (by decide) (op := .newTree true 10) trivial (fun _ _ => trivial) rfl
  have r2 : Reach (bs 2) := bsStep (r := .node (some 1)) r1 (by decide) (op := .create .hot 0 11 .lastChild) (show 0 < _ by decide) (fun _ _ => trivial) rfl
  have r3 : Reach (bs 3) := bsStep (r := .unit) r2 (by decide) (op := .clone .hot 1) (show 0 < _ by decide) (fun _ _ => trivial) rfl
  have r4 : Reach (bs 4) := bsStep (r := .unit) r3 (by decide) (op := .drop .hot 0) (show 0 < _ by decide) (fun _ _ => trivial) rfl
  exact bsStep (r := .node (some 2)) r4 (by decide) (op := .newTree true 20) trivial (fun _ _ => trivial) rfl

/-- The data of node 0 owns a handle to its child. -/
def child : NodeId → List Asset
  | 0 => [.node .hot 1]
  | _ => []

theorem childOwns : OwnsAll child (bs 5) [] := by
  refine .of_list (A := [0, 1, 2]) ?_ (by decide +kernel)
  intro x hx
  obtain ⟨ch, I⟩ := bsReach.inv
  have := Nat.lt_of_lt_of_le (I.wf.bound x hx) (show (bs 5).heap.nNode ≤ 3 by decide)
  match x, this with
  | 0, _ => simp
  | 1, _ => simp
  | 2, _ => simp

theorem onlyOne : ∀ k m, 0 < (bs 5).held k m → (bs 5).heap.nodeTree m = .ok 0 → m = 1 := by
  intro k m hk ht
  match k, m with
  | _, 1 => rfl
  | .plain, 0 => cases hk
  | .hot, 0 => cases hk
  | .frozen, 0 => cases hk
  | _, 2 => cases ht
  | .plain, m + 3 => cases hk
  | .hot, m + 3 => cases hk
  | .frozen, m + 3 => cases hk

end DemoCascade

open DemoCascade in
/-- C64_detach_violation: if the data owns nothing, the call returns. -/
example : (bs 5).heap.detachSubtreeC (Heap.dtor child 3) Nest.start 1 = .error Nest.nested ∧
    ∃ w', (bs 5).exec (.detach .hot 1) = .ok (w', .unit) :=
  ⟨C64_detach_violation (a := .hot) (as := []) bsReach (show 0 < _ by decide) rfl rfl rfl rfl rfl rfl onlyOne rfl 2,
    _, rfl⟩

open DemoCascade in
/-- C64_move_violation: the same for the move. -/
example : (bs 5).heap.detachInsertC (Heap.dtor child 3) Nest.start 1 (.lastChildOf 2) = .error Nest.nested ∧
    ∃ w', (bs 5).exec (.move .hot 1 (.lastChildOf 2)) = .ok (w', .unit) :=
  ⟨C64_move_violation (as := []) bsReach (bsRoom 5 (by decide)) ⟨show 0 < _ by decide, show 0 < _ by decide⟩ rfl rfl
    rfl rfl rfl rfl rfl (by decide) onlyOne rfl 2, _, rfl⟩

namespace DemoCascade
open DemoWorld

/-! The ordinary calls `let t = n1.tree(); n1.detach_subtree(); let u = n1.tree();` in the same situation. -/

def lateOps : List (Op Nat) := busyOps ++ [.treeOf .hot 1, .detach .hot 1, .treeOf .hot 1]

/-- The state after the first `i` calls. -/
def ls (i : Nat) : World Nat := run (lateOps.take i) .init

theorem lsRoom (i : Nat) (hi : i < 9) : Room (ls i).heap := by
  have h2 : ∀ i, i < 9 → ∀ t, 3 ≤ t → (ls i).heap.grants t = 0 := by
    intro i hi t ht
    obtain ⟨s, rfl⟩ : ∃ s, t = s + 3 := ⟨t - 3, (Nat.sub_add_cancel ht).symm⟩
    match i, hi with
    | 0, _ => rfl
    | 1, _ => rfl
    | 2, _ => rfl
    | 3, _ => rfl
    | 4, _ => rfl
    | 5, _ => rfl
    | 6, _ => rfl
    | 7, _ => rfl
    | 8, _ => rfl
    | i + 9, h => omega
  refine room_of 3 (h2 i hi) ?_
  have : ∀ i, i < 9 → ∀ t, t < 3 → -(2 : Int) ^ 62 < (ls i).heap.grants t ∧
      (ls i).heap.grants t < (2 : Int) ^ 62 := by
    decide +kernel
  exact this i hi

theorem lsTree : (ls 5).StepW (.treeOf .hot 1) (ls 6) (.tree (some 0)) :=
  ⟨show 0 < _ by decide, fun _ _ => ⟨trivial, fun _ h => h.elim⟩, lsRoom 5 (by decide), rfl⟩

theorem lsReach6 : ReachW (ls 6) := .step (show ReachW (bs 5) from bsReach.toW) lsTree

theorem lsDetach : (ls 6).StepW (.detach .hot 1) (ls 7) .unit := by
  refine ⟨show 0 < _ by decide, fun ch F => ⟨trivial, fun p hp => ?_⟩, lsRoom 6 (by decide), rfl⟩
  have hm : 1 ∈ ch p := List.mem_of_head? hp
  have h1 := F.parent_of_mem hm
  obtain rfl : (0 : Nat) = p := by
    have : (ls 6).heap.parent 1 = some 0 := rfl
    rw [this] at h1; exact Option.some.inj h1
  have hp' : (ch 0).head? = some 1 := hp
  have hc : ch 0 = [1] := by
    cases hc : ch 0 with
    | nil => rw [hc] at hm; cases hm
    | cons c l =>
      rw [hc] at hp'
      obtain rfl : c = 1 := by simpa using hp'
      have := F.next_at (l1 := []) (l2 := l) hc
      have h2 : (ls 6).heap.next 1 = none := rfl
      rw [h2] at this
      rw [List.head?_eq_none_iff.1 this.symm]
  show (ls 6).heap.navTo 0 .lastChild = .ok (ch 0).getLast?
  rw [hc]; rfl

theorem lsTree2 : (ls 7).StepW (.treeOf .hot 1) (ls 8) (.tree (some 2)) :=
  ⟨show 0 < _ by decide, fun _ _ => ⟨trivial, fun _ h => h.elim⟩, lsRoom 7 (by decide), rfl⟩

theorem lsReach8 : ReachW (ls 8) := .step (.step lsReach6 lsDetach) lsTree2

theorem lsAlive (x : NodeId) (hx : (ls 8).heap.alive x = true) : x ∈ [0, 1, 2] := by
  match x with
  | 0 => simp
  | 1 => simp
  | 2 => simp
  | x + 3 => cases hx

/-- The detached node has no children. -/
theorem lsLeaf {b : Forest Nat} (hb : Shows (ls 8) b) : SubtreeAt b.children 1 (.node 1 []) := by
  refine ⟨rfl, ?_⟩
  have h1 := hb.children.first 1 rfl
  have h2 : (ls 8).heap.firstChild 1 = none := rfl
  rw [h2] at h1
  have h3 : b.children 1 = [] := List.head?_eq_none_iff.1 h1.symm
  simp [Hier, HierL, h3]

/-- The data of node 0 owns the handle to the root of the other tree. -/
def other : NodeId → List Asset
  | 0 => [.node .hot 2]
  | _ => []

theorem otherOwns : OwnsAll other (bs 5) [] := by
  refine .of_list (A := [0, 1, 2]) ?_ (by decide +kernel)
  intro x hx
  match x with
  | 0 => simp
  | 1 => simp
  | 2 => simp
  | x + 3 => cases hx

end DemoCascade

open DemoCascade in
/-- C64_detach_returns, C64_detach_exact: detaching node 1 destroys node 0, whose data owns the only handle to node 2,
which is destroyed in the middle of the call. -/
example : ∃ w5 : World Nat, (bs 5).heap.detachSubtreeC (Heap.dtor other 3) Nest.start 1 = .ok w5.heap ∧ ReachW w5 := by
  obtain ⟨w4, w5, D4, D5, H⟩ := C64_detach_returns (p := 0) (own := other) bsReach.toW otherOwns rfl lsTree lsDetach
    lsTree2 (by
      intro x k y hx hxu hy hyu
      have := lsAlive x hx
      simp only [List.mem_cons, List.not_mem_nil, or_false] at this
      rcases this with rfl | rfl | rfl
      · simp only [other, List.mem_cons, List.not_mem_nil, or_false, Asset.node.injEq] at hy
        obtain ⟨-, rfl⟩ := hy
        cases hyu
      · exact hxu rfl
      · cases hy)
  exact ⟨w5, H 3 (by decide), D5.reach (D4.reach lsReach8)⟩

open DemoCascade in
/-- So it is in the model run. -/
example : ((bs 5).heap.detachSubtreeC (Heap.dtor other 3) Nest.start 1).toOption.map
    (fun h => ([0, 1, 2].map h.alive, [0, 1, 2].map h.treeAlive)) =
    some ([false, true, false], [false, false, true]) := by decide +kernel

open DemoCascade in
/-- C64_detach_panics: the data of node 0 owns a handle to node 1. -/
example {b : Forest Nat} (hb : Shows (ls 8) b) :
    (bs 5).heap.detachSubtreeC (Heap.dtor child 3) Nest.start 1 = .error Nest.nested := by
  refine C64_detach_panics (p := 0) (x := 0) (m := 1) (k' := .hot) (D := []) (E := []) (f := 3) bsReach.toW childOwns
    rfl lsTree lsDetach lsTree2 hb (lsLeaf hb) rfl (by simp) rfl ?_ rfl rfl (by simp [child]) (by decide)
  intro k y hk ht
  match k, y with
  | _, 1 => cases ht
  | .plain, 0 => cases hk
  | .hot, 0 => cases hk
  | .frozen, 0 => cases hk
  | _, 2 => cases ht
  | .plain, y + 3 => cases hk
  | .hot, y + 3 => cases hk
  | .frozen, y + 3 => cases hk

open DemoWorld in
/-- C64_detach_partial: the data of node 0 owns a handle to the detached node 3. -/
example (f : Nat) : (wide 4).heap.detachSubtreeC (Heap.dtor (fun n => if n = 0 then [.node .hot 3] else []) f)
    Nest.start 3 = .ok (wide 5).heap := by
  refine C64_detach_partial wideReach4.toW wideDetach ?_ ?_ f
  · intro x hx
    match x with
    | 0 => rfl
    | 1 => rfl
    | 2 => rfl
    | 3 => rfl
    | x + 4 => cases hx
  · intro t ht
    match t with
    | 0 => rfl
    | t + 1 => cases ht

open DemoWorld in
/-- C64_move_partial: the data of node 0 owns a handle to the moved node 1. -/
example (f : Nat) : (at_ 8).heap.detachInsertC (Heap.dtor (fun n => if n = 0 then [.node .plain 1] else []) f)
    Nest.start 1 (.lastChildOf 4) = .ok ((at_ 9).heap, .ok ()) := by
  refine C64_move_partial moveStepW ?_ ?_ f
  · intro x hx
    match x with
    | 0 => rfl
    | 1 => rfl
    | 2 => rfl
    | 3 => rfl
    | 4 => rfl
    | x + 5 => cases hx
  · intro t ht
    match t with
    | 0 => rfl
    | 1 => rfl
    | t + 2 => cases ht

end Dendron
