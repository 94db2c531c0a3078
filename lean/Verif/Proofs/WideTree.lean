import Verif.Proofs.WideBuild

/-! Handles and `Tree` values of what a builder has made, in the wider histories. -/

set_option autoImplicit false

namespace Dendron
open RTree
variable {α : Type} {w w' w0 w1 w2 w3 : World α} {a a' a0 a1 a2 a3 : Forest α} {r x n m : NodeId} {u : RTree α}
  {t : TreeId} {k : Kind}

/-- The forests differ only in what the program holds. -/
structure Forest.Same (a b : Forest α) : Prop where
  data : b.data = a.data
  borrowed : b.borrowed = a.borrowed
  children : b.children = a.children
  tree : b.tree = a.tree
  root : b.root = a.root
  newNode : b.newNode = a.newNode
  newTree : b.newTree = a.newTree
  grantTok : b.grantTok = a.grantTok
  prohTok : b.prohTok = a.prohTok

theorem Forest.Same.refl (a : Forest α) : a.Same a := ⟨rfl, rfl, rfl, rfl, rfl, rfl, rfl, rfl, rfl⟩

theorem Forest.Same.trans (h1 : a1.Same a2) (h2 : a2.Same a3) : a1.Same a3 :=
  ⟨h2.data.trans h1.data, h2.borrowed.trans h1.borrowed, h2.children.trans h1.children, h2.tree.trans h1.tree,
    h2.root.trans h1.root, h2.newNode.trans h1.newNode, h2.newTree.trans h1.newTree, h2.grantTok.trans h1.grantTok,
    h2.prohTok.trans h1.prohTok⟩

theorem Forest.same_give (a : Forest α) (k : Kind) (n : NodeId) : a.Same (a.give k n) :=
  ⟨rfl, rfl, rfl, rfl, rfl, rfl, rfl, rfl, rfl⟩
theorem Forest.same_take (a : Forest α) (k : Kind) (n : NodeId) : a.Same (a.take k n) :=
  ⟨rfl, rfl, rfl, rfl, rfl, rfl, rfl, rfl, rfl⟩
theorem Forest.same_giveTree (a : Forest α) (t : TreeId) : a.Same (a.giveTree t) :=
  ⟨rfl, rfl, rfl, rfl, rfl, rfl, rfl, rfl, rfl⟩

theorem Forest.Same.roomy (h : a.Same a') (R : a.Roomy) : a'.Roomy := by
  intro t
  rw [h.grantTok, h.prohTok, h.newNode]; exact R t

theorem Forest.Same.alive (h : a.Same a') (S : Shows w a) (S' : Shows w' a') (x : NodeId) : w'.heap.alive x = w.heap.alive x := by
  have h1 := S.alive (n := x)
  have h2 := S'.alive (n := x)
  rw [h.data, ← h1] at h2
  cases e : w.heap.alive x <;> cases e' : w'.heap.alive x <;> simp_all

theorem Forest.Same.mutB (h : a.Same a') (S : Shows w a) (S' : Shows w' a') (hx : w.heap.alive x = true) :
    w'.heap.mutB x = w.heap.mutB x := by
  have h1 := S.borrowed x
  have h2 := S'.borrowed x
  rw [h.borrowed, h1, h.alive S S', hx] at h2
  simpa using h2.symm

theorem Forest.Same.nodeTree (h : a.Same a') (hr : ReachW w) (S : Shows w a) (hr' : ReachW w') (S' : Shows w' a')
    (hx : w.heap.alive x = true) : w'.heap.nodeTree x = w.heap.nodeTree x := by
  have hd := S.alive.1 hx
  obtain ⟨t, e, -⟩ := hr.tree_live S hd
  rw [(hr.nodeTree_live S hd).2 e, (hr'.nodeTree_live S' (by rw [h.data]; exact hd)).2 (by rw [h.tree]; exact e)]

/-- What is new stays new if only handles are made or dropped before and after. -/
theorem NewTree.same (h0 : a0.Same a1) (S0 : Shows w0 a0) (S1 : Shows w1 a1) (h2 : a2.Same a3)
    (hr2 : ReachW w2) (S2 : Shows w2 a2) (hr3 : ReachW w3) (S3 : Shows w3 a3)
    (N : NewTree w1 w2 a2.children n u) : NewTree w0 w3 a3.children n u := by
  obtain ⟨⟨t, e1, e2, e3⟩, s, g1, g2, g3⟩ := N
  have hn := (g3 n ((g1.mem_nodes_iff n).2 (.refl _))).2.1
  refine ⟨⟨t, ?_, ?_, ?_⟩, s, ?_, ?_, fun x hx => ⟨?_, ?_, ?_⟩⟩
  · rw [h2.nodeTree hr2 S2 hr3 S3 hn]; exact e1
  · rw [← S0.newTree, ← h0.newTree, S1.newTree]; exact e2
  · have : w3.heap.root = w2.heap.root := by rw [← S3.root, ← S2.root]; exact h2.root
    unfold Heap.rootLink at e3 ⊢
    rw [this]; exact e3
  · rw [h2.children]; exact g1
  · have : w3.heap.data = w2.heap.data := by rw [← S3.data, ← S2.data]; exact h2.data
    rw [HasData, this]; exact g2
  · rw [← h0.alive S0 S1]; exact (g3 x hx).1
  · rw [h2.alive S2 S3]; exact (g3 x hx).2.1
  · rw [h2.mutB S2 S3 (g3 x hx).2.1]; exact (g3 x hx).2.2

/-- What is untouched stays so if only handles and `Tree` values are made or dropped before and after. -/
theorem Untouched.same {v : TreeId → Nat} (h0 : a0.Same a1) (hr0 : ReachW w0) (S0 : Shows w0 a0) (hr1 : ReachW w1)
    (S1 : Shows w1 a1) (h2 : a2.Same a3) (hr2 : ReachW w2) (S2 : Shows w2 a2) (hr3 : ReachW w3) (S3 : Shows w3 a3)
    (U : Untouched w1 w2 a1.children a2.children none) (hv : v = w0.trees) :
    Untouched w0 { w3 with trees := v } a0.children a3.children none := by
  have hal : ∀ x, w0.heap.alive x = true → w1.heap.alive x = true := fun x hx => by rw [h0.alive S0 S1]; exact hx
  have k0 : w1.heap.data = w0.heap.data := by rw [← S1.data, ← S0.data]; exact h0.data
  have k2 : w3.heap.data = w2.heap.data := by rw [← S3.data, ← S2.data]; exact h2.data
  refine ⟨fun x hx => ?_, fun x hx => ?_, fun x hx => ?_, fun x hx => ?_, fun x hx h => ?_, hv, ?_, ?_⟩
  · show w3.heap.alive x = true
    rw [h2.alive S2 S3]; exact U.alive x (hal x hx)
  · show w3.heap.data x = _
    rw [k2, U.data x (hal x hx), k0]
  · show w3.heap.mutB x = _
    rw [h2.mutB S2 S3 (U.alive x (hal x hx)), U.borrowed x (hal x hx), h0.mutB S0 S1 hx]
  · show w3.heap.nodeTree x = _
    rw [h2.nodeTree hr2 S2 hr3 S3 (U.alive x (hal x hx)), U.tree x (hal x hx), h0.nodeTree hr0 S0 hr1 S1 hx]
  · rw [h2.children, U.children x (hal x hx) h, h0.children]
  · show w3.grantTok = _
    rw [← S3.grantTok, h2.grantTok, S2.grantTok, U.grantTok, ← S1.grantTok, h0.grantTok, S0.grantTok]
  · show w3.prohTok = _
    rw [← S3.prohTok, h2.prohTok, S2.prohTok, U.prohTok, ← S1.prohTok, h0.prohTok, S0.prohTok]

/-! ### Calls that change only what is held -/

/-- `tree` of a node that is held. -/
theorem ReachW.tree_of (hr : ReachW w) (S : Shows w a) (R : a.Roomy) (hk : 0 < a.held k n) (ht : a.tree n = some t) :
    ∃ w', w.exec (.treeOf k n) = .ok (w', .tree (some t)) ∧ ReachW w' ∧ Shows w' (a.giveTree t) :=
  hr.play (op := .treeOf k n) S R hk trivial (fun _ h => h.elim) (.treeOf ht)

/-- Dropping a handle to a node whose tree stays held. -/
theorem ReachW.drop_quiet (hr : ReachW w) (S : Shows w a) (R : a.Roomy) (hk : 0 < a.held k n) (ht : a.tree n = some t)
    (hh : (a.take k n).Holds t) :
    ∃ w', w.exec (.drop k n) = .ok (w', .unit) ∧ ReachW w' ∧ Shows w' (a.take k n) := by
  obtain ⟨w', e, h1, h2⟩ := hr.play (op := .drop k n) S R hk trivial (fun _ h => h.elim) (.drop k n)
  have : (a.take k n).sweep = a.take k n := by
    refine Forest.sweep_same (hr.swept S) rfl rfl rfl rfl rfl ?_
    rintro s (g | ⟨k', y, g, e'⟩)
    · exact .inl g
    · by_cases hy : k' = k ∧ y = n
      · obtain ⟨rfl, rfl⟩ := hy
        rw [ht] at e'; cases e'; exact hh
      · exact .inr ⟨k', y, by simp only [Forest.take, if_neg hy]; exact g, e'⟩
  rw [this] at h2
  exact ⟨w', e, h1, h2⟩

/-- The root of a tree that the program holds. -/
theorem ReachW.tree_root (hr : ReachW w) (S : Shows w a) (R : a.Roomy) (hT : 0 < a.trees t) (hroot : a.root t = some r) :
    ∃ w', w.exec (.treeRoot t) = .ok (w', .node (some r)) ∧ ReachW w' ∧ Shows w' (a.give .plain r) :=
  hr.play (op := .treeRoot t) S R hT trivial (fun _ h => h.elim) (.treeRoot hroot)

/-- A plain handle to the root of a new tree becomes a `Tree` value. -/
theorem ReachW.to_tree (hr : ReachW w) (S : Shows w a) (R : a.Roomy) (hk : 0 < a.held .plain n) (ht : a.tree n = some t) :
    ∃ w1 w2, w.exec (.treeOf .plain n) = .ok (w1, .tree (some t)) ∧ w1.exec (.drop .plain n) = .ok (w2, .unit) ∧
      ReachW w2 ∧ Shows w2 ((a.giveTree t).take .plain n) := by
  obtain ⟨w1, e1, hr1, S1⟩ := hr.tree_of S R hk ht
  obtain ⟨w2, e2, hr2, S2⟩ := hr1.drop_quiet (k := .plain) (n := n) (t := t) S1 ((Forest.same_giveTree a t).roomy R) hk ht
    (.inl (by simp [Forest.take, Forest.giveTree]))
  exact ⟨w1, w2, e1, e2, hr2, S2⟩

/-- A plain handle to a node of a tree to which there are no tokens and no hot or frozen handles becomes a
hot or a frozen one. -/
theorem ReachW.to_bundle (hr : ReachW w) (S : Shows w a) (R : a.Roomy) (hk : k ≠ .plain) (hn : 0 < a.held .plain n)
    (ht : a.tree n = some t) (h1 : a.grantTok t = 0) (h2 : a.prohTok t = 0)
    (h3 : ∀ m q, q ≠ .plain → a.tree m = some t → a.held q m = 0) :
    ∃ w1, w.exec (.bundle k n) = .ok (w1, .unit) ∧ ReachW w1 ∧ Shows w1 ((a.take .plain n).give k n) := by
  obtain ⟨b, hb⟩ : ∃ b, k.lock = some b := by cases k <;> simp_all [Kind.lock]
  refine hr.play (op := .bundle k n) S R ⟨hk, hn⟩ trivial (fun _ h => h.elim) (.bundle ht hb ?_)
  intro hc
  cases b with
  | true =>
    rcases hc with hc | ⟨m, hc, hm⟩
    · omega
    · rw [h3 m .frozen (by decide) hm] at hc; omega
  | false =>
    rcases hc with hc | ⟨m, hc, hm⟩
    · omega
    · rw [h3 m .hot (by decide) hm] at hc; omega

end Dendron
