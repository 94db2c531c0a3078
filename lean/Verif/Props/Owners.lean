import Verif.Spec.Owners
import Verif.Proofs.KeptTree
import Verif.Proofs.Anc
import Verif.Props.Own

/-!
# C59: a node lives exactly as long as it has an owner, in every history

These theorems are about all states reached by any calls whatsoever, also after the calls with a known
defect, so that nothing is assumed about the shape of the hierarchy.
-/

set_option autoImplicit false

namespace Dendron
variable {α : Type} {w w' : World α} {n m : NodeId} {t : TreeId}

private theorem held_of_strong (I : Own w) {rc l : Nat} (hm : w.heap.mem n = .strong t rc l) :
    ∃ k, 0 < w.held k n := by
  have h1 := I.strong _ _ _ _ hm
  have : 0 < w.held .plain n ∨ 0 < w.held .hot n ∨ 0 < w.held .frozen n := by omega
  rcases this with h | h | h <;> exact ⟨_, h⟩

private theorem nodeTree_of_strong {rc l : Nat} (hm : w.heap.mem n = .strong t rc l) :
    w.heap.nodeTree n = .ok t := by
  simp [Heap.nodeTree, Heap.treeCore, Heap.treeCoreOpt, hm]

/-- C59: in every history a tree lives exactly as long as it is held, by a `Tree` or by a handle to one of
its nodes. -/
theorem C59_tree (R : ReachAny w) : w.heap.treeAlive t = true ↔ w.TreeHeld t := by
  have I := R.own
  constructor
  · intro h
    rcases R.treeKept t h with h1 | ⟨n, rc, l, hm⟩
    · left; rw [I.treeRc] at h1; omega
    · obtain ⟨k, hk⟩ := held_of_strong I hm
      exact .inr ⟨k, n, hk, nodeTree_of_strong hm⟩
  · rintro (h | ⟨k, n, hk, h⟩)
    · exact I.treesAlive t h
    · obtain ⟨u, rc, l, hm, -, hu⟩ := I.tree_of_held hk
      rw [nodeTree_of_strong hm] at h
      cases h
      exact hu

/-- C59: in every history a node lives exactly as long as it has an owner: the program, or a living node
whose first child or next sibling it is. -/
theorem C59_node (R : ReachAny w) :
    w.heap.alive n = true ↔ w.OwnsNode n ∨ ∃ m, w.heap.Owns m n := by
  have I := R.own
  constructor
  · intro h
    rcases referenced_iff.1 ((R.kept.ref n h).resolve_left (by simp)) with ⟨t, rc, l, hm⟩ | ⟨t, -, hr⟩ | ⟨m, -, ha, h1⟩
    · exact .inl (.inl (held_of_strong I hm))
    · refine .inl (.inr ⟨t, (C59_tree R).1 (by simp [Heap.treeAlive, hr]), by simp [Heap.rootLink, hr]⟩)
    · refine .inr ⟨m, ha, ?_⟩
      rcases h1 with h1 | h1
      · left; simp [Heap.navTo, Heap.firstChildLink, h1]
      · right; simp [Heap.navTo, Heap.nextLink, h1]
  · rintro ((⟨k, hk⟩ | ⟨t, -, hr⟩) | ⟨m, -, h1 | h1⟩)
    · exact (I.tree_of_held hk).elim fun _ h => h.elim fun _ h => h.elim fun _ h => h.2.1
    · refine I.base.root t n ?_
      unfold Heap.rootLink at hr
      split at hr
      · rename_i e; cases hr; exact e
      · cases hr
    · simp only [Heap.navTo, Heap.firstChildLink, Except.ok.injEq] at h1
      exact (I.base.first _ _ h1).2
    · simp only [Heap.navTo, Heap.nextLink, Except.ok.injEq] at h1
      exact (I.base.next _ _ h1).2

theorem Heap.OwnPath.trans {h : Heap α} {a b c : NodeId} (p : h.OwnPath a b) (q : h.OwnPath b c) :
    h.OwnPath a c := by
  induction p with
  | one e => exact .cons e q
  | cons e _ ih => exact .cons e (ih q)

/-- Following owners backwards ends at the program, or runs into a cycle. -/
private theorem backwards (R : ReachAny w) (hn : w.heap.alive n = true) : ∀ (f : Nat) (x : NodeId) (L : List NodeId),
    w.heap.nNode < f + (x :: L).length → (x :: L).Nodup → (∀ y ∈ x :: L, w.heap.alive y = true) →
    (∀ y ∈ L, w.heap.OwnPath x y) → (x = n ∨ w.heap.OwnPath x n) →
    (∃ m, w.OwnsNode m ∧ (m = n ∨ w.heap.OwnPath m n)) ∨
      ∃ m, w.heap.OwnPath m m ∧ (m = n ∨ w.heap.OwnPath m n)
  | 0, x, L, hl, hd, ha, _, _ => by
    have := nodup_length_le w.heap.nNode (x :: L) hd (fun y hy => R.own.base.bound y (ha y hy))
    omega
  | f + 1, x, L, hl, hd, ha, hp, hx => by
    rcases (C59_node R).1 (ha x (by simp)) with h | ⟨m, hm⟩
    · exact .inl ⟨x, h, hx⟩
    · have hmn : w.heap.OwnPath m n := by
        rcases hx with rfl | hx
        · exact .one hm
        · exact .cons hm hx
      by_cases hL : m ∈ x :: L
      · refine .inr ⟨m, ?_, .inr hmn⟩
        rcases List.mem_cons.1 hL with rfl | hL
        · exact .one hm
        · exact .cons hm (hp m hL)
      · refine backwards R hn f m (x :: L) (by simp only [List.length_cons] at *; omega)
          (List.nodup_cons.2 ⟨hL, hd⟩) ?_ ?_ (.inr hmn)
        · intro y hy
          rcases List.mem_cons.1 hy with rfl | hy
          · exact hm.1
          · exact ha y hy
        · intro y hy
          rcases List.mem_cons.1 hy with rfl | hy
          · exact .one hm
          · exact .cons hm (hp y hy)

/-- C59: in every history each living node hangs, by a chain of owners, on something the program owns, or
on a cycle of nodes that own each other: nothing else is ever leaked. -/
theorem C59_chain (R : ReachAny w) (ha : w.heap.alive n = true) :
    (∃ m, w.OwnsNode m ∧ (m = n ∨ w.heap.OwnPath m n)) ∨
      ∃ m, w.heap.OwnPath m m ∧ (m = n ∨ w.heap.OwnPath m n) :=
  backwards R ha w.heap.nNode n [] (by simp) (by simp) (by simp [ha]) (by simp) (.inl rfl)

/-- C59: when the program holds nothing, in every history, all trees are gone, and the nodes that are left
hang on a cycle of owners. -/
theorem C59_empty (R : ReachAny w) (hn : ∀ k n, w.held k n = 0) (ht : ∀ t, w.trees t = 0) :
    (∀ t, w.heap.treeAlive t = false) ∧
    ∀ n, w.heap.alive n = true → ∃ m, w.heap.OwnPath m m ∧ (m = n ∨ w.heap.OwnPath m n) := by
  have key : ∀ t, ¬ w.TreeHeld t := by
    rintro t (h | ⟨k, n, h, -⟩)
    · rw [ht] at h; exact absurd h (by decide)
    · rw [hn] at h; exact absurd h (by decide)
  refine ⟨fun t => ?_, fun n ha => ?_⟩
  · cases h : w.heap.treeAlive t with
    | false => rfl
    | true => exact absurd ((C59_tree R).1 h) (key t)
  · rcases C59_chain R ha with ⟨m, ⟨k, hk⟩ | ⟨t, h, -⟩, -⟩ | h
    · rw [hn] at hk; exact absurd hk (by decide)
    · exact absurd h (key t)
    · exact h

/-- C59: in every history, upgrading a weak handle to a node fails exactly when the node has no owner, and
upgrading a weak handle to a tree succeeds exactly when the tree is held. -/
theorem C59_upgrade (R : ReachAny w) :
    (w.exec (.upgrade n) = .ok (w, .node none) ↔ ¬ (w.OwnsNode n ∨ ∃ m, w.heap.Owns m n)) ∧
    ((∃ w', w.exec (.upgradeTree t) = .ok (w', .tree (some t))) ↔ w.TreeHeld t) := by
  rw [← C59_node R, ← C59_tree R]
  constructor
  · cases h : w.heap.alive n with
    | false => simp [World.exec, Heap.upgrade, Option.filter, h]
    | true =>
      have : w.heap.upgrade (some n) = some n := by simp [Heap.upgrade, Option.filter, h]
      simp only [World.exec, this, bind, Except.bind, pure, Except.pure, not_true_eq_false, iff_false]
      intro e
      split at e
      · cases e
      · simp at e
  · cases h : w.heap.treeAlive t <;> simp [World.exec, h]

/-- The state after the calls of `C44_violated`, where two nodes own each other. -/
example : ReachAny (DemoWorld.run cycleOps .init) ∧ (DemoWorld.run cycleOps .init).heap.alive 1 = true ∧
    (DemoWorld.run cycleOps .init).heap.Owns 1 2 ∧ (DemoWorld.run cycleOps .init).heap.Owns 2 1 :=
  ⟨cycle_reach, rfl, ⟨rfl, .inl rfl⟩, ⟨rfl, .inl rfl⟩⟩

/-- A node owned by the program through the root of its tree. -/
example : ReachAny (DemoWorld.at_ 8) ∧ (DemoWorld.at_ 8).heap.alive 2 = true ∧
    (DemoWorld.at_ 8).OwnsNode 0 ∧ (DemoWorld.at_ 8).heap.Owns 0 1 ∧ (DemoWorld.at_ 8).heap.Owns 1 2 :=
  ⟨DemoWorld.reach8.toW.any, rfl, .inr ⟨0, .inl (by decide), rfl⟩, ⟨rfl, .inl rfl⟩, ⟨rfl, .inr rfl⟩⟩

end Dendron
