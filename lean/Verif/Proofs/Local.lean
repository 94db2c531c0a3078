import Verif.Spec.Local
import Verif.Proofs.Builders

/-! Independence of trees (C69). -/

set_option linter.unusedSimpArgs false
set_option linter.unusedVariables false

set_option autoImplicit false

namespace Dendron
variable {α : Type} {w w' : World α} {a b c a' b' a1 : Forest α} {op : Op α} {r r' : Res} {n m p q : NodeId} {k : Kind}
  {t u : TreeId} {d : α} {l l1 l2 : List NodeId}

namespace Forest

/-! ### Facts about the states of programs -/

/-- What the proofs need to know about the abstract state of a program. -/
structure Tidy (a : Forest α) : Prop where
  lists : Lists a.children
  mem : ∀ {p c : NodeId}, c ∈ a.children p → a.tree p = a.tree c
  dead : ∀ n, a.data n = none ↔ a.tree n = none
  leaf : ∀ n, a.tree n = none → a.children n = []
  some_of_mem : ∀ {p c : NodeId}, c ∈ a.children p → ∃ t, a.tree c = some t
  newNode : a.tree a.newNode = none
  bound : ∀ {n : NodeId} {t : TreeId}, a.tree n = some t → t < a.newTree
  noRoot : ∀ t, a.newTree ≤ t → a.root t = none
  noTree : ∀ t, a.newTree ≤ t → a.trees t = 0
  noTok : ∀ t, a.newTree ≤ t → a.grantTok t = 0 ∧ a.prohTok t = 0
  rootIn : ∀ {t : TreeId} {r : NodeId}, a.root t = some r → a.tree r = some t
  exist : ∀ t, a.Holds t ∨ a.root t = none ∧ ∀ n, a.tree n ≠ some t
  heldIn : ∀ k n, a.tree n = none → a.held k n = 0
  free : ∀ n, a.tree n = none → a.borrowed n = false
  top : ∀ {n : NodeId} {t : TreeId}, a.IsTop n → a.tree n = some t → a.root t = some n

end Forest

theorem ReachW.tidy (hr : ReachW w) (S : Shows w a) : a.Tidy := by
  have hsw := hr.swept S
  obtain ⟨v, ch, W⟩ := hr.wide
  have F := S.children
  have dead : ∀ n, a.data n = none ↔ a.tree n = none := by
    intro n
    rw [S.tree]
    cases e : w.heap.alive n with
    | false =>
      simp only [Bool.false_eq_true, if_false, iff_true]
      apply Classical.byContradiction
      intro h; rw [S.alive.2 h] at e; cases e
    | true =>
      obtain ⟨t, ht, -⟩ := W.fwd.tree.live n e
      have := S.alive.1 e
      simp [this, ht]
  have tsome : ∀ n t, a.tree n = some t → w.heap.treeAlive t = true := by
    intro n t h
    obtain ⟨ha, hm⟩ := S.tree_some h
    obtain ⟨t', ht, hta⟩ := W.fwd.tree.live n ha
    rw [hm] at ht; cases ht; exact hta
  refine ⟨F.lists, hr.tree_mem S, dead, ?_, ?_, ?_, ?_, ?_, ?_, ?_, ?_, ?_, ?_, ?_, ?_⟩
  · intro n hn
    refine F.dead n ?_
    cases e : w.heap.alive n with
    | false => rfl
    | true => exact absurd ((dead n).2 hn) (S.alive.1 e)
  · intro p c h
    have := F.alive_of_mem h
    cases e : a.tree c with
    | none => exact absurd ((dead c).2 e) (S.alive.1 this)
    | some t => exact ⟨t, rfl⟩
  · have := F.fresh_not_alive
    rw [S.tree, S.newNode, this]; simp
  · intro n t h
    have := W.fwd.tree.bound _ (tsome n _ h)
    rw [S.newTree]; exact this
  · intro t ht
    rw [S.root]
    cases e : w.heap.root t with
    | none => rfl
    | some r =>
      have := W.fwd.tree.bound t (by rw [Heap.treeAlive, e]; rfl)
      rw [S.newTree] at ht; exact absurd this (Nat.not_lt.2 ht)
  · intro t ht
    rw [S.trees]
    rcases Nat.eq_zero_or_pos (w.trees t) with e | e
    · exact e
    · have := W.fwd.tree.bound _ (W.treesAlive _ e)
      rw [S.newTree] at ht; exact absurd this (Nat.not_lt.2 ht)
  · intro t ht
    rw [S.grantTok, S.prohTok]
    rcases Nat.eq_zero_or_pos (w.grantTok t + w.prohTok t) with e | e
    · omega
    · have := W.toks _ e
      rw [S.newTree] at ht; exact absurd this (Nat.not_lt.2 ht)
  · intro t r h
    rw [S.root] at h
    have := W.fwd.tree.root t r h
    rw [S.tree_of this.1]; exact this.2.1
  · intro t
    by_cases h : a.Holds t
    · exact .inl h
    · refine .inr ⟨?_, ?_⟩
      · have := congrFun (congrArg Forest.root hsw) t
        rw [← this]; simp [Forest.sweep, h]
      · intro n e
        have := congrFun (congrArg Forest.tree hsw) n
        rw [e] at this
        simp [Forest.sweep, e, h] at this

  · intro k n h
    rcases Nat.eq_zero_or_pos (a.held k n) with e | e
    · exact e
    · rw [S.held] at e
      have := (dead n).2 h
      exact absurd this (S.alive.1 (W.held_alive e))
  · intro n h
    rw [S.borrowed]
    cases e : w.heap.alive n with
    | false => rfl
    | true => exact absurd ((dead n).2 h) (S.alive.1 e)
  · intro n t h1 h2
    obtain ⟨ha, hm⟩ := S.tree_some h2
    rw [S.root]
    refine W.fwd.tree.top n t ha ?_ hm
    cases e : w.heap.parent n with
    | none => rfl
    | some p => exact absurd ((F.mem p n).2 ⟨ha, e⟩) (h1 p)

namespace Forest

/-! ### What a call does to the other trees -/

theorem SameTree.refl (a : Forest α) (t : TreeId) : SameTree a a t :=
  ⟨fun _ => Iff.rfl, fun _ _ => rfl, fun _ _ => rfl, fun _ _ => rfl, fun _ _ _ => rfl, rfl, rfl, rfl, rfl⟩

theorem SameTree.symm (h : SameTree a b t) : SameTree b a t :=
  ⟨fun n => (h.tree n).symm, fun n e => (h.data n ((h.tree n).1 e)).symm,
    fun n e => (h.borrowed n ((h.tree n).1 e)).symm, fun n e => (h.children n ((h.tree n).1 e)).symm,
    fun k n e => (h.held k n ((h.tree n).1 e)).symm, h.root.symm, h.trees.symm, h.grantTok.symm, h.prohTok.symm⟩

theorem SameTree.trans (h : SameTree a b t) (g : SameTree b c t) : SameTree a c t :=
  ⟨fun n => (g.tree n).trans (h.tree n), fun n e => (g.data n ((h.tree n).2 e)).trans (h.data n e),
    fun n e => (g.borrowed n ((h.tree n).2 e)).trans (h.borrowed n e),
    fun n e => (g.children n ((h.tree n).2 e)).trans (h.children n e),
    fun k n e => (g.held k n ((h.tree n).2 e)).trans (h.held k n e), g.root.trans h.root, g.trees.trans h.trees,
    g.grantTok.trans h.grantTok, g.prohTok.trans h.prohTok⟩

theorem SameTree.give (h : SameTree a b t) (hn : a.tree n ≠ some t) : SameTree a (b.give k n) t := by
  refine ⟨h.tree, h.data, h.borrowed, h.children, ?_, h.root, h.trees, h.grantTok, h.prohTok⟩
  intro k' m e
  have : m ≠ n := fun e' => hn (e' ▸ e)
  simp [Forest.give, this, h.held k' m e]

theorem SameTree.take (h : SameTree a b t) (hn : a.tree n ≠ some t) : SameTree a (b.take k n) t := by
  refine ⟨h.tree, h.data, h.borrowed, h.children, ?_, h.root, h.trees, h.grantTok, h.prohTok⟩
  intro k' m e
  have : m ≠ n := fun e' => hn (e' ▸ e)
  simp [Forest.take, this, h.held k' m e]

theorem SameTree.giveTree (h : SameTree a b t) (hu : t ≠ u) : SameTree a (b.giveTree u) t :=
  ⟨h.tree, h.data, h.borrowed, h.children, h.held, h.root, by simp [Forest.giveTree, upd, hu, h.trees], h.grantTok,
    h.prohTok⟩

theorem SameTree.takeTree (h : SameTree a b t) (hu : t ≠ u) : SameTree a (b.takeTree u) t :=
  ⟨h.tree, h.data, h.borrowed, h.children, h.held, h.root, by simp [Forest.takeTree, upd, hu, h.trees], h.grantTok,
    h.prohTok⟩

theorem SameTree.giveTok {g : Bool} (h : SameTree a b t) (hu : t ≠ u) : SameTree a (b.giveTok g u) t := by
  cases g
  · exact ⟨h.tree, h.data, h.borrowed, h.children, h.held, h.root, h.trees, h.grantTok,
      by simp [Forest.giveTok, upd, hu, h.prohTok]⟩
  · exact ⟨h.tree, h.data, h.borrowed, h.children, h.held, h.root, h.trees,
      by simp [Forest.giveTok, upd, hu, h.grantTok], h.prohTok⟩

theorem SameTree.takeTok {g : Bool} (h : SameTree a b t) (hu : t ≠ u) : SameTree a (b.takeTok g u) t := by
  cases g
  · exact ⟨h.tree, h.data, h.borrowed, h.children, h.held, h.root, h.trees, h.grantTok,
      by simp [Forest.takeTok, upd, hu, h.prohTok]⟩
  · exact ⟨h.tree, h.data, h.borrowed, h.children, h.held, h.root, h.trees,
      by simp [Forest.takeTok, upd, hu, h.grantTok], h.prohTok⟩

theorem SameTree.addNode (h : SameTree a b t) (hn : a.tree b.newNode = none) (hu : t ≠ u) :
    SameTree a (b.addNode d u) t := by
  have hne : ∀ m, a.tree m = some t → m ≠ b.newNode := fun m e e' => by rw [e', hn] at e; cases e
  refine ⟨?_, ?_, ?_, h.children, h.held, h.root, h.trees, h.grantTok, h.prohTok⟩
  · intro m
    by_cases e : m = b.newNode
    · subst e; simp [Forest.addNode, upd, hn, Ne.symm hu]
    · simp [Forest.addNode, upd, e, h.tree m]
  · intro m e; simp [Forest.addNode, upd, hne m e, h.data m e]
  · intro m e; simp [Forest.addNode, upd, hne m e, h.borrowed m e]

theorem SameTree.setRoot (h : SameTree a b t) (hu : t ≠ u) : SameTree a (b.setRoot u n) t :=
  ⟨h.tree, h.data, h.borrowed, h.children, h.held, by simp [Forest.setRoot, upd, hu, h.root], h.trees, h.grantTok,
    h.prohTok⟩

theorem SameTree.addTree (h : SameTree a b t) (hu : t ≠ b.newTree) : SameTree a (b.addTree n) t :=
  ⟨h.tree, h.data, h.borrowed, h.children, h.held, by simp [Forest.addTree, upd, hu, h.root], h.trees, h.grantTok,
    h.prohTok⟩

theorem SameTree.setChildren (h : SameTree a b t) (hn : a.tree p ≠ some t) : SameTree a (b.setChildren p l) t := by
  refine ⟨h.tree, h.data, h.borrowed, ?_, h.held, h.root, h.trees, h.grantTok, h.prohTok⟩
  intro m e
  have : m ≠ p := fun e' => hn (e' ▸ e)
  simp [Forest.setChildren, upd, this, h.children m e]

theorem SameTree.rehome {D : NodeId → Prop} (h : SameTree a b t) (hD : ∀ n, D n → a.tree n ≠ some t) (hu : t ≠ u) :
    SameTree a (b.rehome D u) t := by
  refine ⟨?_, h.data, h.borrowed, h.children, h.held, h.root, h.trees, h.grantTok, h.prohTok⟩
  intro m
  by_cases e : D m
  · simp [Forest.rehome, e, Ne.symm hu, hD m e]
  · simp [Forest.rehome, e, h.tree m]

theorem SameTree.holds (h : SameTree a b t) : b.Holds t ↔ a.Holds t := by
  unfold Forest.Holds
  rw [h.trees]
  constructor
  · rintro (g | ⟨k, n, g, e⟩)
    · exact .inl g
    · have e' := (h.tree n).1 e
      exact .inr ⟨k, n, by rw [← h.held k n e']; exact g, e'⟩
  · rintro (g | ⟨k, n, g, e⟩)
    · exact .inl g
    · exact .inr ⟨k, n, by rw [h.held k n e]; exact g, (h.tree n).2 e⟩

theorem sweep_tree (a : Forest α) (n : NodeId) (t : TreeId) :
    a.sweep.tree n = some t ↔ a.tree n = some t ∧ a.Holds t := by
  unfold Forest.sweep
  simp only
  split
  · rename_i h
    obtain ⟨t', e, g⟩ := h
    rw [e]
    constructor
    · intro e'; cases e'; exact ⟨rfl, g⟩
    · exact fun h => h.1
  · rename_i h
    constructor
    · intro e; cases e
    · rintro ⟨e, g⟩; exact absurd ⟨t, e, g⟩ h

theorem SameTree.sweep (h : SameTree a b t) (T : a.Tidy) : SameTree a b.sweep t := by
  rcases T.exist t with g | ⟨g1, g2⟩
  · have gb := h.holds.2 g
    have hm : ∀ n, a.tree n = some t → ∃ t, b.tree n = some t ∧ b.Holds t := fun n e => ⟨t, (h.tree n).2 e, gb⟩
    refine ⟨?_, ?_, ?_, ?_, h.held, ?_, h.trees, h.grantTok, h.prohTok⟩
    · intro n
      rw [sweep_tree, h.tree]
      exact ⟨fun h => h.1, fun h => ⟨h, gb⟩⟩
    · intro n e; simp only [Forest.sweep]; rw [if_pos (hm n e)]; exact h.data n e
    · intro n e; simp only [Forest.sweep]; rw [if_pos (hm n e)]; exact h.borrowed n e
    · intro n e; simp only [Forest.sweep]; rw [if_pos (hm n e)]; exact h.children n e
    · simp only [Forest.sweep]; rw [if_pos gb]; exact h.root
  · refine ⟨?_, fun n e => absurd e (g2 n), fun n e => absurd e (g2 n), fun n e => absurd e (g2 n),
      fun k n e => absurd e (g2 n), ?_, h.trees, h.grantTok, h.prohTok⟩
    · intro n
      rw [sweep_tree, h.tree]
      exact ⟨fun h => h.1, fun h => absurd h (g2 n)⟩
    · rw [g1]
      have := h.root
      rw [g1] at this
      simp [Forest.sweep, this]

theorem Tidy.tree_desc (T : a.Tidy) (h : Desc a.children n m) : a.tree m = a.tree n := by
  induction h with
  | refl => rfl
  | step _ hd ih => exact (T.mem hd).symm.trans ih

theorem Tidy.split (T : a.Tidy) (e : a.children p = l1 ++ n :: l2) : a.tree p = a.tree n :=
  T.mem (by rw [e]; simp)

theorem Tidy.dest {dest : InsertAs NodeId} (T : a.Tidy) (e : DestSplit a.children dest p l1 l2) :
    a.tree p = a.tree dest.anchor := by
  cases e with
  | first => rfl
  | last => rfl
  | prev e => exact T.split e
  | next e => exact T.split e

theorem Tidy.dest_without {dest : InsertAs NodeId} {m1 m2 : List NodeId} (T : a.Tidy)
    (e : a.children p = l1 ++ n :: l2) (h : DestSplit (a.setChildren p (l1 ++ l2)).children dest q m1 m2) :
    a.tree q = a.tree dest.anchor := by
  have key : ∀ {x y s1 s2}, (a.setChildren p (l1 ++ l2)).children x = s1 ++ y :: s2 → a.tree x = a.tree y := by
    intro x y s1 s2 h
    refine T.mem ?_
    by_cases hx : x = p
    · subst hx
      have : y ∈ l1 ++ l2 := by
        have : (a.setChildren x (l1 ++ l2)).children x = l1 ++ l2 := by simp [Forest.setChildren, upd]
        rw [← this, h]; simp
      rw [e]
      simp only [List.mem_append, List.mem_cons] at this ⊢
      rcases this with g | g
      · exact .inl g
      · exact .inr (.inr g)
    · have : (a.setChildren p (l1 ++ l2)).children x = a.children x := by simp [Forest.setChildren, upd, hx]
      rw [← this, h]; simp
  cases h with
  | first => rfl
  | last => rfl
  | prev e => exact key e
  | next e => exact key e

theorem anchor_at (as : AdoptAs) (n : NodeId) : (as.at n).anchor = n := by cases as <;> rfl

theorem Tidy.finds {nv : Nav} (T : a.Tidy) (h : a.Finds n (some m) nv) : a.tree m = a.tree n := by
  have hd : ∀ {p x : NodeId}, (a.children p).head? = some x → a.tree p = a.tree x := fun h =>
    T.mem (List.mem_of_head? h)
  have hl : ∀ {p x : NodeId}, (a.children p).getLast? = some x → a.tree p = a.tree x := fun h =>
    T.mem (List.mem_of_getLast? h)
  cases nv with
  | root => obtain ⟨t, e, g⟩ := h; rw [e]; exact T.rootIn g.symm
  | parent =>
    rcases h with ⟨p, e, g⟩ | ⟨-, g⟩
    · cases g; exact T.mem e
    · cases g
  | prevSibling =>
    rcases h with ⟨p, l1, l2, e, g⟩ | ⟨-, g⟩
    · rw [← T.split e]
      exact (T.mem (by rw [e]; exact List.mem_append.2 (.inl (List.mem_of_getLast? g.symm)))).symm
    · cases g
  | nextSibling =>
    rcases h with ⟨p, l1, l2, e, g⟩ | ⟨-, g⟩
    · rw [← T.split e]
      exact (T.mem (by rw [e]; exact List.mem_append.2 (.inr (.tail _ (List.mem_of_head? g.symm))))).symm
    · cases g
  | firstSibling =>
    rcases h with ⟨p, e, g⟩ | ⟨-, g⟩
    · rw [← hd g.symm]; exact T.mem e
    · cases g; rfl
  | lastSibling =>
    rcases h with ⟨p, e, g⟩ | ⟨-, g⟩
    · rw [← hl g.symm]; exact T.mem e
    · cases g; rfl
  | firstChild => exact (hd (Eq.symm h)).symm
  | lastChild => exact (hl (Eq.symm h)).symm

/-- A call leaves the other trees alone. -/
theorem Step.frame (T : a.Tidy) (st : a.Step op r a') (hi : ¬ a.Involves op t) (hN : t ≠ a.newTree) :
    SameTree a a' t := by
  have R := SameTree.refl a t
  have nm : ∀ m ∈ op.names, a.tree m ≠ some t := fun m h e => hi (.inl ⟨m, h, e⟩)
  have nn : ∀ {x}, x ∈ op.names → ∀ m, a.tree m = some t → m ≠ x := fun h m e e' => nm _ h (e' ▸ e)
  have tn : ∀ u, op.namesTree = some u → t ≠ u := fun u h e => hi (.inr (e ▸ h))
  have nN : a.tree a.newNode ≠ some t := by rw [T.newNode]; simp
  have ne : ∀ {m u}, m ∈ op.names → a.tree m = some u → t ≠ u := fun h e e' => nm _ h (by rw [e, e'])
  cases st with
  | newTree => exact ((R.addNode T.newNode hN).addTree hN).give nN
  | clone => exact R.give (nm _ (.head _))
  | drop => exact (R.take (nm _ (.head _))).sweep T
  | navNone => exact R
  | navSome h => exact R.give (by rw [T.finds h]; exact nm _ (.head _))
  | upgradeDead => exact R
  | upgrade => exact R.give (nm _ (.head _))
  | plainOf => exact R.give (nm _ (.head _))
  | bundleRefused => exact (R.take (nm _ (.head _))).sweep T
  | bundle => exact (R.take (nm _ (.head _))).give (nm _ (.head _))
  | bundleWith => exact (R.take (nm _ (.head _))).give (nm _ (.head _))
  | treeOf e => exact R.giveTree (ne (.head _) e)
  | cloneTree => exact R.giveTree (tn _ rfl)
  | dropTree => exact (R.takeTree (tn _ rfl)).sweep T
  | treeRoot e => exact R.give (by rw [T.rootIn e]; exact fun h => tn _ rfl (Option.some.inj h).symm)
  | upgradeTreeDead => exact R
  | upgradeTree => exact R.giveTree (tn _ rfl)
  | acquireRefused => exact R
  | acquire => exact R.giveTok (tn _ rfl)
  | cloneTok => exact R.giveTok (tn _ rfl)
  | dropTok => exact R.takeTok (tn _ rfl)
  | extract e => exact R.giveTok (ne (.head _) e)
  | create _ e h =>
    have := T.dest h
    rw [anchor_at] at this
    exact ((R.addNode T.newNode (ne (.head _) e)).setChildren (by rw [this]; exact nm _ (.head _))).give nN
  | createFails => exact ⟨R.tree, R.data, R.borrowed, R.children, R.held, R.root, R.trees, R.grantTok, R.prohTok⟩
  | createParent _ e h =>
    exact (((R.addNode T.newNode (ne (.head _) e)).setChildren
      (by rw [T.split h]; exact nm _ (.head _))).setChildren nN).give nN
  | createRoot _ e h =>
    exact (((R.addNode T.newNode (ne (.head _) e)).setRoot (ne (.head _) e)).setChildren nN).give nN
  | createChild _ e =>
    exact (((R.addNode T.newNode (ne (.head _) e)).setChildren (nm _ (.head _))).setChildren nN).give nN
  | detachRoot => exact R
  | detach _ h =>
    exact (((R.rehome (fun m g => by rw [T.tree_desc g]; exact nm _ (.head _)) hN).addTree hN).setChildren
      (by rw [T.split h]; exact nm _ (.head _))).sweep T
  | replace _ h =>
    exact ((((R.rehome (fun m g => by rw [g]; exact nm _ (.head _)) hN).addTree hN).setChildren
      (by rw [T.split h]; exact nm _ (.head _))).setChildren (nm _ (.head _))).sweep T
  | replaceRoot _ h _ e =>
    exact ((((R.rehome (fun m g => by rw [g]; exact nm _ (.head _)) hN).setRoot (ne (.head _) e)).addTree
      hN).setChildren (nm _ (.head _))).sweep T
  | replaceEmpty => exact R
  | replaceSeveral => exact R
  | moveRoot => exact R
  | move _ h e _ g =>
    exact (((R.rehome (fun m g => by rw [T.tree_desc g]; exact nm _ (.head _)) (ne (.tail _ (.head _)) e)).setChildren
      (by rw [T.split h]; exact nm _ (.head _))).setChildren
        (by rw [T.dest_without h g]; exact nm _ (.tail _ (.head _)))).sweep T
  | moveWhole _ _ _ _ e _ g =>
    exact ((R.rehome (fun m g => by rw [T.tree_desc g]; exact nm _ (.head _)) (ne (.tail _ (.head _)) e)).setChildren
      (by rw [T.dest g]; exact nm _ (.tail _ (.head _)))).sweep T
  | writeBorrowed => exact R
  | write =>
    refine ⟨R.tree, ?_, R.borrowed, R.children, R.held, R.root, R.trees, R.grantTok, R.prohTok⟩
    intro m e
    simp [upd, nn (.head _) m e]
  | borrowBorrowed => exact R
  | borrow =>
    refine ⟨R.tree, R.data, ?_, R.children, R.held, R.root, R.trees, R.grantTok, R.prohTok⟩
    intro m e
    simp [upd, nn (.head _) m e]
  | borrowEnd =>
    refine ⟨R.tree, R.data, ?_, R.children, R.held, R.root, R.trees, R.grantTok, R.prohTok⟩
    intro m e
    simp [upd, nn (.head _) m e]

end Forest
end Dendron
