import Verif.Proofs.BuildersFed
import Verif.Proofs.Clone

/-! Builders in the wider histories: what is built is new, and the rest is as before (C30, C31, C34). -/

set_option linter.unusedSimpArgs false
set_option linter.unusedVariables false

set_option autoImplicit false

namespace Dendron
open RTree
variable {α : Type} {w w' w0 : World α} {a a' a0 : Forest α} {r x y m c p n : NodeId}
  {E : List (Option α)} {k i : Nat} {b b' : Builder} {e : Event α}
  {res : Except BuildError Unit} {s : RTree NodeId} {t : TreeId}

/-! ### Facts about a reachable state -/

theorem ReachW.tree_live (hr : ReachW w) (S : Shows w a) (hx : a.data x ≠ none) :
    ∃ t, a.tree x = some t ∧ t < a.newTree := by
  obtain ⟨v, ch, W⟩ := hr.wide
  have ha := S.alive.2 hx
  obtain ⟨t, e, h1⟩ := W.fwd.tree.live x ha
  exact ⟨t, by rw [S.tree_of ha]; exact e, by rw [S.newTree]; exact W.fwd.tree.bound t h1⟩

theorem ReachW.tree_old (hr : ReachW w) (S : Shows w a) (hx : a.data x ≠ none) : a.tree x ≠ some a.newTree := by
  obtain ⟨t, e, h1⟩ := hr.tree_live S hx
  rw [e]
  intro h
  cases h
  exact Nat.lt_irrefl _ h1

theorem ReachW.trees_old (hr : ReachW w) (S : Shows w a) : a.trees a.newTree = 0 := by
  obtain ⟨v, ch, W⟩ := hr.wide
  rcases Nat.eq_zero_or_pos (a.trees a.newTree) with h | h
  · exact h
  · rw [S.trees] at h
    have := W.fwd.tree.bound _ (W.treesAlive _ h)
    rw [S.newTree] at this
    exact absurd this (Nat.lt_irrefl _)

theorem ReachW.held_live {q : Kind} (hr : ReachW w) (S : Shows w a) (hk : 0 < a.held q c) : a.data c ≠ none :=
  (hr.tree_held S hk).elim fun _ h => h.2

theorem Shows.dead_new (S : Shows w a) : a.data a.newNode = none := by
  have := S.children.fresh_not_alive
  rw [← S.newNode] at this
  apply Classical.byContradiction
  intro h
  rw [S.alive.2 h] at this; cases this

theorem ReachW.nodeTree_live (hr : ReachW w) (S : Shows w a) (hx : a.data x ≠ none) :
    w.heap.nodeTree x = .ok t ↔ a.tree x = some t := by
  obtain ⟨v, ch, W⟩ := hr.wide
  have ha := S.alive.2 hx
  rw [S.tree_of ha]
  exact W.fwd.tree.treeCore_iff ha

theorem ReachW.root_top (hr : ReachW w) (S : Shows w a) (hx : a.data x ≠ none) (ht : a.IsTop x) (e : a.tree x = some t) :
    a.root t = some x := by
  obtain ⟨v, ch, W⟩ := hr.wide
  have ha := S.alive.2 hx
  rw [S.tree_of ha] at e
  rw [S.root]
  refine W.fwd.tree.top x t ha ?_ e
  cases hp : w.heap.parent x with
  | none => rfl
  | some p => exact absurd ((S.children.mem p x).2 ⟨ha, hp⟩) (ht p)

/-! ### New nodes -/

/-- `a` is `a0` with new nodes, all of the tree `a0.newTree`; the handles that are not in `a0` are those of the
builder. -/
structure Grown (a0 a : Forest α) (b : Builder) : Prop where
  data : ∀ x, a0.data x ≠ none → a.data x = a0.data x
  borrowed : ∀ x, a0.data x ≠ none → a.borrowed x = a0.borrowed x
  tree : ∀ x, a0.data x ≠ none → a.tree x = a0.tree x
  children : ∀ x, a0.data x ≠ none → a.children x = a0.children x
  newB : ∀ x, a.data x ≠ none → a0.data x = none → a.borrowed x = false
  newT : ∀ x, a.data x ≠ none → a0.data x = none → a.tree x = some a0.newTree
  trees : a.trees = a0.trees
  grantTok : a.grantTok = a0.grantTok
  prohTok : a.prohTok = a0.prohTok
  held : ∀ k x, a.held k x = a0.held k x + Builder.share [b] k x

theorem Grown.refl (a : Forest α) : Grown a a .new where
  data _ _ := rfl
  borrowed _ _ := rfl
  tree _ _ := rfl
  children _ _ := rfl
  newB _ h1 h2 := absurd h2 h1
  newT _ h1 h2 := absurd h2 h1
  trees := rfl
  grantTok := rfl
  prohTok := rfl
  held k x := by cases k <;> simp [Builder.share, Builder.new]

theorem Grown.share (G : Grown a0 a b) (k : Kind) (x : NodeId) : Builder.share [b] k x ≤ a.held k x := by
  rw [G.held]; omega

/-- A node of the new tree is new. -/
theorem Grown.isNew (G : Grown a0 a b) (hr0 : ReachW w0) (S0 : Shows w0 a0) (e : a.tree x = some a0.newTree) :
    a0.data x = none := by
  apply Classical.byContradiction
  intro h
  rw [G.tree x h] at e
  exact hr0.tree_old S0 h e

/-- The children of new nodes are new. -/
theorem Grown.desc (G : Grown a0 a b) (hr0 : ReachW w0) (S0 : Shows w0 a0) (hr : ReachW w) (S : Shows w a)
    (hx : a.tree x = some a0.newTree) (h : Desc a.children x y) : a.tree y = some a0.newTree := by
  induction h with
  | refl => exact hx
  | step _ hm ih => rw [← hr.tree_mem S hm]; exact ih

/-- The handles of the builder are to new nodes. -/
structure Grown.Mine (a0 a : Forest α) (b : Builder) : Prop where
  both : b.root = none → b.cur = none
  start : b.root = none → a = a0
  root : ∀ r, b.root = some r → a.tree r = some a0.newTree
  cur : ∀ c, b.cur = some c → a.tree c = some a0.newTree

theorem Grown.owned (G : Grown a0 a b) (M : Grown.Mine a0 a b) (S : Shows w a) : b.Owned w :=
  Builder.owned_of (fun k n => by rw [← S.held]; exact G.share k n) M.both

theorem Grown.of_held (G : Grown a0 a b) (h1 : a'.data = a.data) (h2 : a'.borrowed = a.borrowed)
    (h3 : a'.tree = a.tree) (h4 : a'.children = a.children) (h5 : a'.trees = a.trees)
    (h6 : a'.grantTok = a.grantTok) (h7 : a'.prohTok = a.prohTok)
    (hh : ∀ k x, a'.held k x + Builder.share [b] k x = a.held k x + Builder.share [b'] k x) : Grown a0 a' b' where
  data := by rw [h1]; exact G.data
  borrowed := by rw [h2]; exact G.borrowed
  tree := by rw [h3]; exact G.tree
  children := by rw [h4]; exact G.children
  newB := by rw [h1, h2]; exact G.newB
  newT := by rw [h1, h3]; exact G.newT
  trees := by rw [h5]; exact G.trees
  grantTok := by rw [h6]; exact G.grantTok
  prohTok := by rw [h7]; exact G.prohTok
  held k x := by
    have := hh k x
    rw [G.held] at this
    omega

theorem Grown.builds (G : Grown a0 a b) (M : Grown.Mine a0 a b) (hr0 : ReachW w0) (S0 : Shows w0 a0)
    (hr : ReachW w) (S : Shows w a) (h : a.Builds b e res a' b') :
    Grown a0 a' b' ∧ Grown.Mine a0 a' b' ∧ a'.newNode ≤ a.newNode + 1 := by
  have hh := (h.held G.share).1
  have dead := S.dead_new
  cases h with
  | first d =>
    obtain rfl := M.start rfl
    have hne : ∀ x, a.data x ≠ none → x ≠ a.newNode := by rintro x hx rfl; exact hx dead
    refine ⟨⟨fun x hx => upd_ne _ _ (hne x hx), fun x hx => upd_ne _ _ (hne x hx), fun x hx => upd_ne _ _ (hne x hx),
      fun _ _ => rfl, fun x h1 h2 => ?_, fun x h1 h2 => ?_, rfl, rfl, rfl, fun k x => ?_⟩,
      ⟨fun h => (by cases h), fun h => (by cases h), fun r h => ?_, fun r h => ?_⟩, Nat.le_refl _⟩
    · show upd a.borrowed a.newNode false x = false
      by_cases hx : x = a.newNode
      · subst hx; exact upd_same ..
      · replace h1 : upd a.data a.newNode (some d) x ≠ none := h1
        rw [upd_ne _ _ hx] at h1; exact absurd h2 h1
    · show upd a.tree a.newNode _ x = _
      by_cases hx : x = a.newNode
      · subst hx; exact upd_same ..
      · replace h1 : upd a.data a.newNode (some d) x ≠ none := h1
        rw [upd_ne _ _ hx] at h1; exact absurd h2 h1
    · have := hh k x
      have e0 : Builder.share [⟨none, none⟩] k x = 0 := by cases k <;> simp [Builder.share]
      rw [e0] at this; exact this
    · cases h; exact upd_same ..
    · cases h; exact upd_same ..
  | @child r c t d ht =>
    have hc := M.cur c rfl
    have hr1 := M.root r rfl
    rw [hc] at ht; cases ht
    have hc0 := G.isNew hr0 S0 hc
    have hca : a.data c ≠ none := by
      have := (G.held .hot c)
      refine hr.held_live S (q := .hot) (c := c) ?_
      rw [this]; simp [Builder.share]
    have hne : ∀ x, a.data x ≠ none → x ≠ a.newNode := by rintro x hx rfl; exact hx dead
    have hlive : ∀ x, a0.data x ≠ none → a.data x ≠ none := fun x hx => by rw [G.data x hx]; exact hx
    refine ⟨⟨fun x hx => ?_, fun x hx => ?_, fun x hx => ?_, fun x hx => ?_, fun x h1 h2 => ?_, fun x h1 h2 => ?_, G.trees, G.grantTok, G.prohTok, fun k x => ?_⟩,
      ⟨fun h => (by cases h), fun h => (by cases h), fun r' h => ?_, fun c' h => ?_⟩, Nat.le_refl _⟩
    · rw [← G.data x hx]; exact upd_ne _ _ (hne x (hlive x hx))
    · rw [← G.borrowed x hx]; exact upd_ne _ _ (hne x (hlive x hx))
    · rw [← G.tree x hx]; exact upd_ne _ _ (hne x (hlive x hx))
    · rw [← G.children x hx]
      refine upd_ne _ _ ?_
      rintro rfl; exact hx hc0
    · show upd a.borrowed a.newNode false x = false
      by_cases hx : x = a.newNode
      · subst hx; exact upd_same ..
      · replace h1 : upd a.data a.newNode (some d) x ≠ none := h1
        rw [upd_ne _ _ hx] at h1 ⊢; exact G.newB x h1 h2
    · show upd a.tree a.newNode _ x = _
      by_cases hx : x = a.newNode
      · subst hx; exact upd_same ..
      · replace h1 : upd a.data a.newNode (some d) x ≠ none := h1
        rw [upd_ne _ _ hx] at h1 ⊢; exact G.newT x h1 h2
    · have := hh k x
      have g := G.held k x
      omega
    · cases h
      show upd a.tree a.newNode _ r = _
      have hra : a.data r ≠ none := by
        refine hr.held_live S (q := .plain) (c := r) ?_
        rw [G.held .plain r]; simp [Builder.share]
      rw [upd_ne _ _ (hne r hra)]; exact hr1
    · cases h; exact upd_same ..
  | closed d => exact ⟨G, M, Nat.le_succ _⟩
  | nothing => exact ⟨G, M, Nat.le_succ _⟩
  | @up r c m p k hc hm =>
    refine ⟨G.of_held rfl rfl rfl rfl rfl rfl rfl hh, ⟨fun h => (by cases h), fun h => (by cases h), M.root, fun c' h => ?_⟩, Nat.le_succ _⟩
    cases h
    show a.tree p = _
    rw [hr.tree_mem S hm, hr.tree_climbs S hc]; exact M.cur c rfl
  | @out r c m k hc hm =>
    have hs : (a.take .hot c).sweep = a.take .hot c := by
      refine Forest.take_sweep (r := r) (hr.swept S) ?_ (by rw [M.root r rfl, M.cur c rfl])
      rw [G.held .plain r]; simp [Builder.share]
    rw [hs] at hh ⊢
    exact ⟨G.of_held rfl rfl rfl rfl rfl rfl rfl hh, ⟨fun h => (by cases h), fun h => (by cases h), M.root, fun c' h => (by cases h)⟩, Nat.le_succ _⟩
  | @tooFar r c m j k hc hj hm =>
    refine ⟨G.of_held rfl rfl rfl rfl rfl rfl rfl hh, ⟨fun h => (by cases h), fun h => (by cases h), M.root, fun c' h => ?_⟩, Nat.le_succ _⟩
    cases h
    show a.tree m = _
    rw [hr.tree_climbs S hc]; exact M.cur c rfl
  | over => exact ⟨G, M, Nat.le_succ _⟩
  | early => exact ⟨G, M, Nat.le_succ _⟩

/-! ### Dropping the builder -/

open Classical in
theorem Grown.sweep (G : Grown a0 a b) (hr0 : ReachW w0) (S0 : Shows w0 a0) : Grown a0 a.sweep b := by
  have hold : ∀ x, a0.data x ≠ none → ∃ t, a.tree x = some t ∧ a.Holds t := by
    intro x hx
    have h1 : ∃ t, a0.tree x = some t ∧ a0.Holds t := by
      apply Classical.byContradiction
      intro hn
      have := congrFun (congrArg Forest.data (hr0.swept S0)) x
      simp only [Forest.sweep, if_neg hn] at this
      exact hx this.symm
    obtain ⟨t, e, h2⟩ := h1
    refine ⟨t, by rw [G.tree x hx]; exact e, ?_⟩
    rcases h2 with h2 | ⟨k, n, h2, h3⟩
    · exact .inl (by rw [G.trees]; exact h2)
    · refine .inr ⟨k, n, by rw [G.held]; omega, ?_⟩
      rw [G.tree n (hr0.held_live S0 h2)]; exact h3
  have hnew : ∀ x, a.sweep.data x ≠ none → a.data x ≠ none ∧ (∃ t, a.tree x = some t ∧ a.Holds t) := by
    intro x hx
    simp only [Forest.sweep] at hx
    split at hx
    · rename_i h; exact ⟨hx, h⟩
    · exact absurd rfl hx
  refine ⟨fun x hx => ?_, fun x hx => ?_, fun x hx => ?_, fun x hx => ?_, fun x h1 h2 => ?_, fun x h1 h2 => ?_,
    G.trees, G.grantTok, G.prohTok, G.held⟩
  · simp only [Forest.sweep, if_pos (hold x hx)]; exact G.data x hx
  · simp only [Forest.sweep, if_pos (hold x hx)]; exact G.borrowed x hx
  · simp only [Forest.sweep, if_pos (hold x hx)]; exact G.tree x hx
  · simp only [Forest.sweep, if_pos (hold x hx)]; exact G.children x hx
  · obtain ⟨g1, g2⟩ := hnew x h1
    simp only [Forest.sweep, if_pos g2]; exact G.newB x g1 h2
  · obtain ⟨g1, g2⟩ := hnew x h1
    simp only [Forest.sweep, if_pos g2]; exact G.newT x g1 h2

/-- Without the handles of the builder the new nodes vanish. -/
theorem Grown.swept (G : Grown a0 a .new) (hr0 : ReachW w0) (S0 : Shows w0 a0) (hr : ReachW w) (S : Shows w a)
    (hx : a.data x ≠ none) : a0.data x ≠ none := by
  intro h0
  have ht := G.newT x hx h0
  have h1 : ∃ t, a.tree x = some t ∧ a.Holds t := by
    apply Classical.byContradiction
    intro hn
    have := congrFun (congrArg Forest.data (hr.swept S)) x
    simp only [Forest.sweep, if_neg hn] at this
    exact hx this.symm
  obtain ⟨t, e, h2⟩ := h1
  rw [ht] at e; cases e
  have e0 : ∀ k n, a.held k n = a0.held k n := by
    intro k n
    rw [G.held]
    cases k <;> simp [Builder.share, Builder.new]
  rcases h2 with h2 | ⟨k, n, h2, h3⟩
  · rw [G.trees, hr0.trees_old S0] at h2; omega
  · rw [e0] at h2
    have := hr0.held_live S0 h2
    rw [G.tree n this] at h3
    exact hr0.tree_old S0 this h3

theorem Grown.dropPlain (G : Grown a0 a b) (hr0 : ReachW w0) (S0 : Shows w0 a0) :
    Grown a0 (a.dropPlain b.root) ⟨none, b.cur⟩ := by
  cases e : b.root with
  | none =>
    refine G.of_held rfl rfl rfl rfl rfl rfl rfl fun k x => ?_
    cases k <;> simp [Builder.share, e, Forest.dropPlain]
  | some r =>
    have hh := Forest.dropPlain_held (a := a) (o := b.root) (q := b.cur)
    refine Grown.sweep (a := a.take .plain r) ?_ hr0 S0
    refine G.of_held rfl rfl rfl rfl rfl rfl rfl fun k x => ?_
    have := hh k x (fun c hc => by
      have := G.share .plain c
      simp [Builder.share, hc] at this; exact this)
    rw [e] at this
    have e2 : Builder.share [b] k x = Builder.share [⟨some r, b.cur⟩] k x := by rw [← e]
    rw [e2]; exact this

theorem Grown.dropHot {ro : Option NodeId} (G : Grown a0 a b) (hro : b.root = ro) (hr0 : ReachW w0) (S0 : Shows w0 a0) :
    Grown a0 (a.dropHot b.cur) ⟨ro, none⟩ := by
  subst hro
  cases e : b.cur with
  | none =>
    refine G.of_held rfl rfl rfl rfl rfl rfl rfl fun k x => ?_
    cases k <;> simp [Builder.share, e, Forest.dropHot]
  | some c =>
    refine Grown.sweep (a := a.take .hot c) ?_ hr0 S0
    refine G.of_held rfl rfl rfl rfl rfl rfl rfl fun k x => ?_
    have := Forest.dropHot_held (a := a) (o := b.cur) k x (fun c hc => by
      have := G.share .hot c
      simp [Builder.share, hc] at this; exact this)
    rw [e] at this
    have h1 : Builder.share [b] k x = Builder.share [⟨none, some c⟩] k x + Builder.share [⟨b.root, none⟩] k x := by
      cases k <;> simp [Builder.share, List.countP_cons, e]
    have h2 : (a.take .hot c).held k x + Builder.share [⟨none, some c⟩] k x = a.held k x := this
    omega

/-! ### The run of a builder -/

/-- A builder has been at work since `w0`. -/
structure AtWork (w0 : World α) (a0 : Forest α) (w : World α) (a : Forest α) (b : Builder) (i : Nat) : Prop where
  reach : ReachW w
  shows : Shows w a
  grown : Grown a0 a b
  mine : Grown.Mine a0 a b
  last : ∀ p, a.data p ≠ none → a0.data p = none → LastRight w.heap a.children p
  few : a.newNode ≤ a0.newNode + i

theorem AtWork.init (hr : ReachW w) (S : Shows w a) : AtWork w a w a .new 0 :=
  ⟨hr, S, .refl a, ⟨fun _ => rfl, fun _ => rfl, fun _ h => (by cases h), fun _ h => (by cases h)⟩,
    fun _ h1 h2 => absurd h2 h1, Nat.le_refl _⟩

theorem AtWork.spare (A : AtWork w0 a0 w a b i) (S0 : Shows w0 a0) (R : w0.RoomFor i) : w.Spare := by
  intro t
  have h1 := R t
  have h2 := A.few
  rw [← A.shows.grantTok, ← A.shows.prohTok, A.grown.grantTok, A.grown.prohTok, S0.grantTok, S0.prohTok]
  rw [A.shows.newNode, S0.newNode] at h2
  replace h2 : (w.heap.nNode : Nat) ≤ (w0.heap.nNode : Nat) + i := h2
  omega

theorem AtWork.owned (A : AtWork w0 a0 w a b i) : b.Owned w := A.grown.owned A.mine A.shows

theorem AtWork.push (A : AtWork w0 a0 w a b i) (hr0 : ReachW w0) (S0 : Shows w0 a0) (R : w0.RoomFor i) (e : Event α) :
    ∃ w' b' res a', Builder.push w b e = .ok (w', b', res) ∧ a.Builds b e res a' b' ∧ AtWork w0 a0 w' a' b' (i + 1) := by
  obtain ⟨w', b', res, a', h1, h2, h3, h4, h5⟩ := A.reach.push_builds (e := e) A.shows (A.spare S0 R) A.owned
    (fun c d hc _ => by
      have ht := A.mine.cur c hc
      have hd : a.data c ≠ none := A.reach.held_live A.shows (q := .hot) (by
        have := A.grown.share .hot c
        simp [Builder.share, hc] at this; exact this)
      exact A.last c hd (A.grown.isNew hr0 S0 ht))
  obtain ⟨g1, g2, g3⟩ := A.grown.builds A.mine hr0 S0 A.reach A.shows h4
  refine ⟨w', b', res, a', h1, h4, h2, h3, g1, g2, ?_, Nat.le_trans g3 (Nat.succ_le_succ A.few)⟩
  intro p hp h0
  refine h5 _ _ A.shows.children h3.children p (h3.alive.2 hp) fun ha => ?_
  exact A.last p (A.shows.alive.1 ha) h0

/-- What is left after the builder is dropped. -/
theorem AtWork.dropAll (A : AtWork w0 a0 w a b i) (hr0 : ReachW w0) (S0 : Shows w0 a0) (R : w0.RoomFor i) :
    ∃ w' a', Builder.dropAll w b = .ok w' ∧ ReachW w' ∧ Shows w' a' ∧ Grown a0 a' .new ∧ a'.newNode ≤ a0.newNode + i := by
  obtain ⟨w', h1, h2, h3⟩ := A.reach.drop_builds A.shows (A.spare S0 R) A.owned
  refine ⟨w', _, h1, h2, h3, (A.grown.dropPlain hr0 S0).dropHot rfl hr0 S0, ?_⟩
  have : ((a.dropPlain b.root).dropHot b.cur).newNode = a.newNode := by
    cases b.cur <;> cases b.root <;> rfl
  rw [this]; exact A.few

theorem Grown.untouched {ro : Option NodeId} (G : Grown a0 a b) (hr0 : ReachW w0) (S0 : Shows w0 a0) (hr : ReachW w) (S : Shows w a) :
    Untouched w0 w a0.children a.children ro where
  alive x hx := S.alive.2 (by rw [G.data x (S0.alive.1 hx)]; exact S0.alive.1 hx)
  data x hx := by rw [← S.data, ← S0.data]; exact G.data x (S0.alive.1 hx)
  borrowed x hx := by
    have h1 := G.borrowed x (S0.alive.1 hx)
    have h2 : w.heap.alive x = true := S.alive.2 (by rw [G.data x (S0.alive.1 hx)]; exact S0.alive.1 hx)
    rw [S.borrowed, S0.borrowed, hx, h2] at h1
    exact h1
  tree x hx := by
    have hd := S0.alive.1 hx
    have hd' : a.data x ≠ none := by rw [G.data x hd]; exact hd
    obtain ⟨t, e, -⟩ := hr0.tree_live S0 hd
    rw [(hr0.nodeTree_live S0 hd).2 e, (hr.nodeTree_live S hd').2 (by rw [G.tree x hd]; exact e)]
  children x hx _ := G.children x (S0.alive.1 hx)
  trees := by rw [← S.trees, ← S0.trees]; exact G.trees
  grantTok := by rw [← S.grantTok, ← S0.grantTok]; exact G.grantTok
  prohTok := by rw [← S.prohTok, ← S0.prohTok]; exact G.prohTok

theorem Grown.undone (G : Grown a0 a .new) (hr0 : ReachW w0) (S0 : Shows w0 a0) (hr : ReachW w) (S : Shows w a) :
    Undone w0 w a0.children a.children where
  old := G.untouched hr0 S0 hr S
  nothingNew x hx := S0.alive.2 (G.swept hr0 S0 hr S (S.alive.1 hx))
  held k x := by
    rw [← S.held, ← S0.held, G.held]
    cases k <;> simp [Builder.share, Builder.new]

/-- What has been built, in the end. -/
theorem AtWork.finish (A : AtWork w0 a0 w a b i) (hr0 : ReachW w0) (S0 : Shows w0 a0) (R : w0.RoomFor i)
    (F : FedState a E b k) (hE : E ≠ []) :
    ∃ w' a' n j u, Builder.finish w b = .ok (w', .ok n) ∧ ReachW w' ∧ Shows w' a' ∧ Describes E j u ∧
      NewTree w0 w' a'.children n u ∧ GotPlain w0 w' n ∧ Untouched w0 w' a0.children a'.children none ∧
      a'.newNode ≤ a0.newNode + i := by
  obtain ⟨w', h1, h2, h3⟩ := A.reach.finish_builds A.shows (A.spare S0 R) A.owned
  have hfew : (a.dropHot b.cur).newNode ≤ a0.newNode + i := by
    have : (a.dropHot b.cur).newNode = a.newNode := by cases b.cur <;> rfl
    rw [this]; exact A.few
  have key : ∀ {r : NodeId} {s : RTree NodeId} {E' : List (Option α)}, b.root = some r → ClosedF a r E' s → a.IsTop r →
      ∃ u, Describes E' 0 u ∧
      NewTree w0 w' (a.dropHot b.cur).children r u ∧ GotPlain w0 w' r ∧
        Untouched w0 w' a0.children (a.dropHot b.cur).children none := by
    intro r s E' hb C ht
    have G := A.grown.dropHot hb hr0 S0
    obtain ⟨u, hu, hd⟩ := C.describes A.shows
    have htr := A.mine.root r hb
    have hs : a.dropHot b.cur = a ∨ ∃ c, b.cur = some c ∧ a.dropHot b.cur = a.take .hot c := by
      cases hc : b.cur with
      | none => exact .inl rfl
      | some c =>
        refine .inr ⟨c, rfl, Forest.take_sweep (r := r) (A.reach.swept A.shows) ?_ (by rw [htr, A.mine.cur c hc])⟩
        rw [A.grown.held .plain r]; simp [Builder.share, hb]
    have e1 : (a.dropHot b.cur).data = a.data := by rcases hs with e | ⟨c, -, e⟩ <;> rw [e] <;> rfl
    have e2 : (a.dropHot b.cur).children = a.children := by rcases hs with e | ⟨c, -, e⟩ <;> rw [e] <;> rfl
    have e3 : (a.dropHot b.cur).tree = a.tree := by rcases hs with e | ⟨c, -, e⟩ <;> rw [e] <;> rfl
    have hr1 : r ∈ s.nodes := (C.sub.mem_nodes_iff r).2 (.refl _)
    have hra : a.data r ≠ none := C.alive r hr1
    have hnew : ∀ x ∈ s.nodes, a0.data x = none := fun x hx =>
      A.grown.isNew hr0 S0 (A.grown.desc hr0 S0 A.reach A.shows htr ((C.sub.mem_nodes_iff x).1 hx))
    refine ⟨u, hu, ⟨⟨a0.newTree, ?_, ?_, ?_⟩, s, ?_, ?_, fun x hx => ⟨?_, ?_, ?_⟩⟩, ?_, G.untouched hr0 S0 h2 h3⟩
    · exact (h2.nodeTree_live h3 (by rw [e1]; exact hra)).2 (by rw [e3]; exact htr)
    · rw [S0.newTree]; exact Nat.le_refl _
    · have := h2.root_top h3 (x := r) (by rw [e1]; exact hra) (by unfold Forest.IsTop; rw [e2]; exact ht) (by rw [e3]; exact htr)
      rw [h3.root] at this
      simp [Heap.rootLink, this]
    · rw [e2]; exact C.sub
    · have : w'.heap.data = w.heap.data := by rw [← h3.data, ← A.shows.data]; exact e1
      rw [HasData, this]; exact hd
    · cases h : w0.heap.alive x with
      | false => rfl
      | true => exact absurd (hnew x hx) (S0.alive.1 h)
    · exact h3.alive.2 (by rw [e1]; exact C.alive x hx)
    · have h4 : (a.dropHot b.cur).data x ≠ none := by rw [e1]; exact C.alive x hx
      have := G.newB x h4 (hnew x hx)
      rw [h3.borrowed, h3.alive.2 h4] at this
      simpa using this
    · intro q x
      rw [← h3.held, ← S0.held, G.held]
      cases q <;> simp [Builder.share, List.countP_cons]
      by_cases hx : r = x
      · subst hx; simp
      · simp [hx, Ne.symm hx]
  cases F with
  | fresh hE' => exact absurd hE' hE
  | @opened r x ks fs O ht =>
    obtain ⟨u, g1, g2, g3, g4⟩ := key rfl O.zip ht
    refine ⟨w', _, r, fs.length + 1, u, h1, h2, h3, ?_, g2, g3, g4, hfew⟩
    · rw [Describes, List.replicate_zero, List.append_nil] at g1; exact g1
  | @closed r s C ht =>
    obtain ⟨u, g1, g2, g3, g4⟩ := key rfl C ht
    exact ⟨w', _, r, 0, u, h1, h2, h3, g1, g2, g3, g4, hfew⟩

/-- Pushing a list of events. -/
theorem AtWork.pushAll (hr0 : ReachW w0) (S0 : Shows w0 a0) : ∀ (l : List (Event α)) {w : World α} {a : Forest α}
    {b : Builder} {E : List (Option α)} {i k : Nat}, AtWork w0 a0 w a b i → FedState a E b k → w0.RoomFor (i + l.length) →
    ∃ w' b' res a', Builder.pushAll w b l = .ok (w', b', res) ∧ AtWork w0 a0 w' a' b' (i + l.length) ∧
      ((res = .ok () ∧ ∃ k', FedState a' (E ++ Event.expand l) b' k') ∨
       ((∃ err, res = .error err) ∧ E ++ Event.expand l ≠ [] ∧ ¬ ∃ j t, Describes (E ++ Event.expand l) j t))
  | [], w, a, b, E, i, k, A, F, R => ⟨w, b, .ok (), a, rfl, A, .inl ⟨rfl, k, by simpa [Event.expand] using F⟩⟩
  | e :: l, w, a, b, E, i, k, A, F, R => by
    have R0 : w0.RoomFor i := fun t => by have := R t; simp only [List.length_cons] at this; omega
    obtain ⟨w1, b1, res1, a1, h1, h2, A1⟩ := A.push hr0 S0 R0 e
    have hex : Event.expand (e :: l) = Event.expand [e] ++ Event.expand l := by
      rw [← expand_append]; rfl
    have hlen : i + 1 + l.length = i + (e :: l).length := by simp only [List.length_cons]; omega
    rcases F.push A.reach A.shows A.owned h2 with ⟨rfl, k1, F1⟩ | ⟨⟨err, rfl⟩, h3, h4⟩
    · obtain ⟨w2, b2, res2, a2, g1, g2, g3⟩ := AtWork.pushAll hr0 S0 l A1 F1 (by rw [hlen]; exact R)
      refine ⟨w2, b2, res2, a2, ?_, by rw [← hlen]; exact g2, ?_⟩
      · simp only [Builder.pushAll, h1, bind, Except.bind]; exact g1
      · rw [hex, ← List.append_assoc]; exact g3
    · refine ⟨w1, b1, .error err, a1, ?_, ?_, .inr ⟨⟨err, rfl⟩, ?_, ?_⟩⟩
      · simp only [Builder.pushAll, h1, bind, Except.bind, pure, Except.pure]
      · exact ⟨A1.reach, A1.shows, A1.grown, A1.mine, A1.last, Nat.le_trans A1.few (Nat.add_le_add_left (Nat.add_le_add_left (Nat.succ_le_succ (Nat.zero_le _)) i) _)⟩
      · intro hc
        rw [hex, ← List.append_assoc] at hc
        exact h3 (List.append_eq_nil_iff.1 hc).1
      · rintro ⟨j, t, hd⟩
        rw [hex, ← List.append_assoc] at hd
        rcases hd.of_append with hd | ⟨j', u, hd⟩
        · exact h3 hd
        · exact h4 ⟨j', u, hd⟩

/-! ### Copying -/

/-- The loop of the cloning methods. -/
theorem AtWork.fold {t : RTree NodeId} {u : RTree α} (hr0 : ReachW w0) (S0 : Shows w0 a0)
    (hsub0 : SubtreeAt a0.children n t) (hal : ∀ x ∈ t.nodes, a0.data x ≠ none)
    (hdat : t.map w0.heap.data = u.map some) (hsz : 2 * t.size ≤ usizeMax) :
    ∀ (f : Nat) {l pre : List (DftEvent NodeId)} {w : World α} {a : Forest α} {b : Builder}
      {E : List (Option α)} {i k : Nat}, AtWork w0 a0 w a b i → FedState a E b k → t.events = pre ++ l →
      Matches w0.heap.data (pre.map DftEvent.toStep) E → l.length < f → w0.RoomFor (i + l.length) →
      ∃ w' a' b' E' j, AtWork w0 a0 w' a' b' (i + l.length) ∧ 
        (((∀ x, DftEvent.opn x ∈ l → w0.heap.mutB x = false) ∧ FedState a' E' b' j ∧
            Builder.fold f w (Dft.rest n l) b = .ok (w', b', .ok ()) ∧ E' = u.steps) ∨
          ((∃ x, DftEvent.opn x ∈ l ∧ w0.heap.mutB x = true) ∧
            Builder.fold f w (Dft.rest n l) b = .ok (w', b', .error .borrowData)))
  | 0, l, pre, w, a, b, E, i, k, A, F, he, hE, hf, R => by omega
  | f + 1, [], pre, w, a, b, E, i, k, A, F, he, hE, hf, R => by
    refine ⟨w, a, b, E, k, A, .inl ⟨by simp, F, ?_, ?_⟩⟩
    · have : w.heap.serNext (Dft.rest n []) = .ok (none, none) := rfl
      simp only [Builder.fold, this]
    · rw [List.append_nil] at he
      have hm := (Matches.tree (f := w0.heap.data)).2 hdat
      rw [RTree.steps, he] at hm
      rw [Matches] at hm hE
      rw [hE] at hm
      exact matches_inj hm
  | f + 1, e :: l, pre, w, a, b, E, i, k, A, F, he, hE, hf, R => by
    have hsub : SubtreeAt a.children n t :=
      ⟨hsub0.1, hsub0.2.congr fun x hx => A.grown.children x (hal x hx)⟩
    have hlive : ∀ x ∈ t.nodes, w.heap.alive x = true := fun x hx =>
      A.shows.alive.2 (by rw [A.grown.data x (hal x hx)]; exact hal x hx)
    have hna : w.heap.alive n = true := hlive n ((hsub0.mem_nodes_iff n).2 (.refl _))
    have hy : Yields (Dft.next w.heap) (Dft.rest n (e :: l)) (e :: l) := by
      have := A.shows.children.dft_yields hna hsub
      rw [Dft.start_rest hsub.1, he] at this
      exact Dft.yields_drop pre this
    have hlen : (e :: l).length ≤ t.events.length := by rw [he]; simp
    have h1 := hsub.size_le A.shows.children hna
    have h2 := events_length t
    have h3 := hsz
    unfold RTree.size at h3
    have R0 : w0.RoomFor i := fun t => by have := R t; omega
    rcases serNext_rest hy (by omega) (by omega) with ⟨v, rfl, e1⟩ | ⟨c, mid, rest, rfl, e1, hmid⟩
    · have hv : v ∈ t.nodes := (mem_events_opn t).1 (by rw [he]; simp)
      obtain ⟨d, hd⟩ := Option.isSome_iff_exists.1 (show (w0.heap.data v).isSome from S0.alive.2 (hal v hv))
      have hdv : w.heap.data v = some d := by
        rw [← hd, ← A.shows.data, ← S0.data]; exact A.grown.data v (hal v hv)
      have hmv : w.heap.mutB v = w0.heap.mutB v := by
        have := A.grown.borrowed v (hal v hv)
        rw [A.shows.borrowed, S0.borrowed, hlive v hv, S0.alive.2 (hal v hv)] at this
        simpa using this
      have hbd : w.heap.borrowData v = if w0.heap.mutB v then .error .mk else .ok d := by
        simp only [Heap.borrowData, hmv, hdv]
      cases hb : w0.heap.mutB v with
      | true =>
        refine ⟨w, a, b, E, k, ⟨A.reach, A.shows, A.grown, A.mine, A.last, Nat.le_trans A.few ?_⟩, .inr ⟨⟨v, by simp, hb⟩, ?_⟩⟩
        · exact Nat.add_le_add_left (Nat.le_add_right _ _) _
        · simp only [Builder.fold, e1, hbd, hb, if_true, Except.map]
      | false =>
        have hE' : Matches w0.heap.data ((pre ++ [DftEvent.opn v]).map DftEvent.toStep) (E ++ [some d]) := by
          rw [List.map_append]; exact hE.append (.some hd)
        have hgood : ∃ j t, Describes (E ++ Event.expand [Event.opn d]) j t := by
          obtain ⟨Y, hY⟩ := matches_prefix (l.map DftEvent.toStep) hdat hE'
            (by rw [RTree.steps, he]; simp)
          rcases steps_prefix u _ _ hY with h | h
          · simp at h
          · simpa [Event.expand] using h
        obtain ⟨w1, b1, res, a1, e2, hb1, A1⟩ := A.push hr0 S0 R0 (.opn d)
        have hx : Event.expand [Event.opn d] = [some d] := by simp [Event.expand]
        rcases F.push A.reach A.shows A.owned hb1 with ⟨rfl, k1, F1⟩ | ⟨-, -, h4⟩
        · rw [hx] at F1
          have hl : i + 1 + l.length = i + (DftEvent.opn v :: l).length := by simp only [List.length_cons]; omega
          obtain ⟨w2, a2, b2, E2, j2, A2, h4⟩ := AtWork.fold hr0 S0 hsub0 hal hdat hsz f (l := l) (pre := pre ++ [.opn v])
            A1 F1 (by rw [he]; simp) hE' (by simp at hf; omega) (by rw [hl]; exact R)
          rw [hl] at A2
          have hfold : Builder.fold (f + 1) w (Dft.rest n (.opn v :: l)) b =
              Builder.fold f w1 (Dft.rest n l) b1 := by
            simp only [Builder.fold, e1, hbd, hb, Except.map, Bool.false_eq_true, if_false, e2, bind,
              Except.bind]
          refine ⟨w2, a2, b2, E2, j2, A2, ?_⟩
          rw [hfold]
          rcases h4 with ⟨g1, gf, g2, g3⟩ | ⟨⟨x, g1, g2⟩, g3⟩
          · refine .inl ⟨?_, gf, g2, g3⟩
            intro x hx
            simp only [List.mem_cons, DftEvent.opn.injEq] at hx
            rcases hx with rfl | hx
            · exact hb
            · exact g1 x hx
          · exact .inr ⟨⟨x, by simp [g1], g2⟩, g3⟩
        · exact absurd hgood h4
    · have hx : Event.expand [Event.close c] = List.replicate c (none : Option α) := by
        simp [Event.expand]
      have hE' : Matches w0.heap.data ((pre ++ (e :: mid)).map DftEvent.toStep)
          (E ++ List.replicate c none) := by
        rw [List.map_append, hmid]; exact hE.append (.none _)
      have hgood : E ++ Event.expand [Event.close c] = [] ∨ ∃ j t, Describes (E ++ Event.expand [Event.close c]) j t := by
        obtain ⟨Y, hY⟩ := matches_prefix (rest.map DftEvent.toStep) hdat hE'
          (by rw [RTree.steps, he]; simp)
        rw [hx]
        exact steps_prefix u _ _ hY
      obtain ⟨w1, b1, res, a1, e2, hb1, A1⟩ := A.push hr0 S0 R0 (.close c)
      rcases F.push A.reach A.shows A.owned hb1 with ⟨rfl, k1, F1⟩ | ⟨-, h4, h5⟩
      · rw [hx] at F1
        have hl : i + 1 + rest.length ≤ i + (e :: (mid ++ rest)).length := by
          simp only [List.length_cons, List.length_append]; omega
        have R1 : w0.RoomFor (i + 1 + rest.length) := fun t => by have := R t; omega
        obtain ⟨w2, a2, b2, E2, j2, A2, h4⟩ := AtWork.fold hr0 S0 hsub0 hal hdat hsz f (l := rest)
          (pre := pre ++ (e :: mid)) A1 F1 (by rw [he]; simp) hE' (by simp at hf; omega) R1
        have hfold : Builder.fold (f + 1) w (Dft.rest n (e :: (mid ++ rest))) b =
            Builder.fold f w1 (Dft.rest n rest) b1 := by
          simp only [Builder.fold, e1, e2, bind, Except.bind]
        have hmo : ∀ x, DftEvent.opn x ∉ e :: mid := by
          intro x hm
          have := List.mem_map_of_mem (f := DftEvent.toStep) hm
          rw [hmid] at this
          have := List.eq_of_mem_replicate this
          simp [DftEvent.toStep] at this
        have hmem : ∀ x, DftEvent.opn x ∈ e :: (mid ++ rest) ↔ DftEvent.opn x ∈ rest := by
          intro x
          have h5 : DftEvent.opn x ∈ e :: (mid ++ rest) ↔ DftEvent.opn x ∈ (e :: mid) ∨ .opn x ∈ rest := by
            simp [or_assoc]
          rw [h5]; simp [hmo x]
        refine ⟨w2, a2, b2, E2, j2, ⟨A2.reach, A2.shows, A2.grown, A2.mine, A2.last, Nat.le_trans A2.few (Nat.add_le_add_left hl _)⟩, ?_⟩
        rw [hfold]
        simp only [hmem]
        exact h4
      · rcases hgood with h | h
        · exact absurd h h4
        · exact absurd h h5

end Dendron
