import Verif.Proofs.Local

/-! Independence of trees (C69): a call does the same if it finds the same. -/

set_option linter.unusedSimpArgs false
set_option linter.unusedVariables false

set_option autoImplicit false

namespace Dendron
variable {α : Type} {w w' : World α} {a b c a' b' a1 : Forest α} {op : Op α} {r r' : Res} {n m p q : NodeId} {k : Kind}
  {t u : TreeId} {d : α} {l l1 l2 : List NodeId}

namespace Forest

/-! ### The same change of the same tree -/

theorem SameTree.give2 (h : SameTree a b t) (k : Kind) (n : NodeId) : SameTree (a.give k n) (b.give k n) t := by
  refine ⟨h.tree, h.data, h.borrowed, h.children, ?_, h.root, h.trees, h.grantTok, h.prohTok⟩
  intro k' m e
  simp [Forest.give, h.held _ m e]

theorem SameTree.take2 (h : SameTree a b t) (k : Kind) (n : NodeId) : SameTree (a.take k n) (b.take k n) t := by
  refine ⟨h.tree, h.data, h.borrowed, h.children, ?_, h.root, h.trees, h.grantTok, h.prohTok⟩
  intro k' m e
  simp [Forest.take, h.held _ m e]

theorem SameTree.giveTree2 (h : SameTree a b t) (u : TreeId) : SameTree (a.giveTree u) (b.giveTree u) t := by
  refine ⟨h.tree, h.data, h.borrowed, h.children, h.held, h.root, ?_, h.grantTok, h.prohTok⟩
  by_cases e : t = u
  · subst e; simp [Forest.giveTree, upd, h.trees]
  · simp [Forest.giveTree, upd, e, h.trees]

theorem SameTree.takeTree2 (h : SameTree a b t) (u : TreeId) : SameTree (a.takeTree u) (b.takeTree u) t := by
  refine ⟨h.tree, h.data, h.borrowed, h.children, h.held, h.root, ?_, h.grantTok, h.prohTok⟩
  by_cases e : t = u
  · subst e; simp [Forest.takeTree, upd, h.trees]
  · simp [Forest.takeTree, upd, e, h.trees]

theorem SameTree.giveTok2 (h : SameTree a b t) (g : Bool) (u : TreeId) :
    SameTree (a.giveTok g u) (b.giveTok g u) t := by
  cases g
  · refine ⟨h.tree, h.data, h.borrowed, h.children, h.held, h.root, h.trees, h.grantTok, ?_⟩
    by_cases e : t = u
    · subst e; simp [Forest.giveTok, upd, h.prohTok]
    · simp [Forest.giveTok, upd, e, h.prohTok]
  · refine ⟨h.tree, h.data, h.borrowed, h.children, h.held, h.root, h.trees, ?_, h.prohTok⟩
    by_cases e : t = u
    · subst e; simp [Forest.giveTok, upd, h.grantTok]
    · simp [Forest.giveTok, upd, e, h.grantTok]

theorem SameTree.takeTok2 (h : SameTree a b t) (g : Bool) (u : TreeId) :
    SameTree (a.takeTok g u) (b.takeTok g u) t := by
  cases g
  · refine ⟨h.tree, h.data, h.borrowed, h.children, h.held, h.root, h.trees, h.grantTok, ?_⟩
    by_cases e : t = u
    · subst e; simp [Forest.takeTok, upd, h.prohTok]
    · simp [Forest.takeTok, upd, e, h.prohTok]
  · refine ⟨h.tree, h.data, h.borrowed, h.children, h.held, h.root, h.trees, ?_, h.prohTok⟩
    by_cases e : t = u
    · subst e; simp [Forest.takeTok, upd, h.grantTok]
    · simp [Forest.takeTok, upd, e, h.grantTok]

theorem SameTree.setRoot2 (h : SameTree a b t) (u : TreeId) (n : NodeId) :
    SameTree (a.setRoot u n) (b.setRoot u n) t := by
  refine ⟨h.tree, h.data, h.borrowed, h.children, h.held, ?_, h.trees, h.grantTok, h.prohTok⟩
  by_cases e : t = u
  · subst e; simp [Forest.setRoot, upd]
  · simp [Forest.setRoot, upd, e, h.root]

theorem SameTree.addTree2 (h : SameTree a b t) (e : b.newTree = a.newTree) (n : NodeId) :
    SameTree (a.addTree n) (b.addTree n) t := by
  refine ⟨h.tree, h.data, h.borrowed, h.children, h.held, ?_, h.trees, h.grantTok, h.prohTok⟩
  by_cases e' : t = a.newTree
  · subst e'; simp [Forest.addTree, upd, e]
  · simp [Forest.addTree, upd, e, e', h.root]

theorem SameTree.setChildren2 (h : SameTree a b t) (p : NodeId) (l : List NodeId) :
    SameTree (a.setChildren p l) (b.setChildren p l) t := by
  refine ⟨h.tree, h.data, h.borrowed, ?_, h.held, h.root, h.trees, h.grantTok, h.prohTok⟩
  intro m e
  by_cases e' : m = p
  · subst e'; simp [Forest.setChildren, upd]
  · simp [Forest.setChildren, upd, e', h.children m e]

theorem SameTree.addNode2 (h : SameTree a b t) (T : a.Tidy) (U : b.Tidy) (e : b.newNode = a.newNode) (d : α)
    (u : TreeId) : SameTree (a.addNode d u) (b.addNode d u) t := by
  have e1 := T.newNode
  have e2 := U.newNode
  rw [e] at e2
  have key : ∀ m, upd a.tree a.newNode (some u) m = some t → m ≠ a.newNode → a.tree m = some t := by
    intro m h1 h2; rw [upd_ne _ _ h2] at h1; exact h1
  refine ⟨?_, ?_, ?_, ?_, ?_, h.root, h.trees, h.grantTok, h.prohTok⟩
  · intro m
    by_cases e' : m = a.newNode
    · subst e'; simp [Forest.addNode, upd, e]
    · simp [Forest.addNode, upd, e, e', h.tree m]
  · intro m g
    by_cases e' : m = a.newNode
    · subst e'; simp [Forest.addNode, upd, e]
    · simp [Forest.addNode, upd, e, e', h.data m (key m g e')]
  · intro m g
    by_cases e' : m = a.newNode
    · subst e'; simp [Forest.addNode, upd, e]
    · simp [Forest.addNode, upd, e, e', h.borrowed m (key m g e')]
  · intro m g
    by_cases e' : m = a.newNode
    · subst e'
      show b.children _ = a.children _
      rw [T.leaf _ e1, U.leaf _ e2]
    · exact h.children m (key m g e')
  · intro k m g
    by_cases e' : m = a.newNode
    · subst e'
      show b.held _ _ = a.held _ _
      rw [T.heldIn _ _ e1, U.heldIn _ _ e2]
    · exact h.held k m (key m g e')

theorem SameTree.rehome2 {D D' : NodeId → Prop} (h : SameTree a b t) (hD : ∀ n, D' n ↔ D n)
    (hu : ∀ n, D n → ∃ u, a.tree n = some u ∧ SameTree a b u) (v : TreeId) :
    SameTree (a.rehome D v) (b.rehome D' v) t := by
  have key : ∀ m, (a.rehome D v).tree m = some t → ∃ u, a.tree m = some u ∧ SameTree a b u := by
    intro m e
    by_cases g : D m
    · exact hu m g
    · simp [Forest.rehome, g] at e; exact ⟨t, e, h⟩
  refine ⟨?_, ?_, ?_, ?_, ?_, h.root, h.trees, h.grantTok, h.prohTok⟩
  · intro m
    by_cases g : D m
    · simp [Forest.rehome, g, hD]
    · simp [Forest.rehome, g, hD, h.tree m]
  · intro m e; obtain ⟨u, e1, h1⟩ := key m e; exact h1.data m e1
  · intro m e; obtain ⟨u, e1, h1⟩ := key m e; exact h1.borrowed m e1
  · intro m e; obtain ⟨u, e1, h1⟩ := key m e; exact h1.children m e1
  · intro k m e; obtain ⟨u, e1, h1⟩ := key m e; exact h1.held k m e1

theorem SameTree.sweep2 (h : SameTree a b t) : SameTree a.sweep b.sweep t := by
  have key : ∀ n, a.sweep.tree n = some t → (∃ t, a.tree n = some t ∧ a.Holds t) ∧
      (∃ t, b.tree n = some t ∧ b.Holds t) ∧ a.tree n = some t := by
    intro n e
    obtain ⟨e1, e2⟩ := (sweep_tree a n t).1 e
    exact ⟨⟨t, e1, e2⟩, ⟨t, (h.tree n).2 e1, h.holds.2 e2⟩, e1⟩
  refine ⟨?_, ?_, ?_, ?_, ?_, ?_, h.trees, h.grantTok, h.prohTok⟩
  · intro n; rw [sweep_tree, sweep_tree, h.tree n, h.holds]
  · intro n e
    obtain ⟨h1, h2, h3⟩ := key n e
    simp only [Forest.sweep]; rw [if_pos h1, if_pos h2]; exact h.data n h3
  · intro n e
    obtain ⟨h1, h2, h3⟩ := key n e
    simp only [Forest.sweep]; rw [if_pos h1, if_pos h2]; exact h.borrowed n h3
  · intro n e
    obtain ⟨h1, h2, h3⟩ := key n e
    simp only [Forest.sweep]; rw [if_pos h1, if_pos h2]; exact h.children n h3
  · intro k n e; exact h.held k n (key n e).2.2
  · simp only [Forest.sweep]
    by_cases g : a.Holds t
    · rw [if_pos g, if_pos (h.holds.2 g)]; exact h.root
    · rw [if_neg g, if_neg fun g' => g (h.holds.1 g')]

/-- Nothing is in a tree that has not been made. -/
theorem Tidy.same_new (T : a.Tidy) (U : b.Tidy) (h1 : a.newTree ≤ t) (h2 : b.newTree ≤ t) : SameTree a b t := by
  have g1 : ∀ n, a.tree n ≠ some t := fun n e => absurd (T.bound e) (Nat.not_lt.2 h1)
  have g2 : ∀ n, b.tree n ≠ some t := fun n e => absurd (U.bound e) (Nat.not_lt.2 h2)
  refine ⟨fun n => ⟨fun e => absurd e (g2 n), fun e => absurd e (g1 n)⟩, fun n e => absurd e (g1 n),
    fun n e => absurd e (g1 n), fun n e => absurd e (g1 n), fun k n e => absurd e (g1 n), ?_, ?_, ?_, ?_⟩
  · rw [T.noRoot t h1, U.noRoot t h2]
  · rw [T.noTree t h1, U.noTree t h2]
  · rw [(T.noTok t h1).1, (U.noTok t h2).1]
  · rw [(T.noTok t h1).2, (U.noTok t h2).2]

/-! ### What a call finds -/

theorem SameTree.isTop (h : SameTree a b t) (U : b.Tidy) (e : a.tree n = some t) (g : a.IsTop n) : b.IsTop n := by
  intro p hp
  have e1 : b.tree p = some t := by rw [U.mem hp]; exact (h.tree n).2 e
  rw [h.children p ((h.tree p).1 e1)] at hp
  exact g p hp

theorem SameTree.at {x : NodeId} (h : SameTree a b t) (e : a.tree x = some t) : b.children x = a.children x :=
  h.children x e

theorem SameTree.split (h : SameTree a b t) (T : a.Tidy) (e : a.tree n = some t)
    (g : a.children p = l1 ++ n :: l2) : b.children p = l1 ++ n :: l2 := by
  rw [h.children p (by rw [T.split g]; exact e)]; exact g

theorem dest_congr {f g : NodeId → List NodeId} {dest : InsertAs NodeId} (h : DestSplit f dest q l1 l2)
    (e : g q = f q) : DestSplit g dest q l1 l2 := by
  cases h with
  | first => rw [← e]; exact .first _
  | last => rw [← e]; exact .last _
  | prev h => exact .prev (e.trans h)
  | next h => exact .next (e.trans h)

theorem SameTree.dest {dest : InsertAs NodeId} (h : SameTree a b t) (T : a.Tidy) (e : a.tree dest.anchor = some t)
    (g : DestSplit a.children dest p l1 l2) : DestSplit b.children dest p l1 l2 :=
  dest_congr g (h.children p (by rw [T.dest g]; exact e))

theorem SameTree.desc (h : SameTree a b t) (T : a.Tidy) (e : a.tree n = some t) (g : Desc a.children n m) :
    Desc b.children n m := by
  induction g with
  | refl => exact .refl _
  | step h1 h2 ih => exact .step ih (by rw [h.children _ (by rw [T.tree_desc h1]; exact e)]; exact h2)

theorem SameTree.desc_iff (h : SameTree a b t) (T : a.Tidy) (U : b.Tidy) (e : a.tree n = some t) (m : NodeId) :
    Desc b.children n m ↔ Desc a.children n m :=
  ⟨h.symm.desc U ((h.tree n).2 e), h.desc T e⟩

theorem SameTree.finds {o : Option NodeId} {nv : Nav} (h : SameTree a b t) (T : a.Tidy) (U : b.Tidy)
    (e : a.tree n = some t) (g : a.Finds n o nv) : b.Finds n o nv := by
  have up : ∀ {p}, n ∈ a.children p → b.children p = a.children p := fun hp =>
    h.children _ (by rw [T.mem hp]; exact e)
  cases nv with
  | root =>
    obtain ⟨t', e1, e2⟩ := g
    rw [e] at e1; cases e1
    exact ⟨t, (h.tree n).2 e, by rw [h.root]; exact e2⟩
  | parent =>
    rcases g with ⟨p, e1, e2⟩ | ⟨e1, e2⟩
    · exact .inl ⟨p, by rw [up e1]; exact e1, e2⟩
    · exact .inr ⟨h.isTop U e e1, e2⟩
  | prevSibling =>
    rcases g with ⟨p, l1, l2, e1, e2⟩ | ⟨e1, e2⟩
    · exact .inl ⟨p, l1, l2, h.split T e e1, e2⟩
    · exact .inr ⟨h.isTop U e e1, e2⟩
  | nextSibling =>
    rcases g with ⟨p, l1, l2, e1, e2⟩ | ⟨e1, e2⟩
    · exact .inl ⟨p, l1, l2, h.split T e e1, e2⟩
    · exact .inr ⟨h.isTop U e e1, e2⟩
  | firstSibling =>
    rcases g with ⟨p, e1, e2⟩ | ⟨e1, e2⟩
    · exact .inl ⟨p, by rw [up e1]; exact e1, by rw [up e1]; exact e2⟩
    · exact .inr ⟨h.isTop U e e1, e2⟩
  | lastSibling =>
    rcases g with ⟨p, e1, e2⟩ | ⟨e1, e2⟩
    · exact .inl ⟨p, by rw [up e1]; exact e1, by rw [up e1]; exact e2⟩
    · exact .inr ⟨h.isTop U e e1, e2⟩
  | firstChild => show o = _; rw [h.children n e]; exact g
  | lastChild => show o = _; rw [h.children n e]; exact g

theorem SameTree.refused {g : Bool} (h : SameTree a b t) (e : a.Refused t g) : b.Refused t g := by
  cases g
  · rcases e with e | ⟨n, e1, e2⟩
    · exact .inl (by rw [h.grantTok]; exact e)
    · exact .inr ⟨n, by rw [h.held _ n e2]; exact e1, (h.tree n).2 e2⟩
  · rcases e with e | ⟨n, e1, e2⟩
    · exact .inl (by rw [h.prohTok]; exact e)
    · exact .inr ⟨n, by rw [h.held _ n e2]; exact e1, (h.tree n).2 e2⟩

theorem Tidy.of_held (T : a.Tidy) (h : 0 < a.held k n) : ∃ t, a.tree n = some t := by
  cases e : a.tree n with
  | none => rw [T.heldIn k n e] at h; exact absurd h (Nat.lt_irrefl _)
  | some t => exact ⟨t, rfl⟩

theorem Tidy.of_with {au : Auth} (T : a.Tidy) (h : a.With n au) : ∃ t, a.tree n = some t := by
  cases au with
  | token t => exact T.of_held h.1
  | hot => exact T.of_held h

theorem SameTree.fits {au : Auth} (h : SameTree a b t) (e : a.tree n = some t) (g : a.Fits n au) : b.Fits n au := by
  cases au with
  | token u =>
    have : a.tree n = some u := g
    rw [e] at this; cases this
    exact (h.tree n).2 e
  | hot => trivial

@[simp] theorem giveTok_newNode (g : Bool) : (a.giveTok g t).newNode = a.newNode := by cases g <;> rfl
@[simp] theorem giveTok_newTree (g : Bool) : (a.giveTok g t).newTree = a.newTree := by cases g <;> rfl
@[simp] theorem takeTok_newNode (g : Bool) : (a.takeTok g t).newNode = a.newNode := by cases g <;> rfl
@[simp] theorem takeTok_newTree (g : Bool) : (a.takeTok g t).newTree = a.newTree := by cases g <;> rfl

/-- A call that finds the same does the same. -/
theorem Step.transfer (T : a.Tidy) (U : b.Tidy) (A : a.AlikeFor b op) (hm : a.May op) (st : a.Step op r a') :
    ∃ b', b.Step op r b' ∧
      (∀ t, (a.Involves op t ∨ op.makesTree = true ∧ t = a.newTree) → SameTree a' b' t) ∧
      b'.newNode + a.newNode = a'.newNode + b.newNode ∧ b'.newTree + a.newTree = a'.newTree + b.newTree := by
  have hs : ∀ t, (a.Involves op t ∨ op.makesTree = true ∧ t = a.newTree) → SameTree a b t := by
    rintro t (h | ⟨h1, rfl⟩)
    · exact A.same t h
    · exact T.same_new U (Nat.le_refl _) (by rw [A.newTree h1]; exact Nat.le_refl _)
  have sm : ∀ {n t}, n ∈ op.names → a.tree n = some t → SameTree a b t := fun h e => A.same _ (.inl ⟨_, h, e⟩)
  have st' : ∀ {t}, op.namesTree = some t → SameTree a b t := fun h => A.same _ (.inr h)
  have c1 : b.newNode + a.newNode = a.newNode + b.newNode := Nat.add_comm _ _
  have c2 : b.newTree + a.newTree = a.newTree + b.newTree := Nat.add_comm _ _
  have c3 : b.newNode + 1 + a.newNode = a.newNode + 1 + b.newNode :=
    (by omega : ∀ x y : Nat, x + 1 + y = y + 1 + x) _ _
  have c4 : b.newTree + 1 + a.newTree = a.newTree + 1 + b.newTree :=
    (by omega : ∀ x y : Nat, x + 1 + y = y + 1 + x) _ _
  cases st with
  | newTree hot d =>
    have e1 := A.node rfl
    have e2 := A.newTree rfl
    have := @Step.newTree _ b hot d
    rw [e1, e2] at this
    refine ⟨_, this, fun t ht => ?_, c3, c4⟩
    exact (((hs t ht).addNode2 T U e1 d _).addTree2 e2 _).give2 _ _
  | clone => exact ⟨_, .clone _ _, fun t ht => (hs t ht).give2 _ _, c1, c2⟩
  | drop => exact ⟨_, .drop _ _, fun t ht => ((hs t ht).take2 _ _).sweep2, c1, c2⟩
  | navNone h =>
    obtain ⟨t, e⟩ := T.of_held hm
    exact ⟨_, .navNone ((sm (.head _) e).finds T U e h), hs, c1, c2⟩
  | navSome h =>
    obtain ⟨t, e⟩ := T.of_held hm
    exact ⟨_, .navSome ((sm (.head _) e).finds T U e h), fun t ht => (hs t ht).give2 _ _, c1, c2⟩
  | upgradeDead h =>
    have := A.dead _ (.head _) ((T.dead _).1 h)
    exact ⟨_, .upgradeDead ((U.dead _).2 this), hs, c1, c2⟩
  | @upgrade n h =>
    refine ⟨_, .upgrade ?_, fun t ht => (hs t ht).give2 _ _, c1, c2⟩
    cases e : a.tree n with
    | none => exact absurd ((T.dead _).2 e) h
    | some t => rw [(sm (.head _) e).data n e]; exact h
  | plainOf => exact ⟨_, .plainOf _ _, fun t ht => (hs t ht).give2 _ _, c1, c2⟩
  | bundleRefused e h1 h2 =>
    have h := sm (.head _) e
    exact ⟨_, .bundleRefused ((h.tree _).2 e) h1 (h.refused h2), fun t ht => ((hs t ht).take2 _ _).sweep2, c1, c2⟩
  | bundle e h1 h2 =>
    have h := sm (.head _) e
    exact ⟨_, .bundle ((h.tree _).2 e) h1 (fun g => h2 (h.symm.refused g)),
      fun t ht => ((hs t ht).take2 _ _).give2 _ _, c1, c2⟩
  | bundleWith e =>
    have h := sm (.head _) e
    exact ⟨_, .bundleWith ((h.tree _).2 e), fun t ht => ((hs t ht).take2 _ _).give2 _ _, c1, c2⟩
  | treeOf e =>
    have h := sm (.head _) e
    exact ⟨_, .treeOf ((h.tree _).2 e), fun t ht => (hs t ht).giveTree2 _, c1, c2⟩
  | cloneTree => exact ⟨_, .cloneTree _, fun t ht => (hs t ht).giveTree2 _, c1, c2⟩
  | dropTree => exact ⟨_, .dropTree _, fun t ht => ((hs t ht).takeTree2 _).sweep2, c1, c2⟩
  | treeRoot e =>
    exact ⟨_, .treeRoot ((st' rfl).root.trans e), fun t ht => (hs t ht).give2 _ _, c1, c2⟩
  | upgradeTreeDead e => exact ⟨_, .upgradeTreeDead ((st' rfl).root.trans e), hs, c1, c2⟩
  | upgradeTree e =>
    exact ⟨_, .upgradeTree (by rw [(st' rfl).root]; exact e), fun t ht => (hs t ht).giveTree2 _, c1, c2⟩
  | acquireRefused e => exact ⟨_, .acquireRefused ((st' rfl).refused e), hs, c1, c2⟩
  | acquire e =>
    exact ⟨_, .acquire (fun g => e ((st' rfl).symm.refused g)), fun t ht => (hs t ht).giveTok2 _ _,
      by simpa using c1, by simpa using c2⟩
  | cloneTok =>
    exact ⟨_, .cloneTok _ _, fun t ht => (hs t ht).giveTok2 _ _, by simpa using c1, by simpa using c2⟩
  | dropTok =>
    exact ⟨_, .dropTok _ _, fun t ht => (hs t ht).takeTok2 _ _, by simpa using c1, by simpa using c2⟩
  | extract e =>
    have h := sm (.head _) e
    exact ⟨_, .extract ((h.tree _).2 e), fun t ht => (hs t ht).giveTok2 _ _, by simpa using c1, by simpa using c2⟩
  | @create au n p d as l1 l2 t f e g =>
    have h := sm (.head _) e
    have e1 := A.node rfl
    have := @Step.create _ b au n p d as l1 l2 t (h.fits e f) ((h.tree _).2 e)
      (h.dest T (by rw [anchor_at]; exact e) g)
    rw [e1] at this
    exact ⟨_, this, fun t ht => (((hs t ht).addNode2 T U e1 _ _).setChildren2 _ _).give2 _ _, c3, c2⟩
  | createFails f g1 g2 =>
    obtain ⟨t, e⟩ := T.of_with hm
    have h := sm (.head _) e
    refine ⟨_, .createFails (h.fits e f) (h.isTop U e g1) g2, fun t ht => ?_, c3, c2⟩
    have h := hs t ht
    exact ⟨h.tree, h.data, h.borrowed, h.children, h.held, h.root, h.trees, h.grantTok, h.prohTok⟩
  | @createParent au n p d l1 l2 t f e g =>
    have h := sm (.head _) e
    have e1 := A.node rfl
    have := @Step.createParent _ b au n p d l1 l2 t (h.fits e f) ((h.tree _).2 e) (h.split T e g)
    rw [e1] at this
    exact ⟨_, this, fun t ht => ((((hs t ht).addNode2 T U e1 _ _).setChildren2 _ _).setChildren2 _ _).give2 _ _,
      c3, c2⟩
  | @createRoot au n d t f e g =>
    have h := sm (.head _) e
    have e1 := A.node rfl
    have := @Step.createRoot _ b au n d t (h.fits e f) ((h.tree _).2 e) (h.isTop U e g)
    rw [e1] at this
    exact ⟨_, this, fun t ht => ((((hs t ht).addNode2 T U e1 _ _).setRoot2 _ _).setChildren2 _ _).give2 _ _,
      c3, c2⟩
  | @createChild au n d t f e =>
    have h := sm (.head _) e
    have e1 := A.node rfl
    have := @Step.createChild _ b au n d t (h.fits e f) ((h.tree _).2 e)
    rw [e1, h.children n e] at this
    exact ⟨_, this, fun t ht => ((((hs t ht).addNode2 T U e1 _ _).setChildren2 _ _).setChildren2 _ _).give2 _ _,
      c3, c2⟩
  | detachRoot f g =>
    obtain ⟨t, e⟩ := T.of_with hm
    have h := sm (.head _) e
    exact ⟨_, .detachRoot (h.fits e f) (h.isTop U e g), hs, c1, c2⟩
  | @detach au n p l1 l2 f g =>
    obtain ⟨t, e⟩ := T.of_with hm
    have h := sm (.head _) e
    have e2 := A.newTree rfl
    have := @Step.detach _ b au n p l1 l2 (h.fits e f) (h.split T e g)
    rw [e2] at this
    refine ⟨_, this, fun t ht => ?_, c1, c4⟩
    refine ((((hs t ht).rehome2 (h.desc_iff T U e) (fun m g => ⟨_, (T.tree_desc g).trans e, h⟩) _).addTree2 ?_
      _).setChildren2 _ _).sweep2
    exact e2
  | @replace au n p l1 l2 f g =>
    obtain ⟨t, e⟩ := T.of_with hm
    have h := sm (.head _) e
    have e2 := A.newTree rfl
    have := @Step.replace _ b au n p l1 l2 (h.fits e f) (h.split T e g)
    rw [e2, h.children n e] at this
    refine ⟨_, this, fun t ht => ?_, c1, c4⟩
    refine (((((hs t ht).rehome2 (fun _ => Iff.rfl) (fun m g => ⟨_, by rw [g]; exact e, h⟩) _).addTree2 ?_
      _).setChildren2 _ _).setChildren2 _ _).sweep2
    exact e2
  | @replaceRoot au n c t f g1 g2 e =>
    have h := sm (.head _) e
    have e2 := A.newTree rfl
    have := @Step.replaceRoot _ b au n c t (h.fits e f) (h.isTop U e g1) (by rw [h.children n e]; exact g2)
      ((h.tree _).2 e)
    rw [e2] at this
    refine ⟨_, this, fun t ht => ?_, c1, c4⟩
    refine (((((hs t ht).rehome2 (fun _ => Iff.rfl) (fun m g => ⟨_, by rw [g]; exact e, h⟩) _).setRoot2 _ _).addTree2
      ?_ _).setChildren2 _ _).sweep2
    exact e2
  | replaceEmpty f g1 g2 =>
    obtain ⟨t, e⟩ := T.of_with hm
    have h := sm (.head _) e
    exact ⟨_, .replaceEmpty (h.fits e f) (h.isTop U e g1) (by rw [h.children _ e]; exact g2), hs, c1, c2⟩
  | replaceSeveral f g1 g2 =>
    obtain ⟨t, e⟩ := T.of_with hm
    have h := sm (.head _) e
    exact ⟨_, .replaceSeveral (h.fits e f) (h.isTop U e g1) (by rw [h.children _ e]; exact g2), hs, c1, c2⟩
  | moveRoot f g1 g2 =>
    obtain ⟨t, e⟩ := T.of_with hm.1
    have h := sm (.head _) e
    refine ⟨_, .moveRoot (h.fits e f) (h.isTop U e g1) ?_, hs, c1, c2⟩
    rw [(h.tree _).2 e, (h.tree _).2 (g2.symm.trans e)]
  | @move au n p q dest l1 l2 m1 m2 t f g e' g1 g2 =>
    obtain ⟨u, e⟩ := T.of_with hm.1
    have h := sm (.head _) e
    have h' := sm (.tail _ (.head _)) e'
    have := @Step.move _ b au n p q dest l1 l2 m1 m2 t (h.fits e f) (h.split T e g) ((h'.tree _).2 e')
      (fun x => g1 ((h.desc_iff T U e _).1 x)) (by
        refine dest_congr g2 ?_
        by_cases x : q = p
        · subst x; simp [Forest.setChildren, upd]
        · simp only [Forest.setChildren, upd_ne _ _ x]
          exact h'.children q ((T.dest_without g g2).trans e'))
    refine ⟨_, this, fun t ht => ?_, c1, c2⟩
    exact ((((hs t ht).rehome2 (h.desc_iff T U e) (fun m g => ⟨_, (T.tree_desc g).trans e, h⟩) _).setChildren2
      _ _).setChildren2 _ _).sweep2
  | @moveWhole au n q dest m1 m2 t t' f g1 e g2 e' g3 g4 =>
    have h := sm (.head _) e
    have h' := sm (.tail _ (.head _)) e'
    have := @Step.moveWhole _ b au n q dest m1 m2 t t' (h.fits e f) (h.isTop U e g1) ((h.tree _).2 e)
      (h.trees.trans g2) ((h'.tree _).2 e') g3 (h'.dest T e' g4)
    refine ⟨_, this, fun t ht => ?_, c1, c2⟩
    exact (((hs t ht).rehome2 (h.desc_iff T U e) (fun m g => ⟨_, (T.tree_desc g).trans e, h⟩) _).setChildren2
      _ _).sweep2
  | writeBorrowed g =>
    obtain ⟨k, hk⟩ := hm
    obtain ⟨t, e⟩ := T.of_held hk
    exact ⟨_, .writeBorrowed (((sm (.head _) e).borrowed _ e).trans g), hs, c1, c2⟩
  | @write n d g =>
    obtain ⟨k, hk⟩ := hm
    obtain ⟨t, e⟩ := T.of_held hk
    refine ⟨_, .write (((sm (.head _) e).borrowed _ e).trans g), fun t ht => ?_, c1, c2⟩
    have h := hs t ht
    refine ⟨h.tree, ?_, h.borrowed, h.children, h.held, h.root, h.trees, h.grantTok, h.prohTok⟩
    intro m e
    by_cases x : m = n
    · subst x; simp [upd]
    · simp [upd, x, h.data m e]
  | borrowBorrowed g =>
    obtain ⟨k, hk⟩ := hm
    obtain ⟨t, e⟩ := T.of_held hk
    exact ⟨_, .borrowBorrowed (((sm (.head _) e).borrowed _ e).trans g), hs, c1, c2⟩
  | @borrow n g =>
    obtain ⟨k, hk⟩ := hm
    obtain ⟨t, e⟩ := T.of_held hk
    refine ⟨_, .borrow (((sm (.head _) e).borrowed _ e).trans g), fun t ht => ?_, c1, c2⟩
    have h := hs t ht
    refine ⟨h.tree, h.data, ?_, h.children, h.held, h.root, h.trees, h.grantTok, h.prohTok⟩
    intro m e
    by_cases x : m = n
    · subst x; simp [upd]
    · simp [upd, x, h.borrowed m e]
  | @borrowEnd n =>
    refine ⟨_, .borrowEnd, fun t ht => ?_, c1, c2⟩
    have h := hs t ht
    refine ⟨h.tree, h.data, ?_, h.children, h.held, h.root, h.trees, h.grantTok, h.prohTok⟩
    intro m e
    by_cases x : m = n
    · subst x; simp [upd]
    · simp [upd, x, h.borrowed m e]

end Forest
end Dendron
