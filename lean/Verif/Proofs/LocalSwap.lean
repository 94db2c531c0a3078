import Verif.Proofs.LocalMove

/-! Independence of trees (C69): calls that commute. -/

set_option linter.unusedSimpArgs false
set_option linter.unusedVariables false

set_option autoImplicit false

namespace Dendron
variable {α : Type} {w w' w1 w2 : World α} {a b c a' b' a1 a2 a12 a21 : Forest α} {op op1 op2 : Op α} {r r' r1 r2 : Res}
  {n m p q : NodeId} {k : Kind} {t u : TreeId} {d : α} {l l1 l2 : List NodeId}

namespace Forest

theorem sweep_dead (h : a.tree n = none) : a.sweep.tree n = none := by
  simp [Forest.sweep, h]

/-- What does not exist is not brought back. -/
theorem Step.dead (T : a.Tidy) (st : a.Step op r a') (hn : n ≠ a.newNode) (h : a.tree n = none) :
    a'.tree n = none := by
  have ad : ∀ (d : α) u, (a.addNode d u).tree n = none := fun d u => by simp [Forest.addNode, upd, hn, h]
  have rh : ∀ {D : NodeId → Prop} {u}, ¬ D n → (a.rehome D u).tree n = none := fun hd => by simp [Forest.rehome, hd, h]
  have ds : ∀ {m u}, a.tree m = some u → ¬ Desc a.children m n := fun e g => by
    have := T.tree_desc g; rw [h, e] at this; cases this
  cases st with
  | newTree _ d => exact ad d _
  | @create _ _ _ d => exact ad d _
  | @createParent _ _ _ d => exact ad d _
  | @createRoot _ _ d => exact ad d _
  | @createChild _ _ d => exact ad d _
  | drop | dropTree | bundleRefused => exact sweep_dead h
  | acquire | cloneTok | extract => simp only [Forest.giveTok]; split <;> exact h
  | dropTok => simp only [Forest.takeTok]; split <;> exact h
  | @detach au m p l1 l2 f g =>
    obtain ⟨u, e⟩ := T.some_of_mem (p := p) (c := m) (by rw [g]; simp)
    exact sweep_dead (rh (ds e))
  | @replace au m p l1 l2 f g =>
    obtain ⟨u, e⟩ := T.some_of_mem (p := p) (c := m) (by rw [g]; simp)
    refine sweep_dead (rh (D := (· = m)) ?_)
    rintro rfl; rw [h] at e; cases e
  | @replaceRoot _ m _ _ _ _ _ e =>
    refine sweep_dead (rh (D := (· = m)) ?_)
    rintro rfl; rw [h] at e; cases e
  | @move au m p q dest l1 l2 _ _ u f g =>
    obtain ⟨u, e⟩ := T.some_of_mem (p := p) (c := m) (by rw [g]; simp)
    exact sweep_dead (rh (ds e))
  | moveWhole _ _ e => exact sweep_dead (rh (ds e))
  | _ => exact h

theorem Step.news (st : a.Step op r a') :
    (a'.newNode = a.newNode ∨ op.makesNode = true ∧ a'.newNode = a.newNode + 1) ∧
    (a'.newTree = a.newTree ∨ op.makesTree = true ∧ a'.newTree = a.newTree + 1) := by
  cases st with
  | newTree => exact ⟨.inr ⟨rfl, rfl⟩, .inr ⟨rfl, rfl⟩⟩
  | create | createParent | createRoot | createChild | createFails => exact ⟨.inr ⟨rfl, rfl⟩, .inl rfl⟩
  | detach | replace | replaceRoot => exact ⟨.inl rfl, .inr ⟨rfl, rfl⟩⟩
  | acquire | cloneTok | extract => exact ⟨.inl (giveTok_newNode _), .inl (giveTok_newTree _)⟩
  | dropTok => exact ⟨.inl (takeTok_newNode _), .inl (takeTok_newTree _)⟩
  | _ => exact ⟨.inl rfl, .inl rfl⟩

/-- A tree that the call involves has been made already. -/
theorem Tidy.known (T : a.Tidy) (K : a.Known op) (h : a.Involves op t) : t < a.newTree := by
  rcases h with ⟨n, -, e⟩ | e
  · exact T.bound e
  · exact K.tree t e

theorem Apart.symm (h : a.Apart op1 op2) : a.Apart op2 op1 := by
  refine ⟨fun t h1 h2 => h.trees t h2 h1, fun h1 => ?_, fun h1 => ?_⟩
  · cases e : op1.makesNode with
    | false => rfl
    | true => rw [h.node e] at h1; cases h1
  · cases e : op1.makesTree with
    | false => rfl
    | true => rw [h.tree e] at h1; cases h1

/-- The second call finds the same after the first. -/
theorem Step.alike (T : a.Tidy) (P : a.Apart op1 op2) (K : a.Known op2) (s1 : a.Step op1 r1 a1) :
    a.AlikeFor a1 op2 := by
  refine ⟨fun t h => ?_, fun n hn h => ?_, fun h => ?_, fun h => ?_⟩
  · exact s1.frame T (P.symm.trees t h) (Nat.ne_of_lt (T.known K h))
  · exact s1.dead T (Nat.ne_of_lt (K.node n hn)) h
  · rcases s1.news.1 with e | ⟨e, -⟩
    · exact e
    · rw [P.node e] at h; cases h
  · rcases s1.news.2 with e | ⟨e, -⟩
    · exact e
    · rw [P.tree e] at h; cases h

theorem AlikeFor.involves (A : a.AlikeFor b op) (h : b.Involves op t) : a.Involves op t := by
  rcases h with ⟨n, hn, e⟩ | e
  · refine .inl ⟨n, hn, ?_⟩
    cases e1 : a.tree n with
    | none => rw [A.dead n hn e1] at e; cases e
    | some u =>
      have := ((A.same u (.inl ⟨n, hn, e1⟩)).tree n).2 e1
      rw [this] at e; exact e
  · exact .inr e

/-- States in which all trees are the same are the same. -/
theorem Tidy.same_all (T : a.Tidy) (U : b.Tidy) (h : ∀ t, SameTree a b t) (h1 : b.newNode = a.newNode)
    (h2 : b.newTree = a.newTree) : a = b := by
  have ht : ∀ n, b.tree n = a.tree n := by
    intro n
    cases e : a.tree n with
    | none =>
      cases e1 : b.tree n with
      | none => rfl
      | some u => have := ((h u).tree n).1 e1; rw [e] at this; cases this
    | some u => exact ((h u).tree n).2 e
  have key : ∀ {β : Type} (f g : NodeId → β), (∀ n t, a.tree n = some t → g n = f n) →
      (∀ n, a.tree n = none → b.tree n = none → g n = f n) → f = g := by
    intro β f g e1 e2
    funext n
    cases e : a.tree n with
    | none => exact (e2 n e (by rw [ht]; exact e)).symm
    | some u => exact (e1 n u e).symm
  have d1 := key a.data b.data (fun n t e => (h t).data n e) fun n e1 e2 => by
    rw [(T.dead n).2 e1, (U.dead n).2 e2]
  have d2 := key a.borrowed b.borrowed (fun n t e => (h t).borrowed n e) fun n e1 e2 => by
    rw [T.free n e1, U.free n e2]
  have d3 := key a.children b.children (fun n t e => (h t).children n e) fun n e1 e2 => by
    rw [T.leaf n e1, U.leaf n e2]
  have d4 : a.held = b.held := by
    funext k
    exact key (a.held k) (b.held k) (fun n t e => (h t).held k n e) fun n e1 e2 => by
      rw [T.heldIn k n e1, U.heldIn k n e2]
  have d5 : a.tree = b.tree := funext fun n => (ht n).symm
  have d6 : a.root = b.root := funext fun t => (h t).root.symm
  have d7 : a.trees = b.trees := funext fun t => (h t).trees.symm
  have d8 : a.grantTok = b.grantTok := funext fun t => (h t).grantTok.symm
  have d9 : a.prohTok = b.prohTok := funext fun t => (h t).prohTok.symm
  cases a; cases b
  simp only at d1 d2 d3 d4 d5 d6 d7 d8 d9 h1 h2
  subst d1; subst d2; subst d3; subst d4; subst d5; subst d6; subst d7; subst d8; subst d9; subst h1; subst h2
  rfl

/-- The order of two calls that have nothing to do with each other does not matter. -/
theorem Step.swap (T : a.Tidy) (T1 : a1.Tidy) (T2 : a2.Tidy) (T12 : a12.Tidy) (T21 : a21.Tidy)
    (P : a.Apart op1 op2) (K1 : a.Known op1) (K2 : a.Known op2) (m1 : a.May op1) (m2 : a.May op2)
    (s1 : a.Step op1 r1 a1) (s2 : a.Step op2 r2 a2) (s12 : a1.Step op2 r a12) (s21 : a2.Step op1 r' a21) :
    r = r2 ∧ r' = r1 ∧ a12 = a21 := by
  have A2 := s1.alike T P K2
  have A1 := s2.alike T P.symm K1
  obtain ⟨b12, st, S12, n12, t12⟩ := s2.transfer T T1 A2 m2
  obtain ⟨rfl, rfl⟩ := T1.lists.det s12 st
  obtain ⟨b21, st, S21, n21, t21⟩ := s1.transfer T T2 A1 m1
  obtain ⟨rfl, rfl⟩ := T2.lists.det s21 st
  have eN : a12.newNode = a21.newNode := by
    have : ∀ x y z v u : Nat, x + u = y + z → v + u = z + y → x = v := by omega
    exact this _ _ _ _ _ n12 n21
  have eT : a12.newTree = a21.newTree := by
    have : ∀ x y z v u : Nat, x + u = y + z → v + u = z + y → x = v := by omega
    exact this _ _ _ _ _ t12 t21
  refine ⟨rfl, rfl, T12.same_all T21 (fun t => ?_) eN.symm eT.symm⟩
  have le1 : a.newTree ≤ a1.newTree := by
    rcases s1.news.2 with e | ⟨-, e⟩ <;> rw [e]
    · exact Nat.le_refl _
    · exact Nat.le_succ _
  have le2 : a.newTree ≤ a2.newTree := by
    rcases s2.news.2 with e | ⟨-, e⟩ <;> rw [e]
    · exact Nat.le_refl _
    · exact Nat.le_succ _
  by_cases h1 : a.Involves op1 t
  · have f : SameTree a1 a12 t := s12.frame T1 (fun h => P.trees t h1 (A2.involves h))
      (Nat.ne_of_lt (Nat.lt_of_lt_of_le (T.known K1 h1) le1))
    exact f.symm.trans (S21 t (.inl h1))
  by_cases h2 : a.Involves op2 t
  · have f : SameTree a2 a21 t := s21.frame T2 (fun h => P.trees t (A1.involves h) h2)
      (Nat.ne_of_lt (Nat.lt_of_lt_of_le (T.known K2 h2) le2))
    exact (S12 t (.inl h2)).symm.trans f
  by_cases h3 : a12.newTree ≤ t
  · exact T12.same_new T21 h3 (by rw [← eT]; exact h3)
  have fr1 : t ≠ a1.newTree → SameTree a1 a12 t := fun hn => s12.frame T1 (fun h => h2 (A2.involves h)) hn
  have fr2 : t ≠ a2.newTree → SameTree a2 a21 t := fun hn => s21.frame T2 (fun h => h1 (A1.involves h)) hn
  by_cases h4 : t < a.newTree
  · have g1 := s1.frame T h1 (Nat.ne_of_lt h4)
    have g2 := s2.frame T h2 (Nat.ne_of_lt h4)
    exact ((fr1 (Nat.ne_of_lt (Nat.lt_of_lt_of_le h4 le1))).symm.trans g1.symm).trans
      (g2.trans (fr2 (Nat.ne_of_lt (Nat.lt_of_lt_of_le h4 le2))))
  · -- the tree that one of the calls makes
    rcases s1.news.2 with e1 | ⟨q1, e1⟩
    · rcases s2.news.2 with e2 | ⟨q2, e2⟩
      · exfalso
        rw [e1, e2] at t12
        have : ∀ x y : Nat, x + y = y + y → x = y := by omega
        rw [this _ _ t12] at h3
        exact h3 (Nat.not_lt.1 h4)
      · have et : t = a.newTree := by
          have h5 : ∀ x y t : Nat, x + y = y + 1 + y → ¬ x ≤ t → ¬ t < y → t = y := by omega
          rw [e1, e2] at t12
          exact h5 _ _ _ t12 h3 h4
        have hne : t ≠ a2.newTree := by rw [e2, et]; exact Nat.ne_of_lt (Nat.lt_succ_self _)
        exact (S12 t (.inr ⟨q2, et⟩)).symm.trans (fr2 hne)
    · have e2 : a2.newTree = a.newTree := by
        rcases s2.news.2 with e2 | ⟨q2, e2⟩
        · exact e2
        · rw [P.tree q1] at q2; cases q2
      have et : t = a.newTree := by
        have h5 : ∀ x y t : Nat, x + y = y + (y + 1) → ¬ x ≤ t → ¬ t < y → t = y := by omega
        rw [e1, e2] at t12
        exact h5 _ _ _ t12 h3 h4
      have hne : t ≠ a1.newTree := by rw [e1, et]; exact Nat.ne_of_lt (Nat.lt_succ_self _)
      exact (fr1 hne).symm.trans (S21 t (.inr ⟨q1, et⟩))

/-! ### Calls that can be made -/

theorem SameTree.with {au : Auth} (h : SameTree a b t) (e : a.tree n = some t) (f : a.Fits n au)
    (g : a.With n au) : b.With n au := by
  cases au with
  | token u =>
    have : a.tree n = some u := f
    rw [e] at this; cases this
    exact ⟨by rw [h.held _ _ e]; exact g.1, by rw [h.grantTok]; exact g.2⟩
  | hot => show 0 < _; rw [h.held _ _ e]; exact g

theorem AlikeFor.may (T : a.Tidy) (A : a.AlikeFor b op) (hm : a.May op) (st : a.Step op r a') : b.May op := by
  have sm : ∀ {n t}, n ∈ op.names → a.tree n = some t → SameTree a b t := fun h e => A.same _ (.inl ⟨_, h, e⟩)
  have st' : ∀ {t}, op.namesTree = some t → SameTree a b t := fun h => A.same _ (.inr h)
  have hk : ∀ {k n}, n ∈ op.names → 0 < a.held k n → 0 < b.held k n := fun hn h => by
    obtain ⟨t, e⟩ := T.of_held h
    rw [(sm hn e).held _ _ e]; exact h
  have hw : ∀ {n au}, n ∈ op.names → a.Fits n au → a.With n au → b.With n au := fun hn f h => by
    obtain ⟨t, e⟩ := T.of_with h
    exact (sm hn e).with e f h
  cases st with
  | newTree => trivial
  | clone => exact hk (.head _) hm
  | drop => exact hk (.head _) hm
  | navNone => exact hk (.head _) hm
  | navSome => exact hk (.head _) hm
  | upgradeDead => trivial
  | upgrade => trivial
  | plainOf => exact ⟨hm.1, hk (.head _) hm.2⟩
  | bundleRefused => exact ⟨hm.1, hk (.head _) hm.2⟩
  | bundle => exact ⟨hm.1, hk (.head _) hm.2⟩
  | bundleWith e =>
    have h := sm (.head _) e
    refine ⟨hk (.head _) hm.1, ?_⟩
    rw [h.grantTok, h.prohTok]; exact hm.2
  | treeOf => exact hk (.head _) hm
  | cloneTree => show 0 < _; rw [(st' rfl).trees]; exact hm
  | dropTree => show 0 < _; rw [(st' rfl).trees]; exact hm
  | treeRoot => show 0 < _; rw [(st' rfl).trees]; exact hm
  | upgradeTreeDead => trivial
  | upgradeTree => trivial
  | acquireRefused => show 0 < _; rw [(st' rfl).trees]; exact hm
  | acquire => show 0 < _; rw [(st' rfl).trees]; exact hm
  | cloneTok => simp only [May] at hm ⊢; rw [(st' rfl).grantTok, (st' rfl).prohTok]; exact hm
  | dropTok => simp only [May] at hm ⊢; rw [(st' rfl).grantTok, (st' rfl).prohTok]; exact hm
  | @extract g n t e =>
    have h := sm (.head _) e
    simp only [May] at hm ⊢
    rw [h.held _ _ e, h.held _ _ e]; exact hm
  | create f => exact hw (.head _) f hm
  | createFails f => exact hw (.head _) f hm
  | createParent f => exact hw (.head _) f hm
  | createRoot f => exact hw (.head _) f hm
  | createChild f => exact hw (.head _) f hm
  | detachRoot f => exact hw (.head _) f hm
  | detach f => exact hw (.head _) f hm
  | replace f => exact hw (.head _) f hm
  | replaceRoot f => exact hw (.head _) f hm
  | replaceEmpty f => exact hw (.head _) f hm
  | replaceSeveral f => exact hw (.head _) f hm
  | moveRoot f => exact ⟨hw (.head _) f hm.1, hk (.tail _ (.head _)) hm.2⟩
  | move f => exact ⟨hw (.head _) f hm.1, hk (.tail _ (.head _)) hm.2⟩
  | moveWhole f => exact ⟨hw (.head _) f hm.1, hk (.tail _ (.head _)) hm.2⟩
  | writeBorrowed => obtain ⟨k, h⟩ := hm; exact ⟨k, hk (.head _) h⟩
  | write => obtain ⟨k, h⟩ := hm; exact ⟨k, hk (.head _) h⟩
  | borrowBorrowed => obtain ⟨k, h⟩ := hm; exact ⟨k, hk (.head _) h⟩
  | borrow => obtain ⟨k, h⟩ := hm; exact ⟨k, hk (.head _) h⟩
  | borrowEnd => obtain ⟨k, h⟩ := hm; exact ⟨k, hk (.head _) h⟩

/-- The tree of the destination's parent. -/
theorem Tidy.dest_erase {dest : InsertAs NodeId} (T : a.Tidy)
    (h : DestSplit (fun q => (a.children q).erase n) dest p l1 l2) : a.tree p = a.tree dest.anchor := by
  have key : ∀ {y s1 s2}, (a.children p).erase n = s1 ++ y :: s2 → a.tree p = a.tree y := fun e =>
    T.mem (List.mem_of_mem_erase (by rw [e]; simp))
  cases h with
  | first => rfl
  | last => rfl
  | prev e => exact key e
  | next e => exact key e

theorem SameTree.atEnd {dest : InsertAs NodeId} (h : SameTree a b t) (T : a.Tidy) (e : a.tree dest.anchor = some t)
    (g : AtEnd (fun q => (a.children q).erase n) dest p) : AtEnd (fun q => (b.children q).erase n) dest p := by
  obtain ⟨l1, l2, g1, g2⟩ := g
  refine ⟨l1, l2, dest_congr g1 ?_, g2⟩
  rw [h.children p ((T.dest_erase g1).trans e)]

theorem SameTree.parent (h : SameTree a b t) (T : a.Tidy) (e : a.tree n = some t) (g : n ∈ a.children p) :
    n ∈ b.children p := by
  rw [h.children p (by rw [T.mem g]; exact e)]; exact g

theorem AlikeFor.fine (T : a.Tidy) (U : b.Tidy) (A : a.AlikeFor b op) (hm : a.May op) (hf : a.Fine op) :
    b.Fine op := by
  cases op with
  | move au n dest =>
    obtain ⟨t, e⟩ := T.of_with hm.1
    obtain ⟨u, e'⟩ := T.of_held hm.2
    have h := A.same t (.inl ⟨n, .head _, e⟩)
    have h' := A.same u (.inl ⟨_, .tail _ (.head _), e'⟩)
    have f := (h.tree n).2 e
    have f' := (h'.tree _).2 e'
    have sib : (dest.isSibling = true → ∃ q, dest.anchor ∈ a.children q) →
        dest.isSibling = true → ∃ q, dest.anchor ∈ b.children q := fun g h1 => by
      obtain ⟨q, g1⟩ := g h1
      exact ⟨q, h'.parent T e' g1⟩
    rcases hf with ⟨g1, g2⟩ | ⟨⟨p, g1⟩, g2, g3, g4⟩ | ⟨g1, g2, g3, g4, g5⟩
    · refine .inl ⟨h.isTop U e g1, ?_⟩
      rw [e, e'] at g2; rw [f, f']; exact g2
    · refine .inr (.inl ⟨⟨p, h.parent T e g1⟩, fun x => g2 ((h.desc_iff T U e _).1 x), sib g3, ?_⟩)
      rintro q ⟨l, x, hl⟩ hq
      refine g4 q ⟨l, x, ?_⟩ (h'.symm.atEnd U f' hq)
      have : n ∈ b.children q := by rw [hl]; simp
      rw [← h.children q ((h.tree q).1 (by rw [U.mem this]; exact f))]
      exact hl
    · refine .inr (.inr ⟨h.isTop U e g1, by rw [h.children n e]; exact g2, ?_, ?_, sib g5⟩)
      · rw [e, e'] at g3; rw [f, f']; exact g3
      · intro v hv
        rw [f] at hv; cases hv
        rw [h.trees]; exact g4 t e
  | _ => trivial

/-- The call depends on the same last children, and these belong to trees that it involves. -/
theorem AlikeFor.uses (T : a.Tidy) (U : b.Tidy) (A : a.AlikeFor b op) (hm : a.May op)
    (hu : UsesLast b.children op p) : UsesLast a.children op p ∧ ∃ t, a.tree p = some t ∧ a.Involves op t := by
  have sm : ∀ {n t}, n ∈ op.names → a.tree n = some t → SameTree a b t := fun h e => A.same _ (.inl ⟨_, h, e⟩)
  have hd : ∀ {n t}, n ∈ op.names → a.tree n = some t → (b.children p).head? = some n →
      (a.children p).head? = some n ∧ ∃ t, a.tree p = some t ∧ a.Involves op t := by
    intro n t hn e h
    have s := sm hn e
    have e1 := (s.tree p).1 (by rw [U.mem (List.mem_of_head? h)]; exact (s.tree n).2 e)
    exact ⟨by rw [← s.children p e1]; exact h, t, e1, .inl ⟨n, hn, e⟩⟩
  have hl : ∀ {n t}, n ∈ op.names → a.tree n = some t → (b.children p).getLast? = some n →
      (a.children p).getLast? = some n ∧ ∃ t, a.tree p = some t ∧ a.Involves op t := by
    intro n t hn e h
    have s := sm hn e
    have e1 := (s.tree p).1 (by rw [U.mem (List.mem_of_getLast? h)]; exact (s.tree n).2 e)
    exact ⟨by rw [← s.children p e1]; exact h, t, e1, .inl ⟨n, hn, e⟩⟩
  cases op with
  | nav k q n =>
    obtain ⟨t, e⟩ := T.of_held hm
    cases q with
    | lastChild => obtain rfl : p = n := hu; exact ⟨rfl, t, e, .inl ⟨p, .head _, e⟩⟩
    | lastSibling =>
      have s := sm (.head _) e
      have hu : n ∈ b.children p := hu
      have e1 := (s.tree p).1 (by rw [U.mem hu]; exact (s.tree n).2 e)
      refine ⟨?_, t, e1, .inl ⟨n, .head _, e⟩⟩
      show n ∈ a.children p
      rw [← s.children p e1]; exact hu
    | prevSibling => exact hd (.head _) e hu
    | _ => exact hu.elim
  | create au n d as =>
    obtain ⟨t, e⟩ := T.of_with hm
    have s := sm (.head _) e
    obtain ⟨l1, l2, g1, g2⟩ := hu
    have e1 := U.dest g1
    rw [anchor_at, (s.tree n).2 e] at e1
    have e2 := (s.tree p).1 e1
    exact ⟨⟨l1, l2, dest_congr g1 (s.children p e2).symm, g2⟩, t, e2, .inl ⟨n, .head _, e⟩⟩
  | createParent au n d =>
    obtain ⟨t, e⟩ := T.of_with hm
    rcases hu with hu | hu
    · obtain ⟨h1, h2⟩ := hd (.head _) e hu; exact ⟨.inl h1, h2⟩
    · obtain ⟨h1, h2⟩ := hl (.head _) e hu; exact ⟨.inr h1, h2⟩
  | detach au n =>
    obtain ⟨t, e⟩ := T.of_with hm
    exact hd (.head _) e hu
  | replace au n =>
    obtain ⟨t, e⟩ := T.of_with hm
    rcases hu with rfl | hu
    · exact ⟨.inl rfl, t, e, .inl ⟨p, .head _, e⟩⟩
    · obtain ⟨h1, h2⟩ := hd (.head _) e hu; exact ⟨.inr h1, h2⟩
  | move au n dest =>
    obtain ⟨t, e⟩ := T.of_with hm.1
    obtain ⟨u, e'⟩ := T.of_held hm.2
    rcases hu with hu | hu
    · obtain ⟨h1, h2⟩ := hd (.head _) e hu; exact ⟨.inl h1, h2⟩
    · have s := sm (.tail _ (.head _)) e'
      have f' := (s.tree _).2 e'
      refine ⟨.inr (s.symm.atEnd U f' hu), u, ?_, .inl ⟨_, .tail _ (.head _), e'⟩⟩
      obtain ⟨l1, l2, g1, g2⟩ := hu
      exact (s.tree p).1 ((U.dest_erase g1).trans f')
  | _ => exact hu.elim

/-- A call takes a last child away only in a tree that it involves. -/
theorem Tidy.drops (T : a.Tidy) (h : DropsLast a.children op p) : ∃ t, a.tree p = some t ∧ a.Involves op t := by
  have key : ∀ {n}, n ∈ op.names → LastOf a.children n p → ∃ t, a.tree p = some t ∧ a.Involves op t := by
    rintro n hn ⟨l, x, e⟩
    have hm : n ∈ a.children p := by rw [e]; simp
    obtain ⟨t, e1⟩ := T.some_of_mem hm
    exact ⟨t, (T.mem hm).trans e1, .inl ⟨n, hn, e1⟩⟩
  cases op with
  | detach au n => exact key (.head _) h
  | replace au n => exact key (.head _) h.2
  | move au n dest => exact key (.head _) h
  | _ => exact h.elim

theorem Step.sum (st : a.Step op r a') (t : TreeId) :
    a'.grantTok t + a'.prohTok t + a'.newNode ≤ a.grantTok t + a.prohTok t + a.newNode + 1 := by
  have up : ∀ (f : TreeId → Nat) (u : TreeId), upd f u (f u + 1) t ≤ f t + 1 := by
    intro f u
    by_cases e : t = u
    · subst e; rw [upd_same]; exact Nat.le_refl _
    · rw [upd_ne _ _ e]; exact Nat.le_succ _
  have dn : ∀ (f : TreeId → Nat) (u : TreeId), upd f u (f u - 1) t ≤ f t := by
    intro f u
    by_cases e : t = u
    · subst e; rw [upd_same]; exact Nat.sub_le _ _
    · rw [upd_ne _ _ e]; exact Nat.le_refl _
  have gt : ∀ g u, (a.giveTok g u).grantTok t + (a.giveTok g u).prohTok t + (a.giveTok g u).newNode ≤
      a.grantTok t + a.prohTok t + a.newNode + 1 := by
    intro g u
    have h1 := up a.grantTok u
    have h2 := up a.prohTok u
    cases g <;> simp only [giveTok, if_true, if_false, Bool.false_eq_true]
    · exact (by omega : ∀ x y z v : Nat, y ≤ v + 1 → x + y + z ≤ x + v + z + 1) _ _ _ _ h2
    · exact (by omega : ∀ x y z v : Nat, x ≤ v + 1 → x + y + z ≤ v + y + z + 1) _ _ _ _ h1
  have tt : ∀ g u, (a.takeTok g u).grantTok t + (a.takeTok g u).prohTok t + (a.takeTok g u).newNode ≤
      a.grantTok t + a.prohTok t + a.newNode + 1 := by
    intro g u
    have h1 := dn a.grantTok u
    have h2 := dn a.prohTok u
    cases g <;> simp only [takeTok, if_true, if_false, Bool.false_eq_true]
    · exact (by omega : ∀ x y z v : Nat, y ≤ v → x + y + z ≤ x + v + z + 1) _ _ _ _ h2
    · exact (by omega : ∀ x y z v : Nat, x ≤ v → x + y + z ≤ v + y + z + 1) _ _ _ _ h1
  cases st with
  | acquire => exact gt _ _
  | cloneTok => exact gt _ _
  | extract => exact gt _ _
  | dropTok => exact tt _ _
  | newTree | create | createParent | createRoot | createChild | createFails => exact Nat.le_refl _
  | _ => exact Nat.le_succ _

end Forest

/-! ### Histories -/

theorem Shows.live (S : Shows w a) (T : a.Tidy) (e : a.tree n = some t) : w.heap.alive n = true := by
  refine S.alive.2 fun h => ?_
  rw [(T.dead n).1 h] at e; cases e

/-- `last_child` stays right in the other trees. -/
theorem ReachW.last_kept (hr : ReachW w) (S : Shows w a) (s : w.StepW op w' r) (S' : Shows w' a')
    (hi : ¬ a.Involves op t) (hN : t ≠ a.newTree) (e : a.tree p = some t) (hl : LastRight w.heap a.children p) :
    LastRight w'.heap a'.children p := by
  have T := hr.tidy S
  have hr' : ReachW w' := .step hr s
  obtain ⟨b, S2, st⟩ := s.plays hr S
  obtain rfl := S2.unique S'
  have e' := ((st.frame T hi hN).tree p).2 e
  obtain ⟨v, ch1, W⟩ := hr.wide
  obtain ⟨v', ch2, W', -, h1, -⟩ := s.wide W
  obtain rfl := W.shape.unique S.children
  obtain rfl := W'.shape.unique S'.children
  refine h1 p (S.live T e) (S'.live (hr'.tidy S') e') hl fun hd => ?_
  obtain ⟨u, e1, h2⟩ := T.drops hd
  rw [e] at e1; cases e1
  exact hi h2

/-- A call that finds the same does the same. -/
theorem ReachW.alike (hr : ReachW w) (S : Shows w a) (hr1 : ReachW w1) (S1 : Shows w1 b) (R : w1.Roomy)
    (A : a.AlikeFor b op) (s : w.StepW op w' r)
    (hu : ∀ p, UsesLast b.children op p → LastRight w1.heap b.children p) :
    ∃ w2, w1.StepW op w2 r ∧ ∀ a' b', Shows w' a' → Shows w2 b' →
      ∀ t, (a.Involves op t ∨ op.makesTree = true ∧ t = a.newTree) → a'.SameTree b' t := by
  have T := hr.tidy S
  have U := hr1.tidy S1
  have hm := S.may.2 s.allowed
  obtain ⟨v, ch, W⟩ := hr.wide
  obtain ⟨v1, ch1, W1⟩ := hr1.wide
  have hf := (S.callFits W s.allowed).2 (s.fits _ S.children).1
  obtain ⟨a', S', st⟩ := s.plays hr S
  have hm1 := A.may T hm st
  have hf1 := A.fine T U hm hf
  obtain ⟨b', st1, h1, -⟩ := st.transfer T U A hm
  obtain ⟨w2, e, hr2, S2⟩ := hr1.play S1 (S1.roomy.1 R) hm1 hf1 hu st1
  have ha := S1.may.1 hm1
  refine ⟨w2, ⟨ha, fun ch' F => ?_, W1.room_of_roomy R, e⟩, ?_⟩
  · obtain rfl := S1.children.unique F
    exact ⟨(S1.callFits W1 ha).1 hf1, hu⟩
  · intro a2 b2 h3 h4
    obtain rfl := S'.unique h3
    obtain rfl := S2.unique h4
    exact h1

/-- Two calls that have nothing to do with each other can be made in both orders. -/
theorem ReachW.diamond (hr : ReachW w) (S : Shows w a) (R : w.Spare) (P : a.Apart op1 op2) (K1 : a.Known op1)
    (K2 : a.Known op2) (s1 : w.StepW op1 w1 r1) (s2 : w.StepW op2 w2 r2) :
    ∃ w12 w21, w1.StepW op2 w12 r2 ∧ w2.StepW op1 w21 r1 ∧ ∀ b, Shows w12 b ↔ Shows w21 b := by
  have T := hr.tidy S
  have half : ∀ {x y : Op α} {wx : World α} {rx ry : Res} {wy : World α}, a.Apart x y → a.Known y →
      w.StepW x wx rx → w.StepW y wy ry → ∃ w', wx.StepW y w' ry := by
    intro x y wx rx ry wy P K sx sy
    obtain ⟨ax, Sx, st⟩ := sx.plays hr S
    have hrx : ReachW wx := .step hr sx
    have A := st.alike T P K
    have hm := S.may.2 sy.allowed
    have R' : wx.Roomy := Sx.roomy.2 fun t => by
      have h1 := st.sum t
      have h2 := R t
      rw [← S.grantTok, ← S.prohTok, ← S.newNode] at h2
      exact Nat.lt_of_le_of_lt h1 h2
    obtain ⟨w', h, -⟩ := hr.alike S hrx Sx R' A sy fun p hu => by
      obtain ⟨hu', t, e, hi⟩ := A.uses T (hrx.tidy Sx) hm hu
      exact hr.last_kept S sx Sx (P.symm.trees t hi) (Nat.ne_of_lt (T.known K hi)) e
        ((sy.fits _ S.children).2 p hu')
    exact ⟨w', h⟩
  obtain ⟨w12, h12⟩ := half P K2 s1 s2
  obtain ⟨w21, h21⟩ := half P.symm K1 s2 s1
  refine ⟨w12, w21, h12, h21, ?_⟩
  have hr1 : ReachW w1 := .step hr s1
  have hr2 : ReachW w2 := .step hr s2
  have hr12 : ReachW w12 := .step hr1 h12
  have hr21 : ReachW w21 := .step hr2 h21
  obtain ⟨a1, S1, t1⟩ := s1.plays hr S
  obtain ⟨a2, S2, t2⟩ := s2.plays hr S
  obtain ⟨a12, S12, t12⟩ := h12.plays hr1 S1
  obtain ⟨a21, S21, t21⟩ := h21.plays hr2 S2
  obtain ⟨-, -, rfl⟩ := Forest.Step.swap T (hr1.tidy S1) (hr2.tidy S2) (hr12.tidy S12) (hr21.tidy S21) P K1 K2
    (S.may.2 s1.allowed) (S.may.2 s2.allowed) t1 t2 t12 t21
  intro b
  constructor
  · intro h; obtain rfl := S12.unique h; exact S21
  · intro h; obtain rfl := S21.unique h; exact S12

end Dendron
