import Verif.Proofs.WideTree
import Verif.Proofs.Local
import Verif.Props.WideBuild
import Verif.Props.Collect
import Verif.Model.Macro

/-!
# C31, C34 in the histories of `ReachW`: `HotNode`, `FrozenNode` and `Tree` values

The trees that builders make, as values of the other kinds, after calls that have left a `last_child` wrong.
-/

set_option autoImplicit false

namespace Dendron
open RTree
variable {α : Type} {w w' : World α} {a a' : Forest α} {ch : NodeId → List NodeId} {n : NodeId} {t : RTree NodeId}
  {u : RTree α}

/-- Collecting events that describe a tree. -/
theorem ReachW.collect {k : Nat} (hr : ReachW w) (S : Shows w a) {l : List (Event α)} (hroom : w.RoomFor l.length)
    (hd : Describes (Event.expand l) k u) :
    ∃ w' a' n, Builder.fromEvents w l = .ok (w', .ok n) ∧ ReachW w' ∧ Shows w' a' ∧ NewTree w w' a'.children n u ∧
      GotPlain w w' n ∧ Untouched w w' a.children a'.children none ∧ a'.newNode ≤ a.newNode + l.length := by
  have hz : 0 + l.length = l.length := Nat.zero_add _
  obtain ⟨w1, b, res, a1, h1, A, h2⟩ := AtWork.pushAll hr S l (AtWork.init hr S) (.fresh rfl) (by rw [hz]; exact hroom)
  rw [hz] at A
  rw [List.nil_append] at h2
  have hE : Event.expand l ≠ [] := by
    intro hc; rw [hc] at hd; exact Describes.not_nil hd
  rcases h2 with ⟨rfl, k', F'⟩ | ⟨-, -, h3⟩
  · obtain ⟨w2, a2, n, j, v, e2, h3, S2, h4, h5, h6, h7, h8⟩ := A.finish hr S hroom F' hE
    obtain ⟨-, rfl⟩ := h4.unique hd
    refine ⟨w2, a2, n, ?_, h3, S2, h5, h6, h7, h8⟩
    simp only [Builder.fromEvents, h1, bind, Except.bind]; exact e2
  · exact absurd ⟨k, u, hd⟩ h3

/-- Copying a subtree. -/
theorem ReachW.copy {f : Nat} (hr : ReachW w) (S : Shows w a) (ha : w.heap.alive n = true) (ht : SubtreeAt a.children n t)
    (hd : HasData w.heap t u) (hs : 2 * t.size ≤ usizeMax) (hf : 2 * t.size < f) (hroom : w.RoomFor (2 * t.size))
    (hb : ∀ x ∈ t.nodes, w.heap.mutB x = false) :
    ∃ w' a' m, Builder.tryCloneSubtree f w n = .ok (w', .ok m) ∧ ReachW w' ∧ Shows w' a' ∧
      NewTree w w' a'.children m u ∧ GotPlain w w' m ∧ Untouched w w' a.children a'.children none ∧
      a'.newNode ≤ a.newNode + 2 * t.size := by
  obtain ⟨w1, a1, b, j, A, h⟩ := AtWork.clone hr S ha ht hd hs hf hroom
  rcases h with ⟨-, h1, h2⟩ | ⟨⟨x, hx, h1⟩, -⟩
  · have hu : Describes u.steps 0 u := by simp [Describes]
    obtain ⟨w2, a2, m, j', v, e2, h3, S2, h4, h5, h6, h7, h8⟩ := A.finish hr S hroom h1 (by
      intro hc; rw [hc] at hu; exact Describes.not_nil hu)
    obtain ⟨-, rfl⟩ := h4.unique hu
    refine ⟨w2, a2, m, ?_, h3, S2, h5, h6, h7, h8⟩
    simp only [Builder.tryCloneSubtree, h2, e2, bind, Except.bind, pure, Except.pure]
  · rw [hb x hx] at h1; cases h1

/-- Room is left after at most `j` nodes were made. -/
theorem World.RoomFor.roomy {j : Nat} (hroom : w.RoomFor j) (S : Shows w a) (h1 : a'.newNode ≤ a.newNode + j)
    (h2 : a'.grantTok = a.grantTok) (h3 : a'.prohTok = a.prohTok) : a'.Roomy := by
  intro t
  have := hroom t
  rw [h2, h3, S.grantTok, S.prohTok]
  rw [S.newNode] at h1
  have key : ∀ x y g p : Nat, x ≤ y + j → g + p + y + j + 1 < 2 ^ 62 → g + p + x < 2 ^ 62 := by omega
  exact key _ _ _ _ h1 this

theorem Untouched.toks (U : Untouched w w' a.children a'.children none) (S : Shows w a) (S' : Shows w' a') :
    a'.grantTok = a.grantTok ∧ a'.prohTok = a.prohTok := by
  rw [S'.grantTok, S.grantTok, S'.prohTok, S.prohTok]
  exact ⟨U.grantTok, U.prohTok⟩

/-- A handle to the root of the new tree. -/
theorem GotPlain.held (G : GotPlain w w' n) (S' : Shows w' a') : 0 < a'.held .plain n := by
  rw [S'.held, G]; simp

/-- The name of the new tree. -/
theorem NewTree.named (N : NewTree w w' a'.children n u) (hr' : ReachW w') (S' : Shows w' a') :
    ∃ t, a'.tree n = some t ∧ w'.heap.nodeTree n = .ok t ∧ w.heap.nTree ≤ t := by
  obtain ⟨⟨t, e1, e2, -⟩, s, g1, -, g3⟩ := N
  have hn := (g3 n ((g1.mem_nodes_iff n).2 (.refl _))).2.1
  exact ⟨t, (hr'.nodeTree_live S' (S'.alive.1 hn)).1 e1, e1, e2⟩

/-- C31: collecting events into a `HotNode` or a `FrozenNode`: no call panics; the result is a handle of
that kind to the root of the tree the events describe, or an error and everything is as before. -/
theorem C31_from_events_as_wide {k : Kind} (hk : k ≠ .plain) (hr : ReachW w) (F : FShape w.heap ch)
    (l : List (Event α)) (hroom : w.RoomFor l.length) :
    (∀ j t, Describes (Event.expand l) j t → ∃ w' n ch', Builder.fromEventsAs w k l = .ok (w', .ok n) ∧
      ReachW w' ∧ FShape w'.heap ch' ∧ NewTree w w' ch' n t ∧ GotHandle k w w' n ∧
      Untouched w w' ch ch' none) ∧
    ((∀ j t, ¬ Describes (Event.expand l) j t) → ∃ w' err ch',
      Builder.fromEventsAs w k l = .ok (w', .error err) ∧ ReachW w' ∧ FShape w'.heap ch' ∧
      Undone w w' ch ch') := by
  obtain ⟨a, S⟩ := Shows.exists hr
  obtain rfl := F.unique S.children
  constructor
  · intro j u hd
    obtain ⟨w1, a1, n, e1, hr1, S1, N, G, U, hfew⟩ := hr.collect S hroom hd
    obtain ⟨k1, k2⟩ := U.toks S S1
    have R1 := hroom.roomy S hfew k1 k2
    obtain ⟨T, g1, -, g3⟩ := N.named hr1 S1
    have hn := G.held S1
    obtain ⟨t1, t2⟩ := (hr.tidy S).noTok T (by rw [S.newTree]; exact g3)
    obtain ⟨w2, e2, hr2, S2⟩ := hr1.to_bundle S1 R1 hk hn g1 (by rw [k1]; exact t1) (by rw [k2]; exact t2)
      (fun m q hq hm => by
        rcases Nat.eq_zero_or_pos (a1.held q m) with h | h
        · exact h
        · have h0 : 0 < a.held q m := by
            rw [S1.held, G, if_neg (by rintro ⟨rfl, -⟩; exact hq rfl), ← S.held] at h; exact h
          have hm0 := hr.held_live S h0
          obtain ⟨T0, i1, i2⟩ := hr.tree_live S hm0
          have hm1 := S.alive.2 hm0
          have := U.tree m hm1
          rw [(hr.nodeTree_live S hm0).2 i1] at this
          rw [(hr1.nodeTree_live S1 (S1.alive.1 (U.alive m hm1))).1 this] at hm
          cases hm
          rw [S.newTree] at i2
          exact absurd g3 (Nat.not_le.2 i2))
    have hsame : a1.Same ((a1.take .plain n).give k n) := (a1.same_take .plain n).trans (Forest.same_give _ k n)
    refine ⟨w2, n, _, ?_, hr2, S2.children, N.same (.refl a) S S hsame hr1 S1 hr2 S2, ?_, ?_⟩
    · simp only [Builder.fromEventsAs, bind, Except.bind, e1, e2]; rfl
    · intro k' x
      rw [← S2.held]
      have := G k' x
      rw [← S1.held] at this
      simp only [Forest.give, Forest.take]
      by_cases h1 : k' = k ∧ x = n
      · obtain ⟨rfl, rfl⟩ := h1
        simp [hk] at this ⊢; exact this
      · by_cases h2 : k' = .plain ∧ x = n
        · obtain ⟨rfl, rfl⟩ := h2
          simp [Ne.symm hk] at this ⊢; omega
        · simp only [if_neg h1, if_neg h2] at this ⊢; exact this
    · have hv : w2.trees = w.trees := by
        rw [← S2.trees]; show a1.trees = _; rw [S1.trees]; exact U.trees
      exact Untouched.same (v := w2.trees) (.refl a) hr S hr S hsame hr1 S1 hr2 S2 U hv
  · intro hn
    obtain ⟨w', err, ch', e, h⟩ := (C31_from_events_wide hr S.children l hroom).2 hn
    refine ⟨w', err, ch', ?_, h⟩
    simp only [Builder.fromEventsAs, bind, Except.bind, e]; rfl

/-- What `fromEventsTree` and `tree!` do with the handle of the root. -/
theorem ReachW.as_tree {j : Nat} {w1 : World α} {a1 : Forest α} (hr : ReachW w) (S : Shows w a) (hroom : w.RoomFor j)
    (hr1 : ReachW w1) (S1 : Shows w1 a1) (N : NewTree w w1 a1.children n u) (G : GotPlain w w1 n)
    (U : Untouched w w1 a.children a1.children none) (hfew : a1.newNode ≤ a.newNode + j) :
    ∃ w2 w3 T ch', w1.exec (.treeOf .plain n) = .ok (w2, .tree (some T)) ∧ w2.exec (.drop .plain n) = .ok (w3, .unit) ∧
      ReachW w3 ∧ FShape w3.heap ch' ∧ NewTree w w3 ch' n u ∧ w3.heap.nodeTree n = .ok T ∧
      w3.held = w.held ∧ w3.trees = upd w.trees T (w.trees T + 1) ∧
      Untouched w { w3 with trees := w.trees } a.children ch' none := by
  obtain ⟨k1, k2⟩ := U.toks S S1
  have R1 := hroom.roomy S hfew k1 k2
  obtain ⟨T, g1, g2, g3⟩ := N.named hr1 S1
  have hn := G.held S1
  obtain ⟨w2, w3, e2, e3, hr3, S3⟩ := hr1.to_tree S1 R1 hn g1
  have hsame : a1.Same ((a1.giveTree T).take .plain n) := (a1.same_giveTree T).trans (Forest.same_take _ .plain n)
  have hna : w1.heap.alive n = true := S1.alive.2 (hr1.held_live S1 hn)
  refine ⟨w2, w3, T, _, e2, e3, hr3, S3.children, N.same (.refl a) S S hsame hr1 S1 hr3 S3, ?_, ?_, ?_,
    U.same (.refl a) hr S hr S hsame hr1 S1 hr3 S3 rfl⟩
  · rw [hsame.nodeTree hr1 S1 hr3 S3 hna]; exact g2
  · funext k x
    rw [← S3.held]
    have := G k x
    rw [← S1.held] at this
    simp only [Forest.take, Forest.giveTree]
    split
    · rename_i h
      rw [if_pos h] at this
      obtain ⟨rfl, rfl⟩ := h
      rw [this]; rfl
    · rename_i h
      rw [if_neg h] at this; exact this
  · rw [← S3.trees]
    show upd a1.trees T (a1.trees T + 1) = _
    rw [S1.trees, U.trees]

/-- C31: collecting events into a `Tree`: the result is the only new `Tree` value, and the program holds
no new handle; or an error and everything is as before. -/
theorem C31_from_events_tree_wide (hr : ReachW w) (F : FShape w.heap ch) (l : List (Event α)) (hroom : w.RoomFor l.length) :
    (∀ j u, Describes (Event.expand l) j u → ∃ w' t n ch', Builder.fromEventsTree w l = .ok (w', .ok t) ∧
      ReachW w' ∧ FShape w'.heap ch' ∧ NewTree w w' ch' n u ∧ w'.heap.nodeTree n = .ok t ∧
      w'.held = w.held ∧ w'.trees = upd w.trees t (w.trees t + 1) ∧
      Untouched w { w' with trees := w.trees } ch ch' none) ∧
    ((∀ j t, ¬ Describes (Event.expand l) j t) → ∃ w' err ch',
      Builder.fromEventsTree w l = .ok (w', .error err) ∧ ReachW w' ∧ FShape w'.heap ch' ∧
      Undone w w' ch ch') := by
  obtain ⟨a, S⟩ := Shows.exists hr
  obtain rfl := F.unique S.children
  constructor
  · intro j u hd
    obtain ⟨w1, a1, n, e1, hr1, S1, N, G, U, hfew⟩ := hr.collect S hroom hd
    obtain ⟨w2, w3, T, ch', e2, e3, h1, h2, h3, h4, h5, h6, h7⟩ := hr.as_tree S hroom hr1 S1 N G U hfew
    refine ⟨w3, T, n, ch', ?_, h1, h2, h3, h4, h5, h6, h7⟩
    simp only [Builder.fromEventsTree, bind, Except.bind, e1, e2, e3]; rfl
  · intro hn
    obtain ⟨w', err, ch', e, h⟩ := (C31_from_events_wide hr S.children l hroom).2 hn
    refine ⟨w', err, ch', ?_, h⟩
    simp only [Builder.fromEventsTree, bind, Except.bind, e]; rfl

/-! ### `clone_tree` -/

/-- The handle that `clone_tree` takes to the root of the tree. -/
theorem ReachW.root_handle {T : TreeId} {r : NodeId} (hr : ReachW w) (S : Shows w a) (R : a.Roomy) (hT : 0 < w.trees T)
    (hroot : w.heap.rootLink T = .ok r) :
    ∃ w1, w.exec (.treeRoot T) = .ok (w1, .node (some r)) ∧ ReachW w1 ∧ Shows w1 (a.give .plain r) ∧
      a.tree r = some T ∧ w.heap.alive r = true := by
  have hroot' : a.root T = some r := by
    rw [S.root]
    unfold Heap.rootLink at hroot
    split at hroot
    · rename_i e; cases hroot; exact e
    · cases hroot
  obtain ⟨w1, e1, hr1, S1⟩ := hr.tree_root S R (by rw [S.trees]; exact hT) hroot'
  have ht := (hr.tidy S).rootIn hroot'
  exact ⟨w1, e1, hr1, S1, ht, S.alive.2 fun h => by rw [((hr.tidy S).dead r).1 h] at ht; cases ht⟩

/-- C34 for `Tree::try_clone_tree`: the result is the only new `Tree` value: a new tree with the same shape and
data; the program holds no new handle, and nothing else changes. -/
theorem C34_tree_wide {f : Nat} {T : TreeId} {r : NodeId} (hr : ReachW w) (F : FShape w.heap ch) (hT : 0 < w.trees T)
    (hroot : w.heap.rootLink T = .ok r) (ht : SubtreeAt ch r t) (hd : HasData w.heap t u) (hs : 2 * t.size ≤ usizeMax)
    (hf : 2 * t.size < f) (hroom : w.RoomFor (2 * t.size)) (hb : ∀ x ∈ t.nodes, w.heap.mutB x = false) :
    ∃ w' T' m ch', Builder.tryCloneTree f w T = .ok (w', .ok T') ∧ ReachW w' ∧ FShape w'.heap ch' ∧
      NewTree w w' ch' m u ∧ w'.heap.nodeTree m = .ok T' ∧ w'.held = w.held ∧
      w'.trees = upd w.trees T' (w.trees T' + 1) ∧
      Untouched w { w' with trees := w.trees } ch ch' none := by
  obtain ⟨a, S⟩ := Shows.exists hr
  obtain rfl := F.unique S.children
  have R0 : a.Roomy := hroom.roomy S (Nat.le_add_right _ _) rfl rfl
  obtain ⟨w1, e1, hr1, S1, hrT, hra⟩ := hr.root_handle S R0 hT hroot
  have h01 := a.same_give .plain r
  have hroom1 : w1.RoomFor (2 * t.size) := by
    intro q
    have := hroom q
    rw [← S1.grantTok, ← S1.prohTok, ← S1.newNode]
    rw [← S.grantTok, ← S.prohTok, ← S.newNode] at this
    exact this
  have hal : ∀ x ∈ t.nodes, w.heap.alive x = true := fun x hx => S.children.desc_alive hra ((ht.mem_nodes_iff x).1 hx)
  have hd1 : HasData w1.heap t u := by
    have : w1.heap.data = w.heap.data := by rw [← S1.data, ← S.data]; rfl
    rw [HasData, this]; exact hd
  obtain ⟨w2, a2, m, e2, hr2, S2, N, G, U, hfew⟩ := hr1.copy S1 (n := r) (t := t) (by rw [h01.alive S S1]; exact hra)
    ht hd1 hs hf hroom1 (fun x hx => by rw [h01.mutB S S1 (hal x hx)]; exact hb x hx)
  obtain ⟨k1, k2⟩ := U.toks S1 S2
  have R2 : a2.Roomy := hroom1.roomy S1 hfew k1 k2
  obtain ⟨T', g1, g2, g3⟩ := N.named hr2 S2
  have hm := G.held S2
  obtain ⟨w3, w4, e3, e4, hr4, S4⟩ := hr2.to_tree S2 R2 hm g1
  have h24 : a2.Same ((a2.giveTree T').take .plain m) := (a2.same_giveTree T').trans (Forest.same_take _ .plain m)
  -- the handle to the root of the source
  have hTn : T < T' := Nat.lt_of_lt_of_le (by
    obtain ⟨T0, i1, i2⟩ := hr1.tree_live S1 (x := r) (S1.alive.1 (by rw [h01.alive S S1]; exact hra))
    rw [show (a.give .plain r).tree r = some T from hrT] at i1
    cases i1; rw [S1.newTree] at i2; exact i2) g3
  have hne : T ≠ T' := Nat.ne_of_lt hTn
  have hra1 : w1.heap.alive r = true := by rw [h01.alive S S1]; exact hra
  have hrT2 : a2.tree r = some T := by
    have := U.tree r hra1
    rw [(hr1.nodeTree_live S1 (S1.alive.1 hra1)).2 hrT] at this
    exact (hr2.nodeTree_live S2 (S2.alive.1 (U.alive r hra1))).1 this
  have hmr : m ≠ r := by
    rintro rfl
    rw [g1] at hrT2; cases hrT2; exact hne rfl
  have hheld1 : ∀ q x, w1.held q x = if q = .plain ∧ x = r then w.held q x + 1 else w.held q x := by
    intro q x
    rw [← S1.held, ← S.held]; rfl
  have htr : ∀ s, a2.trees s = w.trees s := by
    intro s
    rw [S2.trees, U.trees, ← S1.trees, ← S.trees]; rfl
  have hk : 0 < ((a2.giveTree T').take .plain m).held .plain r := by
    simp only [Forest.take, Forest.giveTree, true_and, if_neg (Ne.symm hmr)]
    rw [S2.held, G, hheld1]
    simp [Ne.symm hmr]
  obtain ⟨w5, e5, hr5, S5⟩ := hr4.drop_quiet (k := .plain) (n := r) (t := T) S4 (h24.roomy R2) hk hrT2 (.inl (by
    show 0 < upd a2.trees T' (a2.trees T' + 1) T
    rw [upd_ne _ _ hne, htr]; exact hT))
  have h25 := h24.trans (Forest.same_take _ .plain r)
  have hma : w2.heap.alive m = true := S2.alive.2 (hr2.held_live S2 hm)
  refine ⟨w5, T', m, _, ?_, hr5, S5.children, N.same h01 S S1 h25 hr2 S2 hr5 S5, ?_, ?_, ?_,
    U.same h01 hr S hr1 S1 h25 hr2 S2 hr5 S5 rfl⟩
  · simp only [Builder.tryCloneTree, bind, Except.bind, pure, Except.pure, e1, e2, e3, e4, e5]
  · rw [h25.nodeTree hr2 S2 hr5 S5 hma]; exact g2
  · funext q x
    have h1 := hheld1 q x
    have h2 := G q x
    rw [← S2.held] at h2
    rw [← S5.held]
    simp only [Forest.take, Forest.giveTree]
    by_cases e1 : q = .plain ∧ x = r
    · have e2 : ¬ (q = .plain ∧ x = m) := by rintro ⟨-, rfl⟩; exact hmr e1.2
      simp only [if_pos e1, if_neg e2] at h1 h2 ⊢; omega
    · simp only [if_neg e1] at h1 ⊢
      by_cases e2 : q = .plain ∧ x = m
      · simp only [if_pos e2] at h2 ⊢; omega
      · simp only [if_neg e2] at h2 ⊢; omega
  · rw [← S5.trees]
    show upd a2.trees T' (a2.trees T' + 1) = _
    funext s
    simp only [upd_apply, htr]

/-- C34 for `Tree::try_clone_tree`: if some data is mutably borrowed, it fails, and everything is as before. -/
theorem C34_tree_fails_wide {f : Nat} {T : TreeId} {r : NodeId} (hr : ReachW w) (F : FShape w.heap ch) (hT : 0 < w.trees T)
    (hroot : w.heap.rootLink T = .ok r) (ht : SubtreeAt ch r t) (hs : 2 * t.size ≤ usizeMax)
    (hf : 2 * t.size < f) (hroom : w.RoomFor (2 * t.size)) (hb : ∃ x ∈ t.nodes, w.heap.mutB x = true) :
    ∃ w' ch', Builder.tryCloneTree f w T = .ok (w', .error .mk) ∧ ReachW w' ∧ FShape w'.heap ch' ∧ Undone w w' ch ch' := by
  obtain ⟨a, S⟩ := Shows.exists hr
  obtain rfl := F.unique S.children
  have R0 : a.Roomy := hroom.roomy S (Nat.le_add_right _ _) rfl rfl
  obtain ⟨w1, e1, hr1, S1, hrT, hra⟩ := hr.root_handle S R0 hT hroot
  have h01 := a.same_give .plain r
  have hroom1 : w1.RoomFor (2 * t.size) := by
    intro q
    have := hroom q
    rw [← S1.grantTok, ← S1.prohTok, ← S1.newNode]
    rw [← S.grantTok, ← S.prohTok, ← S.newNode] at this
    exact this
  have hal : ∀ x ∈ t.nodes, w.heap.alive x = true := fun x hx => S.children.desc_alive hra ((ht.mem_nodes_iff x).1 hx)
  have hra1 : w1.heap.alive r = true := by rw [h01.alive S S1]; exact hra
  obtain ⟨u, hd, -⟩ := C29_data_exists_unique S1.children hra1 (t := t) ht
  obtain ⟨wc, ac, b, j, A, h⟩ := AtWork.clone hr1 S1 (n := r) (t := t) hra1 ht hd hs hf hroom1
  rcases h with ⟨h1, -⟩ | ⟨-, h2⟩
  · obtain ⟨x, hx, h3⟩ := hb
    rw [← h01.mutB S S1 (hal x hx), h1 x hx] at h3; cases h3
  · obtain ⟨w2, a2, e2, hr2, S2, G, hfew⟩ := A.dropAll hr1 S1 hroom1
    have U := G.undone hr1 S1 hr2 S2
    have R2 : a2.Roomy := hroom1.roomy S1 hfew G.grantTok G.prohTok
    have hh : ∀ q x, a2.held q x = (a.give .plain r).held q x := fun q x => by
      rw [S2.held, U.held, S1.held]
    have hrT2 : a2.tree r = some T := by
      rw [G.tree r (S1.alive.1 hra1)]; exact hrT
    obtain ⟨w3, e3, hr3, S3⟩ := hr2.drop_quiet (k := .plain) (n := r) (t := T) S2 R2 (by rw [hh]; simp [Forest.give]) hrT2
      (.inl (by
        show 0 < a2.trees T
        rw [G.trees]; show 0 < a.trees T
        rw [S.trees]; exact hT))
    have h23 := a2.same_take .plain r
    have hv : w3.trees = w.trees := by
      rw [← S3.trees, ← S.trees]; exact G.trees
    refine ⟨w3, _, ?_, hr3, S3.children, ⟨?_, fun x hx => ?_, fun q x => ?_⟩⟩
    · simp only [Builder.tryCloneTree, Builder.tryCloneSubtree, bind, Except.bind, pure, Except.pure, e1, h2, e2, e3]
    · exact Untouched.same (v := w3.trees) h01 hr S hr1 S1 h23 hr2 S2 hr3 S3 U.old hv
    · rw [h23.alive S2 S3] at hx
      have := U.nothingNew x hx
      rw [h01.alive S S1] at this; exact this
    · rw [← S3.held, ← S.held]
      simp only [Forest.take, hh, Forest.give]
      split <;> simp

/-! ### Depth-first events -/

/-- Existing nodes are read as at the beginning. -/
theorem AtWork.tryEvent {w0 : World α} {a0 : Forest α} {b : Builder} {i : Nat} (A : AtWork w0 a0 w a b i) (S0 : Shows w0 a0)
    {e : DftEvent NodeId} (ha : ∀ x, e = .opn x → w0.heap.alive x = true) : w.heap.tryEvent e = w0.heap.tryEvent e := by
  cases e with
  | cls n => rfl
  | opn n =>
    have hn := S0.alive.1 (ha n rfl)
    have h1 : w.heap.data n = w0.heap.data n := by rw [← A.shows.data, ← S0.data]; exact A.grown.data n hn
    have h2 : w.heap.mutB n = w0.heap.mutB n := by
      have := A.grown.borrowed n hn
      rw [A.shows.borrowed, S0.borrowed, ha n rfl, A.shows.alive.2 (by rw [A.grown.data n hn]; exact hn)] at this
      simpa using this
    simp only [Heap.tryEvent, Heap.borrowData, h1, h2]

theorem AtWork.pushDft_eq {w0 : World α} {a0 : Forest α} (hr0 : ReachW w0) (S0 : Shows w0 a0) :
    ∀ (es : List (DftEvent NodeId)) {l : List (Event α)} {w : World α} {a : Forest α} {b : Builder} {i : Nat},
    AtWork w0 a0 w a b i → w0.RoomFor (i + l.length) → (∀ x, DftEvent.opn x ∈ es → w0.heap.alive x = true) →
    Zip (SerItem w0.heap) (es.map DftEvent.toEvent) (l.map .ok) →
    Builder.pushDftAll w b es = Builder.pushAll w b l
  | [], l, w, a, b, i, A, R, ha, hz => by
    cases l with
    | nil => rfl
    | cons a l => cases hz
  | e :: es, l, w, a, b, i, A, R, ha, hz => by
    cases l with
    | nil => cases hz
    | cons v l =>
      simp only [List.map_cons] at hz
      cases hz with
      | cons r hz =>
        have h1 : w.heap.tryEvent e = .ok v := by
          rw [A.tryEvent S0 (fun x hx => ha x (by simp [hx]))]; exact tryEvent_of r
        have R0 : w0.RoomFor i := fun t => by have := R t; omega
        obtain ⟨w1, b1, res, a1, h2, -, A1⟩ := A.push hr0 S0 R0 v
        have hlen : i + 1 + l.length = i + (v :: l).length := by simp only [List.length_cons]; omega
        simp only [Builder.pushDftAll, Builder.pushAll, h1, h2, bind, Except.bind]
        cases res with
        | error x => rfl
        | ok _ => exact AtWork.pushDft_eq hr0 S0 es A1 (by rw [hlen]; exact R) (fun x hx => ha x (by simp [hx])) hz

/-- The first node whose data cannot be read. -/
theorem AtWork.pushDft_busy {w0 : World α} {a0 : Forest α} (hr0 : ReachW w0) (S0 : Shows w0 a0) :
    ∀ (es : List (DftEvent NodeId)) {l : List (Event α)} {rest : List (Except BorrowError (Event α))} {w : World α}
      {a : Forest α} {b : Builder} {i : Nat},
    AtWork w0 a0 w a b i → w0.RoomFor (i + l.length) → (∀ x, DftEvent.opn x ∈ es → w0.heap.alive x = true) →
    Zip (SerItem w0.heap) (es.map DftEvent.toEvent) (l.map .ok ++ .error .mk :: rest) →
    (∀ w2 b2, Builder.pushAll w b l = .ok (w2, b2, .ok ()) →
      Builder.pushDftAll w b es = .ok (w2, b2, .error .borrowData)) ∧
    (∀ w2 b2 x, Builder.pushAll w b l = .ok (w2, b2, .error x) →
      Builder.pushDftAll w b es = .ok (w2, b2, .error x))
  | [], l, rest, w, a, b, i, A, R, ha, hz => by cases l <;> cases hz
  | e :: es, [], rest, w, a, b, i, A, R, ha, hz => by
    simp only [List.map_cons, List.map_nil, List.nil_append] at hz
    cases hz with
    | cons r hz =>
      have h1 : w.heap.tryEvent e = .error .mk := by
        rw [A.tryEvent S0 (fun x hx => ha x (by simp [hx]))]; exact tryEvent_of r
      simp only [Builder.pushDftAll, Builder.pushAll, h1]
      refine ⟨?_, ?_⟩
      · rintro w2 b2 h
        simp only [Except.ok.injEq, Prod.mk.injEq] at h
        obtain ⟨rfl, rfl, -⟩ := h; rfl
      · rintro w2 b2 x h; simp at h
  | e :: es, v :: l, rest, w, a, b, i, A, R, ha, hz => by
    simp only [List.map_cons, List.cons_append] at hz
    cases hz with
    | cons r hz =>
      have h1 : w.heap.tryEvent e = .ok v := by
        rw [A.tryEvent S0 (fun x hx => ha x (by simp [hx]))]; exact tryEvent_of r
      have R0 : w0.RoomFor i := fun t => by have := R t; omega
      obtain ⟨w1, b1, res, a1, h2, -, A1⟩ := A.push hr0 S0 R0 v
      have hlen : i + 1 + l.length = i + (v :: l).length := by simp only [List.length_cons]; omega
      simp only [Builder.pushDftAll, Builder.pushAll, h1, h2, bind, Except.bind]
      cases res with
      | error x => simp [pure, Except.pure]
      | ok _ => exact AtWork.pushDft_busy hr0 S0 es A1 (by rw [hlen]; exact R) (fun x hx => ha x (by simp [hx])) hz

/-- C31: collecting depth-first events of existing nodes whose data can be read is the same as collecting
the events with the data. -/
theorem C31_from_dft_events_wide (hr : ReachW w) {es : List (DftEvent NodeId)} {l : List (Event α)}
    (hroom : w.RoomFor l.length) (ha : ∀ x, DftEvent.opn x ∈ es → w.heap.alive x = true)
    (hz : Zip (SerItem w.heap) (es.map DftEvent.toEvent) (l.map .ok)) :
    Builder.fromDftEvents w es = Builder.fromEvents w l := by
  obtain ⟨a, S⟩ := Shows.exists hr
  simp only [Builder.fromDftEvents, Builder.fromEvents,
    AtWork.pushDft_eq hr S es (AtWork.init hr S) (by rw [Nat.zero_add]; exact hroom) ha hz]

/-- The builder itself never reports a borrow error. -/
theorem Builder.push_error {b b' : Builder} {e : Event α} {x : BuildError}
    (h : Builder.push w b e = .ok (w', b', .error x)) : x ≠ .borrowData := by
  rintro rfl
  cases e with
  | opn d =>
    simp only [Builder.push, Builder.opn, bind, Except.bind, pure, Except.pure] at h
    repeat' split at h
    all_goals simp at h
  | close k =>
    simp only [Builder.push, Builder.close, bind, Except.bind, pure, Except.pure] at h
    repeat' split at h
    all_goals simp at h

theorem Builder.pushAll_error {x : BuildError} : ∀ (l : List (Event α)) {w : World α} {b b' : Builder},
    Builder.pushAll w b l = .ok (w', b', .error x) → x ≠ .borrowData
  | [], w, b, b', h => by simp [Builder.pushAll] at h
  | e :: l, w, b, b', h => by
    simp only [Builder.pushAll, bind, Except.bind] at h
    split at h
    · cases h
    · rename_i r hr
      split at h
      · simp only [pure, Except.pure, Except.ok.injEq, Prod.mk.injEq, Except.error.injEq] at h
        obtain ⟨-, -, rfl⟩ := h
        exact Builder.push_error hr
      · exact Builder.pushAll_error l h
/-- C31, C52: if the data of some node is mutably borrowed, collecting depth-first events fails, and
everything is as before.  The error is the borrow error if the events before are well-formed. -/
theorem C31_from_dft_events_borrowed_wide (hr : ReachW w) (F : FShape w.heap ch)
    {es : List (DftEvent NodeId)} {l : List (Event α)} {rest : List (Except BorrowError (Event α))}
    (hroom : w.RoomFor l.length) (ha : ∀ x, DftEvent.opn x ∈ es → w.heap.alive x = true)
    (hz : Zip (SerItem w.heap) (es.map DftEvent.toEvent) (l.map .ok ++ .error .mk :: rest)) :
    ∃ w' err ch', Builder.fromDftEvents w es = .ok (w', .error err) ∧ ReachW w' ∧ FShape w'.heap ch' ∧
      Undone w w' ch ch' ∧ (Event.Good l ↔ err = .borrowData) := by
  obtain ⟨a, S⟩ := Shows.exists hr
  obtain rfl := F.unique S.children
  have hz0 : 0 + l.length = l.length := Nat.zero_add _
  obtain ⟨k1, k2⟩ := AtWork.pushDft_busy hr S es (AtWork.init hr S) (by rw [hz0]; exact hroom) ha hz
  obtain ⟨w1, b, res, a1, h1, A, h2⟩ := AtWork.pushAll hr S l (AtWork.init hr S) (.fresh rfl) (by rw [hz0]; exact hroom)
  rw [hz0] at A
  rw [List.nil_append] at h2
  obtain ⟨w2, a2, e2, h3, S2, G, -⟩ := A.dropAll hr S hroom
  rcases h2 with ⟨rfl, k', F'⟩ | ⟨⟨err, rfl⟩, g1, g2⟩
  · have hgood : Event.Good l := by
      by_cases hE : Event.expand l = []
      · exact .inl hE
      · obtain ⟨-, -, -, j, v, -, -, -, h4, -⟩ := A.finish hr S hroom F' hE
        exact .inr ⟨j, v, h4⟩
    refine ⟨w2, .borrowData, _, ?_, h3, S2.children, G.undone hr S h3 S2, by simp [hgood]⟩
    · simp only [Builder.fromDftEvents, k1 _ _ h1, e2, bind, Except.bind, pure, Except.pure]
  · refine ⟨w2, err, _, ?_, h3, S2.children, G.undone hr S h3 S2, fun h => ?_, fun h => ?_⟩
    · simp only [Builder.fromDftEvents, k2 _ _ _ h1, e2, bind, Except.bind, pure, Except.pure]
    · rcases h with h | h
      · exact absurd h g1
      · exact absurd h g2
    · exact absurd h (Builder.pushAll_error l h1)

/-- C30: collecting the depth-first traversal of a subtree makes a new tree with the same shape and data;
nothing else changes. -/
theorem C30_collect_traversal_wide (hr : ReachW w) (F : FShape w.heap ch) (ha : w.heap.alive n = true)
    (ht : SubtreeAt ch n t) (hd : HasData w.heap t u) (hb : ∀ x ∈ t.nodes, w.heap.mutB x = false)
    (hroom : w.RoomFor (2 * t.size)) :
    ∃ es, Yields (Dft.next w.heap) (Dft.start n) es ∧
      ∃ w' m ch', Builder.fromDftEvents w es = .ok (w', .ok m) ∧ ReachW w' ∧ FShape w'.heap ch' ∧
        NewTree w w' ch' m u ∧ GotPlain w w' m ∧ Untouched w w' ch ch' none := by
  refine ⟨t.events, (C19_depth_first F ha ht).1, ?_⟩
  have hz := zip_events (h := w.heap) (es := t.events) (fs := u.events)
    (by rw [← events_map, ← events_map, hd]) (fun x hx => hb x ((mem_events_opn t).1 hx))
  have hlen : (u.events.map DftEvent.toEvent).length = 2 * t.size := by
    have := congrArg RTree.events hd
    rw [events_map, events_map] at this
    have := congrArg List.length this
    simp only [List.length_map] at this
    rw [List.length_map, ← this, events_length]; rfl
  rw [C31_from_dft_events_wide hr (by rw [hlen]; exact hroom)
    (fun x hx => F.desc_alive ha ((ht.mem_nodes_iff x).1 ((mem_events_opn t).1 hx))) hz]
  exact (C31_from_events_wide hr F _ (by rw [hlen]; exact hroom)).1 0 u (by
    rw [Describes, expand_toEvent, List.replicate_zero, List.append_nil]; rfl)

/-! The program of `DemoWorld.wide`: `last_child` of node 0 is wrong. -/

namespace DemoWorld

/-- ... which then asks for the `Tree` of node 0. -/
def wideT : World Nat := run [.treeOf .hot 0] (wide 5)

theorem wideReachT : ReachW wideT :=
  .step (op := .treeOf .hot 0) (r := .tree (some 0)) wideReach5 ⟨show 0 < _ by decide, fun ch F => ⟨trivial, fun p hp => hp.elim⟩,
    wideRoom 5 (by decide), rfl⟩

/-- ... which then borrows the data of node 2 mutably. -/
def wideB : World Nat := run [.borrowMut 2 true] wideT

theorem wideTRoom : Room wideT.heap := wideRoom 5 (by decide)

theorem wideReachB : ReachW wideB :=
  .step (op := .borrowMut 2 true) (r := .unit) wideReachT ⟨⟨.hot, show 0 < _ by decide⟩, fun ch F => ⟨trivial, fun p hp => hp.elim⟩,
    wideTRoom, rfl⟩

theorem wideTRoomFor (j : Nat) (hj : j < 100) : wideT.RoomFor j := by
  intro t
  show 0 + 0 + 4 + j + 1 < 2 ^ 62
  omega

theorem wideBRoomFor (j : Nat) (hj : j < 100) : wideB.RoomFor j := by
  intro t
  show 0 + 0 + 4 + j + 1 < 2 ^ 62
  omega

example : wideT.heap.lastChildLink 0 = .ok (some 3) := rfl
example : wideB.heap.lastChildLink 0 = .ok (some 3) := rfl

example : ∃ (ch : NodeId → List NodeId) (t : RTree NodeId) (u : RTree Nat),
    ReachW wideT ∧ FShape wideT.heap ch ∧ 0 < wideT.trees 0 ∧ wideT.heap.rootLink 0 = .ok 0 ∧ SubtreeAt ch 0 t ∧
    HasData wideT.heap t u ∧ 2 * t.size ≤ usizeMax ∧ 2 * t.size < 10 ∧ wideT.RoomFor (2 * t.size) ∧
    (∀ x ∈ t.nodes, wideT.heap.mutB x = false) ∧ t.size = 3 := by
  obtain ⟨a, S⟩ := Shows.exists wideReachT
  obtain ⟨h0, h1, h2⟩ := twoChildren S.children rfl rfl rfl rfl rfl rfl rfl rfl
  exact ⟨a.children, .node 0 [.node 1 [], .node 2 []], .node 10 [.node 11 [], .node 12 []], wideReachT, S.children,
    by decide, rfl, by simp [SubtreeAt, label, Hier, HierL, h0, h1, h2], rfl, by decide, by decide, wideTRoomFor _ (by decide),
    by decide, rfl⟩

example : ∃ (ch : NodeId → List NodeId) (t : RTree NodeId),
    ReachW wideB ∧ FShape wideB.heap ch ∧ 0 < wideB.trees 0 ∧ wideB.heap.rootLink 0 = .ok 0 ∧ SubtreeAt ch 0 t ∧
    2 * t.size ≤ usizeMax ∧ 2 * t.size < 10 ∧ wideB.RoomFor (2 * t.size) ∧ (∃ x ∈ t.nodes, wideB.heap.mutB x = true) ∧
    t.size = 3 := by
  obtain ⟨a, S⟩ := Shows.exists wideReachB
  obtain ⟨h0, h1, h2⟩ := twoChildren S.children rfl rfl rfl rfl rfl rfl rfl rfl
  exact ⟨a.children, .node 0 [.node 1 [], .node 2 []], wideReachB, S.children, by decide, rfl,
    by simp [SubtreeAt, label, Hier, HierL, h0, h1, h2], by decide, by decide, wideBRoomFor _ (by decide),
    ⟨2, by simp [RTree.nodes, RTree.nodesL], rfl⟩, rfl⟩

example : ∃ w' n ch', Builder.fromEventsAs (wide 5) .hot [.opn 1, .opn 2, .close 1, .opn 3, .opn 4] = .ok (w', .ok n) ∧
    ReachW w' ∧ NewTree (wide 5) w' ch' n (.node 1 [.node 2 [], .node 3 [.node 4 []]]) ∧ GotHandle .hot (wide 5) w' n := by
  obtain ⟨a, S⟩ := Shows.exists wideReach5
  obtain ⟨w', n, ch', h1, h2, -, h4, h5, -⟩ := (C31_from_events_as_wide (k := .hot) (by decide) wideReach5 S.children
    [.opn 1, .opn 2, .close 1, .opn 3, .opn 4] (wideRoomFor _ (by decide))).1 3 (.node 1 [.node 2 [], .node 3 [.node 4 []]]) rfl
  exact ⟨w', n, ch', h1, h2, h4, h5⟩

example : ∃ w' t n ch', Builder.fromEventsTree (wide 5) [.opn 1, .opn 2, .close 1, .opn 3, .opn 4] = .ok (w', .ok t) ∧
    ReachW w' ∧ NewTree (wide 5) w' ch' n (.node 1 [.node 2 [], .node 3 [.node 4 []]]) ∧ w'.heap.nodeTree n = .ok t := by
  obtain ⟨a, S⟩ := Shows.exists wideReach5
  obtain ⟨w', t, n, ch', h1, h2, -, h4, h5, -⟩ := (C31_from_events_tree_wide wideReach5 S.children
    [.opn 1, .opn 2, .close 1, .opn 3, .opn 4] (wideRoomFor _ (by decide))).1 3 (.node 1 [.node 2 [], .node 3 [.node 4 []]]) rfl
  exact ⟨w', t, n, ch', h1, h2, h4, h5⟩

/-- The depth-first traversal of the tree of node 0, whose nodes can be read ... -/
example : ∃ (es : List (DftEvent NodeId)) (l : List (Event Nat)), l = [.opn 10, .opn 11, .close 1, .opn 12, .close 1, .close 1] ∧
    ReachW (wide 5) ∧ (wide 5).RoomFor l.length ∧ (∀ x, DftEvent.opn x ∈ es → (wide 5).heap.alive x = true) ∧
    Zip (SerItem (wide 5).heap) (es.map DftEvent.toEvent) (l.map .ok) :=
  ⟨[.opn 0, .opn 1, .cls 1, .opn 2, .cls 2, .cls 0], _, rfl, wideReach5, wideRoomFor _ (by decide),
    by intro x hx; simp at hx; rcases hx with rfl | rfl | rfl <;> rfl,
    .cons (.opn rfl rfl) (.cons (.opn rfl rfl) (.cons (.close 1) (.cons (.opn rfl rfl) (.cons (.close 1) (.cons (.close 1) .nil)))))⟩

/-- ... and where the data of node 2 cannot be read. -/
example : ∃ (es : List (DftEvent NodeId)) (l : List (Event Nat)) (rest : List (Except BorrowError (Event Nat))),
    l = [.opn 10, .opn 11, .close 1] ∧ Event.Good l ∧
    ReachW wideB ∧ wideB.RoomFor l.length ∧ (∀ x, DftEvent.opn x ∈ es → wideB.heap.alive x = true) ∧
    Zip (SerItem wideB.heap) (es.map DftEvent.toEvent) (l.map .ok ++ .error .mk :: rest) :=
  ⟨[.opn 0, .opn 1, .cls 1, .opn 2, .cls 2, .cls 0], _, _, rfl, .inr ⟨1, .node 10 [.node 11 []], rfl⟩, wideReachB,
    wideBRoomFor _ (by decide),
    by intro x hx; simp at hx; rcases hx with rfl | rfl | rfl <;> rfl,
    .cons (.opn rfl rfl) (.cons (.opn rfl rfl) (.cons (.close 1) (.cons (.busy rfl) (.cons (.close 1) (.cons (.close 1) .nil)))))⟩

end DemoWorld

end Dendron
