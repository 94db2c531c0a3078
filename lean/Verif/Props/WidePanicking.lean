import Verif.Props.WideTree
import Verif.Props.Panicking

/-!
# C60 in histories that damage last children
-/

set_option autoImplicit false

namespace Dendron
open RTree
variable {α : Type} {w w' : World α} {ch : NodeId → List NodeId} {n p : NodeId} {au : Auth} {d : α}
  {as : AdoptAs} {dest : InsertAs NodeId} {t : RTree NodeId} {op : Op α}

private theorem wrong_token (hf : ¬ TokenFits w.heap n au) : ∃ s, w.checkAuth au n = .error (.panic s) := by
  cases au with
  | hot => exact absurd trivial hf
  | token t =>
    refine ⟨"the grant is not valid for the node of interest", ?_⟩
    have : w.heap.memTree n ≠ some t := hf
    simp [World.checkAuth, Heap.belongsTo, this]

/-- What a call does when it can be made. -/
theorem ReachW.performs (hr : ReachW w) (F : FShape w.heap ch) (R : w.Roomy) (ha : w.Allowed op)
    (hc : CallFits w.heap ch op) (hu : ∀ p, UsesLast ch op p → LastRight w.heap ch p) (ht : TokenOK w.heap op) :
    ∃ a w' r a', Shows w a ∧ a.children = ch ∧ w.exec op = .ok (w', r) ∧ ReachW w' ∧ Shows w' a' ∧ a.Step op r a' := by
  obtain ⟨a, S⟩ := Shows.exists hr
  obtain rfl := F.unique S.children
  obtain ⟨v, ch', W⟩ := hr.wide
  obtain rfl := S.children.unique W.shape
  have hroom := W.room_of_roomy R
  obtain ⟨w', r, a', e, S', st⟩ := W.plays S ha hc hu hroom ht
  refine ⟨a, w', r, a', S, rfl, e, .step hr ⟨ha, fun ch2 F2 => ?_, hroom, e⟩, S', st⟩
  obtain rfl := S.children.unique F2
  exact ⟨hc, hu⟩

/-- The same abstract state up to names. -/
theorem Shows.back {a a' : Forest α} (hr : ReachW w) (S : Shows w a) (hr' : ReachW w') (S' : Shows w' a')
    (h1 : a'.data = a.data) (h2 : a'.borrowed = a.borrowed) (h3 : a'.tree = a.tree) (h4 : a'.children = a.children)
    (h5 : a'.trees = a.trees) (h6 : a'.grantTok = a.grantTok) (h7 : a'.prohTok = a.prohTok) (h8 : a'.held = a.held) :
    Undone w w' a.children a'.children :=
  ((Grown.refl a).of_held (b' := .new) h1 h2 h3 h4 h5 h6 h7 (fun k x => by rw [h8])).undone hr S hr' S'

/-- C60, creation.  A grant of another tree makes `create_node_as` panic at once.  Otherwise it panics
exactly if a sibling of a root is asked for, and then everything is as before; if it returns, it has done
what `try_create_node_as` does. -/
theorem C60_create_wide (hr : ReachW w) (R : w.Roomy) (F : FShape w.heap ch) (ha : w.Allowed (.create au n d as))
    (hu : ∀ p, UsesLast ch (.create au n d as) p → LastRight w.heap ch p) :
    (¬ TokenFits w.heap n au → ∃ s, w.createNodeAs au n d as = .error (.panic s)) ∧
    (TokenFits w.heap n au → (as = .previousSibling ∨ as = .nextSibling) → (∀ p, n ∉ ch p) →
      ∃ w', w.createNodeAs au n d as = .ok (.panicked w') ∧ ReachW w' ∧ FShape w'.heap ch ∧ Undone w w' ch ch) ∧
    (TokenFits w.heap n au → (as = .firstChild ∨ as = .lastChild ∨ ∃ p, n ∈ ch p) →
      ∃ w' m, w.createNodeAs au n d as = .ok (.returned w' (.node (some m))) ∧ ReachW w' ∧
        w.exec (.create au n d as) = .ok (w', .node (some m))) := by
  refine ⟨fun hf => ?_, fun hf has hroot => ?_, fun hf hpos => ?_⟩
  · obtain ⟨s, e⟩ := wrong_token hf
    exact ⟨s, by simp only [World.createNodeAs, World.exec, e, bind, Except.bind, World.result, Ending.expect]⟩
  · obtain ⟨a, w', r, a', S, rfl, e, hr', S', st⟩ := hr.performs F R ha trivial hu hf
    cases st with
    | create _ _ h3 =>
      rcases has with rfl | rfl
      · cases h3 with
        | prev h => exact absurd (by rw [h]; simp) (hroot _)
      · cases h3 with
        | next h => exact absurd (by rw [h]; simp) (hroot _)
    | createFails =>
      refine ⟨w', ?_, hr', S'.children, S.back (a' := { a with newNode := a.newNode + 1 }) hr hr' S' rfl rfl rfl rfl rfl rfl rfl rfl⟩
      simp only [World.createNodeAs, e, World.result, Ending.expect]
  · obtain ⟨a, w', r, a', S, rfl, e, hr', S', st⟩ := hr.performs F R ha trivial hu hf
    cases st with
    | create =>
      exact ⟨w', _, by simp only [World.createNodeAs, e, World.result, Ending.expect], hr', e⟩
    | createFails _ h2 h3 =>
      rcases hpos with rfl | rfl | ⟨p, hp⟩
      · simp at h3
      · simp at h3
      · exact absurd hp (h2 p)

/-- C60, replacement by the children: with a grant of the right tree, `replace_with_children` panics
exactly for a root that does not have exactly one child, and then everything is as before; otherwise it does
what `try_replace_with_children` does. -/
theorem C60_replace_wide (hr : ReachW w) (R : w.Roomy) (F : FShape w.heap ch) (ha : w.Allowed (.replace au n))
    (hu : ∀ p, UsesLast ch (.replace au n : Op α) p → LastRight w.heap ch p) :
    (¬ TokenFits w.heap n au → ∃ s, w.replaceWithChildren au n = .error (.panic s)) ∧
    (TokenFits w.heap n au → (∀ p, n ∉ ch p) → (ch n).length ≠ 1 →
      ∃ w', w.replaceWithChildren au n = .ok (.panicked w') ∧ ReachW w' ∧ FShape w'.heap ch ∧ Undone w w' ch ch) ∧
    (TokenFits w.heap n au → ((∃ p, n ∈ ch p) ∨ (ch n).length = 1) →
      ∃ w', w.replaceWithChildren au n = .ok (.returned w' .unit) ∧ ReachW w' ∧
        w.exec (.replace au n) = .ok (w', .unit)) := by
  refine ⟨fun hf => ?_, fun hf hroot hlen => ?_, fun hf hpos => ?_⟩
  · obtain ⟨s, e⟩ := wrong_token hf
    exact ⟨s, by simp only [World.replaceWithChildren, World.exec, e, bind, Except.bind, World.result,
      Ending.expect]⟩
  · obtain ⟨a, w', r, a', S, rfl, e, hr', S', st⟩ := hr.performs F R ha trivial hu hf
    cases st with
    | replace _ h => exact absurd (by rw [h]; simp) (hroot _)
    | replaceRoot _ _ h => rw [h] at hlen; simp at hlen
    | replaceEmpty =>
      exact ⟨w', by simp only [World.replaceWithChildren, e, World.result, Ending.expect], hr', S'.children,
        S.back hr hr' S' rfl rfl rfl rfl rfl rfl rfl rfl⟩
    | replaceSeveral =>
      exact ⟨w', by simp only [World.replaceWithChildren, e, World.result, Ending.expect], hr', S'.children,
        S.back hr hr' S' rfl rfl rfl rfl rfl rfl rfl rfl⟩
  · obtain ⟨a, w', r, a', S, rfl, e, hr', S', st⟩ := hr.performs F R ha trivial hu hf
    have bad : a.IsTop n → (a.children n).length ≠ 1 → False := fun h1 h2 => by
      rcases hpos with ⟨p, hp⟩ | h
      · exact h1 p hp
      · exact h2 h
    cases st with
    | replace =>
      exact ⟨w', by simp only [World.replaceWithChildren, e, World.result, Ending.expect], hr', e⟩
    | replaceRoot =>
      exact ⟨w', by simp only [World.replaceWithChildren, e, World.result, Ending.expect], hr', e⟩
    | replaceEmpty _ h1 h2 => exact (bad h1 (by rw [h2]; simp)).elim
    | replaceSeveral _ h1 h2 => exact (bad h1 (Nat.ne_of_gt h2)).elim

/-- C60, moves: a grant of another tree makes `detach_insert_subtree` panic at once.  With a grant of the right
tree, where no known defect is met (`CallFits`), it returns and does what `try_detach_insert_subtree` does. -/
theorem C60_move_wide (hr : ReachW w) (R : w.Roomy) (F : FShape w.heap ch) (ha : w.Allowed (.move au n dest)) :
    (¬ TokenFits w.heap n au → ∃ s, w.detachInsertSubtree au n dest = .error (.panic s)) ∧
    (TokenFits w.heap n au → CallFits w.heap ch (.move au n dest : Op α) →
      (∀ p, UsesLast ch (.move au n dest : Op α) p → LastRight w.heap ch p) →
      ∃ w', w.detachInsertSubtree au n dest = .ok (.returned w' .unit) ∧ ReachW w' ∧
        w.exec (.move au n dest) = .ok (w', .unit)) := by
  refine ⟨fun hf => ?_, fun hf hc hu => ?_⟩
  · obtain ⟨s, e⟩ := wrong_token hf
    exact ⟨s, by simp only [World.detachInsertSubtree, World.exec, e, bind, Except.bind, World.result,
      Ending.expect]⟩
  · obtain ⟨a, w', r, a', S, rfl, e, hr', S', st⟩ := hr.performs F R ha hc hu hf
    cases st <;> exact ⟨w', by simp only [World.detachInsertSubtree, e, World.result, Ending.expect], hr', e⟩

/-- C60, copies: `clone_subtree` panics exactly if some data in the subtree is mutably borrowed, and then
everything is as before; otherwise it returns what `try_clone_subtree` returns. -/
theorem C60_clone_wide {f : Nat} (hr : ReachW w) (F : FShape w.heap ch) (ha : w.heap.alive n = true)
    (ht : SubtreeAt ch n t) (hs : 2 * t.size ≤ usizeMax) (hf : 2 * t.size < f) (hroom : w.RoomFor (2 * t.size)) :
    ((∃ x ∈ t.nodes, w.heap.mutB x = true) →
      ∃ w' ch', w.cloneSubtree f n = .ok (.panicked w') ∧ ReachW w' ∧ FShape w'.heap ch' ∧ Undone w w' ch ch') ∧
    ((∀ x ∈ t.nodes, w.heap.mutB x = false) →
      ∃ w' m, w.cloneSubtree f n = .ok (.returned w' m) ∧ ReachW w' ∧
        Builder.tryCloneSubtree f w n = .ok (w', .ok m)) := by
  refine ⟨fun hb => ?_, fun hb => ?_⟩
  · obtain ⟨w', ch', e, h1⟩ := C34_fails_wide hr F ha ht hs hf hroom hb
    exact ⟨w', ch', by simp only [World.cloneSubtree, e, Ending.expect], h1⟩
  · obtain ⟨u, hd, -⟩ := C29_data_exists_unique F ha ht
    obtain ⟨w', m, ch', e, h1, -⟩ := C34_copies_wide hr F ha ht hd hs hf hroom hb
    exact ⟨w', m, by simp only [World.cloneSubtree, e, Ending.expect], h1, e⟩

/-- C60, copies of trees: the same for `clone_tree`. -/
theorem C60_clone_tree_wide {f : Nat} {T : TreeId} {r : NodeId} (hr : ReachW w) (F : FShape w.heap ch)
    (hT : 0 < w.trees T) (hroot : w.heap.rootLink T = .ok r) (ht : SubtreeAt ch r t) (hs : 2 * t.size ≤ usizeMax)
    (hf : 2 * t.size < f) (hroom : w.RoomFor (2 * t.size)) :
    ((∃ x ∈ t.nodes, w.heap.mutB x = true) →
      ∃ w' ch', w.cloneWholeTree f T = .ok (.panicked w') ∧ ReachW w' ∧ FShape w'.heap ch' ∧ Undone w w' ch ch') ∧
    ((∀ x ∈ t.nodes, w.heap.mutB x = false) →
      ∃ w' T', w.cloneWholeTree f T = .ok (.returned w' T') ∧ ReachW w' ∧
        Builder.tryCloneTree f w T = .ok (w', .ok T')) := by
  refine ⟨fun hb => ?_, fun hb => ?_⟩
  · obtain ⟨w', ch', e, h1⟩ := C34_tree_fails_wide hr F hT hroot ht hs hf hroom hb
    exact ⟨w', ch', by simp only [World.cloneWholeTree, e, Ending.expect], h1⟩
  · obtain ⟨a, S⟩ := Shows.exists hr
    obtain ⟨w1, e1, hr1, S1, hrT, hra⟩ := hr.root_handle S (hroom.roomy S (Nat.le_add_right _ _) rfl rfl) hT hroot
    obtain ⟨u, hd, -⟩ := C29_data_exists_unique F hra ht
    obtain ⟨w', T', m, ch', e, h1, -⟩ := C34_tree_wide hr F hT hroot ht hd hs hf hroom hb
    exact ⟨w', T', by simp only [World.cloneWholeTree, e, Ending.expect], h1, e⟩

/-! The concrete program: `last_child` of node 0, the root, is wrong; its children are 1 and 2. -/

example : ∃ ch, ReachW (DemoWorld.wide 5) ∧ (DemoWorld.wide 5).Roomy ∧ FShape (DemoWorld.wide 5).heap ch ∧
    (DemoWorld.wide 5).heap.lastChildLink 0 = .ok (some 3) ∧ ch 0 = [1, 2] ∧ (∀ p, 0 ∉ ch p) ∧
    (DemoWorld.wide 5).Allowed (.create .hot 0 21 .nextSibling) ∧
    (∀ p, UsesLast ch (.create .hot 0 21 .nextSibling : Op Nat) p → LastRight (DemoWorld.wide 5).heap ch p) ∧
    (DemoWorld.wide 5).Allowed (.replace .hot 1) ∧ (DemoWorld.wide 5).RoomFor 6 ∧
    (∃ w', (DemoWorld.wide 5).createNodeAs .hot 0 21 .nextSibling = .ok (.panicked w')) ∧
    (∃ w' m, (DemoWorld.wide 5).createNodeAs .hot 2 21 .previousSibling = .ok (.returned w' (.node (some m)))) ∧
    (∃ w' m, (DemoWorld.wide 5).cloneSubtree 9 0 = .ok (.returned w' m)) := by
  obtain ⟨a, S⟩ := Shows.exists DemoWorld.wideReach5
  obtain ⟨h0, h1, h2⟩ := DemoWorld.wideChildren S.children
  have top : ∀ p, 0 ∉ a.children p := fun p hp => by
    have := S.children.parent_of_mem hp
    rw [show (DemoWorld.wide 5).heap.parent 0 = none from rfl] at this; cases this
  refine ⟨a.children, DemoWorld.wideReach5, fun t => ?_, S.children, rfl, h0, top, (by decide : 0 < _), ?_, (by decide : 0 < _),
    DemoWorld.wideRoomFor _ (by decide), ⟨_, rfl⟩, ⟨_, _, rfl⟩, ⟨_, _, rfl⟩⟩
  · have := DemoWorld.wideRoomFor 0 (by decide) t
    omega
  · rintro p ⟨l1, l2, hd, -⟩
    cases hd with
    | next h => exact absurd (by rw [h]; simp) (top _)

end Dendron
