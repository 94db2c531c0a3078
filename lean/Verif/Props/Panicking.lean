import Verif.Model.Panicking
import Verif.Props.CloneInsert
import Verif.Props.MoveTotal
import Verif.Props.Own
import Verif.Props.Replace

/-!
# C60: the panicking variants
-/

set_option autoImplicit false

namespace Dendron
open RTree
variable {α : Type} {w w' : World α} {ch : NodeId → List NodeId} {n p : NodeId} {a : Auth} {d : α}
  {as : AdoptAs} {dest : InsertAs NodeId} {t : RTree NodeId}

private theorem wrong_token (hf : ¬ TokenFits w.heap n a) : ∃ s, w.checkAuth a n = .error (.panic s) := by
  cases a with
  | hot => exact absurd trivial hf
  | token t =>
    refine ⟨"the grant is not valid for the node of interest", ?_⟩
    have : w.heap.memTree n ≠ some t := hf
    simp [World.checkAuth, Heap.belongsTo, this]

private theorem right_token (hf : TokenFits w.heap n a) : w.checkAuth a n = .ok () := by
  cases a with
  | hot => rfl
  | token t =>
    have : w.heap.memTree n = some t := hf
    simp [World.checkAuth, Heap.belongsTo, this]

private theorem auth_held (ha : w.HasAuth n a) : ∃ k, 0 < w.held k n := by
  cases a with
  | token t => exact ⟨_, ha.1⟩
  | hot => exact ⟨_, ha⟩

/-- C60, creation.  A grant of another tree makes `create_node_as` panic at once.  Otherwise it panics
exactly if a sibling of a root is asked for, and then everything is as before; if it returns, it has done
what `try_create_node_as` does. -/
theorem C60_create (hr : Reach w) (hroom : Room w.heap) (W : WF w.heap ch)
    (ha : w.Allowed (.create a n d as)) :
    (¬ TokenFits w.heap n a → ∃ s, w.createNodeAs a n d as = .error (.panic s)) ∧
    (TokenFits w.heap n a → (as = .previousSibling ∨ as = .nextSibling) → (∀ p, n ∉ ch p) →
      ∃ h', w.createNodeAs a n d as = .ok (.panicked { w with heap := h' }) ∧ SameLive w.heap h' ∧
        WF h' ch) ∧
    (TokenFits w.heap n a → (as = .firstChild ∨ as = .lastChild ∨ ∃ p, n ∈ ch p) →
      ∃ w' m, w.createNodeAs a n d as = .ok (.returned w' (.node (some m))) ∧
        w.exec (.create a n d as) = .ok (w', .node (some m))) := by
  obtain ⟨ch1, I⟩ := hr.inv
  obtain rfl := I.wf.toFShape.unique W.toFShape
  obtain ⟨k, hk⟩ := auth_held (a := a) ha
  have hal := I.held_alive hk
  refine ⟨fun hf => ?_, fun hf has hroot => ?_, fun hf hpos => ?_⟩
  · obtain ⟨s, e⟩ := wrong_token hf
    exact ⟨s, by simp only [World.createNodeAs, World.exec, e, bind, Except.bind, World.result, Ending.expect]⟩
  · obtain ⟨T, hT, -⟩ := W.tree.live n hal
    obtain ⟨h', e, S⟩ := tryCreate_root W hal hT hroot has d
    rw [← nodeCreate_eq W hal hT] at e
    refine ⟨h', ?_, S, S.wf W⟩
    simp only [World.createNodeAs, World.exec, right_token hf, e, bind, Except.bind, pure, Except.pure,
      World.result, Ending.expect]
  · obtain ⟨w', r, -, -, -, e, -⟩ := I.step ha trivial hroom hf
    have hnode : ∃ m, r = .node (some m) := by
      obtain ⟨T, hT, -⟩ := W.tree.live n hal
      have hd : ∃ p l1 l2, DestSplit ch1 (as.at n) p l1 l2 := by
        cases as with
        | firstChild => exact ⟨_, _, _, .first n⟩
        | lastChild => exact ⟨_, _, _, .last n⟩
        | previousSibling =>
          obtain ⟨p, hp⟩ : ∃ p, n ∈ ch1 p := by simpa using hpos
          obtain ⟨l1, l2, hs⟩ := List.append_of_mem hp
          exact ⟨_, _, _, .prev hs⟩
        | nextSibling =>
          obtain ⟨p, hp⟩ : ∃ p, n ∈ ch1 p := by simpa using hpos
          obtain ⟨l1, l2, hs⟩ := List.append_of_mem hp
          exact ⟨_, _, _, .next hs⟩
      obtain ⟨p, l1, l2, hd⟩ := hd
      obtain ⟨h', e1, -⟩ := nodeCreate_ok W hd hal hT d
      simp only [World.exec, right_token hf, e1, bind, Except.bind, World.created, pure, Except.pure] at e
      split at e
      · cases e
      · cases e; exact ⟨_, rfl⟩
    obtain ⟨m, rfl⟩ := hnode
    exact ⟨w', m, by simp only [World.createNodeAs, e, World.result, Ending.expect], e⟩

/-- C60, replacement by the children: with a grant of the right tree, `replace_with_children` panics
exactly for a root that does not have exactly one child, and then nothing has changed; otherwise it does
what `try_replace_with_children` does. -/
theorem C60_replace (hr : Reach w) (hroom : Room w.heap) (W : WF w.heap ch)
    (ha : w.Allowed (.replace a n)) :
    (¬ TokenFits w.heap n a → ∃ s, w.replaceWithChildren a n = .error (.panic s)) ∧
    (TokenFits w.heap n a → (∀ p, n ∉ ch p) → (ch n).length ≠ 1 →
      w.replaceWithChildren a n = .ok (.panicked w)) ∧
    (TokenFits w.heap n a → ((∃ p, n ∈ ch p) ∨ (ch n).length = 1) →
      ∃ w', w.replaceWithChildren a n = .ok (.returned w' .unit) ∧
        w.exec (.replace a n) = .ok (w', .unit)) := by
  obtain ⟨ch1, I⟩ := hr.inv
  obtain rfl := I.wf.toFShape.unique W.toFShape
  obtain ⟨k, hk⟩ := auth_held (a := a) ha
  obtain ⟨T, rc, l, hm, hal, hta⟩ := I.tree_of_held hk
  refine ⟨fun hf => ?_, fun hf hroot hlen => ?_, fun hf hpos => ?_⟩
  · obtain ⟨s, e⟩ := wrong_token hf
    exact ⟨s, by simp only [World.replaceWithChildren, World.exec, e, bind, Except.bind, World.result,
      Ending.expect]⟩
  · have hp : w.heap.parent n = none := by
      cases hp : w.heap.parent n with
      | none => rfl
      | some q => exact absurd (W.mem_of_parent hal hp) (hroot q)
    have e := replace_root_fail W hp hm hlen
    simp only [World.replaceWithChildren, World.exec, right_token hf, e, bind, Except.bind, pure,
      Except.pure, World.result, Ending.expect]
  · obtain ⟨w', r, -, -, -, e, -⟩ := I.step ha trivial hroom hf
    have hlocks : LocksCounted w.heap T := by
      have hmt : w.heap.memTree n = some T := by simp [Heap.memTree, hm]
      exact I.locksCounted hta (Int.le_of_lt (I.edits_grants (op := .replace a n) ha hf hmt))
    obtain ⟨h', r', e1, h1, h2, h3, -⟩ := C11_replace_errors W hm hlocks
    have := h3.2 hpos
    subst this
    simp only [World.exec, right_token hf, e1, bind, Except.bind, pure, Except.pure, Except.ok.injEq,
      Prod.mk.injEq] at e
    obtain ⟨rfl, rfl⟩ := e
    refine ⟨{ w with heap := h' }, ?_, ?_⟩
    rotate_left
    · simp only [World.exec, right_token hf, e1, bind, Except.bind, pure, Except.pure]
    · simp only [World.replaceWithChildren, World.exec, right_token hf, e1, bind, Except.bind, pure,
        Except.pure, World.result, Ending.expect]

/-- C60, moves: a grant of another tree makes `detach_insert_subtree` panic at once.  Otherwise it panics
exactly if a node with a parent is to be put beside itself, or any node beside another node that is a
root; the program that catches this panic finds the node alive and without parent (C17).  In all other
cases it does what `try_detach_insert_subtree` does. -/
theorem C60_move (hr : Reach w) (hroom : Room w.heap) (W : WF w.heap ch)
    (ha : w.Allowed (.move a n dest)) :
    (¬ TokenFits w.heap n a → ∃ s, w.detachInsertSubtree a n dest = .error (.panic s)) ∧
    (TokenFits w.heap n a → MoveFails ch n dest →
      ∃ h', w.detachInsertSubtree a n dest = .ok (.panicked { w with heap := h' }) ∧
        h'.alive n = true ∧ h'.parentLink n = none) ∧
    (TokenFits w.heap n a → ¬ MoveFails ch n dest →
      ∃ w', w.detachInsertSubtree a n dest = .ok (.returned w' .unit) ∧
        w.exec (.move a n dest) = .ok (w', .unit)) := by
  obtain ⟨ch1, I⟩ := hr.inv
  obtain rfl := I.wf.toFShape.unique W.toFShape
  obtain ⟨k, hk⟩ := auth_held (a := a) ha.1
  obtain ⟨T, rc, l, hm, hal, hta⟩ := I.tree_of_held hk
  obtain ⟨T', rc', l', hm', hal', hta'⟩ := I.tree_of_held ha.2
  have hmt : w.heap.memTree n = some T := by simp [Heap.memTree, hm]
  have hmt' : w.heap.memTree dest.anchor = some T' := by simp [Heap.memTree, hm']
  have hmax : w.heap.grants T' + w.heap.grants T ≤ Lock.isizeMax := by
    have h1 := (hroom T hta).2
    have h2 := (hroom T' hta').2
    simp only [Lock.isizeMax]; omega
  refine ⟨fun hf => ?_, fun hf hfail => ?_, fun hf hok => ?_⟩
  · obtain ⟨s, e⟩ := wrong_token hf
    exact ⟨s, by simp only [World.detachInsertSubtree, World.exec, e, bind, Except.bind, World.result,
      Ending.expect]⟩
  · have hg := Int.le_of_lt (I.edits_grants (op := .move a n dest) ha hf (.inl hmt))
    have hg' := Int.le_of_lt (I.edits_grants (op := .move a n dest) ha hf (.inr hmt'))
    obtain ⟨hsib, hcase⟩ := hfail
    have key : ∃ h' e, w.heap.detachInsert n dest = .ok (h', .error e) ∧ h'.alive n = true ∧
        h'.parentLink n = none := by
      by_cases hsame : w.heap.belongsToSameTree n dest.anchor = true
      · obtain ⟨h', e, he⟩ := (C17_outcome W hal ⟨T, rc, l, hm⟩ hmt hal' hmt' (I.locksCounted hta hg) hg'
          hmax).1 ⟨hsib, hcase⟩
        obtain ⟨q, l1, l2, -, -, h1, h2⟩ := C17_always_violated W hal hal' hsame he
        exact ⟨h', e, he, by rw [h2.alive]; exact hal, h1⟩
      · have hne : T ≠ T' := by
          rintro rfl
          exact hsame (by simp [Heap.belongsToSameTree, hmt, hmt'])
        have hroot : ∀ q, dest.anchor ∉ ch1 q := by
          rcases hcase with ⟨-, e⟩ | ⟨-, e⟩
          · rw [e] at hsame; simp [Heap.belongsToSameTree] at hsame
          · exact e
        by_cases hp : ∃ p, n ∈ ch1 p
        · obtain ⟨p, hp⟩ := hp
          obtain ⟨h', ch', e, F, h1, h2, -⟩ := C17_other_tree_violated W hp hmt hsib rfl hal' hroot hmt' hne
            (I.locksCounted hta hg) hg' hmax
          exact ⟨h', _, e, h1, by
            rw [F.parentLink h1]
            cases hq : h'.parent n with
            | none => rfl
            | some q => exact absurd ((F.mem q n).2 ⟨h1, hq⟩) (h2 q)⟩
        · obtain ⟨h', e, h1, h2, -⟩ := C17_root_always_violated W hal (fun p hx => hp ⟨p, hx⟩)
            ⟨T, rc, l, hm⟩ hmt hsib rfl hal' hroot hmt' hne (I.locksCounted hta hg) hg' hmax
          exact ⟨h', _, e, h1, h2⟩
    obtain ⟨h', e, he, h1, h2⟩ := key
    refine ⟨h', ?_, h1, h2⟩
    simp only [World.detachInsertSubtree, World.exec, right_token hf, he, bind, Except.bind, pure,
      Except.pure, World.result, Ending.expect]
  · have hg := Int.le_of_lt (I.edits_grants (op := .move a n dest) ha hf (.inl hmt))
    have hg' := Int.le_of_lt (I.edits_grants (op := .move a n dest) ha hf (.inr hmt'))
    obtain ⟨h', he⟩ := (C17_outcome W hal ⟨T, rc, l, hm⟩ hmt hal' hmt' (I.locksCounted hta hg) hg' hmax).2 hok
    have hex : w.exec (.move a n dest) = .ok ({ w with heap := h' }, .unit) := by
      simp only [World.exec, right_token hf, he, bind, Except.bind, pure, Except.pure]
    exact ⟨_, by simp only [World.detachInsertSubtree, hex, World.result, Ending.expect], hex⟩

/-- C60, copies: `clone_subtree` panics exactly if some data in the subtree is mutably borrowed, and then
everything is as before; otherwise it returns what `try_clone_subtree` returns. -/
theorem C60_clone {f : Nat} (hr : Reach w) (hroom : Room w.heap) (W : WF w.heap ch)
    (ha : w.heap.alive n = true) (ht : SubtreeAt ch n t)
    (hs : 2 * t.size ≤ usizeMax) (hf : 2 * t.size < f) :
    ((∃ x ∈ t.nodes, w.heap.mutB x = true) →
      ∃ w' ch', w.cloneSubtree f n = .ok (.panicked w') ∧ Reach w' ∧ WF w'.heap ch' ∧ Undone w w' ch ch') ∧
    ((∀ x ∈ t.nodes, w.heap.mutB x = false) →
      ∃ w' m, w.cloneSubtree f n = .ok (.returned w' m) ∧
        Builder.tryCloneSubtree f w n = .ok (w', .ok m)) := by
  refine ⟨fun hb => ?_, fun hb => ?_⟩
  · obtain ⟨w', ch', e, h1⟩ := C34_fails hr hroom W ha ht hs hf hb
    exact ⟨w', ch', by simp only [World.cloneSubtree, e, Ending.expect], h1⟩
  · obtain ⟨u, hd, -⟩ := C29_data_exists_unique W.toFShape ha ht
    obtain ⟨w', m, ch', e, -⟩ := C34_copies hr hroom W ha ht hd hs hf hb
    exact ⟨w', m, by simp only [World.cloneSubtree, e, Ending.expect], e⟩

/-- C60, copies of trees: the same for `clone_tree`. -/
theorem C60_clone_tree {f : Nat} {T : TreeId} {r : NodeId} (hr : Reach w) (hroom : Room w.heap)
    (W : WF w.heap ch) (hT : 0 < w.trees T) (hroot : w.heap.rootLink T = .ok r)
    (ht : SubtreeAt ch r t) (hs : 2 * t.size ≤ usizeMax) (hf : 2 * t.size < f) :
    ((∃ x ∈ t.nodes, w.heap.mutB x = true) →
      ∃ w' ch', w.cloneWholeTree f T = .ok (.panicked w') ∧ Reach w' ∧ WF w'.heap ch' ∧
        Undone w w' ch ch') ∧
    ((∀ x ∈ t.nodes, w.heap.mutB x = false) →
      ∃ w' T', w.cloneWholeTree f T = .ok (.returned w' T') ∧
        Builder.tryCloneTree f w T = .ok (w', .ok T')) := by
  refine ⟨fun hb => ?_, fun hb => ?_⟩
  · obtain ⟨w', ch', e, h1⟩ := C34_tree_fails hr hroom W hT hroot ht hs hf hb
    exact ⟨w', ch', by simp only [World.cloneWholeTree, e, Ending.expect], h1⟩
  · have hra : w.heap.alive r = true := by
      obtain ⟨ch1, I⟩ := hr.inv
      have hta := I.treesAlive T hT
      obtain ⟨r', hr'⟩ := Option.isSome_iff_exists.1 (show (w.heap.root T).isSome from hta)
      have : r' = r := by simpa [Heap.rootLink, hr'] using hroot
      subst this
      exact (W.tree.root T r' hr').1
    obtain ⟨u, hd, -⟩ := C29_data_exists_unique W.toFShape hra ht
    obtain ⟨w', T', m, ch', e, -⟩ := C34_tree hr hroom W hT hroot ht hd hs hf hb
    exact ⟨w', T', by simp only [World.cloneWholeTree, e, Ending.expect], e⟩

/-- C60, copies into a tree: `clone_insert_subtree` with a destination outside the subtree (inside:
`C60_clone_insert_inside`) panics exactly if a sibling of a root is asked for or some data in the subtree is mutably borrowed. -/
theorem C60_clone_insert_outside {f : Nat} {T : TreeId} (hr : Reach w) (hroom : Room w.heap)
    (W : WF w.heap ch) (hk : 0 < w.held .hot dest.anchor) (hT : w.heap.nodeTree dest.anchor = .ok T)
    (hs0 : w.heap.grants T + 5 ≤ 2 ^ 62) (ha : w.heap.alive n = true) (ht : SubtreeAt ch n t)
    (hnp : ∀ q l1 l2, DestSplit ch dest q l1 l2 → ¬ Desc ch n q) (hs : 2 * t.size ≤ usizeMax)
    (hf : 2 * t.size < f) :
    ((dest.isSibling = true ∧ ∀ q, dest.anchor ∉ ch q) ∨ (∃ x ∈ t.nodes, w.heap.mutB x = true) →
      ∃ w', w.cloneInsertSubtree f n dest = .ok (.panicked w')) ∧
    ((dest.isSibling = true → ∃ q, dest.anchor ∈ ch q) → (∀ x ∈ t.nodes, w.heap.mutB x = false) →
      ∃ w' m, w.cloneInsertSubtree f n dest = .ok (.returned w' m) ∧
        Builder.tryCloneInsert f w n dest = .ok (w', .ok m)) := by
  have split : (dest.isSibling = true → ∃ q, dest.anchor ∈ ch q) →
      ∃ q l1 l2, DestSplit ch dest q l1 l2 := by
    intro h3
    cases dest with
    | firstChildOf x => exact ⟨_, _, _, .first x⟩
    | lastChildOf x => exact ⟨_, _, _, .last x⟩
    | previousSiblingOf x =>
      obtain ⟨q, hq⟩ := h3 rfl
      obtain ⟨m1, m2, hx⟩ := List.append_of_mem hq
      exact ⟨_, _, _, .prev hx⟩
    | nextSiblingOf x =>
      obtain ⟨q, hq⟩ := h3 rfl
      obtain ⟨m1, m2, hx⟩ := List.append_of_mem hq
      exact ⟨_, _, _, .next hx⟩
  have done : ∀ w' e, Builder.tryCloneInsert f w n dest = .ok (w', .error e) →
      w.cloneInsertSubtree f n dest = .ok (.panicked w') := fun w' e h => by
    simp only [World.cloneInsertSubtree, h, Ending.expect]
  refine ⟨fun hc => ?_, fun hsp hb => ?_⟩
  · by_cases hbn : w.heap.mutB n = true
    · exact ⟨w, done _ _ (C53_root_borrowed_partial f hbn)⟩
    have hbn : w.heap.mutB n = false := by simpa using hbn
    by_cases hsp : dest.isSibling = true → ∃ q, dest.anchor ∈ ch q
    · have hb : ∃ x ∈ t.nodes, w.heap.mutB x = true := by
        rcases hc with ⟨h1, h2⟩ | h1
        · obtain ⟨q, hq⟩ := hsp h1
          exact absurd hq (h2 q)
        · exact h1
      obtain ⟨q, l1, l2, hd⟩ := split hsp
      obtain ⟨w', ch', m, v, e, -⟩ := C53_outcome hr hroom W hk hT hs0 hd ha ht (hnp _ _ _ hd) hs hf hbn hb
      exact ⟨w', done _ _ e⟩
    · have h1 : dest.isSibling = true := by
        cases h : dest.isSibling with
        | true => rfl
        | false => exact absurd (fun h' => by rw [h] at h'; cases h') hsp
      have h2 : ∀ q, dest.anchor ∉ ch q := fun q hq => hsp fun _ => ⟨q, hq⟩
      obtain ⟨w', e, -⟩ := C53_no_place_partial f hr hroom W hk h1 h2 ha hbn
      exact ⟨w', done _ _ e⟩
  · obtain ⟨q, l1, l2, hd⟩ := split hsp
    obtain ⟨u, hu, -⟩ := C29_data_exists_unique W.toFShape ha ht
    obtain ⟨w', ch', m, e, -⟩ := C35_partial hr hroom W hk hT hs0 hd ha ht hu (hnp _ _ _ hd) hs hf hb
    exact ⟨w', m, by simp only [World.cloneInsertSubtree, e, Ending.expect], e⟩

/-- C60, copies of a subtree to a place inside itself (between `l1` and `l2` among the children of `p`): if
the new node would become the first child of `n` itself, as before.  Otherwise let `t'` be the subtree with the
new node at the place and `pre` the nodes before it in the order of the tree: both variants never return if the data
of none of them is mutably borrowed, and `clone_insert_subtree` panics if that of one is. -/
theorem C60_clone_insert_inside {f : Nat} {T : TreeId} {l1 l2 pre post : List NodeId} {t' : RTree NodeId}
    (hr : Reach w) (hroom : Room w.heap)
    (W : WF w.heap ch) (hk : 0 < w.held .hot dest.anchor) (hT : w.heap.nodeTree dest.anchor = .ok T)
    (hs0 : w.heap.grants T + 5 ≤ 2 ^ 62) (ha : w.heap.alive n = true) (ht : SubtreeAt ch n t)
    (hd : DestSplit ch dest p l1 l2) (hin : Desc ch n p) (hs : 2 * t.size ≤ usizeMax)
    (hf : 2 * t.size + 1 < f) (ht' : SubtreeAt (upd ch p (l1 ++ w.heap.nNode :: l2)) n t')
    (hpre : t'.nodes = pre ++ w.heap.nNode :: post) :
    (p = n ∧ l1 = [] →
      ((∃ x ∈ t.nodes, w.heap.mutB x = true) → ∃ w', w.cloneInsertSubtree f n dest = .ok (.panicked w')) ∧
      ((∀ x ∈ t.nodes, w.heap.mutB x = false) →
        ∃ w' m, w.cloneInsertSubtree f n dest = .ok (.returned w' m) ∧
          Builder.tryCloneInsert f w n dest = .ok (w', .ok m))) ∧
    (¬ (p = n ∧ l1 = []) →
      ((∃ x ∈ pre, w.heap.mutB x = true) → ∃ w', w.cloneInsertSubtree f n dest = .ok (.panicked w')) ∧
      ((∀ x ∈ pre, w.heap.mutB x = false) → ∀ g, Builder.tryCloneInsert g w n dest = .error .diverge ∧
        w.cloneInsertSubtree g n dest = .error .diverge)) := by
  have done : ∀ w' e, Builder.tryCloneInsert f w n dest = .ok (w', .error e) →
      w.cloneInsertSubtree f n dest = .ok (.panicked w') := fun w' e h => by
    simp only [World.cloneInsertSubtree, h, Ending.expect]
  constructor
  · rintro ⟨rfl, rfl⟩
    constructor
    · intro hb
      by_cases hbn : w.heap.mutB p = true
      · exact ⟨w, done _ _ (C53_root_borrowed_partial f hbn)⟩
      obtain ⟨w', ch', m, v, e, -⟩ := C53_inside_first hr hroom W hk hT hs0 hd ha ht hs hf
        (by simpa using hbn) hb
      exact ⟨w', done _ _ e⟩
    · intro hb
      obtain ⟨u, hu, -⟩ := C29_data_exists_unique W.toFShape ha ht
      cases t with
      | node x cs =>
        obtain rfl : x = p := ht.1
        cases u with
        | node d us =>
          obtain ⟨w', ch', m, e, -⟩ := C35_inside_first hr hroom W hk hT hs0 hd ha ht hu hs hf hb
          exact ⟨w', m, by simp only [World.cloneInsertSubtree, e, Ending.expect], e⟩
  · intro hfirst
    constructor
    · intro hb
      by_cases hbn : w.heap.mutB n = true
      · exact ⟨w, done _ _ (C53_root_borrowed_partial f hbn)⟩
      obtain ⟨w', ch', m, v, e, -⟩ := C53_inside_before hr hroom W hk hT hs0 hd ha ht hin hfirst hs
        (Nat.lt_of_succ_lt hf) ht' hpre (by simpa using hbn) hb
      exact ⟨w', done _ _ e⟩
    · intro hb g
      have e := C53_inside_endless hr hroom W hk hT hs0 hd ha ht hin hfirst hs ht' hpre hb g
      exact ⟨e, by simp only [World.cloneInsertSubtree, e, Ending.expect]⟩

/-- C60, `==`: a node is equal to itself, whatever is borrowed.  Comparing two nodes panics exactly if, in
depth-first order, everything is equal up to two nodes of which one has mutably borrowed data; otherwise it
tells whether the subtrees have the same shape and equal data.  Nothing changes. -/
theorem C60_eq {m : NodeId} {s : RTree NodeId} {u v : RTree α} (eq : α → α → Bool)
    (W : FShape w.heap ch) (ha : w.heap.alive n = true) (hb : w.heap.alive m = true)
    (ht : SubtreeAt ch n t) (hs : SubtreeAt ch m s) (hu : HasData w.heap t u) (hv : HasData w.heap s v)
    (hne : n ≠ m) :
    w.nodeEq eq n n = .ok (.returned w true) ∧
    (Blocked eq w.heap w.heap t s → w.nodeEq eq n m = .ok (.panicked w)) ∧
    (¬ Blocked eq w.heap w.heap t s → ∃ b, w.nodeEq eq n m = .ok (.returned w b) ∧
      (b = true ↔ Equal eq u v)) := by
  refine ⟨by simp [World.nodeEq, C36_same_node, Except.map, Ending.expect], ?_⟩
  obtain ⟨r, h1, h2, h3, -⟩ := C36_try_eq eq W W ha hb ht hs hu hv
  have hB := C36_fails_iff eq W W ha hb ht hs
  rw [h1] at hB
  have h1 : w.heap.tryEq eq n m = .ok r := by simp only [Heap.tryEq, if_neg hne, h1]
  cases r with
  | ok b =>
    refine ⟨fun hc => ?_, fun _ => ⟨b, by simp [World.nodeEq, h1, Except.map, Ending.expect], ?_⟩⟩
    · obtain ⟨e, he⟩ := hB.2 hc
      simp at he
    · cases b with
      | true => simp [h2 rfl]
      | false => simp [h3 rfl]
  | error e =>
    exact ⟨fun _ => by simp [World.nodeEq, h1, Except.map, Ending.expect],
      fun hc => absurd (hB.1 ⟨e, rfl⟩) hc⟩

/-! ### A concrete program

Node 4 is a root without children, node 1 has the child 3, node 2 is a child of node 0. -/

/-- The hypotheses of the theorems are met, in the panicking and in the returning cases. -/
example : ∃ ch, Reach (DemoWorld.at_ 8) ∧ Room (DemoWorld.at_ 8).heap ∧ WF (DemoWorld.at_ 8).heap ch ∧
    (DemoWorld.at_ 8).Allowed (.create .hot 4 21 .nextSibling) ∧ (∀ p, 4 ∉ ch p) ∧ (ch 4).length ≠ 1 ∧
    (DemoWorld.at_ 8).Allowed (.move (.token 0) 2 (.nextSiblingOf 1)) ∧
    (DemoWorld.at_ 8).Allowed (.move (.token 0) 2 (.nextSiblingOf 4)) ∧
    TokenFits (DemoWorld.at_ 8).heap 2 (.token 0) ∧ ¬ TokenFits (DemoWorld.at_ 8).heap 2 (.token 1) ∧
    (∃ p, 2 ∈ ch p) ∧ SubtreeAt ch 1 (.node 1 [.node 3 []]) ∧
    (DemoWorld.at_ 8).heap.mutB 3 = false ∧ DemoWorld.busy.heap.mutB 3 = true := by
  obtain ⟨ch, I⟩ := DemoWorld.reach8.inv
  obtain ⟨h1, h3, h4⟩ := DemoWorld.children8 I.wf.toFShape
  refine ⟨ch, DemoWorld.reach8, DemoWorld.room 8 (by decide), I.wf, (by decide : 0 < _), fun p hp => ?_,
    by rw [h4]; decide, ⟨⟨by decide, by decide⟩, by decide⟩, ⟨⟨by decide, by decide⟩, by decide⟩, rfl,
    (by decide : ¬ _ = some 1), ⟨0, (I.wf.mem 0 2).2 ⟨rfl, rfl⟩⟩,
    by simp [SubtreeAt, label, Hier, HierL, h1, h3], rfl, rfl⟩
  have := I.wf.parent_of_mem hp
  rw [show (DemoWorld.at_ 8).heap.parent 4 = none from rfl] at this; cases this

/-- What these calls do: a sibling of the root 4 panics, a child is created; moving node 2 beside the root 4
panics and has taken node 2 out. -/
example : (∃ w', (DemoWorld.at_ 8).createNodeAs .hot 4 21 .nextSibling = .ok (.panicked w')) ∧
    (∃ w', (DemoWorld.at_ 8).createNodeAs .hot 4 21 .firstChild = .ok (.returned w' (.node (some 5)))) ∧
    (∃ w', (DemoWorld.at_ 8).replaceWithChildren .hot 4 = .ok (.panicked w')) ∧
    (∃ w', (DemoWorld.at_ 8).detachInsertSubtree (.token 0) 2 (.nextSiblingOf 4) = .ok (.panicked w') ∧
      w'.heap.parentLink 2 = none) ∧
    (∃ w', (DemoWorld.at_ 8).cloneSubtree 5 1 = .ok (.returned w' 5)) ∧
    (∃ w', DemoWorld.busy.cloneSubtree 5 1 = .ok (.panicked w')) :=
  ⟨⟨_, rfl⟩, ⟨_, rfl⟩, ⟨_, rfl⟩, ⟨_, rfl, rfl⟩, ⟨_, rfl⟩, ⟨_, rfl⟩⟩

end Dendron
