import Verif.Proofs.WideGraft
import Verif.Props.WidePanicking
import Verif.Props.WideBuild
import Verif.Props.CloneInsert

/-!
# C35, C53 and C60 in the histories of `ReachW`

Copying of a subtree to a destination outside the source, after calls that have left a `last_child`
wrong.  The place is between `l1` and `l2` among the children of `p`; if it is the first or the last one,
`last_child` of `p` has to be right (`LastRight`).  The number `f` bounds the number of events the loop may
read.
-/

set_option autoImplicit false

namespace Dendron
open RTree
variable {α : Type} {w w' : World α} {ch : NodeId → List NodeId} {n p : NodeId} {t : RTree NodeId}
  {u : RTree α} {T : TreeId} {dest : InsertAs NodeId} {l1 l2 : List NodeId} {f : Nat}

/-- C35, except for destinations inside the source: if no data in the subtree of `n` is mutably borrowed,
`try_clone_insert_subtree` puts a copy of it, made of new nodes of the destination tree, to the requested place
and returns a hot handle to its root.  The other nodes are as before. -/
theorem C35_wide_partial (hr : ReachW w) (F : FShape w.heap ch)
    (hk : 0 < w.held .hot dest.anchor) (hT : w.heap.nodeTree dest.anchor = .ok T)
    (hd : DestSplit ch dest p l1 l2) (hl : l1 = [] ∨ l2 = [] → LastRight w.heap ch p)
    (ha : w.heap.alive n = true) (ht : SubtreeAt ch n t) (hu : HasData w.heap t u)
    (hnp : ¬ Desc ch n p) (hs : 2 * t.size ≤ usizeMax) (hf : 2 * t.size < f) (hroom : w.RoomFor (2 * t.size))
    (hb : ∀ x ∈ t.nodes, w.heap.mutB x = false) :
    ∃ w' ch' m, Builder.tryCloneInsert f w n dest = .ok (w', .ok m) ∧ ReachW w' ∧ FShape w'.heap ch' ∧
      ch' p = l1 ++ m :: l2 ∧ NewSubtree w w' ch' T m u ∧ GotHot w w' m ∧
      Untouched w w' ch ch' (some p) := by
  obtain ⟨a, S⟩ := Shows.exists hr
  obtain rfl := F.unique S.children
  rcases Graft.run hr S hk hT hd hl ha ht hu hnp hs hf hroom (hb n ((ht.mem_nodes_iff n).2 (.refl _))) with
    ⟨-, w', a', m, e, h1, S', h2, h3, h4, h5⟩ | ⟨⟨x, hx, h⟩, -⟩
  · exact ⟨w', a'.children, m, e, h1, S'.children, h2, h3, h4, h5⟩
  · rw [hb x hx] at h; cases h

/-- C35: then `try_eq` of the source and the copy is `Ok(true)`. -/
theorem C35_equal_wide_partial {m : NodeId} (eq : α → α → Bool) (hq : ∀ a, eq a a = true) (hr : ReachW w) (F : FShape w.heap ch)
    (hk : 0 < w.held .hot dest.anchor) (hT : w.heap.nodeTree dest.anchor = .ok T)
    (hd : DestSplit ch dest p l1 l2) (hl : l1 = [] ∨ l2 = [] → LastRight w.heap ch p)
    (ha : w.heap.alive n = true) (ht : SubtreeAt ch n t)
    (hnp : ¬ Desc ch n p) (hs : 2 * t.size ≤ usizeMax) (hf : 2 * t.size < f) (hroom : w.RoomFor (2 * t.size))
    (hb : ∀ x ∈ t.nodes, w.heap.mutB x = false)
    (hc : Builder.tryCloneInsert f w n dest = .ok (w', .ok m)) :
    m ≠ n ∧ w'.heap.tryEq eq n m = .ok (.ok true) := by
  obtain ⟨u, hu, -⟩ := C29_data_exists_unique F ha ht
  obtain ⟨w1, ch1, m1, e, -, F1, -, ⟨s, g1, g2, g3⟩, -, U⟩ :=
    C35_wide_partial hr F hk hT hd hl ha ht hu hnp hs hf hroom hb
  rw [e] at hc
  simp only [Except.ok.injEq, Prod.mk.injEq] at hc
  obtain ⟨rfl, rfl⟩ := hc
  have hm : m1 ∈ s.nodes := (g1.mem_nodes_iff m1).2 (.refl _)
  have hal : ∀ x ∈ t.nodes, w.heap.alive x = true := fun x hx =>
    F.desc_alive ha ((ht.mem_nodes_iff x).1 hx)
  have ht1 : SubtreeAt ch1 n t := by
    refine ⟨ht.1, ht.2.congr (fun x hx => U.children x (hal x hx) ?_)⟩
    intro h
    have h : x = p := by simpa using h
    exact hnp (h ▸ (ht.mem_nodes_iff x).1 hx)
  have hd1 : HasData w1.heap t u := by
    have : t.map w1.heap.data = t.map w.heap.data := map_congr_nodes t (fun x hx => U.data x (hal x hx))
    rw [HasData, this]; exact hu
  obtain ⟨b, hb1, hb2⟩ := C36_decides eq F1 (U.alive n ha) (g3 m1 hm).2.1 ht1 g1 hd1 g2 (.inr hq)
    (fun x hx => by rw [U.borrowed x (hal x hx)]; exact hb x hx) (fun x hx => (g3 x hx).2.2.1)
  obtain rfl : b = true := hb2.2 (Equal.refl hq u)
  refine ⟨?_, hb1⟩
  rintro rfl
  have := (g3 m1 hm).1
  rw [ha] at this; cases this

/-- C53 if there is no such place (a sibling of a root is requested): the call fails and everything is
as before. -/
theorem C53_no_place_wide_partial (f : Nat) (hr : ReachW w) (F : FShape w.heap ch) (hroom : w.Roomy)
    (hk : 0 < w.held .hot dest.anchor) (hsib : dest.isSibling = true) (hroot : ∀ q, dest.anchor ∉ ch q)
    (ha : w.heap.alive n = true) (hb : w.heap.mutB n = false) :
    ∃ w', Builder.tryCloneInsert f w n dest = .ok (w', .error .siblingsWithoutParent) ∧ ReachW w' ∧
      FShape w'.heap ch ∧ Undone w w' ch ch := by
  obtain ⟨d, hdn⟩ := Option.isSome_iff_exists.1 (show (w.heap.data n).isSome from ha)
  have hno : ∀ q m1 m2, ¬ DestSplit ch dest q m1 m2 := by
    intro q m1 m2 h
    cases h with
    | first => cases hsib
    | last => cases hsib
    | prev h => exact hroot q (by rw [InsertAs.anchor, h]; simp)
    | next h => exact hroot q (by rw [InsertAs.anchor, h]; simp)
  have hat : dest.toAdoptAs.at dest.anchor = dest := by cases dest <;> rfl
  obtain ⟨a, w', r, a', S, rfl, e, hr', S', st⟩ := hr.performs (op := .create .hot dest.anchor d dest.toAdoptAs) F hroom hk
    trivial (by
      rintro q ⟨m1, m2, h, -⟩
      rw [hat] at h
      exact absurd h (hno _ _ _)) trivial
  cases st with
  | create _ _ h => rw [hat] at h; exact absurd h (hno _ _ _)
  | createFails =>
    refine ⟨w', ?_, hr', S'.children, S.back (a' := { a with newNode := a.newNode + 1 }) hr hr' S' rfl rfl rfl rfl rfl rfl rfl rfl⟩
    simp only [Builder.tryCloneInsert, Heap.borrowData, hb, hdn, Bool.false_eq_true, if_false, bind, Except.bind, pure,
      Except.pure, e]

/-- C53 in the remaining case: if the data of the source node is not mutably borrowed, but that of
a descendant is, the call fails, and a new node, with an incomplete copy below it, stays at the requested
place. -/
theorem C53_outcome_wide (hr : ReachW w) (F : FShape w.heap ch)
    (hk : 0 < w.held .hot dest.anchor) (hT : w.heap.nodeTree dest.anchor = .ok T)
    (hd : DestSplit ch dest p l1 l2) (hl : l1 = [] ∨ l2 = [] → LastRight w.heap ch p)
    (ha : w.heap.alive n = true) (ht : SubtreeAt ch n t)
    (hnp : ¬ Desc ch n p) (hs : 2 * t.size ≤ usizeMax) (hf : 2 * t.size < f) (hroom : w.RoomFor (2 * t.size))
    (hn : w.heap.mutB n = false) (hb : ∃ x ∈ t.nodes, w.heap.mutB x = true) :
    ∃ w' ch' m v, Builder.tryCloneInsert f w n dest = .ok (w', .error .borrowNodeData) ∧ ReachW w' ∧
      FShape w'.heap ch' ∧ ch' p = l1 ++ m :: l2 ∧ NewSubtree w w' ch' T m v ∧
      (∀ k x, w'.held k x = w.held k x) ∧ Untouched w w' ch ch' (some p) := by
  obtain ⟨a, S⟩ := Shows.exists hr
  obtain rfl := F.unique S.children
  obtain ⟨u, hu, -⟩ := C29_data_exists_unique F ha ht
  rcases Graft.run hr S hk hT hd hl ha ht hu hnp hs hf hroom hn with
    ⟨h, -⟩ | ⟨-, w', a', m, v, e, h1, S', h2, h3, h4, h5⟩
  · obtain ⟨x, hx, h6⟩ := hb
    rw [h x hx] at h6; cases h6
  · exact ⟨w', a'.children, m, v, e, h1, S'.children, h2, h3, h4, h5⟩

/-- C60, copies of a subtree to a destination outside of it: `clone_insert_subtree` panics exactly if there is no such
place or the data of a node of the subtree is mutably borrowed; otherwise it does what
`try_clone_insert_subtree` does. -/
theorem C60_clone_insert_wide (hr : ReachW w) (F : FShape w.heap ch) (hk : 0 < w.held .hot dest.anchor)
    (hl : ∀ q l1 l2, DestSplit ch dest q l1 l2 → l1 = [] ∨ l2 = [] → LastRight w.heap ch q)
    (ha : w.heap.alive n = true) (ht : SubtreeAt ch n t)
    (hnp : ∀ q l1 l2, DestSplit ch dest q l1 l2 → ¬ Desc ch n q) (hs : 2 * t.size ≤ usizeMax)
    (hf : 2 * t.size < f) (hroom : w.RoomFor (2 * t.size)) :
    ((dest.isSibling = true ∧ ∀ q, dest.anchor ∉ ch q) ∨ (∃ x ∈ t.nodes, w.heap.mutB x = true) →
      ∃ w', w.cloneInsertSubtree f n dest = .ok (.panicked w')) ∧
    ((dest.isSibling = true → ∃ q, dest.anchor ∈ ch q) → (∀ x ∈ t.nodes, w.heap.mutB x = false) →
      ∃ w' m, w.cloneInsertSubtree f n dest = .ok (.returned w' m) ∧
        Builder.tryCloneInsert f w n dest = .ok (w', .ok m)) := by
  have split : (dest.isSibling = true → ∃ q, dest.anchor ∈ ch q) →
      ∃ q l1 l2, DestSplit ch dest q l1 l2 := by
    intro h3
    cases dest with
    | firstChildOf x => exact ⟨_, _, _, .first x⟩
    | lastChildOf x => exact ⟨_, _, _, .last x⟩
    | previousSiblingOf x =>
      obtain ⟨q, hq⟩ := h3 rfl
      obtain ⟨m1, m2, hx⟩ := List.append_of_mem hq
      exact ⟨_, _, _, .prev hx⟩
    | nextSiblingOf x =>
      obtain ⟨q, hq⟩ := h3 rfl
      obtain ⟨m1, m2, hx⟩ := List.append_of_mem hq
      exact ⟨_, _, _, .next hx⟩
  have done : ∀ w' e, Builder.tryCloneInsert f w n dest = .ok (w', .error e) →
      w.cloneInsertSubtree f n dest = .ok (.panicked w') := fun w' e h => by
    simp only [World.cloneInsertSubtree, h, Ending.expect]
  obtain ⟨T, hT⟩ : ∃ T, w.heap.nodeTree dest.anchor = .ok T := by
    obtain ⟨a, S⟩ := Shows.exists hr
    have h1 := hr.held_live S (by rw [S.held]; exact hk)
    obtain ⟨T, h2, -⟩ := hr.tree_live S h1
    exact ⟨T, (hr.nodeTree_live S h1).2 h2⟩
  refine ⟨fun hc => ?_, fun hsp hb => ?_⟩
  · by_cases hbn : w.heap.mutB n = true
    · exact ⟨w, done _ _ (C53_root_borrowed_partial f hbn)⟩
    have hbn : w.heap.mutB n = false := by simpa using hbn
    by_cases hsp : dest.isSibling = true → ∃ q, dest.anchor ∈ ch q
    · have hb : ∃ x ∈ t.nodes, w.heap.mutB x = true := by
        rcases hc with ⟨h1, h2⟩ | h1
        · obtain ⟨q, hq⟩ := hsp h1
          exact absurd hq (h2 q)
        · exact h1
      obtain ⟨q, l1, l2, hd⟩ := split hsp
      obtain ⟨w', ch', m, v, e, -⟩ := C53_outcome_wide hr F hk hT hd (hl _ _ _ hd) ha ht (hnp _ _ _ hd) hs hf hroom hbn hb
      exact ⟨w', done _ _ e⟩
    · have h1 : dest.isSibling = true := by
        cases h : dest.isSibling with
        | true => rfl
        | false => exact absurd (fun h' => by rw [h] at h'; cases h') hsp
      have h2 : ∀ q, dest.anchor ∉ ch q := fun q hq => hsp fun _ => ⟨q, hq⟩
      obtain ⟨w', e, -⟩ := C53_no_place_wide_partial f hr F (fun t' => by have := hroom t'; omega) hk h1 h2 ha hbn
      exact ⟨w', done _ _ e⟩
  · obtain ⟨q, l1, l2, hd⟩ := split hsp
    obtain ⟨u, hu, -⟩ := C29_data_exists_unique F ha ht
    obtain ⟨w', ch', m, e, -⟩ := C35_wide_partial hr F hk hT hd (hl _ _ _ hd) ha ht hu (hnp _ _ _ hd) hs hf hroom hb
    exact ⟨w', m, by simp only [World.cloneInsertSubtree, e, Ending.expect], e⟩

namespace DemoWorld

/-- Node 0 has the children 1 and 2, and the wrong `last_child` 3.  Node 2 is copied to the place after node 1; a
copy of node 3 (which is a root now) there would do as well; and there is no place next to the roots 0 and 3.  The
last child of node 2 is right: it has none. -/
example : ∃ ch : NodeId → List NodeId, ReachW (wide 5) ∧ FShape (wide 5).heap ch ∧
    (wide 5).heap.lastChildLink 0 = .ok (some 3) ∧ 0 < (wide 5).held .hot (InsertAs.nextSiblingOf 1).anchor ∧
    (wide 5).heap.nodeTree 1 = .ok 0 ∧ DestSplit ch (.nextSiblingOf 1) 0 [1] [2] ∧
    (wide 5).heap.alive 2 = true ∧ SubtreeAt ch 2 (.node 2 []) ∧ HasData (wide 5).heap (.node 2 []) (.node 12 []) ∧
    ¬ Desc ch 2 0 ∧ (wide 5).RoomFor 2 ∧ (wide 5).heap.mutB 2 = false ∧
    DestSplit ch (.lastChildOf 2) 2 [] [] ∧ LastRight (wide 5).heap ch 2 ∧
    (InsertAs.nextSiblingOf 0).isSibling = true ∧ (∀ q, 0 ∉ ch q) ∧ 0 < (wide 5).held .hot 0 := by
  obtain ⟨a, S⟩ := Shows.exists wideReach5
  obtain ⟨h0, h1, h2⟩ := wideChildren S.children
  have ht : SubtreeAt a.children 2 (.node 2 []) := by simp [SubtreeAt, label, Hier, HierL, h2]
  refine ⟨a.children, wideReach5, S.children, rfl, by decide, rfl, DestSplit.next (l1 := []) (show a.children 0 = [] ++ 1 :: [2] from h0), rfl, ht, rfl, ?_, wideRoomFor _ (by decide),
    rfl, ?_, ?_, rfl, ?_, by decide⟩
  · intro h
    have := (ht.mem_nodes_iff 0).2 h
    simp [nodes, nodesL] at this
  · have := DestSplit.last (ch := a.children) 2
    rw [h2] at this; exact this
  · show (wide 5).heap.navTo 2 .lastChild = .ok (a.children 2).getLast?
    rw [h2]; rfl
  · intro q hq
    have := S.children.parent_of_mem hq
    cases this

end DemoWorld
end Dendron
