import Verif.Proofs.Drawing
import Verif.Props.Forward
import Verif.Props.Build

/-!
# C71: comparison, serialization and printing tell the same trees apart

`OneLine` texts are nonempty and have no newline: without either of these the picture of a tree may be the
picture of another one (`C71_empty_text`, `C71_newline`).
-/

set_option autoImplicit false

namespace Dendron
open RTree

variable {α β : Type} {h : Heap α} {ch : NodeId → List NodeId} {n m : NodeId} {t s : RTree NodeId}

/-- C71: the drawing determines the tree of texts, if every text is one line. -/
theorem C71_drawing_injective {t u : RTree (List Char)}
    (ht : ∀ s ∈ t.nodes, s ≠ [] ∧ '\n' ∉ s) (hu : ∀ s ∈ u.nodes, s ≠ [] ∧ '\n' ∉ s) :
    t.drawing = u.drawing ↔ t = u :=
  ⟨Picture.drawing_inj ht hu, fun e => by rw [e]⟩

/-- The texts may look like branches. -/
example : (RTree.node ['a'] [.node "`-- b".toList [], .node ['b'] []]).drawing ≠
    (RTree.node ['a'] [.node ['c'] [.node ['b'] []], .node ['b'] []]).drawing := by
  rw [Ne, C71_drawing_injective (by simp [RTree.nodes, RTree.nodesL]) (by simp [RTree.nodes, RTree.nodesL])]
  simp

/-- C71: a node with an empty text is not drawn, so two trees may look the same. -/
theorem C71_empty_text : ∃ t u : RTree (List Char), t ≠ u ∧ (∀ s ∈ t.nodes ++ u.nodes, '\n' ∉ s) ∧
    t.drawing = u.drawing :=
  ⟨.node ['a'] [.node [] []], .node ['a'] [.node [] [], .node [] []], by simp, by decide, by decide⟩

/-- C71: a text of two lines may look like a node and its child. -/
theorem C71_newline : ∃ t u : RTree (List Char), t ≠ u ∧ (∀ s ∈ t.nodes ++ u.nodes, s ≠ []) ∧
    t.drawing = u.drawing :=
  ⟨.node "a\n`-- b".toList [], .node ['a'] [.node ['b'] []], by simp, by decide, by decide +kernel⟩

/-- C71: a sequence of events is the canonical one of at most one tree. -/
theorem C71_events_injective {t u : RTree β} {l k : List (Event β)} (ht : Canonical t l)
    (hu : Canonical u k) : l = k ↔ t = u :=
  ⟨fun e => by subst e; exact ht.tree_eq hu, fun e => by subst e; exact ht.unique hu⟩

example : Canonical (.node 1 [.node 2 [], .node 3 []]) [.opn 1, .opn 2, .close 1, .opn 3, .close 2] :=
  mergeEv_canonical (.node 1 [.node 2 [], .node 3 []])

mutual
theorem RTree.map_inj {γ : Type} {f : β → γ} (hf : ∀ a b, f a = f b → a = b) :
    ∀ t u : RTree β, t.map f = u.map f → t = u
  | .node v cs, .node w ds, e => by
    simp only [RTree.map, RTree.node.injEq] at e
    rw [hf _ _ e.1, RTree.mapL_inj hf cs ds e.2]
theorem RTree.mapL_inj {γ : Type} {f : β → γ} (hf : ∀ a b, f a = f b → a = b) :
    ∀ cs ds : List (RTree β), mapL f cs = mapL f ds → cs = ds
  | [], [], _ => rfl
  | [], _ :: _, e => by simp [mapL] at e
  | _ :: _, [], e => by simp [mapL] at e
  | c :: cs, d :: ds, e => by
    simp only [mapL, List.cons.injEq] at e
    rw [RTree.map_inj hf c d e.1, RTree.mapL_inj hf cs ds e.2]
end

theorem Heap.textOf_one (h : Heap α) (fmt : α → List (List Char))
    (ho : ∀ d, (fmt d).flatten ≠ [] ∧ '\n' ∉ (fmt d).flatten) (n : NodeId) :
    h.textOf fmt n ≠ [] ∧ '\n' ∉ h.textOf fmt n := by
  unfold Heap.textOf
  split
  · exact ho _
  · exact ⟨by simp, by decide⟩

mutual
theorem texts_eq (fmt : α → List (List Char)) : ∀ (t : RTree NodeId) (u : RTree α),
    t.map h.data = u.map some → (∀ x ∈ t.nodes, h.mutB x = false) →
    t.map (h.textOf fmt) = u.map fun d => (fmt d).flatten
  | .node v cs, .node w ds, e, hb => by
    simp only [RTree.map, RTree.node.injEq] at e ⊢
    refine ⟨?_, texts_eqL fmt cs ds e.2 (fun x hx => hb x (by simp [RTree.nodes, hx]))⟩
    unfold Heap.textOf
    rw [hb v (by simp [RTree.nodes]), e.1]
theorem texts_eqL (fmt : α → List (List Char)) : ∀ (cs : List (RTree NodeId)) (ds : List (RTree α)),
    mapL h.data cs = mapL some ds → (∀ x ∈ nodesL cs, h.mutB x = false) →
    mapL (h.textOf fmt) cs = mapL (fun d => (fmt d).flatten) ds
  | [], [], _, _ => rfl
  | [], _ :: _, e, _ => by simp [mapL] at e
  | _ :: _, [], e, _ => by simp [mapL] at e
  | c :: cs, d :: ds, e, hb => by
    simp only [mapL, List.cons.injEq] at e ⊢
    exact ⟨texts_eq fmt c d e.1 (fun x hx => hb x (by simp [RTree.nodesL, hx])),
      texts_eqL fmt cs ds e.2 (fun x hx => hb x (by simp [RTree.nodesL, hx]))⟩
end

/-- C71: two trees, perhaps of different types of data, print the same exactly if they have the same shape
and the same texts, provided that every text is one line. -/
theorem C71_print {g : Heap β} {ch' : NodeId → List NodeId} (W : FShape h ch) (V : FShape g ch')
    (fmt : α → List (List Char)) (fmt' : β → List (List Char)) (ha : h.alive n = true) (hb : g.alive m = true)
    (ht : SubtreeAt ch n t) (hs : SubtreeAt ch' m s)
    (ho : ∀ d, (fmt d).flatten ≠ [] ∧ '\n' ∉ (fmt d).flatten)
    (ho' : ∀ d, (fmt' d).flatten ≠ [] ∧ '\n' ∉ (fmt' d).flatten) :
    ∃ p q, h.pretty fmt n = .ok p ∧ g.pretty fmt' m = .ok q ∧
      (p = q ↔ t.map (h.textOf fmt) = s.map (g.textOf fmt')) := by
  refine ⟨_, _, W.pretty fmt ha ht, V.pretty fmt' hb hs, C71_drawing_injective ?_ ?_⟩
  · intro x hx
    rw [nodes_map] at hx
    obtain ⟨k, -, rfl⟩ := List.mem_map.1 hx
    exact Heap.textOf_one h fmt ho k
  · intro x hx
    rw [nodes_map] at hx
    obtain ⟨k, -, rfl⟩ := List.mem_map.1 hx
    exact Heap.textOf_one g fmt' ho' k

/-- C71: `try_eq`, `to_events` and `debug_pretty_print` tell the same subtrees apart: with no borrows, an `eq`
that decides equality, and a format that prints different data differently and on one line, the comparison
says `Ok(true)` exactly if both serialize to the same events, and exactly if both print the same. -/
theorem C71_agree (eq : α → α → Bool) (he : ∀ a b, eq a b = true ↔ a = b)
    (fmt : α → List (List Char)) (ho : ∀ d, (fmt d).flatten ≠ [] ∧ '\n' ∉ (fmt d).flatten)
    (hi : ∀ a b, (fmt a).flatten = (fmt b).flatten → a = b)
    (W : FShape h ch) (ha : h.alive n = true) (hb : h.alive m = true)
    (ht : SubtreeAt ch n t) (hs : SubtreeAt ch m s)
    (hbt : ∀ x ∈ t.nodes, h.mutB x = false) (hbs : ∀ x ∈ s.nodes, h.mutB x = false)
    (h1 : 2 * t.size ≤ usizeMax) (h2 : 2 * s.size ≤ usizeMax) :
    ∃ (b : Bool) (l k : List (Event α)) (p q : List Char), h.tryEq eq n m = .ok (.ok b) ∧
      Yields h.serNext (Dft.start n) (l.map .ok) ∧ Yields h.serNext (Dft.start m) (k.map .ok) ∧
      h.pretty fmt n = .ok p ∧ h.pretty fmt m = .ok q ∧
      (b = true ↔ l = k) ∧ (b = true ↔ p = q) := by
  obtain ⟨u, hu, -⟩ := C29_data_exists_unique W ha ht
  obtain ⟨v, hv, -⟩ := C29_data_exists_unique W hb hs
  obtain ⟨b, e, hbq⟩ := C36_decides eq W ha hb ht hs hu hv (.inr fun a => (he a a).2 rfl) hbt hbs
  rw [(C36_equivalence eq).2.2.2 he] at hbq
  obtain ⟨l, hl, yl⟩ := C29_to_events W ha ht hu hbt h1
  obtain ⟨k, hk, yk⟩ := C29_to_events W hb hs hv hbs h2
  obtain ⟨p, q, ep, eq', hpq⟩ := C71_print W W fmt fmt ha hb ht hs ho ho
  refine ⟨b, l, k, p, q, e, yl, yk, ep, eq', by rw [hbq, C71_events_injective hl hk], ?_⟩
  rw [hbq, hpq, texts_eq fmt _ _ hu hbt, texts_eq fmt _ _ hv hbs]
  exact ⟨fun e => by rw [e], RTree.map_inj hi u v⟩

/-- C71: so it is in every state that a program can reach. -/
theorem C71_reach {w : World α} (eq : α → α → Bool) (he : ∀ a b, eq a b = true ↔ a = b)
    (fmt : α → List (List Char)) (ho : ∀ d, (fmt d).flatten ≠ [] ∧ '\n' ∉ (fmt d).flatten)
    (hi : ∀ a b, (fmt a).flatten = (fmt b).flatten → a = b)
    (hr : ReachW w) (ha : w.heap.alive n = true) (hb : w.heap.alive m = true)
    (hm : ∀ x, w.heap.mutB x = false) (hsz : 2 * w.heap.nNode ≤ usizeMax) :
    ∃ (b : Bool) (l k : List (Event α)) (p q : List Char), w.heap.tryEq eq n m = .ok (.ok b) ∧
      Yields w.heap.serNext (Dft.start n) (l.map .ok) ∧ Yields w.heap.serNext (Dft.start m) (k.map .ok) ∧
      w.heap.pretty fmt n = .ok p ∧ w.heap.pretty fmt m = .ok q ∧
      (b = true ↔ l = k) ∧ (b = true ↔ p = q) := by
  obtain ⟨z, ch, W⟩ := hr.wide
  have F := W.shape
  obtain ⟨t, ht⟩ := F.exists_subtree n
  obtain ⟨s, hs⟩ := F.exists_subtree m
  have h1 := ht.size_le F ha
  have h2 := hs.size_le F hb
  refine C71_agree eq he fmt ho hi F ha hb ht hs (fun x _ => hm x) (fun x _ => hm x) ?_ ?_
  · unfold RTree.size; omega
  · unfold RTree.size; omega

/-- The subtrees at 0 and 3 of the state after the last child 3 has been detached from 0; numbers in unary. -/
example := C71_reach (fun a b => decide (a = b)) (by simp) (fun d : Nat => [List.replicate (d + 1) 'i'])
  (fun d => ⟨by simp, by simp⟩) (fun a b e => by simpa using congrArg List.length e)
  DemoWorld.wideReach5 (n := 0) (m := 3) rfl rfl
  (fun x => by match x with | 0 | 1 | 2 | 3 => rfl | x + 4 => rfl) (by decide)

/-- Nodes with different data below equal shapes, with a format of several pieces. -/
example := C71_print (t := .node 2 [.node 4 [], .node 5 []]) (s := .node 4 []) Demo.wf.toFShape Demo.wf.toFShape
  (fun d => ["n".toList, List.replicate d 'i']) (fun _ => [['x']]) (n := 2) (m := 4) rfl rfl
  ⟨rfl, by simp [Hier, HierL, Demo.ch, RTree.label]⟩ ⟨rfl, by simp [Hier, HierL, Demo.ch]⟩
  (fun d => ⟨by simp, by simp⟩) (fun d => ⟨by simp, by simp⟩)

end Dendron
