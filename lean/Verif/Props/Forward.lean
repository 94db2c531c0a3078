import Verif.Props.Traverse
import Verif.Props.Serial
import Verif.Props.Pretty
import Verif.Props.Reach

/-!
# C66: reading forwards is right after every history

`ReachW` includes the histories in which `last_child` became wrong (a last child was detached, moved away or
replaced).  What reads the tree from the first child on still shows the hierarchy that the other navigation methods
report.
-/

set_option autoImplicit false

namespace Dendron
open RTree

variable {α : Type} {w : World α} {n m : NodeId}

/-- `depth_first_traverse`, `children`, `ancestors_or_self`, `debug_pretty_print` and `to_events` show the hierarchy
that the navigation methods report. -/
theorem C66_forward (hr : ReachW w) (ha : w.heap.alive n = true) :
    ∃ ch t, CoherentOn w.heap ch (LastRight w.heap ch) ∧ SubtreeAt ch n t ∧
      Yields (Dft.next w.heap) (Dft.start n) t.events ∧
      Yields (Sib.next w.heap) (Sib.children w.heap n) (ch n) ∧
      (∀ l, AncPath ch n l → Yields (Sib.up w.heap) (Sib.ancestorsOrSelf n) (n :: l)) ∧
      (∀ fmt, w.heap.pretty fmt n = .ok (t.map (w.heap.textOf fmt)).drawing) ∧
      (∀ u, HasData w.heap t u → (∀ x ∈ t.nodes, w.heap.mutB x = false) → 2 * t.size ≤ usizeMax →
        ∃ l, Canonical u l ∧ Yields w.heap.serNext (Dft.start n) (l.map .ok)) := by
  obtain ⟨v, ch, W⟩ := hr.wide
  have F := W.shape
  obtain ⟨t, ht⟩ := F.exists_subtree n
  refine ⟨ch, t, W.coherent, ht, F.dft_yields ha ht, ?_, fun l hl => (C21_ancestors F ha hl).1,
    fun fmt => F.pretty fmt ha ht, fun u hu hb hs => C29_to_events F ha ht hu hb hs⟩
  have := Sib.yields_next (F.seg n)
  rwa [← F.first n ha] at this

/-- `try_eq` of two different nodes whose data is not mutably borrowed tells whether the two subtrees have the same
shape and equal data. -/
theorem C66_eq (eq : α → α → Bool) (hr : ReachW w) (ha : w.heap.alive n = true) (hb : w.heap.alive m = true)
    (hne : n ≠ m) (hm : ∀ x, w.heap.mutB x = false) :
    ∃ ch t s u v b, CoherentOn w.heap ch (LastRight w.heap ch) ∧ SubtreeAt ch n t ∧ SubtreeAt ch m s ∧
      HasData w.heap t u ∧ HasData w.heap s v ∧
      w.heap.tryEq eq n m = .ok (.ok b) ∧ (b = true ↔ Equal eq u v) := by
  obtain ⟨z, ch, W⟩ := hr.wide
  have F := W.shape
  obtain ⟨t, ht⟩ := F.exists_subtree n
  obtain ⟨s, hs⟩ := F.exists_subtree m
  obtain ⟨u, hu, -⟩ := C29_data_exists_unique F ha ht
  obtain ⟨v, hv, -⟩ := C29_data_exists_unique F hb hs
  obtain ⟨b, e, h⟩ := C36_decides eq F ha hb ht hs hu hv (.inl hne) (fun x _ => hm x) (fun x _ => hm x)
  exact ⟨ch, t, s, u, v, b, W.coherent, ht, hs, hu, hv, e, h⟩

/-- After the last child 3 of node 0 has been detached, `last_child` of node 0 still is node 3, but the drawing and the
comparison are right. -/
example : ReachW (DemoWorld.wide 5) ∧ (DemoWorld.wide 5).heap.alive 0 = true ∧
    (DemoWorld.wide 5).heap.navTo 0 .lastChild = .ok (some 3) ∧
    (match (DemoWorld.wide 5).heap.pretty (fun d => [(Nat.repr d).toList]) 0 with
      | .ok l => String.ofList l | .error _ => "") = "10\n|-- 11\n`-- 12" :=
  ⟨DemoWorld.wideReach5, rfl, rfl, by decide +kernel⟩

example := C66_forward DemoWorld.wideReach5 (n := 0) rfl
example := C66_eq (fun _ _ => true) DemoWorld.wideReach5 (n := 0) (m := 3) rfl rfl (by decide)
  (fun x => by match x with | 0 | 1 | 2 | 3 => rfl | x + 4 => rfl)

end Dendron
