import Verif.Proofs.ReadWide
import Verif.Proofs.DemoWide

/-!
# C51 in the wider histories

`ReadsW` (`Verif.Spec.Reads`): calls that create, edit and write nothing, in a history in which a list of children
may have a stale end, none of them asking for such an end.
-/

set_option autoImplicit false

namespace Dendron
variable {α : Type} {w w' : World α} {n : NodeId}

/-- C51: such calls lead to a state of these histories again. -/
theorem C51_reads_reach (hr : ReachW w) (rd : ReadsW w w') : ReachW w' ∧ ReadsAny w w' := by
  induction rd with
  | refl => exact ⟨hr, .refl _⟩
  | step _ hop s ih => exact ⟨.step ih.1 s, .step ih.2 hop ⟨s.allowed, s.run⟩⟩

/-- C51: whatever else is dropped in the meantime, a node that is still alive has the same data and is in the same
tree, its parent, its siblings and its children are the same, and every way to go from it that did not depend on
a stale end still leads to the same node. -/
theorem C51_places_wide (hr : ReachW w) (rd : ReadsW w w') (ha : w.heap.alive n = true)
    (ha' : w'.heap.alive n = true) :
    w'.heap.data n = w.heap.data n ∧ w'.heap.nodeTree n = w.heap.nodeTree n ∧
      ∀ ch, FShape w.heap ch →
        (∀ q, (∀ p, UsesLast ch (.nav .plain q n : Op α) p → LastRight w.heap ch p) →
          w'.heap.navTo n q = w.heap.navTo n q) ∧
        ∃ ch', FShape w'.heap ch' ∧ ch' n = ch n ∧ (∀ p, n ∈ ch' p ↔ n ∈ ch p) ∧
          (LastRight w.heap ch n → LastRight w'.heap ch' n) := by
  obtain ⟨h1, h2, h3⟩ := rd.keeps hr ha ha'
  refine ⟨h1, h2, fun ch S => ⟨h3 ch S, ?_⟩⟩
  obtain ⟨v, c, W⟩ := hr.wide
  obtain rfl : ch = c := S.unique W.shape
  obtain ⟨v', ch', W', -, H⟩ := rd.same W
  have E := H n ha ha'
  exact ⟨ch', W'.shape, E.kids, E.place, E.last⟩

/-- Node 0 has a stale last child, node 3, which is dropped with its tree; node 2 stays where it is. -/
example : ReachW (DemoWorld.wide 6) ∧ ReadsW (DemoWorld.wide 6) (DemoWorld.wide 7) ∧
    (DemoWorld.wide 6).heap.alive 2 = true ∧ (DemoWorld.wide 7).heap.alive 2 = true ∧
    (DemoWorld.wide 6).heap.alive 3 = true ∧ (DemoWorld.wide 7).heap.alive 3 = false ∧
    (DemoWorld.wide 6).heap.navTo 2 .prevSibling = .ok (some 4) ∧
    (DemoWorld.wide 6).heap.navTo 0 .lastChild = .ok (some 3) ∧
    (∃ m, (DemoWorld.wide 7).heap.navTo 0 .lastChild = .error m) ∧
    ∃ ch, FShape (DemoWorld.wide 6).heap ch ∧
      (∀ p, UsesLast ch (.nav .plain .prevSibling 2 : Op Nat) p → LastRight (DemoWorld.wide 6).heap ch p) ∧
      ¬ LastRight (DemoWorld.wide 6).heap ch 0 := by
  obtain ⟨v, ch, W⟩ := DemoWorld.wideReach6.wide
  refine ⟨DemoWorld.wideReach6, .step (op := .drop .hot 3) (.refl _) trivial DemoWorld.wideDrop,
    by decide +kernel, by decide +kernel, by decide +kernel, by decide +kernel, by rfl, by rfl, ⟨_, rfl⟩, ch, W.shape, ?_, ?_⟩
  · intro p hp
    exact absurd hp (DemoWorld.wideHead W.shape rfl rfl rfl (by decide))
  · intro h
    have h : (DemoWorld.wide 6).heap.navTo 0 .lastChild = .ok (ch 0).getLast? := h
    have e : (DemoWorld.wide 6).heap.navTo 0 .lastChild = .ok (some 3) := rfl
    rw [e] at h
    have hm : 3 ∈ ch 0 := List.mem_of_getLast? (Except.ok.inj h).symm
    have hp := W.shape.parent_of_mem hm
    have hp' : (DemoWorld.wide 6).heap.parent 3 = none := rfl
    rw [hp'] at hp; cases hp

end Dendron
