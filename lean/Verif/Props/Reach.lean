import Verif.Proofs.DemoWide

/-!
# C01-C04 along histories

`Reach w`: `w` is reached by calls without a known defect.  `ReachAny w`: by any calls that return.
-/

set_option autoImplicit false

namespace Dendron
variable {α : Type} {w : World α}

/-- C01-C04 for every history that avoids the calls with a known defect: there is one hierarchy `ch`
such that all navigation methods, counts, positions and tree queries report it.  Missing: histories
containing a defective call, for which it is false (`C01_history_violated`). -/
theorem C01_history_partial (hr : Reach w) :
    ∃ ch, Coherent w.heap ch := by
  obtain ⟨ch, I⟩ := hr.inv
  exact ⟨ch, I.wf.coherent⟩

/-- C02 along histories: the counts are those of the hierarchy the navigation methods report. -/
theorem C02_history_partial (hr : Reach w) :
    ∃ ch, Coherent w.heap ch ∧ CountsExact w.heap ch := by
  obtain ⟨ch, I⟩ := hr.inv
  exact ⟨ch, I.wf.coherent, I.wf.counts⟩

/-- C03 along histories. -/
theorem C03_history_partial (hr : Reach w) :
    ∃ ch, Coherent w.heap ch ∧ PositionsExact w.heap ch := by
  obtain ⟨ch, I⟩ := hr.inv
  exact ⟨ch, I.wf.coherent, I.wf.positions⟩

/-- C04 along histories. -/
theorem C04_history_partial (hr : Reach w) :
    ∃ ch, Coherent w.heap ch ∧ TreesAgree w.heap ch := by
  obtain ⟨ch, I⟩ := hr.inv
  exact ⟨ch, I.wf.coherent, I.wf.trees⟩

/-- The hypothesis is met by a program with two trees, a token, hot handles and a move between the
trees. -/
example : Reach (DemoWorld.at_ 9) ∧ (DemoWorld.at_ 9).heap.nodeTree 3 = .ok 1 :=
  ⟨DemoWorld.reach9, rfl⟩

/-! ### Histories in which last children are detached, replaced or moved -/

/-- C01 in the wider histories: all navigation methods report one hierarchy, except that the methods
which find the end of a list of children are right only for the parents whose `last_child` is. -/
theorem C01_history_wide_partial (hr : ReachW w) :
    ∃ ch, CoherentOn w.heap ch (LastRight w.heap ch) := by
  obtain ⟨v, ch, W⟩ := hr.wide
  exact ⟨ch, W.coherent⟩

/-- `last_child` of a node stays right, unless the call takes the last of several children of that node
away. -/
theorem C01_last_child_kept_partial {w' : World α} {op : Op α} {r : Res} {ch ch' : NodeId → List NodeId}
    {p : NodeId} (hr : ReachW w) (s : w.StepW op w' r) (F : FShape w.heap ch) (F' : FShape w'.heap ch')
    (ha : w.heap.alive p = true) (ha' : w'.heap.alive p = true) (hl : LastRight w.heap ch p)
    (hd : ¬ DropsLast ch op p) : LastRight w'.heap ch' p := by
  obtain ⟨v, ch1, W⟩ := hr.wide
  obtain ⟨v', ch2, W', -, h1, -⟩ := s.wide W
  obtain rfl := W.shape.unique F
  obtain rfl := W'.shape.unique F'
  exact h1 p ha ha' hl hd

/-- If `last_child` of all nodes is right, so it is after the call, unless the call takes the last of
several children away. -/
theorem C01_last_child_all_partial {w' : World α} {op : Op α} {r : Res} {ch ch' : NodeId → List NodeId}
    (hr : ReachW w) (s : w.StepW op w' r) (F : FShape w.heap ch) (F' : FShape w'.heap ch')
    (hl : ∀ p, w.heap.alive p = true → LastRight w.heap ch p) (hd : ∀ p, ¬ DropsLast ch op p) :
    ∀ p, w'.heap.alive p = true → LastRight w'.heap ch' p := by
  obtain ⟨v, ch1, W⟩ := hr.wide
  obtain ⟨v', ch2, W', -, -, h1⟩ := s.wide W
  obtain rfl := W.shape.unique F
  obtain rfl := W'.shape.unique F'
  exact h1 hl hd

/-- C02 in the wider histories: all counts are right. -/
theorem C02_history_wide_partial (hr : ReachW w) :
    ∃ ch, CoherentOn w.heap ch (LastRight w.heap ch) ∧ CountsExact w.heap ch := by
  obtain ⟨v, ch, W⟩ := hr.wide
  exact ⟨ch, W.coherent, W.counts⟩

/-- C03 in the wider histories: positions and depths are right; counting the preceding siblings is right
if `last_child` of the parent is. -/
theorem C03_history_wide_partial (hr : ReachW w) :
    ∃ ch, CoherentOn w.heap ch (LastRight w.heap ch) ∧ PositionsOn w.heap ch (LastRight w.heap ch) := by
  obtain ⟨v, ch, W⟩ := hr.wide
  exact ⟨ch, W.coherent, W.positions⟩

/-- C04 in the wider histories: trees, roots and memberships agree. -/
theorem C04_history_wide_partial (hr : ReachW w) :
    ∃ ch, CoherentOn w.heap ch (LastRight w.heap ch) ∧ TreesAgree w.heap ch := by
  obtain ⟨v, ch, W⟩ := hr.wide
  exact ⟨ch, W.coherent, W.trees⟩

/-- The histories without a known defect are among the wider ones. -/
example (hr : Reach w) : ReachW w := hr.toW

/-- A program that detaches the last of three children, then inserts a node between the other two:
`last_child` of node 0 is stale before and after, of node 1 it is right. -/
example : ReachW (DemoWorld.wide 5) ∧
    (DemoWorld.wide 5).StepW (.create .hot 2 14 .previousSibling) (DemoWorld.wide 6) (.node (some 4)) ∧
    (DemoWorld.wide 5).heap.navTo 0 .lastChild = .ok (some 3) ∧ (DemoWorld.wide 5).heap.parent 3 = none ∧
    (DemoWorld.wide 6).heap.navTo 0 .lastChild = .ok (some 3) ∧
    (DemoWorld.wide 6).heap.navTo 0 .firstChild = .ok (some 1) ∧
    (DemoWorld.wide 6).heap.navTo 1 .nextSibling = .ok (some 4) ∧
    (DemoWorld.wide 6).heap.navTo 4 .nextSibling = .ok (some 2) ∧
    (∀ ch, FShape (DemoWorld.wide 5).heap ch → LastRight (DemoWorld.wide 5).heap ch 1) := by
  refine ⟨DemoWorld.wideReach5, DemoWorld.wideCreate, rfl, rfl, rfl, rfl, rfl, rfl, ?_⟩
  intro ch F
  have h1 : ch 1 = [] := by
    have := F.first 1 rfl
    have h2 : (DemoWorld.wide 5).heap.firstChild 1 = none := rfl
    rw [h2] at this
    exact List.head?_eq_none_iff.1 this.symm
  show (DemoWorld.wide 5).heap.navTo 1 .lastChild = .ok (ch 1).getLast?
  rw [h1]; rfl

/-- C01 is violated by a four-call program: after detaching the last of two children, the navigation
methods do not describe any hierarchy (`last_child` of the root is the detached node, which has no
parent). -/
theorem C01_history_violated :
    ∃ w : World Nat, ReachAny w ∧ ¬ ∃ ch, Coherent w.heap ch := by
  refine ⟨DemoWorld.run [.newTree true 0, .create .hot 0 1 .lastChild, .create .hot 0 2 .lastChild,
      .detach .hot 2] .init, ?_, ?_⟩
  · refine ReachAny.run _ _ .init ?_
    intro i op hi
    match i with
    | 0 => cases hi; exact ⟨trivial, _, rfl⟩
    | 1 => cases hi; exact ⟨show 0 < _ by decide, _, rfl⟩
    | 2 => cases hi; exact ⟨show 0 < _ by decide, _, rfl⟩
    | 3 => cases hi; exact ⟨show 0 < _ by decide, _, rfl⟩
    | i + 4 => cases hi
  · rintro ⟨ch, C⟩
    have h1 := C.lastChild 0 rfl
    have h2 : ((DemoWorld.run [.newTree true 0, .create .hot 0 1 .lastChild,
      .create .hot 0 2 .lastChild, .detach .hot 2] .init).heap.lastChildLink 0) = .ok (some 2) := rfl
    rw [h2] at h1
    simp only [Except.ok.injEq] at h1
    have h3 : (2 : NodeId) ∈ ch 0 := List.mem_of_getLast? h1.symm
    have h4 := (C.parent 0 2 rfl).2 h3
    cases h4

end Dendron
