import Verif.Proofs.MachineRun
import Verif.Proofs.DemoWide

/-!
# C62: the crate behaves as a machine of ordered trees

`Forest` (`Verif.Spec.Machine`) is what the crate is meant to be: nodes with data and ordered lists of
children, trees with roots, and what the program holds.  `a.Step op r a'` says what the call `op` does there,
and returns: six lines for each edit, in terms of lists.  `Shows w a`: the memory `w` represents `a`.

The calls are those of `StepW` (`Verif.Spec.Wide`), that is without a known defect (C10-C18 show what the
others do), including those which leave a stale `last_child` behind, as long as no later call relies on it.
-/

set_option autoImplicit false

namespace Dendron
variable {α : Type} {w w' : World α} {a a' a1 a2 : Forest α} {op : Op α} {r r1 r2 : Res}
  {l : List (Op α × Res)} {S : NodeId → Prop}

/-- C62: every state of a program represents exactly one state of the machine. -/
theorem C62_shown (hr : ReachW w) : ∃ a, Shows w a ∧ ∀ b, Shows w b → b = a := by
  obtain ⟨v, ch, W⟩ := hr.wide
  exact ⟨_, W.shape.view, fun b hb => hb.unique W.shape.view⟩

/-- C62: every call does what the machine does, and returns what the machine returns. -/
theorem C62_refines (hr : ReachW w) (hs : Shows w a) (s : w.StepW op w' r) :
    ∃ a', Shows w' a' ∧ a.Step op r a' := s.plays hr hs

/-- C62: the results of any sequence of calls are those of the machine. -/
theorem C62_history (h : Played l w) : ∃ a, Forest.Runs Forest.init l a ∧ Shows w a := h.runs

/-- C62: the machine is deterministic, so it says exactly what a call returns and does. -/
theorem C62_deterministic (hs : Shows w a) (s1 : a.Step op r1 a1) (s2 : a.Step op r2 a2) :
    r1 = r2 ∧ a1 = a2 := hs.children.lists.det s1 s2

/-- C62: where the program can make the call, the call returns if and only if the machine has a step, with
the same result. -/
theorem C62_exact (hr : ReachW w) (hs : Shows w a) (hm : a.May op) (hf : a.Fine op)
    (hu : ∀ p, UsesLast a.children op p → LastRight w.heap a.children p) (hroom : Room w.heap) :
    a.Step op r a' ↔ ∃ w', w.exec op = .ok (w', r) ∧ Shows w' a' := by
  obtain ⟨v, ch, W⟩ := hr.wide
  exact W.exact_step hs hm hf hu hroom

/-- C62: the lock counters of a program that has made fewer than 2^61 calls are far from the limits of
`isize`. -/
theorem C62_room (h : Played l w) (hl : l.length < 2 ^ 61) : Room w.heap := h.room hl

/-- C62: a program written against the machine, of at most 2^61 calls, is executed by the crate, with the
same results: no call panics, and none fails where the machine succeeds. -/
theorem C62_programs (h : Forest.Program l a S) (hl : l.length ≤ 2 ^ 61) : ∃ w, Played l w ∧ Shows w a := by
  obtain ⟨w, P, Sh, -⟩ := h.played hl
  exact ⟨w, P, Sh⟩

/-! ### Concrete cases -/

namespace DemoMachine

def f0 : Forest Nat := .init
def f1 : Forest Nat := ((f0.addNode 10 0).addTree 0).give .hot 0
def f2 : Forest Nat := ((f1.addNode 11 0).setChildren 0 [1]).give .hot 1
def f3 : Forest Nat := ((f2.addNode 12 0).setChildren 0 [1, 2]).give .hot 2
def f4 : Forest Nat := ((f3.addNode 13 0).setChildren 0 [1, 2, 3]).give .hot 3
/-- `n3.detach_subtree()` -/
noncomputable def f5 : Forest Nat := (((f4.rehome (Desc f4.children 3) 1).addTree 3).setChildren 0 [1, 2]).sweep
/-- `drop(n3)`: the tree 1 vanishes. -/
noncomputable def f6 : Forest Nat := (f5.take .hot 3).sweep

def calls : List (Op Nat × Res) :=
  [(.newTree true 10, .node (some 0)), (.create .hot 0 11 .lastChild, .node (some 1)),
   (.create .hot 0 12 .lastChild, .node (some 2)), (.create .hot 0 13 .lastChild, .node (some 3)),
   (.detach .hot 3, .unit), (.drop .hot 3, .unit)]

theorem step1 : f0.Step (.newTree true 10) (.node (some 0)) f1 := .newTree true 10
theorem step2 : f1.Step (.create .hot 0 11 .lastChild) (.node (some 1)) f2 :=
  .create (p := 0) (l1 := []) (l2 := []) (t := 0) trivial rfl (.last 0)
theorem step3 : f2.Step (.create .hot 0 12 .lastChild) (.node (some 2)) f3 :=
  .create (p := 0) (l1 := [1]) (l2 := []) (t := 0) trivial rfl (.last 0)
theorem step4 : f3.Step (.create .hot 0 13 .lastChild) (.node (some 3)) f4 :=
  .create (p := 0) (l1 := [1, 2]) (l2 := []) (t := 0) trivial rfl (.last 0)
theorem step5 : f4.Step (.detach .hot 3) .unit f5 :=
  .detach (p := 0) (l1 := [1, 2]) (l2 := []) trivial rfl
theorem step6 : f5.Step (.drop .hot 3) .unit f6 := .drop .hot 3

/-- A program on the machine: three children, the last is detached, and its tree is dropped. -/
theorem program : ∃ S, Forest.Program calls f6 S := by
  have no : ∀ {a : Forest Nat} {S : NodeId → Prop} {n : NodeId} {d : Nat}, (∀ p, ¬ S p) →
      ∀ p, ¬ a.marks S (.create .hot n d .lastChild) p := by
    rintro a S n d h p (h1 | h1 | ⟨_, _, _, h1, -⟩)
    · exact h p h1
    · exact h1
    · cases h1
  have p1 : Forest.Program [(.newTree true 10, .node (some 0))] f1 (f0.marks (fun _ => False) (.newTree true 10)) :=
    .step .init trivial trivial (fun _ _ h => h) step1
  have n1 : ∀ p, ¬ f0.marks (fun _ => False) (Op.newTree true 10) p := by
    rintro p (h1 | h1 | ⟨_, _, _, h1, -⟩)
    · exact h1
    · exact h1
    · cases h1
  have p2 := Forest.Program.step (op := .create .hot 0 11 .lastChild) p1 (show 0 < _ by decide) trivial (fun p _ => n1 p) step2
  have n2 := no (a := f1) (n := 0) (d := 11) n1
  have p3 := Forest.Program.step (op := .create .hot 0 12 .lastChild) p2 (show 0 < _ by decide) trivial (fun p _ => n2 p) step3
  have n3 := no (a := f2) (n := 0) (d := 12) n2
  have p4 := Forest.Program.step (op := .create .hot 0 13 .lastChild) p3 (show 0 < _ by decide) trivial (fun p _ => n3 p) step4
  have n4 := no (a := f3) (n := 0) (d := 13) n3
  have p5 := Forest.Program.step (op := .detach .hot 3) p4 (show 0 < _ by decide) trivial (fun p _ => n4 p) step5
  exact ⟨_, .step p5 (show 0 < _ by decide) trivial (fun _ h => h.elim) step6⟩

end DemoMachine

/-- In the end node 3 is gone. -/
theorem DemoMachine.gone : DemoMachine.f6.data 3 = none := by
  have tr : ∀ n, DemoMachine.f4.tree n ≠ some 1 := by
    intro n
    simp only [f4, f3, f2, f1, f0, Forest.give, Forest.setChildren, Forest.addNode, Forest.addTree, Forest.init, upd]
    repeat' split
    all_goals simp
  have d3 : ∀ n, Desc f4.children 3 n → n = 3 := by
    intro n h
    induction h with
    | refl => rfl
    | step _ hm ih => subst ih; cases hm
  have h5 : ∀ n t, DemoMachine.f5.tree n = some t → t = 1 → n = 3 := by
    intro n t e ht
    subst ht
    simp only [f5, Forest.sweep] at e
    split at e
    · simp only [Forest.setChildren, Forest.addTree, Forest.rehome] at e
      split at e
      · exact d3 n ‹_›
      · exact absurd e (tr n)
    · cases e
  have h3 : ∀ t, DemoMachine.f5.tree 3 = some t → t = 1 := by
    intro t e
    simp only [f5, Forest.sweep] at e
    split at e
    · simpa [Forest.setChildren, Forest.addTree, Forest.rehome, Desc.refl, eq_comm] using e
    · cases e
  simp only [f6, Forest.sweep]
  rw [if_neg]
  rintro ⟨t, e, hh⟩
  obtain rfl := h3 t e
  rcases hh with hh | ⟨k, n, hk, hn⟩
  · exact absurd hh (by decide)
  · obtain rfl := h5 n 1 hn rfl
    cases k <;> exact absurd hk (by decide)

/-- The crate executes that program. -/
example : ∃ w, Played DemoMachine.calls w ∧ Shows w DemoMachine.f6 ∧ w.heap.alive 3 = false := by
  obtain ⟨S, h⟩ := DemoMachine.program
  obtain ⟨w, P, Sh⟩ := C62_programs h (by decide)
  refine ⟨w, P, Sh, ?_⟩
  cases e : w.heap.alive 3 with
  | false => rfl
  | true => exact absurd DemoMachine.gone (Sh.alive.1 e)

/-- `C62_refines` and `C62_exact` apply to a state with a stale `last_child` (nodes 1 and 2 are children of
node 0, node 3 has been detached), and the machine says that a node is created between them. -/
example : ∃ a, Shows (DemoWorld.wide 5) a ∧
    ∃ a', Shows (DemoWorld.wide 6) a' ∧ a.Step (.create .hot 2 14 .previousSibling) (.node (some 4)) a' := by
  obtain ⟨a, h, -⟩ := C62_shown DemoWorld.wideReach5
  exact ⟨a, h, C62_refines DemoWorld.wideReach5 h DemoWorld.wideCreate⟩

end Dendron
