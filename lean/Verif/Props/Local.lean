import Verif.Proofs.LocalSwap
import Verif.Props.Machine

/-!
# C69: trees are independent of each other

`a.Involves op t` says that the call names the tree `t` or a node of it; `a.SameTree b t` that the tree `t` is the
same in both states: its nodes, their data and children, its root, its locks, and the handles the program has of it
(`Verif.Spec.Local`, on the abstract states of C62, which `Shows w a` ties to the memory).
-/

set_option autoImplicit false

namespace Dendron
variable {α : Type} {w w' w1 w2 : World α} {a a' b : Forest α} {op op1 op2 : Op α} {r r1 r2 : Res} {t : TreeId}
  {p : NodeId}

/-- C69: a call leaves every tree alone that it does not involve: the nodes, their data, the hierarchy, the root, the
locks and the handles stay, and where `last_child` was right it stays right.  (The one other tree that can appear
is the one that the call makes.) -/
theorem C69_others (hr : ReachW w) (S : Shows w a) (s : w.StepW op w' r) (S' : Shows w' a')
    (hi : ¬ a.Involves op t) (hn : t ≠ a.newTree) :
    a.SameTree a' t ∧ ∀ p, a.tree p = some t → LastRight w.heap a.children p → LastRight w'.heap a'.children p := by
  obtain ⟨b, S2, st⟩ := s.plays hr S
  obtain rfl := S2.unique S'
  exact ⟨st.frame (hr.tidy S) hi hn, fun p e => hr.last_kept S s S' hi hn e⟩

/-- C69: so do any number of calls. -/
theorem C69_others_history (hr : ReachW w) (S : Shows w a) (h : LeavesAlone t w w') (S' : Shows w' a')
    (ht : t < a.newTree) :
    a.SameTree a' t ∧ ∀ p, a.tree p = some t → LastRight w.heap a.children p → LastRight w'.heap a'.children p := by
  suffices key : ReachW w' ∧ ∀ b, Shows w' b → a.newTree ≤ b.newTree ∧ a.SameTree b t ∧
      ∀ p, a.tree p = some t → LastRight w.heap a.children p → LastRight w'.heap b.children p from
    (key.2 _ S').2
  clear S'
  induction h with
  | refl =>
    refine ⟨hr, fun b Sb => ?_⟩
    obtain rfl := S.unique Sb
    exact ⟨Nat.le_refl _, .refl a t, fun _ _ h => h⟩
  | @step w1 w2 op r h s hi ih =>
    obtain ⟨hr1, ih⟩ := ih
    obtain ⟨b, Sb⟩ := Shows.exists hr1
    obtain ⟨h1, h2, h3⟩ := ih b Sb
    obtain ⟨b', Sb', st⟩ := s.plays hr1 Sb
    have hn : t ≠ b.newTree := Nat.ne_of_lt (Nat.lt_of_lt_of_le ht h1)
    refine ⟨.step hr1 s, fun c Sc => ?_⟩
    obtain rfl := Sb'.unique Sc
    obtain ⟨g1, g2⟩ := C69_others hr1 Sb s Sb' (hi b Sb) hn
    refine ⟨?_, h2.trans g1, fun p e hl => g2 p ((h2.tree p).2 e) (h3 p e hl)⟩
    rcases st.news.2 with e | ⟨-, e⟩
    · rw [e]; exact h1
    · rw [e]; exact Nat.le_succ_of_le h1

/-- C69: what a call returns and does depends only on the trees it involves: in any other state in which these are
the same the same call can be made, returns the same, and leaves the same behind, in the trees it involves and in
the tree it makes. -/
theorem C69_depends (hr : ReachW w) (S : Shows w a) (hr1 : ReachW w1) (S1 : Shows w1 b) (R : w1.Roomy)
    (A : a.AlikeFor b op) (s : w.StepW op w' r)
    (hu : ∀ p, UsesLast b.children op p → LastRight w1.heap b.children p) :
    ∃ w2, w1.StepW op w2 r ∧ ∀ a' b', Shows w' a' → Shows w2 b' →
      ∀ t, (a.Involves op t ∨ op.makesTree = true ∧ t = a.newTree) → a'.SameTree b' t :=
  hr.alike S hr1 S1 R A s hu

/-- C69: two calls that have nothing to do with each other can be made in both orders; each returns the same in both,
and the state is the same in the end. -/
theorem C69_commute (hr : ReachW w) (S : Shows w a) (R : w.Spare) (P : a.Apart op1 op2) (K1 : a.Known op1)
    (K2 : a.Known op2) (s1 : w.StepW op1 w1 r1) (s2 : w.StepW op2 w2 r2) :
    ∃ w12 w21, w1.StepW op2 w12 r2 ∧ w2.StepW op1 w21 r1 ∧ ∀ b, Shows w12 b ↔ Shows w21 b :=
  hr.diamond S R P K1 K2 s1 s2

/-! ### Concrete cases -/

namespace DemoLocal

/-- In the state with two trees, node 1 of tree 0 is detached. -/
theorem detachStep : ∃ w', (DemoWorld.at_ 8).StepW (.detach .hot 1) w' .unit ∧ w'.heap.nTree = 3 := by
  obtain ⟨ch, I⟩ := DemoWorld.reach8.inv
  refine ⟨_, World.Step.toW ⟨show 0 < (DemoWorld.at_ 8).held .hot 1 by decide, fun ch F => ?_,
    DemoWorld.room 8 (by decide), rfl⟩ I, rfl⟩
  rintro ⟨p, l, a, e⟩
  have := F.next_at (p := p) (n := 1) (l1 := l ++ [a]) (l2 := []) (by rw [e]; simp)
  have h3 : (DemoWorld.at_ 8).heap.next 1 = some 2 := rfl
  rw [h3] at this; simp at this

/-- In the same state, node 4, the root of tree 1, gets a child. -/
theorem createStep : ∃ w', (DemoWorld.at_ 8).StepW (.create .hot 4 21 .lastChild) w' (.node (some 5)) := by
  obtain ⟨ch, I⟩ := DemoWorld.reach8.inv
  exact ⟨_, World.Step.toW ⟨show 0 < (DemoWorld.at_ 8).held .hot 4 by decide, fun _ _ => trivial,
    DemoWorld.room 8 (by decide), rfl⟩ I⟩

theorem spare : (DemoWorld.at_ 8).Spare := by
  intro t
  match t with
  | 0 => decide
  | 1 => decide
  | t + 2 => show 0 + 0 + 5 + 1 < 2 ^ 62; decide

variable {a : Forest Nat}

theorem trees (S : Shows (DemoWorld.at_ 8) a) : a.tree 1 = some 0 ∧ a.tree 4 = some 1 := by
  rw [S.tree, S.tree]; exact ⟨rfl, rfl⟩

theorem apart (S : Shows (DemoWorld.at_ 8) a) : a.Apart (.detach .hot 1) (.create .hot 4 21 .lastChild) := by
  obtain ⟨h1, h2⟩ := trees S
  refine ⟨?_, (by intro h; cases h), (by intro h; rfl)⟩
  rintro t (⟨n, hn, e⟩ | e) (⟨m, hm, f⟩ | f)
  · simp only [Op.names, List.mem_singleton] at hn hm
    subst hn; subst hm
    rw [h1] at e; rw [h2] at f; rw [← e] at f; cases f
  · cases f
  · cases e
  · cases e

theorem known (S : Shows (DemoWorld.at_ 8) a) :
    a.Known (.detach .hot 1) ∧ a.Known (.create .hot 4 21 .lastChild) := by
  have h : a.newNode = 5 := S.newNode
  refine ⟨⟨fun n hn => ?_, fun t h => by cases h⟩, ⟨fun n hn => ?_, fun t h => by cases h⟩⟩
  · simp only [Op.names, List.mem_singleton] at hn
    subst hn; rw [h]; decide
  · simp only [Op.names, List.mem_singleton] at hn
    subst hn; rw [h]; decide

end DemoLocal

/-- `C69_commute`: detaching a node of tree 0 and creating a node in tree 1. -/
example : ∃ a w1 w2, ReachW (DemoWorld.at_ 8) ∧ Shows (DemoWorld.at_ 8) a ∧ (DemoWorld.at_ 8).Spare ∧
    a.Apart (.detach .hot 1) (.create .hot 4 21 .lastChild) ∧ a.Known (.detach .hot 1) ∧
    a.Known (.create .hot 4 21 .lastChild) ∧ (DemoWorld.at_ 8).StepW (.detach .hot 1) w1 .unit ∧
    (DemoWorld.at_ 8).StepW (.create .hot 4 21 .lastChild) w2 (.node (some 5)) ∧
    ∃ w12 w21, w1.StepW (.create .hot 4 21 .lastChild) w12 (.node (some 5)) ∧
      w2.StepW (.detach .hot 1) w21 .unit ∧ ∀ b, Shows w12 b ↔ Shows w21 b := by
  have hr := DemoWorld.reach8.toW
  obtain ⟨a, S⟩ := Shows.exists hr
  obtain ⟨w1, s1, -⟩ := DemoLocal.detachStep
  obtain ⟨w2, s2⟩ := DemoLocal.createStep
  exact ⟨a, w1, w2, hr, S, DemoLocal.spare, DemoLocal.apart S, (DemoLocal.known S).1, (DemoLocal.known S).2, s1, s2,
    C69_commute hr S DemoLocal.spare (DemoLocal.apart S) (DemoLocal.known S).1 (DemoLocal.known S).2 s1 s2⟩

/-- `C69_others` and `C69_others_history`: tree 1 when a node of tree 0 is detached. -/
example : ∃ a w1, Shows (DemoWorld.at_ 8) a ∧ (DemoWorld.at_ 8).StepW (.detach .hot 1) w1 .unit ∧
    ¬ a.Involves (.detach .hot 1 : Op Nat) 1 ∧ 1 < a.newTree ∧ a.tree 4 = some 1 ∧
    LeavesAlone 1 (DemoWorld.at_ 8) w1 := by
  have hr := DemoWorld.reach8.toW
  obtain ⟨a, S⟩ := Shows.exists hr
  obtain ⟨w1, s1, -⟩ := DemoLocal.detachStep
  have h1 := (DemoLocal.trees S).1
  have hi : ¬ a.Involves (.detach .hot 1 : Op Nat) 1 := by
    rintro (⟨n, hn, e⟩ | e)
    · simp only [Op.names, List.mem_singleton] at hn
      subst hn; rw [h1] at e; cases e
    · cases e
  refine ⟨a, w1, S, s1, hi, by rw [S.newTree]; decide, (DemoLocal.trees S).2, .step (.refl _) s1 fun b Sb => ?_⟩
  obtain rfl := S.unique Sb
  exact hi

/-- `C69_depends`: creating a node in tree 1, before and after a node of tree 0 has been detached. -/
example : ∃ a b w1 w2, ReachW (DemoWorld.at_ 8) ∧ Shows (DemoWorld.at_ 8) a ∧ ReachW w1 ∧ Shows w1 b ∧ w1.Roomy ∧
    a.AlikeFor b (.create .hot 4 21 .lastChild) ∧
    (DemoWorld.at_ 8).StepW (.create .hot 4 21 .lastChild) w2 (.node (some 5)) ∧
    (∀ p, UsesLast b.children (.create .hot 4 21 .lastChild : Op Nat) p → LastRight w1.heap b.children p) ∧
    a ≠ b := by
  have hr := DemoWorld.reach8.toW
  obtain ⟨a, S⟩ := Shows.exists hr
  obtain ⟨w1, s1, e⟩ := DemoLocal.detachStep
  obtain ⟨w2, s2⟩ := DemoLocal.createStep
  obtain ⟨w12, w21, h, -⟩ :=
    C69_commute hr S DemoLocal.spare (DemoLocal.apart S) (DemoLocal.known S).1 (DemoLocal.known S).2 s1 s2
  obtain ⟨b, S1, st⟩ := s1.plays hr S
  refine ⟨a, b, w1, w2, hr, S, .step hr s1, S1, ?_, st.alike (hr.tidy S) (DemoLocal.apart S) (DemoLocal.known S).2,
    s2, (h.fits _ S1.children).2, ?_⟩
  · refine S1.roomy.2 fun t => ?_
    have h2 := DemoLocal.spare t
    rw [← S.grantTok, ← S.prohTok, ← S.newNode] at h2
    exact Nat.lt_of_le_of_lt (st.sum t) h2
  · intro h
    have h1 : a.newTree = 2 := S.newTree
    rw [h, S1.newTree, e] at h1
    cases h1

end Dendron
