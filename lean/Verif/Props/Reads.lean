import Verif.Proofs.ReadAny
import Verif.Props.Own

/-!
# C51: calls that create, edit and write nothing

`Op.isRead` (`Verif.Spec.World`) says which calls these are: they get, copy, convert, upgrade and drop
handles and tokens, and navigate.  `ReadsAny w w'`: from `w` the program gets to `w'` by such calls.
Traversals, comparison, printing and serialization are made of such calls only.  The theorems are about
all states reached by any calls, with nothing assumed about the shape of the hierarchy.
-/

set_option autoImplicit false

namespace Dendron
variable {α : Type} {w w' : World α} {n m : NodeId} {t : TreeId} {op : Op α} {r : Res} {k : Kind}

/-- C51: after any calls that create, edit and write nothing, if the program holds again the handles,
trees and tokens it held before, then the state is exactly the same as before: structure, data,
memberships, reference counts, locks, borrow states, everything. -/
theorem C51_restored (R : ReachAny w) (rd : ReadsAny w w') (h1 : ∀ k n, w'.held k n = w.held k n)
    (h2 : ∀ t, w'.trees t = w.trees t) (h3 : ∀ t, w'.grantTok t = w.grantTok t)
    (h4 : ∀ t, w'.prohTok t = w.prohTok t) : w' = w :=
  rd.eq R (by funext k n; exact h1 k n) (by funext t; exact h2 t) (by funext t; exact h3 t)
    (by funext t; exact h4 t)

/-- C51: in the meantime, too, as long as the program still holds the handles and trees it held before
(and possibly more), nothing can be seen to have changed: no node and no tree is created or destroyed, and
data, trees and all navigation are as before. -/
theorem C51_untouched (R : ReachAny w) (rd : ReadsAny w w') (h1 : ∀ k n, w.held k n ≤ w'.held k n)
    (h2 : ∀ t, w.trees t ≤ w'.trees t) :
    (∀ n, w'.heap.alive n = w.heap.alive n ∧ w'.heap.data n = w.heap.data n ∧
      w'.heap.mutB n = w.heap.mutB n ∧ w'.heap.nodeTree n = w.heap.nodeTree n ∧
      w'.heap.hasChildren n = w.heap.hasChildren n ∧ ∀ q, w'.heap.navTo n q = w.heap.navTo n q) ∧
    ∀ t, w'.heap.treeAlive t = w.heap.treeAlive t ∧ w'.heap.rootLink t = w.heap.rootLink t := by
  obtain ⟨R', Q⟩ := rd.restful R
  have S : Still w.heap w'.heap := by
    rcases Q with T | ⟨F, G⟩
    · exact T.still
    · exact absurd G (R.not_gone R' F h1 h2)
  exact ⟨fun n => ⟨S.alive n, by rw [S.data], by rw [S.mutB], S.nodeTree' R.own R'.own, by
    simp only [Heap.hasChildren, S.numCh], S.navTo R.own R'.own⟩,
    fun t => ⟨S.treeAlive t, by simp [Heap.rootLink, S.root]⟩⟩

/-- C51: whatever else is dropped in the meantime, no node is created, and a node that is still alive has
the same data and is in the same tree. -/
theorem C51_kept (R : ReachAny w) (rd : ReadsAny w w') (ha : w'.heap.alive n = true) :
    w.heap.alive n = true ∧ w'.heap.data n = w.heap.data n ∧
      (w'.heap.nodeTree n = .ok t → w.heap.nodeTree n = .ok t) := by
  obtain ⟨R', Q⟩ := rd.restful R
  have F := Q.rf
  refine ⟨F.alive ha, (F.node n ha).1, fun e => ?_⟩
  simp only [Heap.nodeTree, Heap.treeCore, R.own.treeCoreOpt, R'.own.treeCoreOpt, (F.node n ha).2] at e ⊢
  cases hm : w.heap.memTree n with
  | none => simp [hm] at e
  | some s =>
    simp only [hm, Option.filter] at e ⊢
    cases ht : w'.heap.treeAlive s with
    | false => simp [ht] at e
    | true => simp only [ht, if_true] at e; rw [F.tree s ht, if_pos rfl]; exact e

/-- C51: a handle just got by any of these calls (navigation, cloning, upgrading, the root of a tree, ...)
can be dropped, and then the state is exactly as before. -/
theorem C51_drop_again (R : ReachAny w) (hop : op.isRead) (c : w.Call op w' r)
    (h1 : ∀ k' x, w'.held k' x = w.held k' x + if k' = k ∧ x = m then 1 else 0)
    (h2 : ∀ t, w'.trees t = w.trees t) (h3 : ∀ t, w'.grantTok t = w.grantTok t)
    (h4 : ∀ t, w'.prohTok t = w.prohTok t) : w'.exec (.drop k m) = .ok (w, .unit) :=
  R.drop_again hop c h1 (by funext t; exact h2 t) (by funext t; exact h3 t) (by funext t; exact h4 t)

/-- C51: in particular, a handle obtained by navigation. -/
theorem C51_nav_drop (R : ReachAny w) (hk : 0 < w.held k n) {q : Nav}
    (e : w.exec (.nav k q n) = .ok (w', .node (some m))) : w'.exec (.drop k m) = .ok (w, .unit) := by
  refine C51_drop_again R (op := .nav k q n) trivial ⟨hk, e⟩ ?_ ?_ ?_ ?_
  all_goals
    simp only [World.exec, bind, Except.bind, pure, Except.pure] at e
    split at e
    · cases e
    · split at e
      · cases e
      · split at e
        · cases e
        · simp only [Except.ok.injEq, Prod.mk.injEq, Res.node.injEq, Option.some.injEq] at e
          obtain ⟨rfl, rfl⟩ := e
          first
            | (intro k' x; simp only [World.give]; split <;> rfl)
            | (intro t; rfl)

/-- C51 for histories of calls without a known defect: whatever else is dropped in the meantime, a node
that is still alive has the same place, too. -/
theorem C51_places (hr : Reach w) (rd : Reads w w') (ha : w.heap.alive n = true)
    (ha' : w'.heap.alive n = true) :
    w'.heap.data n = w.heap.data n ∧ w'.heap.nodeTree n = w.heap.nodeTree n ∧
      ∀ q, w'.heap.navTo n q = w.heap.navTo n q :=
  rd.keeps hr ha ha'

/-- In the damaged state after a node was moved below its own child: walking from node 1 to its first child
and to that node's first child, which is node 1 again, and dropping both handles. -/
example : ∃ w' : World Nat, ReachAny (DemoWorld.run (cycleOps.take 4) .init) ∧
    ReadsAny (DemoWorld.run (cycleOps.take 4) .init) w' ∧
    (∀ k n, w'.held k n = (DemoWorld.run (cycleOps.take 4) .init).held k n) ∧
    (∀ t, w'.trees t = (DemoWorld.run (cycleOps.take 4) .init).trees t) ∧
    (∀ t, w'.grantTok t = (DemoWorld.run (cycleOps.take 4) .init).grantTok t) ∧
    ∀ t, w'.prohTok t = (DemoWorld.run (cycleOps.take 4) .init).prohTok t := by
  have s1 : (DemoWorld.run (cycleOps.take 4) .init).Call (.nav .hot .firstChild 1)
      (DemoWorld.run (cycleOps.take 4 ++ [.nav .hot .firstChild 1]) .init) (.node (some 2)) :=
    ⟨show 0 < _ by decide +kernel, rfl⟩
  have s2 : (DemoWorld.run (cycleOps.take 4 ++ [.nav .hot .firstChild 1]) .init).Call
      (.nav .hot .firstChild 2)
      (DemoWorld.run (cycleOps.take 4 ++ [.nav .hot .firstChild 1, .nav .hot .firstChild 2]) .init)
      (.node (some 1)) :=
    ⟨show 0 < _ by decide +kernel, rfl⟩
  have s3 : (DemoWorld.run (cycleOps.take 4 ++ [.nav .hot .firstChild 1, .nav .hot .firstChild 2]) .init).Call
      (.drop .hot 1)
      (DemoWorld.run (cycleOps.take 4 ++ [.nav .hot .firstChild 1, .nav .hot .firstChild 2, .drop .hot 1]) .init)
      .unit :=
    ⟨show 0 < _ by decide +kernel, rfl⟩
  have s4 : (DemoWorld.run (cycleOps.take 4 ++ [.nav .hot .firstChild 1, .nav .hot .firstChild 2, .drop .hot 1]) .init).Call
      (.drop .hot 2)
      (DemoWorld.run (cycleOps.take 4 ++ [.nav .hot .firstChild 1, .nav .hot .firstChild 2, .drop .hot 1,
        .drop .hot 2]) .init) .unit :=
    ⟨show 0 < _ by decide +kernel, rfl⟩
  refine ⟨_, ?_, .step (op := .drop .hot 2) (.step (op := .drop .hot 1) (.step (op := .nav .hot .firstChild 2)
    (.step (op := .nav .hot .firstChild 1) (.refl _) trivial s1) trivial s2) trivial s3) trivial s4,
    ?_, fun _ => rfl, fun _ => rfl, fun _ => rfl⟩
  · refine ReachAny.run _ _ .init ?_
    intro i op hi
    match i with
    | 0 => cases hi; exact ⟨trivial, _, rfl⟩
    | 1 => cases hi; exact ⟨show 0 < _ by decide, _, rfl⟩
    | 2 => cases hi; exact ⟨show 0 < _ by decide, _, rfl⟩
    | 3 => cases hi; exact ⟨⟨show 0 < _ by decide, by decide⟩, _, rfl⟩
    | i + 4 => cases hi
  · intro k n
    match n with
    | 0 | 1 | 2 => cases k <;> rfl
    | n + 3 => cases k <;> rfl

/-- Walking to the first child of node 0, to its parent, and dropping both handles. -/
example : ∃ w' : World Nat, Reach (DemoWorld.at_ 8) ∧ Reads (DemoWorld.at_ 8) w' ∧
    (∀ k n, w'.held k n = (DemoWorld.at_ 8).held k n) ∧ (∀ t, w'.trees t = (DemoWorld.at_ 8).trees t) ∧
    (∀ t, w'.grantTok t = (DemoWorld.at_ 8).grantTok t) ∧
    ∀ t, w'.prohTok t = (DemoWorld.at_ 8).prohTok t := by
  have s1 : (DemoWorld.at_ 8).Step (.nav .plain .firstChild 0)
      (DemoWorld.run [.nav .plain .firstChild 0] (DemoWorld.at_ 8)) (.node (some 1)) :=
    ⟨show 0 < _ by decide, fun _ _ => trivial, DemoWorld.room 8 (by decide), rfl⟩
  have s2 : (DemoWorld.run [.nav .plain .firstChild 0] (DemoWorld.at_ 8)).Step (.nav .plain .parent 1)
      (DemoWorld.run [.nav .plain .firstChild 0, .nav .plain .parent 1] (DemoWorld.at_ 8))
      (.node (some 0)) :=
    ⟨show 0 < _ by decide +kernel, fun _ _ => trivial, DemoWorld.room 8 (by decide), rfl⟩
  have s3 : (DemoWorld.run [.nav .plain .firstChild 0, .nav .plain .parent 1] (DemoWorld.at_ 8)).Step
      (.drop .plain 1)
      (DemoWorld.run [.nav .plain .firstChild 0, .nav .plain .parent 1, .drop .plain 1] (DemoWorld.at_ 8))
      .unit :=
    ⟨show 0 < _ by decide +kernel, fun _ _ => trivial, DemoWorld.room 8 (by decide), rfl⟩
  have s4 : (DemoWorld.run [.nav .plain .firstChild 0, .nav .plain .parent 1, .drop .plain 1]
      (DemoWorld.at_ 8)).Step (.drop .plain 0)
      (DemoWorld.run [.nav .plain .firstChild 0, .nav .plain .parent 1, .drop .plain 1, .drop .plain 0]
        (DemoWorld.at_ 8)) .unit :=
    ⟨show 0 < _ by decide +kernel, fun _ _ => trivial, DemoWorld.room 8 (by decide), rfl⟩
  refine ⟨_, DemoWorld.reach8, .step (op := .drop .plain 0) (.step (op := .drop .plain 1)
    (.step (op := .nav .plain .parent 1) (.step (op := .nav .plain .firstChild 0) (.refl _) trivial s1)
      trivial s2) trivial s3) trivial s4, ?_, fun _ => rfl, fun _ => rfl, fun _ => rfl⟩
  intro k n
  match n with
  | 0 | 1 => cases k <;> rfl
  | n + 2 => cases k <;> rfl

end Dendron
