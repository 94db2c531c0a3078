import Verif.Proofs.ReadAll
import Verif.Proofs.WideFacts
import Verif.Proofs.DemoWide
import Verif.Proofs.DemoWorld
import Verif.Proofs.Data

/-!
# C43-C48: ownership

`Reach w`: the program state `w` is reached by calls without a known defect.  `ReachW w`: calls that
take the last of several siblings away are made, too, but afterwards none that depends on the stale
`last_child` (`Verif.Spec.Wide`); `Reach w` implies `ReachW w` (`Reach.toW`).  `ReachAny w`: it is
reached by any calls that return.  `World.TreeHeld w t`: the program holds a `Tree` of `t` or a handle
to one of its nodes (`Verif.Spec.World`).
-/

set_option autoImplicit false

namespace Dendron
variable {α : Type} {w w' : World α} {n : NodeId} {t : TreeId} {op : Op α} {r : Res} {k : Kind}

/-! ### C43: a handle keeps its whole tree alive -/

/-- C43, one state: a held node is alive, each navigation method returns (without panic), and what it
returns is alive and of the same tree. -/
theorem C43_reachable_partial (hr : Reach w) (hk : 0 < w.held k n) :
    w.heap.alive n = true ∧ (∃ t, w.heap.nodeTree n = .ok t ∧ w.heap.treeAlive t = true) ∧
    ∀ q, ∃ o, w.heap.navTo n q = .ok o ∧
      ∀ m, o = some m → w.heap.alive m = true ∧ w.heap.nodeTree m = w.heap.nodeTree n := by
  obtain ⟨ch, I⟩ := hr.inv
  have ha := I.held_alive hk
  obtain ⟨t, ht, hta⟩ := I.wf.tree.live n ha
  refine ⟨ha, ⟨t, (I.nodeTree_held hk).2 ht, hta⟩, ?_⟩
  intro q
  obtain ⟨o, e, h2⟩ := I.wf.navTo ha q
  refine ⟨o, e, fun m hm => ⟨(h2 m hm).1, ?_⟩⟩
  show w.heap.treeCore m = w.heap.treeCore n
  rw [(I.wf.tree.treeCore_iff ha).2 ht]
  exact (I.wf.tree.treeCore_iff (h2 m hm).1).2 ((h2 m hm).2.trans ht)

/-- C43 in the wider histories: each navigation method that does not depend on a stale `last_child`
returns, and what it returns is alive and of the same tree. -/
theorem C43_reachable_wide_partial (hr : ReachW w) (hk : 0 < w.held k n) :
    w.heap.alive n = true ∧ (∃ t, w.heap.nodeTree n = .ok t ∧ w.heap.treeAlive t = true) ∧
    ∃ ch, FShape w.heap ch ∧
    ∀ q, (∀ p, UsesLast ch (.nav k q n : Op α) p → LastRight w.heap ch p) →
      ∃ o, w.heap.navTo n q = .ok o ∧
        ∀ m, o = some m → w.heap.alive m = true ∧ w.heap.nodeTree m = w.heap.nodeTree n := by
  obtain ⟨v, ch, W⟩ := hr.wide
  have ha := W.held_alive hk
  obtain ⟨t, ht, hta⟩ := W.fwd.tree.live n ha
  refine ⟨ha, ⟨t, (W.nodeTree_held hk).2 ht, hta⟩, ch, W.shape, ?_⟩
  intro q hq
  have hal : v.heap.alive n = true := by rw [W.sim.heap.alive]; exact ha
  obtain ⟨o, e, h2⟩ := W.inv.wf.navTo hal q
  have e1 : w.heap.navTo n q = v.heap.navTo n q := W.navTo ha hq
  refine ⟨o, e1.trans e, fun m hm => ?_⟩
  obtain ⟨h3, h4⟩ := h2 m hm
  rw [W.sim.heap.alive] at h3
  rw [W.sim.heap.memTree] at h4
  refine ⟨h3, ?_⟩
  show w.heap.treeCore m = w.heap.treeCore n
  rw [(W.fwd.tree.treeCore_iff ha).2 ht]
  exact (W.fwd.tree.treeCore_iff h3).2 (h4.trans ht)

/-- C43, one call: no call destroys a node of a tree of which the program still holds a handle
afterwards. -/
theorem C43_step_partial (hr : ReachW w) (s : w.StepW op w' r) (ha : w.heap.alive n = true)
    (ht : w.heap.nodeTree n = .ok t) (hh : w'.TreeHeld t) : w'.heap.alive n = true := by
  obtain ⟨v, ch, v', ch', W, W', K⟩ := hr.step_wide s
  have hta := W'.treeHeld_iff.1 hh
  cases e : w'.heap.alive n with
  | true => rfl
  | false =>
    have := K.died n t ha e ((W.fwd.tree.treeCore_iff ha).1 ht)
    rw [hta] at this; cases this

/-- After dropping the handles to node 2 the node is still alive: the `Tree` is held. -/
example : Reach (DemoWorld.at_ 13) ∧ (DemoWorld.at_ 13).TreeHeld 0 ∧
    (∀ k, (DemoWorld.at_ 13).held k 2 = 0) ∧ (DemoWorld.at_ 13).heap.alive 2 = true ∧
    (DemoWorld.at_ 13).heap.nodeTree 2 = .ok 0 :=
  ⟨DemoWorld.reach13, .inl (by decide), (by intro k; cases k <;> rfl), rfl, rfl⟩

/-- Going on after detaching the last of three children: the histories considered include these, and
the first child can be asked for its next sibling. -/
example : ReachW (DemoWorld.wide 5) ∧
    (DemoWorld.wide 5).StepW (.create .hot 2 14 .previousSibling) (DemoWorld.wide 6) (.node (some 4)) ∧
    (DemoWorld.wide 5).heap.navTo 0 .lastChild = .ok (some 3) ∧
    (DemoWorld.wide 5).heap.navTo 3 .parent = .ok none ∧
    (DemoWorld.wide 5).heap.nodeTree 1 = .ok 0 ∧ (DemoWorld.wide 6).TreeHeld 0 ∧
    0 < (DemoWorld.wide 6).held .hot 1 ∧ (DemoWorld.wide 6).heap.navTo 1 .nextSibling = .ok (some 4) ∧
    ∀ ch p, ¬ UsesLast ch (.nav .hot .nextSibling 1 : Op Nat) p :=
  ⟨DemoWorld.wideReach5, DemoWorld.wideCreate, rfl, rfl, rfl, .inr ⟨.hot, 0, by decide, rfl⟩, by decide, rfl,
    fun _ _ h => h⟩

/-! ### C44: the last handle frees the tree and nothing else -/

/-- C44, no leak: every node that is alive belongs to a tree of which the program holds a handle. -/
theorem C44_noLeak_partial (hr : ReachW w) (ha : w.heap.alive n = true) :
    ∃ t, w.heap.nodeTree n = .ok t ∧ w.TreeHeld t := by
  obtain ⟨v, ch, W⟩ := hr.wide
  obtain ⟨t, ht, hta⟩ := W.fwd.tree.live n ha
  exact ⟨t, (W.fwd.tree.treeCore_iff ha).2 ht, W.treeHeld_iff.2 hta⟩

/-- C44, nothing at all is left when the program holds nothing. -/
theorem C44_empty_partial (hr : ReachW w) (hn : ∀ k n, w.held k n = 0) (ht : ∀ t, w.trees t = 0) :
    (∀ n, w.heap.alive n = false) ∧ ∀ t, w.heap.treeAlive t = false := by
  have key : ∀ t, ¬ w.TreeHeld t := by
    rintro t (h | ⟨k, n, h, -⟩)
    · rw [ht] at h; exact absurd h (by decide)
    · rw [hn] at h; exact absurd h (by decide)
  obtain ⟨v, ch, W⟩ := hr.wide
  constructor
  · intro n
    cases e : w.heap.alive n with
    | false => rfl
    | true => obtain ⟨t, -, h⟩ := C44_noLeak_partial hr e; exact absurd h (key t)
  · intro t
    cases e : w.heap.treeAlive t with
    | false => rfl
    | true => exact absurd (W.treeHeld_iff.2 e) (key t)

/-- C44, one call which is no hierarchy edit: it destroys exactly the nodes of the trees of which the
program holds no handle any more. -/
theorem C44_step_partial (hr : ReachW w) (s : w.StepW op w' r) (ha : w.heap.alive n = true)
    (ht : w.heap.nodeTree n = .ok t) (hu : ¬ Edits w.heap op t) :
    w'.heap.alive n = true ↔ w'.TreeHeld t := by
  refine ⟨fun ha' => ?_, fun hh => C43_step_partial hr s ha ht hh⟩
  obtain ⟨v, ch, v', ch', W, W', K⟩ := hr.step_wide s
  have h1 := (K.stay n t ha ((W.fwd.tree.treeCore_iff ha).1 ht) hu ha').1
  exact W'.treeHeld_iff.2 (W'.fwd.tree_alive ha' h1)

/-- Dropping the last handle of tree 0, a `Tree`: nodes 0 and 2 disappear, the nodes of tree 1 stay. -/
example : Reach (DemoWorld.at_ 13) ∧ (DemoWorld.at_ 13).Step (.dropTree 0) (DemoWorld.at_ 14) .unit ∧
    (∀ n, n < 5 → (DemoWorld.at_ 13).heap.alive n = true) ∧
    (DemoWorld.at_ 14).heap.alive 0 = false ∧ (DemoWorld.at_ 14).heap.alive 2 = false ∧
    (DemoWorld.at_ 14).heap.alive 1 = true ∧ (DemoWorld.at_ 14).heap.alive 3 = true ∧
    (DemoWorld.at_ 14).heap.alive 4 = true :=
  ⟨DemoWorld.reach13, DemoWorld.lastStep, by decide, rfl, rfl, rfl, rfl, rfl⟩

/-- Dropping the last handle of the detached child destroys that tree only. -/
example : ReachW (DemoWorld.wide 6) ∧ (DemoWorld.wide 6).StepW (.drop .hot 3) (DemoWorld.wide 7) .unit ∧
    (DemoWorld.wide 6).heap.nodeTree 3 = .ok 1 ∧ (DemoWorld.wide 6).heap.alive 3 = true ∧
    (DemoWorld.wide 7).heap.alive 3 = false ∧ (DemoWorld.wide 7).heap.alive 0 = true ∧
    ¬ Edits (DemoWorld.wide 6).heap (.drop .hot 3 : Op Nat) 1 :=
  ⟨DemoWorld.wideReach6, DemoWorld.wideDrop, rfl, rfl, rfl, rfl, fun h => h⟩

/-! ### C45: weak handles -/

/-- C45 for `NodeWeak::upgrade`: it returns a handle to that node exactly if the node is alive, and
otherwise `None`, without any effect. -/
theorem C45_node_partial (hr : ReachW w) (n : NodeId) :
    (w.heap.alive n = true → ∃ w', w.exec (.upgrade n) = .ok (w', .node (some n)) ∧
      w'.held .plain n = w.held .plain n + 1 ∧ w'.heap.nodeTree n = w.heap.nodeTree n) ∧
    (w.heap.alive n = false → w.exec (.upgrade n) = .ok (w, .node none)) := by
  obtain ⟨v, ch, I⟩ := hr.wide
  constructor
  · intro ha
    obtain ⟨t, ht, hta⟩ := I.fwd.tree.live n ha
    obtain ⟨h1, e, S⟩ : ∃ h1, w.heap.withNodeCore n = .ok h1 ∧ h1.nodeTree n = .ok t := by
      unfold Heap.withNodeCore Heap.incRef
      cases hm : w.heap.mem n with
      | strong u rc l =>
        refine ⟨_, rfl, ?_⟩
        rw [memTree_strong hm] at ht
        simp only [Option.some.injEq] at ht
        subst ht
        simp [Heap.nodeTree, Heap.treeCore, Heap.treeCoreOpt, Heap.setMem]
      | weak o =>
        have ho : o = some t := by simpa [Heap.memTree, hm] using ht
        subst ho
        simp only [Option.filter, hta, if_true]
        exact ⟨_, rfl, by simp [Heap.nodeTree, Heap.treeCore, Heap.treeCoreOpt, Heap.setMem]⟩
    refine ⟨({ w with heap := h1 } : World α).give .plain n, ?_, ?_, ?_⟩
    · simp only [World.exec, Heap.upgrade, Option.filter, ha, if_true, Heap.wrap, e, bind, Except.bind,
        Heap.acqLock, Heap.expectLock, pure, Except.pure]
    · simp [World.give]
    · show h1.nodeTree n = w.heap.treeCore n
      rw [(I.fwd.tree.treeCore_iff ha).2 ht]; exact S
  · intro ha
    simp only [World.exec, Heap.upgrade, Option.filter, ha, Bool.false_eq_true, if_false]

/-- C45: a node is alive exactly if some tree it belongs to is held. -/
theorem C45_alive_partial (hr : ReachW w) (n : NodeId) (hn : w.heap.alive n = true) (t : TreeId)
    (ht : w.heap.nodeTree n = .ok t) : w.TreeHeld t := by
  obtain ⟨u, h1, h2⟩ := C44_noLeak_partial hr hn
  rw [ht] at h1
  simp only [Except.ok.injEq] at h1
  exact h1 ▸ h2

/-- C45 for `TreeWeak::upgrade`: `Some` exactly if the program holds a handle of the tree. -/
theorem C45_tree_partial (hr : ReachW w) (t : TreeId) :
    (w.TreeHeld t → ∃ w', w.exec (.upgradeTree t) = .ok (w', .tree (some t)) ∧
      w'.trees t = w.trees t + 1) ∧
    (¬ w.TreeHeld t → w.exec (.upgradeTree t) = .ok (w, .tree none)) := by
  obtain ⟨v, ch, I⟩ := hr.wide
  rw [I.treeHeld_iff]
  constructor
  · intro h
    simp only [World.exec, h, if_true]
    exact ⟨_, rfl, by simp⟩
  · intro h
    simp only [World.exec, h, if_false, Bool.false_eq_true]

/-- Before the last handle is dropped both can be upgraded, afterwards neither. -/
example : Reach (DemoWorld.at_ 13) ∧ Reach (DemoWorld.at_ 14) ∧
    (DemoWorld.at_ 13).heap.alive 2 = true ∧ (DemoWorld.at_ 13).TreeHeld 0 ∧
    (DemoWorld.at_ 14).heap.alive 2 = false ∧ ¬ (DemoWorld.at_ 14).TreeHeld 0 := by
  refine ⟨DemoWorld.reach13, DemoWorld.reach14, rfl, .inl (by decide), rfl, ?_⟩
  obtain ⟨ch, I⟩ := DemoWorld.reach14.inv
  rw [I.treeHeld_iff]
  decide

/-! ### C46: counts and internal assertions -/

/-- C46, counts: in every program state whatsoever, the count of a membership is the number of handles
to the node, its lock count is the number of hot and frozen handles, a node without handles has no
strong membership, and the count of a tree is the number of `Tree` values. -/
theorem C46_counts (hr : ReachAny w) (n : NodeId) :
    (∀ t rc l, w.heap.mem n = .strong t rc l →
      rc = w.held .plain n + w.held .hot n + w.held .frozen n ∧
      l = w.held .hot n + w.held .frozen n ∧ 0 < rc ∧
      w.heap.alive n = true ∧ w.heap.treeAlive t = true) ∧
    (∀ o, w.heap.mem n = .weak o → ∀ k, w.held k n = 0) ∧
    ∀ t, w.heap.treeRc t = w.trees t := by
  have I := hr.own
  refine ⟨fun t rc l hm => ?_, I.weak n, I.treeRc⟩
  obtain ⟨h1, h2, h3⟩ := I.strong n t rc l hm
  exact ⟨h1, h2, h3, I.base.memb _ _ _ _ hm⟩

/-- C46, assertions: every call the program can make returns; it panics only if a given token is of
another tree.  (`Room`: lock counters are not near the limits of `isize`.) -/
theorem C46_noPanic_partial (hr : ReachW w) (ha : w.Allowed op)
    (hs : ∀ ch, FShape w.heap ch → CallFits w.heap ch op ∧ ∀ p, UsesLast ch op p → LastRight w.heap ch p)
    (hroom : Room w.heap) (ht : TokenOK w.heap op) : ∃ w' r, w.exec op = .ok (w', r) := by
  obtain ⟨v, ch, W⟩ := hr.wide
  obtain ⟨h1, h2⟩ := hs ch W.shape
  obtain ⟨w1, r1, v', ch', e, -⟩ := W.step ha h1 h2 hroom ht
  exact ⟨w1, r1, e⟩

/-- C46, in any program state whatsoever: dropping handles never panics, it returns or the model runs
out of fuel. -/
theorem C46_drop (hr : ReachAny w) (hk : 0 < w.held k n) (m : String) :
    w.exec (.drop k n) ≠ .error (.panic m) := by
  intro e
  exact hr.own.drop_noPanic hk e

/-- The move of the concrete program is such a call, and node 1 has counts to speak of. -/
example : Reach (DemoWorld.at_ 8) ∧
    (DemoWorld.at_ 8).Step (.move .hot 1 (.lastChildOf 4)) (DemoWorld.at_ 9) .unit ∧
    TokenOK (DemoWorld.at_ 8).heap (.move .hot 1 (.lastChildOf 4)) ∧
    (DemoWorld.at_ 9).heap.mem 1 = .strong 1 1 1 :=
  ⟨DemoWorld.reach8, DemoWorld.moveStep, trivial, rfl⟩

/-- So is moving the only node of a tree into another tree. -/
example : Reach (DemoWorld.at_ 8) ∧ ∃ w', (DemoWorld.at_ 8).Step (.move .hot 4 (.lastChildOf 1)) w' .unit ∧
    w'.heap.parentLink 4 = some 1 ∧ w'.heap.treeAlive 1 = false :=
  ⟨DemoWorld.reach8, DemoWorld.lonelyStep⟩

/-! ### C47: destruction of a tree -/

/-- C47 for the last `Tree`: the destructor loop returns although the recursion of the compiler's drop
glue is allowed no more than one level (`1`); this is what `drop` does; all nodes of the tree are gone,
and no others. -/
theorem C47_tree_partial (hr : ReachW w) (h1 : w.trees t = 1)
    (h2 : ∀ k n, 0 < w.held k n → w.heap.nodeTree n ≠ .ok t) :
    ∃ h', Heap.dropTreeWith 1 (w.heap.setTreeRc t 0) [] t = .ok h' ∧
      w.exec (.dropTree t) =
        .ok ({ w with heap := h', trees := fun u => if u = t then 0 else w.trees u }, .unit) ∧
      ∀ n, w.heap.alive n = true → (h'.alive n = true ↔ w.heap.nodeTree n ≠ .ok t) := by
  obtain ⟨v, ch, I⟩ := hr.wide
  have hta := I.treesAlive t (by rw [h1]; decide)
  obtain ⟨r, R, hroot, hR, hRm⟩ := I.fwd.tree_nodes hta
  have hs : ∀ x rc l, w.heap.mem x ≠ .strong t rc l := by
    intro x rc l hm
    have e := I.strong _ _ _ _ hm
    have p := I.fwd.refs.pos _ _ _ _ hm
    have : 0 < w.held .plain x ∨ 0 < w.held .hot x ∨ 0 < w.held .frozen x := by omega
    rcases this with h3 | h3 | h3
    all_goals exact h2 _ x h3 ((I.nodeTree_held h3).2 (memTree_strong hm))
  have hrc : w.heap.treeRc t = 1 := by rw [I.treeRc, h1]
  obtain ⟨e1, W1⟩ := relTree_last' I.fwd hrc hs hroot hR
  refine ⟨(w.heap.setTreeRc t 0).dropped t R.nodes, ?_, ?_, ?_⟩
  · refine dropTreeWith_wipe (k := 0) (h := w.heap.setTreeRc t 0) (ch := ch) (E := fun _ => False)
      ?_ ?_ I.fwd.refs.alive hroot hR ⟨by simp [Heap.setTreeRc], hs⟩
    · exact ⟨I.fwd.dead, I.fwd.first, I.fwd.nodup, I.fwd.mem, I.fwd.seg, I.fwd.rootNext, I.fwd.acyc, I.fwd.bound⟩
    · exact ⟨I.fwd.tree.live, I.fwd.tree.root, I.fwd.tree.child, fun n t _ => I.fwd.tree.top n t, I.fwd.tree.bound⟩
  · simp only [World.exec, e1, bind, Except.bind, pure, Except.pure]
    congr 3
    funext u
    by_cases e : u = t
    · subst e; simp [h1]
    · simp [e]
  · intro n ha
    rw [dropped_alive]
    show (if n ∈ R.nodes then false else w.heap.alive n) = true ↔ w.heap.treeCore n ≠ .ok t
    rw [ha, ne_eq, I.fwd.tree.treeCore_iff ha]
    have := hRm n
    rw [ha] at this
    simp only [true_and] at this
    rw [← this]
    by_cases e : n ∈ R.nodes <;> simp [e]

/-- C47 for the last node handle: as above; afterwards the node of the handle itself is freed, again
without recursion. -/
theorem C47_node_partial (hr : ReachW w) (h1 : w.trees t = 0) (ht : w.heap.nodeTree n = .ok t)
    (hk : w.held .plain n = 1)
    (h2 : ∀ k m, 0 < w.held k m → w.heap.nodeTree m = .ok t → k = .plain ∧ m = n) :
    ∃ h1 h', Heap.dropTreeWith 1 (w.heap.setMem n (.weak (some t))) [n] t = .ok h1 ∧
      Heap.release 1 [] n h1 = .ok h' ∧
      w.exec (.drop .plain n) = .ok ({ w with heap := h' }.take .plain n, .unit) ∧
      ∀ m, w.heap.alive m = true → (h'.alive m = true ↔ w.heap.nodeTree m ≠ .ok t) := by
  obtain ⟨v, ch, I⟩ := hr.wide
  have hk0 : 0 < w.held .plain n := by omega
  have ha := I.held_alive hk0
  have hmt := (I.nodeTree_held hk0).1 ht
  have hta := I.fwd.tree_alive ha hmt
  obtain ⟨r, R, hroot, hR, hRm⟩ := I.fwd.tree_nodes hta
  have hh : w.held .hot n = 0 := by
    by_cases h3 : 0 < w.held .hot n
    · exact absurd (h2 _ _ h3 ht).1 (by decide)
    · omega
  have hf : w.held .frozen n = 0 := by
    by_cases h3 : 0 < w.held .frozen n
    · exact absurd (h2 _ _ h3 ht).1 (by decide)
    · omega
  have hm : w.heap.mem n = .strong t 1 0 := by
    cases hm : w.heap.mem n with
    | weak o => have := I.weak _ _ hm .plain; omega
    | strong u rc l =>
      obtain ⟨e1, e2⟩ := I.strong _ _ _ _ hm
      rw [memTree_strong hm] at hmt
      simp only [Option.some.injEq] at hmt
      rw [hmt, e1, e2, hk, hh, hf]
  have hs : ∀ x rc l, x ≠ n → w.heap.mem x ≠ .strong t rc l := by
    intro x rc l hx hm
    have e := I.strong _ _ _ _ hm
    have p := I.fwd.refs.pos _ _ _ _ hm
    have : 0 < w.held .plain x ∨ 0 < w.held .hot x ∨ 0 < w.held .frozen x := by omega
    rcases this with h3 | h3 | h3
    all_goals exact hx (h2 _ x h3 ((I.nodeTree_held h3).2 (memTree_strong hm))).2
  obtain ⟨⟨e1, -⟩, g, e2, e3⟩ := dropLink_last' I.fwd hm (by rw [I.treeRc, h1]) hs hroot hR
  refine ⟨g, _, e2, e3, ?_, ?_⟩
  · simp only [World.exec, Heap.dropHandle, e1, bind, Except.bind, pure, Except.pure]
  · intro m ha
    rw [dropped_alive]
    show (if m ∈ R.nodes then false else w.heap.alive m) = true ↔ w.heap.treeCore m ≠ .ok t
    rw [ha, ne_eq, I.fwd.tree.treeCore_iff ha]
    have := hRm m
    rw [ha] at this
    simp only [true_and] at this
    rw [← this]
    by_cases e : m ∈ R.nodes <;> simp [e]

/-- The last `Tree` of tree 0, which has two nodes; and the only handle of a new tree. -/
example : (Reach (DemoWorld.at_ 13) ∧ (DemoWorld.at_ 13).trees 0 = 1 ∧
      (∀ k n, 0 < (DemoWorld.at_ 13).held k n → (DemoWorld.at_ 13).heap.nodeTree n ≠ .ok 0)) ∧
    (Reach (DemoWorld.at_ 1) ∧ (DemoWorld.at_ 1).trees 0 = 0 ∧ (DemoWorld.at_ 1).heap.nodeTree 0 = .ok 0 ∧
      (DemoWorld.at_ 1).held .plain 0 = 1 ∧
      ∀ k m, 0 < (DemoWorld.at_ 1).held k m → (DemoWorld.at_ 1).heap.nodeTree m = .ok 0 → k = .plain ∧ m = 0) := by
  refine ⟨⟨DemoWorld.reach13, rfl, ?_⟩, ?_, rfl, rfl, rfl, ?_⟩
  · intro k n hk
    match n, k with
    | 0, .plain | 0, .hot | 0, .frozen | 1, .plain | 1, .frozen | 2, .plain | 2, .hot | 2, .frozen
    | 3, .plain | 3, .hot | 3, .frozen | 4, .plain | 4, .frozen => exact absurd hk (by decide)
    | 1, .hot | 4, .hot => intro e; cases e
    | n + 5, k => 
      exfalso
      cases k <;> exact absurd hk (Nat.lt_irrefl 0)
  · exact .step .init (op := .newTree false 10) ⟨trivial, fun _ _ => trivial, DemoWorld.room 0 (by decide), rfl⟩
  · intro k m hk _
    match m, k with
    | 0, .plain => exact ⟨rfl, rfl⟩
    | 0, .hot | 0, .frozen => exact absurd hk (by decide)
    | n + 1, k => exfalso; cases k <;> exact absurd hk (Nat.lt_irrefl 0)

/-! ### C48: data and identity -/

private theorem alive_of_call (hr : ReachAny w) (s : w.Call op w' r) :
    (∀ n, ¬ Writes op n → w.heap.alive n = true → w'.heap.alive n = true →
      w'.heap.data n = w.heap.data n ∧ w'.heap.mutB n = w.heap.mutB n) := by
  intro n hw ha ha'
  by_cases hx : ∃ m, Writes op m
  · obtain ⟨m, hm⟩ := hx
    have hmn : n ≠ m := by rintro rfl; exact hw hm
    have e := s.run
    cases op <;> simp only [Writes] at hm
    all_goals
      subst hm
      simp only [World.exec] at e
      split at e <;>
        · simp only [Except.ok.injEq, Prod.mk.injEq] at e
          rw [← e.1]
          constructor <;> simp [Heap.setData, upd_ne _ _ hmn]
  · have hx' : ∀ m, ¬ Writes op m := fun m hm => hx ⟨m, hm⟩
    cases hm : madeBy op with
    | none =>
      have K := exec_keep hm hx' s.run
      rcases K.data n with h | ⟨h, -⟩
      · exact h
      · rw [Heap.alive, h] at ha'; cases ha'
    | some d =>
      have K := (exec_made hr.own s.allowed hm s.run).1
      rcases K.data n (Nat.ne_of_lt (hr.own.base.bound n ha)) with h | ⟨h, -⟩
      · exact h
      · rw [Heap.alive, h] at ha'; cases ha'

/-- C48: in every history (also after calls with a known defect), no call but writing to a node changes
its data. -/
theorem C48_data (hr : ReachAny w) (s : w.Call op w' r) (ha : w.heap.alive n = true)
    (ha' : w'.heap.alive n = true) (hw : ∀ d, op ≠ .write n d) : w'.heap.data n = w.heap.data n := by
  by_cases hx : Writes op n
  · cases op <;> simp only [Writes] at hx
    case write m d => subst hx; exact absurd rfl (hw d)
    case borrowMut m b =>
      have e := s.run
      simp only [World.exec] at e
      split at e <;>
        · simp only [Except.ok.injEq, Prod.mk.injEq] at e
          rw [← e.1]
  · exact (alive_of_call hr s n hx ha ha').1

/-- C48: in every history, no call but `borrow_data_mut` and the end of such a borrow changes whether the
data of a node is mutably borrowed. -/
theorem C48_borrow (hr : ReachAny w) (s : w.Call op w' r) (ha : w.heap.alive n = true)
    (ha' : w'.heap.alive n = true) (hw : ∀ b, op ≠ .borrowMut n b) :
    w'.heap.mutB n = w.heap.mutB n := by
  by_cases hx : Writes op n
  · cases op <;> simp only [Writes] at hx
    case borrowMut m d => subst hx; exact absurd rfl (hw d)
    case write m b =>
      have e := s.run
      simp only [World.exec] at e
      split at e <;>
        · simp only [Except.ok.injEq, Prod.mk.injEq] at e
          rw [← e.1]
          try rfl
  · exact (alive_of_call hr s n hx ha ha').2

/-- C48: no call frees a node, nor changes its data except by writing to it, if the tree of the node is
still held afterwards. -/
theorem C48_alive_partial (hr : ReachW w) (s : w.StepW op w' r) (ha : w.heap.alive n = true)
    (ht : w.heap.nodeTree n = .ok t) (hh : w'.TreeHeld t) :
    w'.heap.alive n = true ∧ ((∀ d, op ≠ .write n d) → w'.heap.data n = w.heap.data n) := by
  have h1 := C43_step_partial hr s ha ht hh
  exact ⟨h1, C48_data hr.any ⟨s.allowed, s.run⟩ ha h1⟩

/-- The move of the concrete program. -/
example : Reach (DemoWorld.at_ 8) ∧
    (DemoWorld.at_ 8).Step (.move .hot 1 (.lastChildOf 4)) (DemoWorld.at_ 9) .unit ∧
    (DemoWorld.at_ 8).heap.alive 2 = true ∧ (DemoWorld.at_ 9).TreeHeld 0 ∧
    (DemoWorld.at_ 9).heap.data 2 = some 12 :=
  ⟨DemoWorld.reach8, DemoWorld.moveStep, rfl, .inl (by decide), rfl⟩

/-! ### What goes wrong after calls with a known defect -/

/-- A node is moved under its own child, then all handles are dropped. -/
def cycleOps : List (Op Nat) :=
  [.newTree true 0, .create .hot 0 1 .lastChild, .create .hot 1 2 .lastChild,
   .move .hot 1 (.lastChildOf 2), .drop .hot 0, .drop .hot 1, .drop .hot 2]

theorem cycle_reach : ReachAny (DemoWorld.run cycleOps .init) := by
  refine ReachAny.run _ _ .init ?_
  intro i op hi
  match i with
  | 0 => cases hi; exact ⟨trivial, _, rfl⟩
  | 1 => cases hi; exact ⟨show 0 < _ by decide, _, rfl⟩
  | 2 => cases hi; exact ⟨show 0 < _ by decide, _, rfl⟩
  | 3 => cases hi; exact ⟨⟨show 0 < _ by decide, by decide⟩, _, rfl⟩
  | 4 => cases hi; exact ⟨show 0 < _ by decide +kernel, _, rfl⟩
  | 5 => cases hi; exact ⟨show 0 < _ by decide +kernel, _, rfl⟩
  | 6 => cases hi; exact ⟨show 0 < _ by decide +kernel, _, rfl⟩
  | i + 7 => cases hi

/-- C44 is violated in general: the program holds nothing any more, but nodes 1 and 2 are never freed. -/
theorem C44_violated : ∃ w : World Nat, ReachAny w ∧ (∀ k n, n < 3 → w.held k n = 0) ∧
    w.heap.nNode = 3 ∧ (∀ t, t < 1 → w.trees t = 0) ∧ w.heap.nTree = 1 ∧
    w.heap.alive 1 = true ∧ w.heap.alive 2 = true :=
  ⟨_, cycle_reach, by intro k; cases k <;> decide +kernel, rfl, by decide +kernel, rfl, rfl, rfl⟩

/-- C45 and C46 are violated in general: upgrading a weak handle to such a node panics. -/
theorem C45_violated : ∃ w : World Nat, ReachAny w ∧
    w.exec (.upgrade 1) = .error (.panic "the tree for the given node should be alive") :=
  ⟨_, cycle_reach, rfl⟩

/-- The same for C46: an internal assertion fails. -/
theorem C46_violated : ∃ (w : World Nat) (op : Op Nat) (m : String), ReachAny w ∧ w.Allowed op ∧
    TokenOK w.heap op ∧ w.exec op = .error (.panic m) :=
  ⟨_, .upgrade 1, _, cycle_reach, trivial, trivial, rfl⟩

/-- C46 is violated after the last of several children is detached and destroyed: asking the parent for
its last child, or the first child for its previous sibling, panics. -/
theorem C46_stale_violated : ∃ w : World Nat, ReachAny w ∧ 0 < w.held .hot 0 ∧ 0 < w.held .hot 1 ∧
    (∃ m, w.exec (.nav .hot .lastChild 0) = .error (.panic m)) ∧
    ∃ m, w.exec (.nav .hot .prevSibling 1) = .error (.panic m) := by
  refine ⟨DemoWorld.run [.newTree true 0, .create .hot 0 1 .lastChild, .create .hot 0 2 .lastChild,
    .detach .hot 2, .drop .hot 2] .init, ?_, by decide +kernel, by decide +kernel, ⟨_, rfl⟩, ⟨_, rfl⟩⟩
  refine ReachAny.run _ _ .init ?_
  intro i op hi
  match i with
  | 0 => cases hi; exact ⟨trivial, _, rfl⟩
  | 1 => cases hi; exact ⟨show 0 < _ by decide, _, rfl⟩
  | 2 => cases hi; exact ⟨show 0 < _ by decide, _, rfl⟩
  | 3 => cases hi; exact ⟨show 0 < _ by decide, _, rfl⟩
  | 4 => cases hi; exact ⟨show 0 < _ by decide +kernel, _, rfl⟩
  | i + 5 => cases hi

/-- C43 and C48 are violated in general: moving a root into another tree frees its child, although
there is a handle to the root (and nothing was written or dropped). -/
theorem C43_violated : ∃ (w w' : World Nat) (op : Op Nat) (r : Res), ReachAny w ∧ w.Call op w' r ∧
    op = .move .hot 0 (.lastChildOf 2) ∧ w.heap.navTo 0 .firstChild = .ok (some 1) ∧
    w.heap.alive 1 = true ∧ w'.heap.alive 1 = false ∧ 0 < w.held .hot 0 ∧ 0 < w'.held .hot 0 := by
  refine ⟨DemoWorld.run [.newTree true 0, .create .hot 0 1 .lastChild, .drop .hot 1, .newTree true 2] .init,
    DemoWorld.run [.newTree true 0, .create .hot 0 1 .lastChild, .drop .hot 1, .newTree true 2,
      .move .hot 0 (.lastChildOf 2)] .init, .move .hot 0 (.lastChildOf 2), .unit, ?_,
    ⟨⟨show 0 < _ by decide, by decide⟩, rfl⟩, rfl, rfl, rfl, rfl, by decide, by decide +kernel⟩
  refine ReachAny.run _ _ .init ?_
  intro i op hi
  match i with
  | 0 => cases hi; exact ⟨trivial, _, rfl⟩
  | 1 => cases hi; exact ⟨show 0 < _ by decide, _, rfl⟩
  | 2 => cases hi; exact ⟨show 0 < _ by decide, _, rfl⟩
  | 3 => cases hi; exact ⟨trivial, _, rfl⟩
  | i + 4 => cases hi

/-- C48: the edit of `C43_violated`. -/
theorem C48_violated : ∃ (w w' : World Nat) (op : Op Nat) (r : Res), ReachAny w ∧ w.Call op w' r ∧
    op = .move .hot 0 (.lastChildOf 2) ∧ w.heap.alive 1 = true ∧ w'.heap.alive 1 = false := by
  obtain ⟨w, w', op, r, h1, h2, h3, -, h4, h5, -, -⟩ := C43_violated
  exact ⟨w, w', op, r, h1, h2, h3, h4, h5⟩

end Dendron
