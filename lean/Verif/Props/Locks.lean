import Verif.Proofs.SafeFacts
import Verif.Proofs.DemoWide

/-!
# C37-C42: edit grants and edit prohibitions

`ReachAny w`: the program state `w` is reached by any calls that return, also by those with a known
defect.  `World.GrantAlive`, `World.ProhAlive` and `World.LocksExact` are defined in
`Verif.Spec.World`.
-/

set_option autoImplicit false

namespace Dendron
variable {α : Type} {w w' : World α} {n : NodeId} {t : TreeId} {op : Op α} {r : Res}

/-- C37: in no program state are a grant and a prohibition of the same tree alive. -/
theorem C37_exclusive (hr : ReachAny w) (t : TreeId) : ¬ (w.GrantAlive t ∧ w.ProhAlive t) := by
  have I := hr.own
  rintro ⟨hg, hp⟩
  have hta : w.heap.treeAlive t = true ∨ w.heap.treeAlive t = false := by
    cases w.heap.treeAlive t <;> simp
  rcases hta with hta | hta
  · obtain ⟨e1, e2⟩ := I.alive_locks hta
    rw [e1] at hg; rw [e2] at hp; omega
  · have dead : ∀ k x, 0 < w.held k x → w.heap.nodeTree x ≠ .ok t := by
      intro k x hk e
      have := I.treeCore_alive e
      rw [hta] at this; cases this
    rcases hg with hg | ⟨x, h1, h2⟩
    · rcases hp with hp | ⟨x, h1, h2⟩
      · have := I.tokX t; omega
      · exact dead _ _ h1 h2
    · exact dead _ _ h1 h2

/-- Both locks occur: a state with a grant, and one with a prohibition. -/
example : (∃ w : World Nat, ReachAny w ∧ w.GrantAlive 0) ∧ ∃ w : World Nat, ReachAny w ∧ w.ProhAlive 0 := by
  constructor
  · refine ⟨_, .step .init (op := .newTree true 5) ⟨trivial, rfl⟩, .inr ⟨0, by decide, rfl⟩⟩
  · refine ⟨_, .step (.step .init (op := .newTree false 5) ⟨trivial, rfl⟩) (op := .bundle .frozen 0)
      ⟨⟨by decide, by decide⟩, rfl⟩, .inr ⟨0, by decide, rfl⟩⟩

/-- C38 for `Tree::grant_hierarchy_edit`: denied, without any effect, exactly if a prohibition is
alive.  The counter of grants must be below `isize::MAX`; otherwise the call panics. -/
theorem C38_grant (hr : ReachAny w) (ht : 0 < w.trees t) :
    (w.ProhAlive t → w.exec (.acquire true t) = .ok (w, .denied)) ∧
    (¬ w.ProhAlive t → w.heap.grants t < 2 ^ 63 - 1 → ∃ w', w.exec (.acquire true t) = .ok (w', .unit) ∧
      w'.grantTok t = w.grantTok t + 1) := by
  have I := hr.own
  have hta := I.treesAlive t ht
  obtain ⟨e1, e2⟩ := I.alive_locks hta
  rw [e2]
  rcases I.acquireTok hta true with ⟨e, h1⟩ | ⟨-, h1⟩ | ⟨h1, h', e, I'⟩
  all_goals simp only [if_true] at h1
  · exact ⟨fun _ => e, fun h2 => absurd h1 h2⟩
  · rw [h1]
    exact ⟨fun h2 => absurd h2 (by decide), fun _ h2 => absurd h2 (by decide)⟩
  · exact ⟨fun h2 => by omega, fun _ _ => ⟨_, e, by simp [World.giveTok]⟩⟩

/-- C38 for `Tree::prohibit_hierarchy_edit`. -/
theorem C38_prohibition (hr : ReachAny w) (ht : 0 < w.trees t) :
    (w.GrantAlive t → w.exec (.acquire false t) = .ok (w, .denied)) ∧
    (¬ w.GrantAlive t → -2 ^ 63 < w.heap.grants t → ∃ w', w.exec (.acquire false t) = .ok (w', .unit) ∧
      w'.prohTok t = w.prohTok t + 1) := by
  have I := hr.own
  have hta := I.treesAlive t ht
  obtain ⟨e1, e2⟩ := I.alive_locks hta
  rw [e1]
  rcases I.acquireTok hta false with ⟨e, h1⟩ | ⟨-, h1⟩ | ⟨h1, h', e, I'⟩
  all_goals simp only [Bool.false_eq_true, if_false] at h1
  · exact ⟨fun _ => e, fun h2 => absurd h1 h2⟩
  · rw [h1]
    exact ⟨fun h2 => absurd h2 (by decide), fun _ h2 => absurd h2 (by decide)⟩
  · exact ⟨fun h2 => by omega, fun _ _ => ⟨_, e, by simp [World.giveTok]⟩⟩

/-- C38 for `Node::bundle_new_hierarchy_edit_grant`: if a prohibition of the tree is alive, the only
effect is that the node handle given to the method is dropped. -/
theorem C38_hot (hr : ReachAny w) (hp : 0 < w.held .plain n) (ht : w.heap.nodeTree n = .ok t) :
    (w.ProhAlive t →
      w.exec (.bundle .hot n) = (w.exec (.drop .plain n)).map (fun x => (x.1, Res.denied))) ∧
    (¬ w.ProhAlive t → w.heap.grants t < 2 ^ 63 - 1 → ∃ w', w.exec (.bundle .hot n) = .ok (w', .unit) ∧
      w'.held .hot n = w.held .hot n + 1 ∧ w'.held .plain n = w.held .plain n - 1) := by
  have I := hr.own
  obtain ⟨u, rc, l, hm, ha, hta⟩ := I.tree_of_held hp
  obtain rfl : u = t := by
    have := (I.nodeTree_held hp).1 ht
    rw [memTree_strong hm] at this; simpa using this
  obtain ⟨e1, e2⟩ := I.alive_locks hta
  rw [e2]
  rcases I.bundleHot hp hm with ⟨h1, e⟩ | ⟨h1, -, e⟩ | ⟨h1, h', e, I'⟩
  · refine ⟨fun _ => ?_, fun h2 => absurd h1 h2⟩
    simp only [World.exec, Heap.acqLock, e, bind, Except.bind, Heap.dropHandle, pure, Except.pure]
    cases w.heap.dropLink n <;> rfl
  · rw [h1]
    exact ⟨fun h2 => absurd h2 (by decide), fun _ h2 => absurd h2 (by decide)⟩
  · refine ⟨fun h2 => by omega, fun _ _ =>
      ⟨(({ w with heap := h' } : World α).take .plain n).give .hot n, ?_, ?_, ?_⟩⟩
    · simp [World.exec, Heap.acqLock, e, bind, Except.bind, pure, Except.pure]
    · simp
    · simp

/-- C38 for `Node::bundle_new_hierarchy_edit_prohibition`. -/
theorem C38_frozen (hr : ReachAny w) (hp : 0 < w.held .plain n) (ht : w.heap.nodeTree n = .ok t) :
    (w.GrantAlive t →
      w.exec (.bundle .frozen n) = (w.exec (.drop .plain n)).map (fun x => (x.1, Res.denied))) ∧
    (¬ w.GrantAlive t → -2 ^ 63 < w.heap.grants t → ∃ w', w.exec (.bundle .frozen n) = .ok (w', .unit) ∧
      w'.held .frozen n = w.held .frozen n + 1 ∧ w'.held .plain n = w.held .plain n - 1) := by
  have I := hr.own
  obtain ⟨u, rc, l, hm, ha, hta⟩ := I.tree_of_held hp
  obtain rfl : u = t := by
    have := (I.nodeTree_held hp).1 ht
    rw [memTree_strong hm] at this; simpa using this
  obtain ⟨e1, e2⟩ := I.alive_locks hta
  rw [e1]
  rcases I.bundleFrozen hp hm with ⟨h1, e⟩ | ⟨h1, -, e⟩ | ⟨h1, h', e, I'⟩
  · refine ⟨fun _ => ?_, fun h2 => absurd h1 h2⟩
    simp only [World.exec, Heap.acqLock, e, bind, Except.bind, Heap.dropHandle, pure, Except.pure]
    cases w.heap.dropLink n <;> rfl
  · rw [h1]
    exact ⟨fun h2 => absurd h2 (by decide), fun _ h2 => absurd h2 (by decide)⟩
  · refine ⟨fun h2 => by omega, fun _ _ =>
      ⟨(({ w with heap := h' } : World α).take .plain n).give .frozen n, ?_, ?_, ?_⟩⟩
    · simp [World.exec, Heap.acqLock, e, bind, Except.bind, pure, Except.pure]
    · simp
    · simp

/-- Both cases of C38 occur: after `at_ 6` of the demo program (tree 0 has a grant token) a prohibition
is denied, a further grant is not. -/
example : ReachAny (DemoWorld.run (DemoWorld.ops.take 3) .init) ∧
    ((DemoWorld.run (DemoWorld.ops.take 3) .init).exec (.acquire false 0)).toOption.map (·.2) = some .denied ∧
    ((DemoWorld.run (DemoWorld.ops.take 3) .init).exec (.acquire true 0)).toOption.map (·.2) = some .unit := by
  refine ⟨?_, rfl, rfl⟩
  refine ReachAny.run _ _ .init ?_
  intro i op hi
  match i with
  | 0 => cases hi; exact ⟨trivial, _, rfl⟩
  | 1 => cases hi; exact ⟨show 0 < _ by decide, _, rfl⟩
  | 2 => cases hi; exact ⟨show 0 < _ by decide, _, rfl⟩
  | i + 3 => cases hi

/-- C39, node handles: dropping a `Node`, `HotNode` or `FrozenNode` never panics. -/
theorem C39_drop_handle (hr : ReachAny w) {k : Kind} (hk : 0 < w.held k n) (s : String) :
    w.exec (.drop k n) ≠ .error (.panic s) :=
  hr.own.drop_noPanic hk

/-- C39, tokens: dropping a token always returns. -/
theorem C39_drop_token (hr : ReachAny w) {grant : Bool}
    (hk : if grant then 0 < w.grantTok t else 0 < w.prohTok t) :
    ∃ w', w.exec (.dropTok grant t) = .ok (w', .unit) := by
  simp only [World.exec]
  split
  · rename_i hta
    obtain ⟨g, hg, -⟩ := hr.own.releaseTok hta hk
    exact ⟨_, by simp only [hg, bind, Except.bind, pure, Except.pure]; rfl⟩
  · exact ⟨_, rfl⟩

/-- C39, neutral: when no lock of the tree is alive, both kinds can be acquired, from the tree and from
each node with a plain handle. -/
theorem C39_neutral (hr : ReachAny w) (hg : ¬ w.GrantAlive t) (hp : ¬ w.ProhAlive t) :
    (0 < w.trees t → ∀ b, ∃ w', w.exec (.acquire b t) = .ok (w', .unit)) ∧
    (∀ n, 0 < w.held .plain n → w.heap.nodeTree n = .ok t →
      ∀ k, k ≠ .plain → ∃ w', w.exec (.bundle k n) = .ok (w', .unit)) := by
  have I := hr.own
  have zero : w.heap.treeAlive t = true → w.heap.grants t = 0 := by
    intro hta
    obtain ⟨e1, e2⟩ := I.alive_locks hta
    rw [e1] at hg; rw [e2] at hp; omega
  constructor
  · intro ht b
    have h0 := zero (I.treesAlive t ht)
    cases b with
    | true =>
      obtain ⟨w', e, -⟩ := (C38_grant hr ht).2 hp (by rw [h0]; decide)
      exact ⟨w', e⟩
    | false =>
      obtain ⟨w', e, -⟩ := (C38_prohibition hr ht).2 hg (by rw [h0]; decide)
      exact ⟨w', e⟩
  · intro n hn ht k hk
    have h0 := zero (I.treeCore_alive ht)
    cases k with
    | plain => exact absurd rfl hk
    | hot =>
      obtain ⟨w', e, -⟩ := (C38_hot hr hn ht).2 hp (by rw [h0]; decide)
      exact ⟨w', e⟩
    | frozen =>
      obtain ⟨w', e, -⟩ := (C38_frozen hr hn ht).2 hg (by rw [h0]; decide)
      exact ⟨w', e⟩

/-- The hypotheses of C39 are met: a hot root and a grant token extracted from it; and, after both are
dropped, no lock is alive although the tree is. -/
example : ∃ w : World Nat, ReachAny w ∧ 0 < w.held .hot 0 ∧ 0 < w.grantTok 0 := by
  refine ⟨DemoWorld.run [.newTree true 0, .extract true 0] .init, ?_, by decide, by decide⟩
  refine ReachAny.run _ _ .init ?_
  intro i op hi
  match i with
  | 0 => cases hi; exact ⟨trivial, _, rfl⟩
  | 1 => cases hi; exact ⟨show 0 < _ by decide, _, rfl⟩
  | i + 2 => cases hi

example : ∃ w : World Nat, ReachAny w ∧ 0 < w.trees 0 ∧ ¬ w.GrantAlive 0 ∧ ¬ w.ProhAlive 0 := by
  have hw : ReachAny (DemoWorld.run [.newTree true 0, .extract true 0, .treeOf .hot 0, .drop .hot 0,
    .dropTok true 0] .init) := by
    refine ReachAny.run _ _ .init ?_
    intro i op hi
    match i with
    | 0 => cases hi; exact ⟨trivial, _, rfl⟩
    | 1 => cases hi; exact ⟨show 0 < _ by decide, _, rfl⟩
    | 2 => cases hi; exact ⟨show 0 < _ by decide, _, rfl⟩
    | 3 => cases hi; exact ⟨show 0 < _ by decide, _, rfl⟩
    | 4 => cases hi; exact ⟨show 0 < _ by decide, _, rfl⟩
    | i + 5 => cases hi
  have h1 := hw.own.alive_locks (t := 0) (by decide +kernel)
  refine ⟨_, hw, by decide +kernel, ?_, ?_⟩
  · rw [h1.1]; decide +kernel
  · rw [h1.2]; decide +kernel

/-- C40: a token of tree `t` is valid for a node (`is_valid_for_node`) exactly if the tree of the node
is `t`. -/
theorem C40_valid_iff (hr : ReachAny w) {k : Kind} (hk : 0 < w.held k n) (t : TreeId) :
    w.heap.belongsTo n t = true ↔ w.heap.nodeTree n = .ok t := by
  rw [hr.own.nodeTree_held hk]; simp [Heap.belongsTo]

/-- C40: an edit of a node with a token of another tree panics at the check of the token, before
anything is changed. -/
theorem C40_wrong_token (hr : ReachAny w) (hk : 0 < w.held .plain n)
    (hne : w.heap.nodeTree n ≠ .ok t) (d : α) (as : AdoptAs) (dest : InsertAs NodeId) :
    ∀ op ∈ [Op.create (.token t) n d as, .createParent (.token t) n d, .createChild (.token t) n d,
      .detach (.token t) n, .replace (.token t) n, .move (.token t) n dest],
      w.exec op = .error (.panic "the grant is not valid for the node of interest") := by
  rw [Ne, hr.own.nodeTree_held hk] at hne
  intro op hop
  simp only [List.mem_cons, List.not_mem_nil, or_false] at hop
  rcases hop with rfl | rfl | rfl | rfl | rfl | rfl <;>
    simp [World.exec, World.checkAuth, Heap.belongsTo, hne, bind, Except.bind]

/-- C40: the same for making a hot or frozen handle with a token of another tree. -/
theorem C40_wrong_bundle (hr : ReachAny w) (hk : 0 < w.held .plain n)
    (hne : w.heap.nodeTree n ≠ .ok t) (k : Kind) :
    w.exec (.bundleWith k n t) = .error (.panic "the token is not valid for the node of interest") := by
  rw [Ne, hr.own.nodeTree_held hk] at hne
  simp [World.exec, Heap.belongsTo, hne]

/-- C40: with a token of its own tree a node with a plain handle can always be made hot (up to the
limit of `isize`). -/
theorem C40_right_bundle (hr : ReachAny w) (hk : 0 < w.held .plain n)
    (ht : w.heap.nodeTree n = .ok t) (hg : 0 < w.grantTok t) (hl : w.heap.grants t < 2 ^ 63 - 1) :
    ∃ w', w.exec (.bundleWith .hot n t) = .ok (w', .unit) := by
  have hnp : ¬ w.ProhAlive t := fun h => C37_exclusive hr t ⟨.inl hg, h⟩
  obtain ⟨w', e, -⟩ := (C38_hot hr hk ht).2 hnp hl
  have hb := (C40_valid_iff hr hk t).2 ht
  simp only [World.exec, bind, Except.bind, pure, Except.pure] at e ⊢
  rw [if_pos hb]
  split at e
  · cases e
  · rename_i v hv
    split at e
    · rw [hv]; exact ⟨_, rfl⟩
    · split at e <;> simp at e

/-- The demo program after 8 calls: the token of tree 0 is valid for node 2 but not for node 4 (of
tree 1), and after the move of node 1 to tree 1 it is not valid for node 1 any more. -/
example : (DemoWorld.at_ 8).heap.nodeTree 2 = .ok 0 ∧ (DemoWorld.at_ 8).heap.nodeTree 4 ≠ .ok 0 ∧
    (DemoWorld.at_ 8).heap.nodeTree 1 = .ok 0 ∧ (DemoWorld.at_ 9).heap.nodeTree 1 ≠ .ok 0 ∧
    0 < (DemoWorld.at_ 8).grantTok 0 := by
  have h4 : (DemoWorld.at_ 8).heap.nodeTree 4 = .ok 1 := rfl
  have h1 : (DemoWorld.at_ 9).heap.nodeTree 1 = .ok 1 := rfl
  refine ⟨rfl, ?_, rfl, ?_, by decide +kernel⟩
  · rw [h4]; simp
  · rw [h1]; simp

/-- C41 for calls without a known defect: while a prohibition of tree `t` is alive, no call changes the
results of the navigation methods or the tree of any node of `t`, and no node joins `t`, unless the
call drops the last handle of `t` so that the tree is destroyed.  Missing: histories with defective
calls, for which it is false (`C41_violated`). -/
theorem C41_prohibited_partial (hr : Reach w) (s : w.Step op w' r) (hp : w.ProhAlive t)
    (hh : w'.TreeHeld t) :
    (∀ n, w.heap.alive n = true → w.heap.nodeTree n = .ok t →
      w'.heap.alive n = true ∧ w'.heap.nodeTree n = .ok t ∧ ∀ q, w'.heap.navTo n q = w.heap.navTo n q) ∧
    (∀ n, w'.heap.alive n = true → w'.heap.nodeTree n = .ok t → w.heap.alive n = true ∧
      w.heap.nodeTree n = .ok t) := by
  obtain ⟨ch, I⟩ := hr.inv
  obtain ⟨ch', I', K⟩ := s.inv I
  have hta' := I'.treeHeld_iff.1 hh
  have hta : w.heap.treeAlive t = true ∧ t < w.heap.nTree := by
    have hlt : t < w.heap.nTree := by
      rcases hp with h1 | ⟨x, h1, h2⟩
      · exact I.toks t (Nat.lt_of_lt_of_le h1 (Nat.le_add_left _ _))
      · exact I.wf.tree.bound t (I.wf.tree_alive (I.held_alive h1) ((I.nodeTree_held h1).1 h2))
    refine ⟨?_, hlt⟩
    cases e : w.heap.treeAlive t with
    | true => rfl
    | false => rw [K.freshTree t hlt e] at hta'; cases hta'
  have hu : ¬ Edits w.heap op t := by
    intro he
    have h1 := I.edits_grants s.allowed s.tokenOK he
    have h2 := (I.alive_locks hta.1).2.1 hp
    omega
  constructor
  · intro n ha ht
    have hm := (I.wf.tree.treeCore_iff ha).1 ht
    have ha' : w'.heap.alive n = true := by
      cases hx : w'.heap.alive n with
      | true => rfl
      | false => rw [K.died n t ha hx hm] at hta'; cases hta'
    obtain ⟨h1, -, -, h4⟩ := K.navTo I.wf I'.wf hu ha hm ha'
    exact ⟨ha', (I'.wf.tree.treeCore_iff ha').2 h1, h4⟩
  · intro n ha ht
    obtain ⟨h1, h2⟩ := K.noJoin n t ha ((I'.wf.tree.treeCore_iff ha).1 ht) hu hta.2
    exact ⟨h1, (I.wf.tree.treeCore_iff h1).2 h2⟩

/-- The hypotheses of C41 are met: tree 1 of this program is prohibited by a `FrozenNode` while a node
is created in tree 0. -/
example : ∃ (w w' : World Nat) (op : Op Nat) (r : Res), Reach w ∧ w.Step op w' r ∧ w.ProhAlive 1 ∧
    w'.TreeHeld 1 ∧ Edits w.heap op 0 := by
  have h0 : Reach (DemoWorld.run [.newTree true 0] .init) :=
    .step .init (op := .newTree true 0) (r := .node (some 0)) ⟨trivial, fun _ _ => trivial, fun _ _ => ⟨by show -(2:Int)^62 < 0; decide, by show (0:Int) < 2^62; decide⟩, rfl⟩
  have room1 : Room (DemoWorld.run [.newTree true 0] .init).heap :=
    DemoWorld.room_of 1 (fun t ht => by
      obtain ⟨s, rfl⟩ : ∃ s, t = s + 1 := ⟨t - 1, (Nat.sub_add_cancel ht).symm⟩
      rfl) (by decide +kernel)
  have h1 : Reach (DemoWorld.run [.newTree true 0, .newTree false 1] .init) :=
    .step h0 (op := .newTree false 1) (r := .node (some 1)) ⟨trivial, fun _ _ => trivial, room1, rfl⟩
  have room2 : Room (DemoWorld.run [.newTree true 0, .newTree false 1] .init).heap :=
    DemoWorld.room_of 2 (fun t ht => by
      obtain ⟨s, rfl⟩ : ∃ s, t = s + 2 := ⟨t - 2, (Nat.sub_add_cancel ht).symm⟩
      rfl) (by decide +kernel)
  have h2 : Reach (DemoWorld.run [.newTree true 0, .newTree false 1, .bundle .frozen 1] .init) :=
    .step h1 (op := .bundle .frozen 1) (r := .unit)
      ⟨⟨by decide, by decide⟩, fun _ _ => trivial, room2, rfl⟩
  have room3 : Room (DemoWorld.run [.newTree true 0, .newTree false 1, .bundle .frozen 1] .init).heap :=
    DemoWorld.room_of 2 (fun t ht => by
      obtain ⟨s, rfl⟩ : ∃ s, t = s + 2 := ⟨t - 2, (Nat.sub_add_cancel ht).symm⟩
      rfl) (by decide +kernel)
  refine ⟨_, DemoWorld.run [.newTree true 0, .newTree false 1, .bundle .frozen 1,
    .create .hot 0 7 .firstChild] .init, .create .hot 0 7 .firstChild, .node (some 2), h2,
    ⟨show 0 < _ by decide, fun _ _ => trivial, room3, rfl⟩, .inr ⟨1, by decide, rfl⟩, ?_, rfl⟩
  exact .inr ⟨.frozen, 1, by decide, rfl⟩

/-- C41 in the wider histories (`Verif.Spec.Wide`): as above, for the navigation methods that do not
depend on a stale `last_child`. -/
theorem C41_prohibited_wide_partial {ch : NodeId → List NodeId} (hr : ReachW w) (s : w.StepW op w' r)
    (hp : w.ProhAlive t) (hh : w'.TreeHeld t) (F : FShape w.heap ch) :
    (∀ n, w.heap.alive n = true → w.heap.nodeTree n = .ok t →
      w'.heap.alive n = true ∧ w'.heap.nodeTree n = .ok t ∧
      ∀ q, (∀ p, UsesLast ch (.nav .plain q n : Op α) p → LastRight w.heap ch p) →
        w'.heap.navTo n q = w.heap.navTo n q) ∧
    (∀ n, w'.heap.alive n = true → w'.heap.nodeTree n = .ok t → w.heap.alive n = true ∧
      w.heap.nodeTree n = .ok t) := by
  obtain ⟨v, ch1, W⟩ := hr.wide
  obtain ⟨v', ch', W', K, hlast, -⟩ := s.wide W
  obtain rfl := W.shape.unique F
  have hta' := W'.treeHeld_iff.1 hh
  have hta2 : v'.heap.treeAlive t = true := by rw [W'.sim.heap.treeAlive]; exact hta'
  have hta : w.heap.treeAlive t = true ∧ t < w.heap.nTree := by
    have hlt : t < w.heap.nTree := by
      rcases hp with h1 | ⟨x, h1, h2⟩
      · exact W.toks t (Nat.lt_of_lt_of_le h1 (Nat.le_add_left _ _))
      · exact W.fwd.tree.bound t (W.fwd.tree_alive (W.held_alive h1) ((W.nodeTree_held h1).1 h2))
    refine ⟨?_, hlt⟩
    cases e : w.heap.treeAlive t with
    | true => rfl
    | false =>
      rw [K.freshTree t (by rw [W.sim.heap.nTree]; exact hlt) (by rw [W.sim.heap.treeAlive]; exact e)] at hta2
      cases hta2
  have hu : ¬ Edits w.heap op t := by
    intro he
    have h1 := W.edits_grants s.allowed s.tokenOK he
    have h2 := (W.alive_locks hta.1).2.1 hp
    omega
  have hu' : ¬ Edits v.heap op t := fun he => hu ((W.edits t).1 he)
  have hdrops : ∀ p, w.heap.memTree p = some t → ¬ DropsLast ch1 op p := by
    intro p hpt hd
    have key : ∀ n, LastOf ch1 n p → w.heap.memTree n = some t := by
      rintro n ⟨l, a, e⟩
      have hm : n ∈ ch1 p := by rw [e]; simp
      rw [W.fwd.tree.child n p (W.shape.alive_of_mem hm) (W.shape.parent_of_mem hm)]; exact hpt
    cases op <;> simp only [DropsLast] at hd
    case detach a n => exact hu (key n hd)
    case replace a n => exact hu (key n hd.2)
    case move a n dest => exact hu (.inl (key n hd))
  constructor
  · intro n ha ht
    have hm := (W.fwd.tree.treeCore_iff ha).1 ht
    have hav : v.heap.alive n = true := by rw [W.sim.heap.alive]; exact ha
    have hmv : v.heap.memTree n = some t := by rw [W.sim.heap.memTree]; exact hm
    have hlive : ∀ x, v.heap.alive x = true → v.heap.memTree x = some t → v'.heap.alive x = true := by
      intro x hx hxt
      cases hx' : v'.heap.alive x with
      | true => rfl
      | false => rw [K.died x t hx hx' hxt] at hta2; cases hta2
    have hav' := hlive n hav hmv
    have ha' : w'.heap.alive n = true := by rw [← W'.sim.heap.alive]; exact hav'
    obtain ⟨h1, h2, h3, h4⟩ := K.navTo W.inv.wf W'.inv.wf hu' hav hmv hav'
    refine ⟨ha', (W'.fwd.tree.treeCore_iff ha').2 (by rw [← W'.sim.heap.memTree]; exact h1), ?_⟩
    intro q hq
    have e1 : w.heap.navTo n q = v.heap.navTo n q := W.navTo ha hq
    have hkeep : ∀ p, n ∈ ch' p → ch' p = ch1 p := by
      intro p hpn
      refine K.parent_stays W.inv.wf W'.inv.wf ((h3 p).1 hpn) ?_ hav'
      intro u hu2
      rw [hmv] at hu2
      obtain rfl : t = u := by simpa using hu2
      exact hu'
    have hpm : ∀ p, n ∈ ch1 p → w.heap.memTree p = some t := by
      intro p hpn
      rw [← W.fwd.tree.child n p ha (W.shape.parent_of_mem hpn)]; exact hm
    have fin : ∀ p, UsesLast ch1 (.nav .plain q n : Op α) p → w.heap.memTree p = some t →
        w.heap.alive p = true → LastRight w'.heap ch' p := by
      intro p hup hpt hpa
      have hpa' : w'.heap.alive p = true := by
        rw [← W'.sim.heap.alive]
        exact hlive p (by rw [W.sim.heap.alive]; exact hpa) (by rw [W.sim.heap.memTree]; exact hpt)
      exact hlast p hpa hpa' (hq p hup) (hdrops p hpt)
    have e2 : w'.heap.navTo n q = v'.heap.navTo n q := by
      refine W'.navTo (kd := .plain) ha' ?_
      intro p hup
      cases q <;> simp only [UsesLast] at hup
      case prevSibling =>
        have hc := hkeep p (List.mem_of_head? hup)
        rw [hc] at hup
        have hpn := List.mem_of_head? hup
        exact fin p hup (hpm p hpn) (W.shape.alive_parent hpn)
      case lastSibling =>
        have hpn := (h3 p).1 hup
        exact fin p hpn (hpm p hpn) (W.shape.alive_parent hpn)
      case lastChild => subst hup; exact fin p rfl hm ha
    rw [e2, h4 q, e1]
  · intro n ha ht
    have K' := (K.mono (fun t ht => (W.edits t).1 ht) (fun _ h => h)).wide W W'
    obtain ⟨h1, h2⟩ := K'.noJoin n t ha ((W'.fwd.tree.treeCore_iff ha).1 ht) hu hta.2
    exact ⟨h1, (W.fwd.tree.treeCore_iff h1).2 h2⟩

/-- The hypotheses are met: a token prohibits edits of the detached tree 1 while the program inserts a
node among the children of node 0, whose `last_child` is stale. -/
example : ∃ w w' : World Nat, ReachW w ∧ w.StepW (.create .hot 2 14 .previousSibling) w' (.node (some 4)) ∧
    w.ProhAlive 1 ∧ w'.TreeHeld 1 ∧ w.heap.navTo 0 .lastChild = .ok (some 3) ∧ w.heap.nodeTree 3 = .ok 1 := by
  have room : ∀ l : List (Op Nat), (∀ t, (DemoWorld.run l (DemoWorld.wide 5)).heap.grants (t + 2) = 0) →
      (∀ t, t < 2 → -(2 : Int) ^ 62 < (DemoWorld.run l (DemoWorld.wide 5)).heap.grants t ∧
        (DemoWorld.run l (DemoWorld.wide 5)).heap.grants t < (2 : Int) ^ 62) →
      Room (DemoWorld.run l (DemoWorld.wide 5)).heap := by
    intro l h1 h2
    refine DemoWorld.room_of 2 (fun t ht => ?_) h2
    obtain ⟨s, rfl⟩ : ∃ s, t = s + 2 := ⟨t - 2, (Nat.sub_add_cancel ht).symm⟩
    exact h1 s
  have r1 : ReachW (DemoWorld.run [.treeOf .hot 3] (DemoWorld.wide 5)) :=
    .step DemoWorld.wideReach5 (op := .treeOf .hot 3) (r := .tree (some 1))
      ⟨show 0 < _ by decide, fun _ _ => ⟨trivial, fun _ h => h.elim⟩, DemoWorld.wideRoom 5 (by decide), rfl⟩
  have r2 : ReachW (DemoWorld.run [.treeOf .hot 3, .drop .hot 3] (DemoWorld.wide 5)) :=
    .step r1 (op := .drop .hot 3) (r := .unit)
      ⟨show 0 < _ by decide, fun _ _ => ⟨trivial, fun _ h => h.elim⟩,
        room [.treeOf .hot 3] (fun _ => rfl) (by decide +kernel), rfl⟩
  have r3 : ReachW (DemoWorld.run [.treeOf .hot 3, .drop .hot 3, .acquire false 1] (DemoWorld.wide 5)) :=
    .step r2 (op := .acquire false 1) (r := .unit)
      ⟨show 0 < _ by decide +kernel, fun _ _ => ⟨trivial, fun _ h => h.elim⟩,
        room [.treeOf .hot 3, .drop .hot 3] (fun _ => rfl) (by decide +kernel), rfl⟩
  refine ⟨_, _, r3, ⟨show 0 < _ by decide +kernel, fun ch F => ⟨trivial, fun p hp => ?_⟩,
    room [.treeOf .hot 3, .drop .hot 3, .acquire false 1] (fun _ => rfl) (by decide +kernel), rfl⟩,
    .inl (by decide +kernel), .inl (by decide +kernel), rfl, rfl⟩
  obtain ⟨l1, l2, hd, he⟩ := hp
  exfalso
  cases hd with
  | @prev _ _ l1 l2 e =>
    rcases he with rfl | he
    · have h1 : (ch p).head? = some 2 := by rw [e]; rfl
      have hp := F.parent_of_mem (List.mem_of_head? h1)
      have h2 : (DemoWorld.run [.treeOf .hot 3, .drop .hot 3, .acquire false 1] (DemoWorld.wide 5)).heap.parent 2
        = some 0 := rfl
      rw [h2] at hp
      obtain rfl : 0 = p := by simpa using hp
      have h3 := F.first 0 rfl
      have h4 : (DemoWorld.run [.treeOf .hot 3, .drop .hot 3, .acquire false 1] (DemoWorld.wide 5)).heap.firstChild 0
        = some 1 := rfl
      rw [h4, h1] at h3
      simp at h3
    · cases he

/-- C41 is violated by histories with a defective call: node 2 is detached from node 0 and frozen, and
then appending a child to node 0 gives the frozen node a next sibling. -/
theorem C41_violated :
    ∃ (w w' : World Nat) (op : Op Nat) (r : Res), ReachAny w ∧ w.Call op w' r ∧
      w.ProhAlive 1 ∧ w'.ProhAlive 1 ∧ w.heap.nodeTree 2 = .ok 1 ∧
      w.heap.navTo 2 .nextSibling = .ok none ∧ w'.heap.navTo 2 .nextSibling = .ok (some 3) := by
  refine ⟨DemoWorld.run [.newTree true 0, .create .hot 0 1 .lastChild, .create .hot 0 2 .lastChild,
      .detach .hot 2, .plainOf .hot 2, .drop .hot 2, .bundle .frozen 2] .init,
    DemoWorld.run [.newTree true 0, .create .hot 0 1 .lastChild, .create .hot 0 2 .lastChild,
      .detach .hot 2, .plainOf .hot 2, .drop .hot 2, .bundle .frozen 2,
      .create .hot 0 3 .lastChild] .init,
    .create .hot 0 3 .lastChild, .node (some 3), ?_, ⟨show 0 < _ by decide +kernel, rfl⟩, ?_, ?_, rfl, rfl, rfl⟩
  · refine ReachAny.run _ _ .init ?_
    intro i op hi
    match i with
    | 0 => cases hi; exact ⟨trivial, _, rfl⟩
    | 1 => cases hi; exact ⟨show 0 < _ by decide, _, rfl⟩
    | 2 => cases hi; exact ⟨show 0 < _ by decide, _, rfl⟩
    | 3 => cases hi; exact ⟨show 0 < _ by decide, _, rfl⟩
    | 4 => cases hi; exact ⟨⟨by decide, by decide⟩, _, rfl⟩
    | 5 => cases hi; exact ⟨show 0 < _ by decide, _, rfl⟩
    | 6 => cases hi; exact ⟨⟨by decide, by decide⟩, _, rfl⟩
    | i + 7 => cases hi
  · exact .inr ⟨2, by decide +kernel, rfl⟩
  · exact .inr ⟨2, by decide +kernel, rfl⟩

/-- C42: in every program state the lock counter of each tree counts exactly the tokens of this tree
and those nodes with hot (or frozen) handles which now belong to it.  With `C42_edits_keep_handles`:
when nodes are moved, each takes its own lock along, the other locks and the tokens stay. -/
theorem C42_locks_exact (hr : ReachAny w) (ht : w.TreeHeld t) : w.LocksExact t := by
  have I := hr.own
  refine I.locksExact ?_
  rcases ht with h1 | ⟨k, n, hk, h1⟩
  · exact I.treesAlive t h1
  · exact I.treeCore_alive h1

/-- C42: moving, detaching and replacing change neither the handles nor the tokens of the program; in
particular a hot node stays hot, in its new tree. -/
theorem C42_edits_keep_handles {a : Auth} {dest : InsertAs NodeId}
    (hop : op = .detach a n ∨ op = .replace a n ∨ op = .move a n dest)
    (e : w.exec op = .ok (w', r)) :
    w'.held = w.held ∧ w'.grantTok = w.grantTok ∧ w'.prohTok = w.prohTok := by
  rcases hop with rfl | rfl | rfl
  all_goals
    simp only [World.exec, bind, Except.bind, pure, Except.pure] at e
    split at e
    · cases e
  · split at e
    · cases e
    · simp only [Except.ok.injEq, Prod.mk.injEq] at e; rw [← e.1]; exact ⟨rfl, rfl, rfl⟩
  · split at e
    · cases e
    · rename_i v _
      obtain ⟨h1, r1⟩ := v
      cases r1 <;> simp only [Except.ok.injEq, Prod.mk.injEq] at e <;> rw [← e.1] <;>
        exact ⟨rfl, rfl, rfl⟩
  · split at e
    · cases e
    · rename_i v _
      obtain ⟨h1, r1⟩ := v
      cases r1 <;> simp only [Except.ok.injEq, Prod.mk.injEq] at e <;> rw [← e.1] <;>
        exact ⟨rfl, rfl, rfl⟩

/-- C42: a node with a hot handle which moves from tree `t` to tree `t'` takes its grant along. -/
theorem C42_hot_moves (hr : ReachAny w) {a : Auth} {dest : InsertAs NodeId} {x : NodeId} {t' : TreeId}
    (ha : w.Allowed (.move a n dest)) (e : w.exec (.move a n dest) = .ok (w', r))
    (hx : 0 < w.held .hot x) (ht : w'.heap.nodeTree x = .ok t') :
    w'.GrantAlive t' ∧ w'.LocksExact t' := by
  have hh := (C42_edits_keep_handles (.inr (.inr rfl)) e).1
  have h1 : 0 < w'.held .hot x := by rw [hh]; exact hx
  exact ⟨.inr ⟨x, h1, ht⟩, C42_locks_exact (.step hr ⟨ha, e⟩) (.inr ⟨_, x, h1, ht⟩)⟩

/-- In the demo program hot node 1 moves from tree 0 (with a grant token) to tree 1 (with the hot
node 4): the counters change from 2 and 1 to 1 and 2. -/
example : (DemoWorld.at_ 8).heap.grants 0 = 2 ∧ (DemoWorld.at_ 8).heap.grants 1 = 1 ∧
    (DemoWorld.at_ 9).heap.grants 0 = 1 ∧ (DemoWorld.at_ 9).heap.grants 1 = 2 ∧
    0 < (DemoWorld.at_ 8).held .hot 1 := by decide +kernel

end Dendron
