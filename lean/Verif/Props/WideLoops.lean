import Verif.Proofs.WideLoops
import Verif.Proofs.DemoWide
import Verif.Props.Loops

/-!
# C61 in the wider histories: loops that may take the last of several siblings away

The most common such loop detaches or removes what it visits.  In the histories of `ReachW` the last of several
siblings may be taken away, before the loop and in it; `last_child` of its parent is wrong afterwards (a defect of
the code).  The forward iterators do not ask for it: what C61 says of them holds without conditions.  The
backward iterators ask for it when they go into a node or back from a first child: C61 holds of them as long as
`last_child` is right where they ask (`BackOk`).
-/

set_option autoImplicit false

namespace Dendron
variable {α : Type} {w : World α} {ch : NodeId → List NodeId} {k : Kind} {n : NodeId}

/-- C61, `depth_first_traverse`. -/
theorem C61_depth_first_wide (hr : ReachW w) (R : w.Roomy) (hk : 0 < w.held k n) :
    LoopFollowsW (fun _ _ => True) k n (Dft.startP n) Dft.owns Dft.nextP DftEvent.value (fun x => x = some (.opn n))
      (fun ch x y => if x = .cls n then y = none else After ch x y) w := by
  obtain ⟨v, ch, W⟩ := hr.wide
  refine loop_followsW (peek := Dft.peek) hr R W.shape hk (Dft.startP_uses n) (Dft.startP_steers n)
    (Dft.startP_eval _ n) rfl ?_
  intro w' hr' R' hh
  refine Dft.followsW hr' R' hh ?_
  intro e t h
  cases h; rfl

/-- C61, `children`, `siblings`, `following_siblings` and `following_siblings_or_self`. -/
theorem C61_siblings_wide (hr : ReachW w) (R : w.Roomy) (hk : 0 < w.held k n) (hF : FShape w.heap ch) :
    LoopFollowsW (fun _ _ => True) k n (Sib.childrenP n) Sib.owns Sib.nextP id (fun x => x = (ch n).head?) NextSib w ∧
    LoopFollowsW (fun _ _ => True) k n (Sib.siblingsP n) Sib.owns Sib.nextP id
      (fun x => ∃ c, x = some c ∧ FirstSib ch n c) NextSib w ∧
    LoopFollowsW (fun _ _ => True) k n (Sib.followingP n) Sib.owns Sib.nextP id (NextSib ch n) NextSib w ∧
    LoopFollowsW (fun _ _ => True) k n (Sib.orSelfP n) Sib.owns Sib.nextP id (fun x => x = some n) NextSib w := by
  obtain ⟨v, ch0, W⟩ := hr.wide
  obtain rfl := hF.unique W.shape
  have C := W.coherent
  have ha := W.held_alive hk
  refine ⟨loop_followsW (peek := Sib.peek) hr R hF hk (Sib.childrenP_uses n) (Sib.childrenP_steers n)
      (Sib.childrenP_eval _ n) ?_ (fun w' hr' R' hh => Sib.nextFollowsW hr' R' hh),
    loop_followsW (peek := Sib.peek) hr R hF hk (Sib.siblingsP_uses n) (Sib.siblingsP_steers n)
      (Sib.siblingsP_eval _ n) ?_ (fun w' hr' R' hh => Sib.nextFollowsW hr' R' hh),
    loop_followsW (peek := Sib.peek) hr R hF hk (Sib.followingP_uses n) (Sib.followingP_steers n)
      (Sib.followingP_eval _ n) ?_ (fun w' hr' R' hh => Sib.nextFollowsW hr' R' hh),
    loop_followsW (peek := Sib.peek) hr R hF hk (Sib.orSelfP_uses n) (Sib.orSelfP_steers n) (Sib.orSelfP_eval _ n)
      rfl (fun w' hr' R' hh => Sib.nextFollowsW hr' R' hh)⟩
  · exact C.firstChild n ha
  · simp only [Sib.peek, Sib.siblings, Sib.children, Sib.followingOrSelf]
    rcases alive_splitW C hF ha with ⟨p, l1, l2, e⟩ | ⟨h1, h2⟩
    · have hm : n ∈ ch p := by simp [e]
      rw [(C.parent p n ha).2 hm]
      obtain ⟨c, l, e1⟩ : ∃ c l, ch p = c :: l := by
        cases h : ch p with
        | nil => rw [h] at hm; cases hm
        | cons c l => exact ⟨c, l, rfl⟩
      have h3 := C.firstChild p (C.alive p n hm).1
      exact ⟨c, by simp [h3, e1], .first hm e1⟩
    · rw [h2]; exact ⟨n, rfl, .out h1⟩
  · exact C.nextSib hF ha

/-- C61, `ancestors` and `ancestors_or_self`. -/
theorem C61_ancestors_wide (hr : ReachW w) (R : w.Roomy) (hk : 0 < w.held k n) (hF : FShape w.heap ch) :
    LoopFollowsW (fun _ _ => True) k n (Sib.ancestorsP n) Sib.owns Sib.upP id (ParentIs ch n) ParentIs w ∧
    LoopFollowsW (fun _ _ => True) k n (Sib.orSelfP n) Sib.owns Sib.upP id (fun x => x = some n) ParentIs w := by
  obtain ⟨v, ch0, W⟩ := hr.wide
  obtain rfl := hF.unique W.shape
  have C := W.coherent
  have ha := W.held_alive hk
  exact ⟨loop_followsW (peek := Sib.peek) hr R hF hk (Sib.ancestorsP_uses n) (Sib.ancestorsP_steers n)
      (Sib.ancestorsP_eval _ n) (C.parentIs hF ha) (fun w' hr' R' hh => Sib.upFollowsW hr' R' hh),
    loop_followsW (peek := Sib.peek) hr R hF hk (Sib.orSelfP_uses n) (Sib.orSelfP_steers n) (Sib.orSelfP_eval _ n)
      rfl (fun w' hr' R' hh => Sib.upFollowsW hr' R' hh)⟩

/-- C61, `depth_first_reverse_traverse`. -/
theorem C61_depth_first_reverse_wide (hr : ReachW w) (R : w.Roomy) (hk : 0 < w.held k n) :
    LoopFollowsW RevDft.BackOk k n (RevDft.startP n) RevDft.owns RevDft.nextP DftEvent.value
      (fun x => x = some (.cls n)) (fun ch x y => if x = .opn n then y = none else Before ch x y) w := by
  obtain ⟨v, ch, W⟩ := hr.wide
  refine loop_followsW (peek := RevDft.peek) hr R W.shape hk (RevDft.startP_uses n) (RevDft.startP_steers n)
    (RevDft.startP_eval _ n) rfl ?_
  intro w' hr' R' hh
  refine RevDft.followsW hr' R' hh ?_
  intro e t h
  cases h; rfl

/-- C61, `children_reverse`, `siblings_reverse`, `preceding_siblings_reverse` and
`preceding_siblings_or_self_reverse`. -/
theorem C61_siblings_reverse_wide (hr : ReachW w) (R : w.Roomy) (hk : 0 < w.held k n) (hF : FShape w.heap ch) :
    (w.BackRight (.cls n) → LoopFollowsW Sib.BackOk k n (Sib.childrenReverseP n) Sib.owns Sib.prevP id
      (fun x => x = (ch n).getLast?) PrevSib w) ∧
    ((∀ p, n ∈ ch p → w.BackRight (.cls p)) → LoopFollowsW Sib.BackOk k n (Sib.siblingsReverseP n) Sib.owns Sib.prevP id
      (fun x => ∃ c, x = some c ∧ LastSib ch n c) PrevSib w) ∧
    (w.BackRight (.opn n) → LoopFollowsW Sib.BackOk k n (Sib.precedingReverseP n) Sib.owns Sib.prevP id
      (PrevSib ch n) PrevSib w) ∧
    LoopFollowsW Sib.BackOk k n (Sib.orSelfP n) Sib.owns Sib.prevP id (fun x => x = some n) PrevSib w := by
  obtain ⟨v, ch0, W⟩ := hr.wide
  obtain rfl := hF.unique W.shape
  have C := W.coherent
  have ha := W.held_alive hk
  refine ⟨fun hb => ?_, fun hb => ?_, fun hb => ?_, ?_⟩
  · exact loop_followsW (peek := Sib.peek) hr R hF hk (Sib.childrenReverseP_uses n)
      (⟨fun p hp => by obtain rfl : p = n := hp; exact hb ch hF, fun _ _ => trivial⟩)
      ((Sib.childrenReverseP_eval _ n).trans (C.lastChild n ha (hb ch hF))) rfl
      (fun w' hr' R' hh => Sib.prevFollowsW hr' R' hh)
  · have hs : Prog.Steers w.heap ch (Sib.siblingsReverseP (α := α) n) := by
      refine ⟨fun p hp => hp.elim, fun r hr => ?_⟩
      cases r with
      | none => trivial
      | some p =>
        have hp : w.heap.parentLink n = some p := by simpa [Heap.navTo] using hr
        refine ⟨fun q hq => ?_, fun _ _ => trivial⟩
        obtain rfl : q = p := hq
        exact hb q ((C.parent q n ha).1 hp) ch hF
    have e2 : ∃ c, Sib.siblingsReverse w.heap n = .ok (some c) ∧ LastSib ch n c := by
      simp only [Sib.siblingsReverse, Sib.childrenReverse, Sib.precedingOrSelfReverse]
      rcases alive_splitW C hF ha with ⟨p, l1, l2, e⟩ | ⟨h1, h2⟩
      · have hm : n ∈ ch p := by simp [e]
        rw [(C.parent p n ha).2 hm]
        have h3 := C.lastChild p (C.alive p n hm).1 (hb p hm ch hF)
        rcases List.eq_nil_or_concat (ch p) with h | ⟨l, c, h⟩
        · rw [h] at hm; cases hm
        · exact ⟨c, by simp [h3, h], .last (l := l) hm (by simp [h])⟩
      · rw [h2]; exact ⟨n, rfl, .out h1⟩
    obtain ⟨c, e2, e3⟩ := e2
    exact loop_followsW (peek := Sib.peek) hr R hF hk (Sib.siblingsReverseP_uses n) hs
      ((Sib.siblingsReverseP_eval _ n).trans e2) ⟨c, rfl, e3⟩ (fun w' hr' R' hh => Sib.prevFollowsW hr' R' hh)
  · obtain ⟨o, h1, h2⟩ := C.prevSib hF ha (hb ch hF)
    have e3 : Sib.precedingReverse w.heap n = .ok o := by
      simp [Sib.precedingReverse, Sib.precedingOrSelfReverse, Sib.prev, h1, bind, Except.bind, pure, Except.pure]
    exact loop_followsW (peek := Sib.peek) hr R hF hk (Sib.precedingReverseP_uses n)
      (⟨fun p hp => hb ch hF p hp, fun r _ => by cases r <;> trivial⟩)
      ((Sib.precedingReverseP_eval _ n).trans e3) h2 (fun w' hr' R' hh => Sib.prevFollowsW hr' R' hh)
  · exact loop_followsW (peek := Sib.peek) hr R hF hk (Sib.orSelfP_uses n) (Sib.orSelfP_steers n)
      (Sib.orSelfP_eval _ n) rfl (fun w' hr' R' hh => Sib.prevFollowsW hr' R' hh)

/-! ### A concrete loop

In `DemoWorld.wide 5` node 0 has the children 1 and 2, and had a third that was detached: `last_child` of node 0 is
wrong.  The user calls `children()` on node 0 and gets node 1, detaches node 2, the last child now, and goes on: the
iterator had looked at node 2 already and returns it, then nothing. -/

namespace DemoWorld

/-- After `children()`. -/
def k0 : World Nat := after ((methodP .hot 0 (Sib.childrenP 0)).run (wide 5))
/-- After the first `next()`. -/
def k1 : World Nat := after ((Sib.nextP (some 1)).run k0)
/-- After `detach_subtree` of node 2. -/
def k2 : World Nat := after (k1.exec (.detach .hot 2))
/-- After the second `next()`. -/
def k3 : World Nat := after ((Sib.nextP (some 2)).run k2)

theorem k_loop : WalkW (fun _ _ => True) Sib.owns Sib.nextP k0 (some 1)
    [(k0, some 1), (k2, some 2)] k3 none := by
  refine .call (w' := k1) (s' := some 2) trivial rfl (.other (op := .detach .hot 2) (w' := k2) (r := .unit)
    ⟨show 0 < _ by decide +kernel, fun ch F => ⟨trivial, fun p hp => ?_⟩, ?_, rfl⟩
    (has_one (by decide +kernel)) ?_ ?_)
  · exfalso
    have e := F.parent_of_mem (List.mem_of_head? hp)
    have h1 : k1.heap.parent 2 = some 0 := by decide +kernel
    rw [h1] at e
    obtain rfl : 0 = p := by simpa using e
    have := F.first 0 (by decide +kernel)
    have h2 : k1.heap.firstChild 0 = some 1 := by decide +kernel
    rw [h2, hp] at this
    exact absurd this (by decide)
  · refine room_of 3 ?_ ?_
    · intro t ht
      obtain ⟨s, rfl⟩ : ∃ s, t = s + 3 := ⟨t - 3, (Nat.sub_add_cancel ht).symm⟩
      rfl
    · decide +kernel
  · intro t
    rcases Nat.lt_or_ge t 3 with h | h
    · revert t
      decide +kernel
    · obtain ⟨s, rfl⟩ : ∃ s, t = s + 3 := ⟨t - 3, (Nat.sub_add_cancel h).symm⟩
      show (_ : Nat) < _
      exact (show (4 : Nat) < 2 ^ 62 by decide)
  · exact .call (w' := k3) (s' := none) trivial rfl (.nil _ _)

theorem wide5_roomy : (wide 5).Roomy := by
  intro t
  rcases Nat.lt_or_ge t 3 with h | h
  · revert t
    decide +kernel
  · obtain ⟨s, rfl⟩ : ∃ s, t = s + 3 := ⟨t - 3, (Nat.sub_add_cancel h).symm⟩
    exact (show (4 : Nat) < 2 ^ 62 by decide)

end DemoWorld

example : ReachW (DemoWorld.wide 5) ∧ (DemoWorld.wide 5).Roomy ∧ 0 < (DemoWorld.wide 5).held .hot 0 ∧
    (DemoWorld.wide 5).heap.lastChildLink 0 = .ok (some 3) ∧
    (methodP .hot 0 (Sib.childrenP 0)).run (DemoWorld.wide 5) = .ok (DemoWorld.k0, some 1) ∧
    WalkW (fun _ _ => True) Sib.owns Sib.nextP DemoWorld.k0 (some 1)
      [(DemoWorld.k0, some 1), (DemoWorld.k2, some 2)] DemoWorld.k3 none :=
  ⟨DemoWorld.wideReach5, DemoWorld.wide5_roomy, by decide +kernel, rfl, rfl, DemoWorld.k_loop⟩

/-- Going back from node 2 does not ask for the wrong `last_child` of node 0. -/
example {ch : NodeId → List NodeId} (F : FShape (DemoWorld.wide 5).heap ch) : Sib.BackOk (DemoWorld.wide 5) (some 2) := by
  intro n e ch' F' p hp
  cases e
  exact absurd hp (DemoWorld.wideHead F' rfl rfl rfl (by decide))

end Dendron
