import Verif.Proofs.Loops
import Verif.Proofs.DemoWorld

/-!
# C61: loops over the unstable iterators that edit the tree

`LoopFollows k n start … first P w` (`Verif.Spec.Loops`): in the state `w` the user calls a method on a handle of
kind `k` to `n`, gets an iterator, and between the calls of its `next` makes any other safe calls, edits of
the tree included.  Every call of `next` returns; the first item is as in `first`; each item is alive, and
is what `P` says of the item returned before it *in the hierarchy the tree had when that one was returned*
(the iterators look one item ahead); after `None` they return `None`.
-/

set_option autoImplicit false

namespace Dendron
variable {α : Type} {w : World α} {ch : NodeId → List NodeId} {k : Kind} {n : NodeId}

/-- C61, `depth_first_traverse`: it begins with `Open(n)`, and ends after `Close(n)` or when the item
returned last was the closing of a root. -/
theorem C61_depth_first (hr : Reach w) (R : w.Roomy) (hk : 0 < w.held k n) :
    LoopFollows k n (Dft.startP n) Dft.owns Dft.nextP DftEvent.value (fun x => x = some (.opn n))
      (fun ch x y => if x = .cls n then y = none else After ch x y) w := by
  refine loop_follows (peek := Dft.peek) hr R hk (Dft.startP_uses n) (Dft.startP_eval _ n) rfl ?_
  intro w' hr' R' hh
  refine Dft.follows hr' R' hh ?_
  intro e t h
  cases h; rfl

/-- C61, `depth_first_reverse_traverse`. -/
theorem C61_depth_first_reverse (hr : Reach w) (R : w.Roomy) (hk : 0 < w.held k n) :
    LoopFollows k n (RevDft.startP n) RevDft.owns RevDft.nextP DftEvent.value (fun x => x = some (.cls n))
      (fun ch x y => if x = .opn n then y = none else Before ch x y) w := by
  refine loop_follows (peek := RevDft.peek) hr R hk (RevDft.startP_uses n) (RevDft.startP_eval _ n) rfl ?_
  intro w' hr' R' hh
  refine RevDft.follows hr' R' hh ?_
  intro e t h
  cases h; rfl

/-- C61, `children`, `siblings`, `following_siblings` and `following_siblings_or_self`. -/
theorem C61_siblings (hr : Reach w) (R : w.Roomy) (hk : 0 < w.held k n) (hF : FShape w.heap ch) :
    LoopFollows k n (Sib.childrenP n) Sib.owns Sib.nextP id (fun x => x = (ch n).head?) NextSib w ∧
    LoopFollows k n (Sib.siblingsP n) Sib.owns Sib.nextP id (fun x => ∃ c, x = some c ∧ FirstSib ch n c) NextSib w ∧
    LoopFollows k n (Sib.followingP n) Sib.owns Sib.nextP id (NextSib ch n) NextSib w ∧
    LoopFollows k n (Sib.orSelfP n) Sib.owns Sib.nextP id (fun x => x = some n) NextSib w := by
  obtain ⟨ch0, I⟩ := hr.inv
  obtain rfl := hF.unique I.wf.toFShape
  have S := I.wf.toShape
  have ha := I.held_alive hk
  refine ⟨loop_follows (peek := Sib.peek) hr R hk (Sib.childrenP_uses n) (Sib.childrenP_eval _ n) ?_
      (fun w' hr' R' hh => Sib.nextFollows hr' R' hh),
    loop_follows (peek := Sib.peek) hr R hk (Sib.siblingsP_uses n) (Sib.siblingsP_eval _ n) ?_
      (fun w' hr' R' hh => Sib.nextFollows hr' R' hh),
    loop_follows (peek := Sib.peek) hr R hk (Sib.followingP_uses n) (Sib.followingP_eval _ n) ?_
      (fun w' hr' R' hh => Sib.nextFollows hr' R' hh),
    loop_follows (peek := Sib.peek) hr R hk (Sib.orSelfP_uses n) (Sib.orSelfP_eval _ n) rfl
      (fun w' hr' R' hh => Sib.nextFollows hr' R' hh)⟩
  · exact S.first n ha
  · simp only [Sib.peek, Sib.siblings, Sib.children, Sib.followingOrSelf]
    rw [S.parentLink ha]
    rcases alive_split S.toFShape ha with ⟨p, l1, l2, e⟩ | ⟨h1, h2⟩
    · have hm : n ∈ ch p := by simp [e]
      rw [S.parent_of_mem hm]
      obtain ⟨c, l, e1⟩ : ∃ c l, ch p = c :: l := by
        cases h : ch p with
        | nil => rw [h] at hm; cases hm
        | cons c l => exact ⟨c, l, rfl⟩
      have h3 : w.heap.firstChildLink p = (ch p).head? := S.first p (S.toFShape.alive_parent hm)
      exact ⟨c, by simp [h3, e1], .first hm e1⟩
    · rw [h2]; exact ⟨n, rfl, .out h1⟩
  · exact nextSib_spec S ha

/-- C61, `children_reverse`, `siblings_reverse`, `preceding_siblings_reverse` and
`preceding_siblings_or_self_reverse`. -/
theorem C61_siblings_reverse (hr : Reach w) (R : w.Roomy) (hk : 0 < w.held k n) (hF : FShape w.heap ch) :
    LoopFollows k n (Sib.childrenReverseP n) Sib.owns Sib.prevP id (fun x => x = (ch n).getLast?) PrevSib w ∧
    LoopFollows k n (Sib.siblingsReverseP n) Sib.owns Sib.prevP id (fun x => ∃ c, x = some c ∧ LastSib ch n c)
      PrevSib w ∧
    LoopFollows k n (Sib.precedingReverseP n) Sib.owns Sib.prevP id (PrevSib ch n) PrevSib w ∧
    LoopFollows k n (Sib.orSelfP n) Sib.owns Sib.prevP id (fun x => x = some n) PrevSib w := by
  obtain ⟨ch0, I⟩ := hr.inv
  obtain rfl := hF.unique I.wf.toFShape
  have S := I.wf.toShape
  have ha := I.held_alive hk
  have e1 : Sib.childrenReverse w.heap n = .ok (ch n).getLast? := S.lastChildLink ha
  have e2 : ∃ c, Sib.siblingsReverse w.heap n = .ok (some c) ∧ LastSib ch n c := by
    simp only [Sib.siblingsReverse, Sib.childrenReverse, Sib.precedingOrSelfReverse]
    rw [S.parentLink ha]
    rcases alive_split S.toFShape ha with ⟨p, l1, l2, e⟩ | ⟨h1, h2⟩
    · have hm : n ∈ ch p := by simp [e]
      rw [S.parent_of_mem hm]
      have h3 : w.heap.lastChildLink p = .ok (ch p).getLast? := S.lastChildLink (S.toFShape.alive_parent hm)
      rcases List.eq_nil_or_concat (ch p) with h | ⟨l, c, h⟩
      · rw [h] at hm; cases hm
      · exact ⟨c, by simp [h3, h], .last (l := l) hm (by simp [h])⟩
    · rw [h2]; exact ⟨n, rfl, .out h1⟩
  obtain ⟨c, e2, e2'⟩ := e2
  have e3 : ∃ o, Sib.precedingReverse w.heap n = .ok o ∧ PrevSib ch n o := by
    obtain ⟨o, h1, h2⟩ := prevSib_spec S ha
    exact ⟨o, by simp [Sib.precedingReverse, Sib.precedingOrSelfReverse, Sib.prev, h1, bind, Except.bind, pure,
      Except.pure], h2⟩
  obtain ⟨o, e3, e3'⟩ := e3
  exact ⟨loop_follows (peek := Sib.peek) hr R hk (Sib.childrenReverseP_uses n)
      ((Sib.childrenReverseP_eval _ n).trans e1) rfl (fun w' hr' R' hh => Sib.prevFollows hr' R' hh),
    loop_follows (peek := Sib.peek) hr R hk (Sib.siblingsReverseP_uses n)
      ((Sib.siblingsReverseP_eval _ n).trans e2) ⟨c, rfl, e2'⟩ (fun w' hr' R' hh => Sib.prevFollows hr' R' hh),
    loop_follows (peek := Sib.peek) hr R hk (Sib.precedingReverseP_uses n)
      ((Sib.precedingReverseP_eval _ n).trans e3) e3' (fun w' hr' R' hh => Sib.prevFollows hr' R' hh),
    loop_follows (peek := Sib.peek) hr R hk (Sib.orSelfP_uses n) (Sib.orSelfP_eval _ n) rfl
      (fun w' hr' R' hh => Sib.prevFollows hr' R' hh)⟩

/-- C61, `ancestors` and `ancestors_or_self`. -/
theorem C61_ancestors (hr : Reach w) (R : w.Roomy) (hk : 0 < w.held k n) (hF : FShape w.heap ch) :
    LoopFollows k n (Sib.ancestorsP n) Sib.owns Sib.upP id (ParentIs ch n) ParentIs w ∧
    LoopFollows k n (Sib.orSelfP n) Sib.owns Sib.upP id (fun x => x = some n) ParentIs w := by
  obtain ⟨ch0, I⟩ := hr.inv
  obtain rfl := hF.unique I.wf.toFShape
  have S := I.wf.toShape
  have ha := I.held_alive hk
  exact ⟨loop_follows (peek := Sib.peek) hr R hk (Sib.ancestorsP_uses n) (Sib.ancestorsP_eval _ n)
      (parent_spec S ha) (fun w' hr' R' hh => Sib.upFollows hr' R' hh),
    loop_follows (peek := Sib.peek) hr R hk (Sib.orSelfP_uses n) (Sib.orSelfP_eval _ n) rfl
      (fun w' hr' R' hh => Sib.upFollows hr' R' hh)⟩

/-! ### A concrete loop

`DemoWorld` before its move: node 0 has the children 1 and 2.  The user calls `children()` on node 0 and gets
node 1, inserts a new node 5 between 1 and 2, and goes on: the iterator had looked at node 2 already.  A node
6 inserted after 2 before the next call is not seen either: it was inserted after 2 was returned. -/

namespace DemoWorld

/-- The state after some code. -/
def after {β : Type} : Except Fault (World Nat × β) → World Nat
  | .ok (w, _) => w
  | .error _ => .init

/-- After `children()`. -/
def l0 : World Nat := after ((methodP .plain 0 (Sib.childrenP 0)).run (at_ 8))
/-- After the first `next()`. -/
def l1 : World Nat := after ((Sib.nextP (some 1)).run l0)
/-- After `create_as_next_sibling` of node 1. -/
def l2 : World Nat := after (l1.exec (.create (.token 0) 1 15 .nextSibling))
/-- After the second `next()`. -/
def l3 : World Nat := after ((Sib.nextP (some 2)).run l2)
/-- After `create_as_next_sibling` of node 2. -/
def l4 : World Nat := after (l3.exec (.create (.token 0) 2 16 .nextSibling))
/-- After the third `next()`. -/
def l5 : World Nat := after ((Sib.nextP none).run l4)

theorem at8_roomy : (at_ 8).Roomy := by
  intro t
  rcases Nat.lt_or_ge t 1 with h | h
  · obtain rfl : t = 0 := Nat.lt_one_iff.1 h
    decide +kernel
  · obtain ⟨s, rfl⟩ : ∃ s, t = s + 1 := ⟨t - 1, (Nat.sub_add_cancel h).symm⟩
    have : (at_ 8).grantTok (s + 1) + (at_ 8).prohTok (s + 1) + (at_ 8).heap.nNode = 5 := rfl
    rw [this]; decide

theorem l_room {v : World Nat} (h : v = l1 ∨ v = l3) : Room v.heap := by
  rcases h with rfl | rfl <;>
  · refine room_of 2 ?_ ?_
    · intro t ht
      obtain ⟨s, rfl⟩ : ∃ s, t = s + 2 := ⟨t - 2, (Nat.sub_add_cancel ht).symm⟩
      rfl
    · decide +kernel

theorem l_roomy {v : World Nat} (h : v = l2 ∨ v = l4) : v.Roomy := by
  intro t
  rcases h with rfl | rfl <;>
  · rcases Nat.lt_or_ge t 1 with h | h
    · obtain rfl : t = 0 := Nat.lt_one_iff.1 h
      decide +kernel
    · obtain ⟨s, rfl⟩ : ∃ s, t = s + 1 := ⟨t - 1, (Nat.sub_add_cancel h).symm⟩
      show (_ : Nat) < _
      first
        | exact (show (6 : Nat) < 2 ^ 62 by decide)
        | exact (show (7 : Nat) < 2 ^ 62 by decide)

theorem has_one {v : World Nat} {x : NodeId} (h : 0 < v.held .plain x) : v.Has (handles .plain [x]) := by
  intro k' m
  simp only [handles, List.map_cons, List.map_nil, List.count_cons, List.count_nil]
  by_cases e : (Kind.plain, x) = (k', m)
  · cases e; simp; exact h
  · simp [e]

theorem loop : Walk Sib.owns Sib.nextP l0 (some 1) [(l0, some 1), (l2, some 2), (l4, none)] l5 none := by
  refine .call (w' := l1) (s' := some 2) rfl (.other (op := .create (.token 0) 1 15 .nextSibling) (w' := l2)
    (r := .node (some 5)) ⟨⟨by decide +kernel, by decide +kernel⟩, fun _ _ => trivial, l_room (.inl rfl), rfl⟩
    (has_one (by decide +kernel)) (l_roomy (.inl rfl)) ?_)
  refine .call (w' := l3) (s' := none) rfl (.other (op := .create (.token 0) 2 16 .nextSibling) (w' := l4)
    (r := .node (some 6)) ⟨⟨by decide +kernel, by decide +kernel⟩, fun _ _ => trivial, l_room (.inr rfl), rfl⟩
    ?_ (l_roomy (.inr rfl)) ?_)
  · intro k m; exact Nat.zero_le _
  · exact .call (w' := l5) (s' := none) rfl (.nil _ _)

end DemoWorld

example : Reach (DemoWorld.at_ 8) ∧ (DemoWorld.at_ 8).Roomy ∧ 0 < (DemoWorld.at_ 8).held .plain 0 ∧
    (methodP .plain 0 (Sib.childrenP 0)).run (DemoWorld.at_ 8) = .ok (DemoWorld.l0, some 1) ∧
    Walk Sib.owns Sib.nextP DemoWorld.l0 (some 1)
      [(DemoWorld.l0, some 1), (DemoWorld.l2, some 2), (DemoWorld.l4, none)] DemoWorld.l5 none :=
  ⟨DemoWorld.reach8, DemoWorld.at8_roomy, by decide +kernel, rfl, DemoWorld.loop⟩

end Dendron
