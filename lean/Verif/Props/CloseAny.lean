import Verif.Proofs.CloseFail
import Verif.Props.Builders
import Verif.Props.Own

/-!
# C32: a failing `close`, in any state and among other calls
-/

set_option autoImplicit false

namespace Dendron
variable {α : Type} {w w' : World α} {b b' : Builder} {n : Nat} {x : BuildError} {a : Forest α} {l1 l2 : List Builder}

/-- C32, in any state whatsoever (damaged hierarchies included) and for any builder: a failing `close(n)` leaves
everything as a successful `close(k)` with some `k < n` would have.  If no node is open, or the open node is the
builder's root or has no parent, that is no change at all; and afterwards this is so in any case. -/
theorem C32_close_fails_always (h : Builder.close w b n = .ok (w', b', .error x)) :
    (x = .rootNotOpened ↔ b.cur = none ∧ b.root = none) ∧ b'.root = b.root ∧
    (∃ k, k < n ∧ Builder.close w b k = .ok (w', b', .ok ())) ∧
    (∀ c, b'.cur = some c → b.root = some c ∨ w'.heap.parentLink c = none) ∧
    (b.cur = none → w' = w ∧ b' = b) ∧
    (∀ c, b.cur = some c → b.root = some c ∨ w.heap.parentLink c = none → w' = w ∧ b' = b) := by
  have hn : n ≠ 0 := by
    rintro rfl
    simp [Builder.close] at h
  obtain ⟨m, rfl⟩ := Nat.exists_eq_succ_of_ne_zero hn
  unfold Builder.close at h
  rw [if_neg hn] at h
  obtain ⟨root, cur⟩ := b
  cases cur with
  | none =>
    simp only at h
    cases root with
    | none =>
      simp only [Option.isSome_none, Bool.false_eq_true, if_false, Except.ok.injEq, Prod.mk.injEq, Except.error.injEq] at h
      obtain ⟨rfl, rfl, rfl⟩ := h
      exact ⟨by simp, rfl, ⟨0, Nat.succ_pos _, rfl⟩, by simp, fun _ => ⟨rfl, rfl⟩, by simp⟩
    | some r =>
      simp only [Option.isSome_some, if_true, Except.ok.injEq, Prod.mk.injEq, Except.error.injEq] at h
      obtain ⟨rfl, rfl, rfl⟩ := h
      exact ⟨by simp, rfl, ⟨0, Nat.succ_pos _, rfl⟩, by simp, fun _ => ⟨rfl, rfl⟩, by simp⟩
  | some c =>
    cases root with
    | none => cases h
    | some r =>
      simp only [Nat.succ_eq_add_one, Nat.add_sub_cancel, bind, Except.bind, pure, Except.pure] at h
      split at h
      · cases h
      · rename_i e1
        split at h
        · rename_i w1 c1
          simp only [Except.ok.injEq, Prod.mk.injEq, Except.error.injEq] at h
          obtain ⟨rfl, rfl, rfl⟩ := h
          obtain ⟨k, hk, e2, e3⟩ := Builder.closeLoop_false e1
          refine ⟨by simp, rfl, ⟨k, Nat.lt_succ_of_lt hk, ?_⟩, ?_, by simp, ?_⟩
          · cases k with
            | zero =>
              simp only [Builder.closeLoop, Except.ok.injEq, Prod.mk.injEq, and_true] at e2
              obtain ⟨rfl, rfl⟩ := e2
              rfl
            | succ k =>
              obtain ⟨w1, c1, w2, u, a1, a2, a3⟩ := Builder.closeLoop_snoc e2
              unfold Builder.close
              rw [if_neg (Nat.succ_ne_zero k)]
              simp only [Nat.add_sub_cancel, bind, Except.bind, pure, Except.pure, a1, a2, a3]
          · intro c' hc
            simp only [Option.some.injEq] at hc
            subst hc
            rcases e3 with rfl | e3
            · exact .inl rfl
            · exact .inr e3
          · intro c' hc hs
            simp only [Option.some.injEq] at hc
            subst hc
            cases k with
            | zero =>
              simp only [Builder.closeLoop, Except.ok.injEq, Prod.mk.injEq, and_true] at e2
              obtain ⟨rfl, rfl⟩ := e2
              exact ⟨rfl, rfl⟩
            | succ k =>
              exfalso
              unfold Builder.closeLoop at e2
              split at e2
              · simp at e2
              · rename_i hne
                rcases hs with hs | hs
                · simp only [Option.some.injEq] at hs
                  exact hne hs.symm
                · simp [World.exec, Heap.navTo, hs, bind, Except.bind, pure, Except.pure] at e2
        · split at h
          · cases h
          · split at h
            · split at h
              · cases h
              · simp at h
            · cases h

theorem Forest.Climbs.desc {r c m : NodeId} {j : Nat} (h : a.Climbs r c j m) : Desc a.children m c := by
  induction h with
  | here => exact .refl _
  | up _ hm _ ih => exact ih.trans (.child hm)

/-- C32, in any program with builders, among any other calls: a failing `close` returns the right error and changes
at most the place of the builder's cursor (and with it one handle).  The cursor goes up to the builder's root, or to
the top of the tree it is in; it stays exactly if it is already there. -/
theorem C32_close_fails_wide (h : ReachB w (l1 ++ b :: l2)) (S : Shows w a) (R : w.Spare)
    (hp : Builder.close w b n = .ok (w', b', .error x)) :
    (x = .rootNotOpened ↔ b.root = none) ∧ b'.root = b.root ∧
    ((b.cur = none ∧ w' = w ∧ b' = b) ∨
      ∃ r c m, b.root = some r ∧ b.cur = some c ∧ b'.cur = some m ∧ Desc a.children m c ∧ (m = r ∨ a.IsTop m) ∧
        Shows w' (a.shift c m) ∧ (c = m ↔ c = r ∨ a.IsTop c) ∧ (c = m → w' = w ∧ b' = b)) := by
  obtain ⟨w1, b1, res, a', e1, -, S', hb⟩ := C68_push (e := .close n) h S R (fun _ _ _ he => by cases he)
  have e1 : Builder.close w b n = .ok (w1, b1, res) := e1
  rw [hp] at e1
  simp only [Except.ok.injEq, Prod.mk.injEq] at e1
  obtain ⟨rfl, rfl, rfl⟩ := e1
  have A := C32_close_fails_always hp
  generalize he : Event.close (β := α) n = e at hb
  generalize hx : (Except.error x : Except BuildError Unit) = q at hb
  cases hb with
  | first => cases he
  | child => cases he
  | closed => cases he
  | nothing => cases hx
  | up => cases hx
  | out => cases hx
  | over =>
    cases hx
    exact ⟨by simp, rfl, .inl ⟨rfl, A.2.2.2.2.1 rfl⟩⟩
  | early =>
    cases hx
    exact ⟨by simp, rfl, .inl ⟨rfl, A.2.2.2.2.1 rfl⟩⟩
  | @tooFar r c m j k hc hj hm =>
    cases hx
    refine ⟨by simp, rfl, .inr ⟨r, c, m, rfl, rfl, rfl, hc.desc, hm, S', ⟨?_, ?_⟩, ?_⟩⟩
    · rintro rfl; exact hm
    · intro ht
      cases hc with
      | here => rfl
      | @up _ p _ _ hne hmem _ =>
        rcases ht with ht | ht
        · exact absurd ht hne
        · exact absurd hmem (ht p)
    · rintro rfl
      refine A.2.2.2.2.2 _ rfl ?_
      rcases hm with rfl | ht
      · exact .inl rfl
      · refine .inr ?_
        have hal := (((C68_history h).2.2 _ (List.mem_append_right _ (List.mem_cons_self ..))).2.2 _ rfl)
        cases e : w.heap.parentLink c with
        | none => rfl
        | some p => exact absurd (S.children.mem_of_parentLink hal e) (ht p)

/-- A builder at work at node 4, below node 1, which another call has detached from the builder's root 0: closing
five nodes fails, and leaves the cursor at node 1, the top of the tree it is in. -/
example : ∃ a w', ReachB DemoBuilders.s8 ([DemoBuilders.cB] ++ DemoBuilders.bC :: []) ∧ Shows DemoBuilders.s8 a ∧
    DemoBuilders.s8.Spare ∧
    Builder.close DemoBuilders.s8 DemoBuilders.bC 5 = .ok (w', ⟨some 0, some 1⟩, .error .rootClosed) ∧
    DemoBuilders.bC = ⟨some 0, some 4⟩ := by
  obtain ⟨a, S⟩ := Shows.exists (C68_history DemoBuilders.reach8).1
  exact ⟨a, _, DemoBuilders.reach8, S, DemoBuilders.spare.2.2.2.2.2.2.2.2.1, rfl, rfl⟩

/-- In the damaged state after node 1 was moved below its own child 2, a builder that was started at another node
(0) and whose cursor is at node 2 goes round the circle until it has gone far enough, and only then stops: closing
three nodes succeeds. -/
example : Builder.close (DemoWorld.run (cycleOps.take 4 ++ [.nav .hot .firstChild 1]) .init) ⟨some 0, some 2⟩ 3 =
    .ok (DemoWorld.run (cycleOps.take 4 ++ [.nav .hot .firstChild 1, .nav .hot .parent 2, .drop .hot 2,
      .nav .hot .parent 1, .drop .hot 1, .nav .hot .parent 2, .drop .hot 2]) .init, ⟨some 0, some 1⟩, .ok ()) := rfl

end Dendron
