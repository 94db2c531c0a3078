import Verif.Proofs.BuildersAt
import Verif.Props.Builders
import Verif.Props.Steady

/-!
# C33 among other calls: a builder started at any node

In any state of the wider histories, with other calls between the events (`Fed`, `Verif.Spec.Builders`) that leave
the subtree of the builder's start node alone.  The subtree of the start node has the data `u0` at the start; `l0` is
any event sequence that builds it and leaves its root open.  The builder behaves as if it had been given `l0`.
-/

set_option autoImplicit false

namespace Dendron
open RTree
variable {α : Type} {w w1 w2 : World α} {ch : NodeId → List NodeId} {b1 b2 : Builder} {n : NodeId}
  {t0 : RTree NodeId} {u0 u : RTree α} {l0 l : List (Event α)} {e : Event α} {j k : Nat}

/-- C33: while the events stay inside the start node (up to its closing), the subtree of the start node is exactly what
the events describe, and the cursor is at a node of it until it is closed. -/
theorem C33_undisturbed_partial (hr : ReachW w) (F : FShape w.heap ch) (R : w.Spare) (hk : 0 < w.held .hot n)
    (ht : SubtreeAt ch n t0) (hd : HasData w.heap t0 u0) (h0 : Describes (Event.expand l0) 1 u0)
    (e : Builder.withRoot w n = .ok (w1, b1)) (h : Fed w1 b1 l w2 b2) (hl : Describes (Event.expand (l0 ++ l)) k u) :
    ReachW w2 ∧ b2.root = some n ∧ ∃ ch2 s, FShape w2.heap ch2 ∧ SubtreeAt ch2 n s ∧ HasData w2.heap s u ∧
      (0 < k → ∃ c, b2.cur = some c ∧ Desc ch2 n c) := by
  obtain ⟨a, S⟩ := Shows.exists hr
  obtain rfl := S.children.unique F
  obtain ⟨v1, a1, e1, hr1, S1, ho, -, ks, O⟩ := hr.start S R hk ht hd h0
  rw [e] at e1
  simp only [Except.ok.injEq, Prod.mk.injEq] at e1
  obtain ⟨rfl, rfl⟩ := e1
  rw [expand_append] at hl
  obtain ⟨hr2, -, a2, k2, S2, F2⟩ := h.at hr1 S1 ho (.opened O) ⟨k, u, hl⟩
  obtain ⟨u', s, g1, g2, g3, g4, g5⟩ := F2.describes S2
  obtain ⟨rfl, rfl⟩ := g1.unique hl
  exact ⟨hr2, g4, _, s, S2.children, g2, g3, g5⟩

/-- C33: and the next event is accepted if it continues the whole to a well-formed sequence. -/
theorem C33_undisturbed_next_partial (hr : ReachW w) (F : FShape w.heap ch) (R : w.Spare) (hk : 0 < w.held .hot n)
    (ht : SubtreeAt ch n t0) (hd : HasData w.heap t0 u0) (h0 : Describes (Event.expand l0) 1 u0)
    (e1 : Builder.withRoot w n = .ok (w1, b1)) (h : Fed w1 b1 l w2 b2) (R2 : w2.Spare)
    (hl : Describes (Event.expand (l0 ++ l ++ [e])) k u)
    (hc : ∀ c d, b2.cur = some c → e = .opn d → ∀ ch, FShape w2.heap ch → LastRight w2.heap ch c) :
    ∃ w3 b3, Builder.push w2 b2 e = .ok (w3, b3, .ok ()) ∧ ReachW w3 := by
  obtain ⟨a, S⟩ := Shows.exists hr
  obtain rfl := S.children.unique F
  obtain ⟨v1, a1, e2, hr1, S1, ho, -, ks, O⟩ := hr.start S R hk ht hd h0
  rw [e1] at e2
  simp only [Except.ok.injEq, Prod.mk.injEq] at e2
  obtain ⟨rfl, rfl⟩ := e2
  have hl1 : ∃ j u, Describes (Event.expand l0 ++ Event.expand l) j u := by
    rw [expand_append] at hl
    rcases hl.of_append with h2 | h2
    · rw [expand_append] at h2
      rw [(List.append_eq_nil_iff.1 h2).1] at h0
      exact absurd h0 Describes.not_nil
    · rw [expand_append] at h2; exact h2
  obtain ⟨hr2, ho2, a2, k2, S2, F2⟩ := h.at hr1 S1 ho (.opened O) hl1
  obtain ⟨w3, b3, res, a3, e3, hr3, S3, hb, -⟩ :=
    hr2.push_builds (e := e) S2 R2 ho2 (fun c d hc' he => hc c d hc' he _ S2.children)
  obtain ⟨rfl, -⟩ := F2.push hr2 S2 ho2 hb ⟨k, u, by rw [← expand_append, ← expand_append]; exact hl⟩
  exact ⟨w3, b3, e3, hr3⟩

/-- C33, when the start node is a root: whatever has been accepted describes, after `l0`, the tree of the start node,
and the builder has no cursor exactly if the root is closed. -/
theorem C33_root_undisturbed (hr : ReachW w) (F : FShape w.heap ch) (R : w.Spare) (hk : 0 < w.held .hot n)
    (htop : ∀ p, n ∉ ch p) (ht : SubtreeAt ch n t0) (hd : HasData w.heap t0 u0)
    (h0 : Describes (Event.expand l0) 1 u0) (e : Builder.withRoot w n = .ok (w1, b1)) (h : Fed w1 b1 l w2 b2) :
    ReachW w2 ∧ b2.root = some n ∧ ∃ k u s ch2, (b2.cur = none ↔ k = 0) ∧ Describes (Event.expand (l0 ++ l)) k u ∧
      FShape w2.heap ch2 ∧ (∀ p, n ∉ ch2 p) ∧ SubtreeAt ch2 n s ∧ HasData w2.heap s u := by
  obtain ⟨a, S⟩ := Shows.exists hr
  obtain rfl := S.children.unique F
  obtain ⟨v1, a1, e1, hr1, S1, ho, hch, ks, O⟩ := hr.start S R hk ht hd h0
  rw [e] at e1
  simp only [Except.ok.injEq, Prod.mk.injEq] at e1
  obtain ⟨rfl, rfl⟩ := e1
  have key : ∀ {w w1 : World α} {b b1 : Builder} {l : List (Event α)}, Fed w b l w1 b1 → b.root = some n → b1.root = some n := by
    intro w w1 b b1 l h
    induction h with
    | nil => exact id
    | other _ _ _ _ ih => exact ih
    | @push w w' w1 b b' b1 e l _ _ run _ ih =>
      intro hb
      refine ih ?_
      obtain ⟨r, c⟩ := b
      cases hb
      cases e with
      | opn d =>
        simp only [Builder.push, Builder.opn] at run
        split at run
        · simp [pure, Except.pure] at run
        · simp only [bind, Except.bind, pure, Except.pure] at run
          split at run
          · cases run
          · split at run
            · split at run
              · cases run
              · simp only [Except.ok.injEq, Prod.mk.injEq] at run
                rw [← run.2.1]
            · cases run
      | close m =>
        simp only [Builder.push, Builder.close] at run
        split at run
        · simp only [Except.ok.injEq, Prod.mk.injEq] at run
          rw [← run.2.1]
        · split at run
          · simp only [bind, Except.bind, pure, Except.pure] at run
            split at run
            · cases run
            · split at run
              · simp at run
              · split at run
                · cases run
                · split at run
                  · split at run
                    · cases run
                    · simp only [Except.ok.injEq, Prod.mk.injEq] at run
                      rw [← run.2.1]
                  · cases run
          · simp at run
  have hroot := key h rfl
  obtain ⟨hr2, -, a2, k2, S2, F2⟩ := h.state hr1 S1 ho (.opened O (by intro p; rw [hch]; exact htop p))
  rw [← expand_append] at F2
  refine ⟨hr2, hroot, ?_⟩
  cases F2 with
  | fresh _ => cases hroot
  | @opened r x ks fs O2 h2 =>
    cases hroot
    obtain ⟨u, g1, g2⟩ := O2.describes S2
    exact ⟨_, u, _, _, by simp, g1, S2.children, h2, O2.zip.sub, g2⟩
  | @closed r s C h2 =>
    cases hroot
    obtain ⟨u, g1, g2⟩ := C.describes S2
    exact ⟨_, u, _, _, by simp, g1, S2.children, h2, C.sub, g2⟩

/-- C33, when the start node is a root: the next event is accepted exactly if the whole sequence is well-formed. -/
theorem C33_root_undisturbed_next (hr : ReachW w) (F : FShape w.heap ch) (R : w.Spare) (hk : 0 < w.held .hot n)
    (htop : ∀ p, n ∉ ch p) (ht : SubtreeAt ch n t0) (hd : HasData w.heap t0 u0)
    (h0 : Describes (Event.expand l0) 1 u0) (e1 : Builder.withRoot w n = .ok (w1, b1)) (h : Fed w1 b1 l w2 b2)
    (R2 : w2.Spare) (hc : ∀ c d, b2.cur = some c → e = .opn d → ∀ ch, FShape w2.heap ch → LastRight w2.heap ch c) :
    ∃ w3 b3 res, Builder.push w2 b2 e = .ok (w3, b3, res) ∧ ReachW w3 ∧ (res = .ok () ↔ Event.Good (l0 ++ l ++ [e])) := by
  obtain ⟨a, S⟩ := Shows.exists hr
  obtain rfl := S.children.unique F
  obtain ⟨v1, a1, e2, hr1, S1, ho, hch, ks, O⟩ := hr.start S R hk ht hd h0
  rw [e1] at e2
  simp only [Except.ok.injEq, Prod.mk.injEq] at e2
  obtain ⟨rfl, rfl⟩ := e2
  obtain ⟨hr2, ho2, a2, k2, S2, F2⟩ := h.state hr1 S1 ho (.opened O (by intro p; rw [hch]; exact htop p))
  rw [← expand_append] at F2
  obtain ⟨w3, b3, res, a3, e3, hr3, S3, hb, -⟩ :=
    hr2.push_builds (e := e) S2 R2 ho2 (fun c d hc' he => hc c d hc' he _ S2.children)
  refine ⟨w3, b3, res, e3, hr3, ?_⟩
  rcases F2.push hr2 S2 ho2 hb with ⟨rfl, k', F'⟩ | ⟨⟨err, rfl⟩, h1, h2⟩
  · simp only [true_iff]
    rw [← expand_append] at F'
    cases F' with
    | fresh h => exact .inl h
    | opened O _ => obtain ⟨u, h1, -⟩ := O.describes S3; exact .inr ⟨_, u, h1⟩
    | closed C _ => obtain ⟨u, h1, -⟩ := C.describes S3; exact .inr ⟨_, u, h1⟩
  · rw [← expand_append] at h1 h2
    simp only [reduceCtorEq, false_iff]
    rintro (h | h)
    · exact h1 h
    · exact h2 h

/-! ### Concrete cases

```
// the state of `DemoWorld` after 8 calls: node 1 (11), a child of node 0, has the child 3 (13)
let mut b = TreeBuilder::with_root(hot1);    // z1
b.open(14)?;                                 // z2: node 5
let other = HotNode::new_tree(30);           // z3: node 6
b.close(1)?;                                 // z4
```
-/

namespace DemoBuilders

/-- A program without builders. -/
theorem none {w : World Nat} (hr : ReachW w) : ReachB w [] := by
  induction hr with
  | init => exact .init
  | step _ s ih => exact .call ih s (fun k n => by cases k <;> exact Nat.zero_le _)

def z1 : World Nat := match Builder.withRoot (DemoWorld.at_ 8) 1 with | .ok (w, _) => w | .error _ => .init
def bI : Builder := ⟨some 1, some 1⟩
def bJ : Builder := ⟨some 1, some 5⟩
def z2 : World Nat := got (Builder.push z1 bI (.opn 14))
def z3 : World Nat := DemoWorld.run [.newTree true 30] z2
def z4 : World Nat := got (Builder.push z3 bJ (.close 1))

theorem zrun1 : Builder.withRoot (DemoWorld.at_ 8) 1 = .ok (z1, bI) := rfl
theorem zrun2 : Builder.push z1 bI (.opn 14) = .ok (z2, bJ, .ok ()) := rfl
theorem zrun3 : z2.exec (.newTree true 30) = .ok (z3, .node (some 6)) := rfl
theorem zrun4 : Builder.push z3 bJ (.close 1) = .ok (z4, bI, .ok ()) := rfl

theorem spare_of {w : World Nat} (h1 : ∀ t, t < 3 → w.grantTok t + w.prohTok t + w.heap.nNode + 1 < 2 ^ 62)
    (h2 : ∀ t, w.grantTok (t + 3) = 0) (h3 : ∀ t, w.prohTok (t + 3) = 0) (h4 : w.heap.nNode + 1 < 2 ^ 62) : w.Spare := by
  intro t
  rcases Nat.lt_or_ge t 3 with h | h
  · exact h1 t h
  · obtain ⟨s, rfl⟩ : ∃ s, t = s + 3 := ⟨t - 3, (Nat.sub_add_cancel h).symm⟩
    rw [h2, h3]; omega

theorem zspare : (DemoWorld.at_ 8).Spare ∧ z1.Spare ∧ z2.Spare ∧ z3.Spare ∧ z4.Spare := by
  refine ⟨?_, ?_, ?_, ?_, ?_⟩ <;>
    exact spare_of (by decide +kernel) (fun _ => rfl) (fun _ => rfl) (by decide +kernel)

theorem zreach0 : ReachB (DemoWorld.at_ 8) [] := none DemoWorld.reach8.toW

theorem zreach1 : ReachB z1 [bI] := .withRoot zreach0 zspare.1 (by decide +kernel) zrun1

/-- The last child of node 1 is node 3. -/
theorem zlast {ch : NodeId → List NodeId} (F : FShape z1.heap ch) : LastRight z1.heap ch 1 := by
  have s : (DemoWorld.at_ 8).Step (.plainOf .hot 1) z1 .unit :=
    ⟨⟨by decide, show 0 < _ by decide +kernel⟩, fun _ _ => trivial, DemoWorld.room 8 (by decide), rfl⟩
  exact C54_tree_right (t := 0) (.step DemoWorld.reach8 s) F 1 rfl rfl

theorem zreach2 : ReachB z2 [bJ] :=
  .push (l1 := []) (l2 := []) zreach1 zspare.2.1 (fun c d hc _ ch F => by cases hc; exact zlast F) zrun2

theorem zstep3 : z2.StepW (.newTree true 30) z3 (.node (some 6)) :=
  ⟨trivial, fun ch F => ⟨trivial, fun p hp => hp.elim⟩, room zreach2 zspare.2.2.1, zrun3⟩

theorem zshare : ∀ k n, Builder.share [bJ] k n ≤ z3.held k n := by
  intro k n
  cases k with
  | frozen => exact Nat.zero_le _
  | plain =>
    simp only [Builder.share, bJ, List.countP_cons, List.countP_nil, beq_iff_eq, Option.some.injEq]
    split
    · rename_i h; subst h; decide +kernel
    · exact Nat.zero_le _
  | hot =>
    simp only [Builder.share, bJ, List.countP_cons, List.countP_nil, beq_iff_eq, Option.some.injEq]
    split
    · rename_i h; subst h; decide +kernel
    · exact Nat.zero_le _

theorem zfed : Fed z1 bI [.opn 14, .close 1] z4 bI :=
  .push zspare.2.1 (fun c d hc _ ch F => by cases hc; exact zlast F) zrun2
    (.other zstep3 zshare (newTree_alone (C68_history zreach2).1 (fun r e => by cases e; rfl) zstep3)
      (.push zspare.2.2.2.1 (fun _ _ _ h => by cases h) zrun4 (.nil _ _)))

end DemoBuilders

/-- `C33_undisturbed_partial` at node 1, which has a parent and a child: afterwards it has two children. -/
example : ∃ ch s, FShape DemoBuilders.z4.heap ch ∧ SubtreeAt ch 1 s ∧
    HasData DemoBuilders.z4.heap s (.node 11 [.node 13 [], .node 14 []]) ∧ ∃ p, (1 : NodeId) ∈ ch p := by
  obtain ⟨ch, I⟩ := DemoWorld.reach8.inv
  obtain ⟨h1, h3, -⟩ := DemoWorld.children8 I.wf.toFShape
  obtain ⟨-, -, ch2, s, g1, g2, g3, -⟩ := C33_undisturbed_partial (l0 := [.opn 11, .opn 13, .close 1])
    (u0 := .node 11 [.node 13 []]) (t0 := .node 1 [.node 3 []])
    (u := .node 11 [.node 13 [], .node 14 []]) (k := 1)
    DemoWorld.reach8.toW I.wf.toFShape DemoBuilders.zspare.1 (by decide +kernel)
    (by simp [SubtreeAt, label, Hier, HierL, h1, h3]) rfl rfl DemoBuilders.zrun1 DemoBuilders.zfed rfl
  exact ⟨ch2, s, g1, g2, g3, 0, g1.mem_of_parentLink rfl rfl⟩

/-- The hypotheses of the theorems about roots: node 4. -/
example : ∃ ch, FShape (DemoWorld.at_ 8).heap ch ∧ ReachW (DemoWorld.at_ 8) ∧ (DemoWorld.at_ 8).Spare ∧
    0 < (DemoWorld.at_ 8).held .hot 4 ∧ (∀ p, (4 : NodeId) ∉ ch p) ∧ SubtreeAt ch 4 (.node 4 []) ∧
    HasData (DemoWorld.at_ 8).heap (.node 4 []) (.node 20 []) ∧
    Describes (Event.expand [.opn 20]) 1 (.node 20 []) ∧
    ∃ w1 b1, Builder.withRoot (DemoWorld.at_ 8) 4 = .ok (w1, b1) ∧ Fed w1 b1 ([] : List (Event Nat)) w1 b1 := by
  obtain ⟨ch, I⟩ := DemoWorld.reach8.inv
  obtain ⟨-, -, h4⟩ := DemoWorld.children8 I.wf.toFShape
  refine ⟨ch, I.wf.toFShape, DemoWorld.reach8.toW, DemoBuilders.zspare.1, by decide +kernel, ?_,
    by simp [SubtreeAt, label, Hier, HierL, h4], rfl, rfl, _, _, rfl, .nil _ _⟩
  intro p hp
  have := I.wf.toFShape.parent_of_mem hp
  have h : (DemoWorld.at_ 8).heap.parent 4 = Option.none := rfl
  rw [h] at this; cases this

end Dendron
