import Verif.Proofs.BuildersFed
import Verif.Props.Build
import Verif.Props.Machine

/-!
# C68: tree builders living among other calls of the program

C30-C33 are about a builder that is fed without interruption.  Here a program has any number of builders
(`ReachB w bs`), feeds them in any order, and makes other calls in between: also calls that edit the trees the
builders are working on.  `a.Builds b e res a' b'` (`Verif.Spec.Builders`) says in terms of the machine of
ordered trees of C62 what pushing the event `e` into the builder `b` does.

A new child is appended only where `last_child` is right (C13-C15 show the calls that make it wrong).
-/

set_option autoImplicit false

namespace Dendron
open RTree
variable {α : Type} {w w' w1 : World α} {a a1 a2 : Forest α} {bs l1 l2 : List Builder} {b b1 b2 : Builder}
  {e : Event α} {r1 r2 : Except BuildError Unit} {n : NodeId} {l : List (Event α)}

/-- C68: whatever the rest of the program does, the handles of a builder stay good: its root and its cursor are
living nodes; and a program with builders is in a state which a program without builders could be in as well, so
that everything proved about these applies. -/
theorem C68_history (h : ReachB w bs) :
    ReachW w ∧ (∀ k n, Builder.share bs k n ≤ w.held k n) ∧
    ∀ b ∈ bs, (b.root = none → b.cur = none) ∧ (∀ r, b.root = some r → w.heap.alive r = true) ∧
      (∀ c, b.cur = some c → w.heap.alive c = true) := by
  have I := h.inv
  refine ⟨I.reach, I.share, fun b hb => ?_⟩
  obtain ⟨l1, l2, rfl⟩ := List.append_of_mem hb
  have ho := I.owned
  obtain ⟨v, ch, W⟩ := I.reach.wide
  exact ⟨ho.both, fun r hr => W.held_alive (ho.root r hr), fun c hc => W.held_alive (ho.cur c hc)⟩

/-- C68: pushing an event into any of the builders, at any time, never panics, and does and returns what `Builds`
says. -/
theorem C68_push (h : ReachB w (l1 ++ b :: l2)) (S : Shows w a) (R : w.Spare)
    (hl : ∀ c d, b.cur = some c → e = .opn d → LastRight w.heap a.children c) :
    ∃ w' b' res a', Builder.push w b e = .ok (w', b', res) ∧ ReachB w' (l1 ++ b' :: l2) ∧ Shows w' a' ∧
      a.Builds b e res a' b' := by
  have I := h.inv
  obtain ⟨w', b', res, a', e1, -, S', hb, -⟩ := I.reach.push_builds (e := e) S R I.owned hl
  refine ⟨w', b', res, a', e1, .push h R (fun c d hc he ch F => ?_) e1, S', hb⟩
  obtain rfl := S.children.unique F
  exact hl c d hc he

/-- C68: `Builds` says exactly what happens. -/
theorem C68_deterministic (S : Shows w a) (h1 : a.Builds b e r1 a1 b1) (h2 : a.Builds b e r2 a2 b2) :
    r1 = r2 ∧ a1 = a2 ∧ b1 = b2 := h1.det S.children h2

/-- C68: `with_root` turns a `HotNode` of the program into a builder working at that node. -/
theorem C68_with_root (h : ReachB w bs) (S : Shows w a) (R : w.Spare) (hn : Builder.share bs .hot n < w.held .hot n) :
    ∃ w', Builder.withRoot w n = .ok (w', ⟨some n, some n⟩) ∧ ReachB w' (⟨some n, some n⟩ :: bs) ∧
      Shows w' (a.give .plain n) := by
  obtain ⟨w', e1, -, S'⟩ := h.inv.reach.with_root S R (Nat.lt_of_le_of_lt (Nat.zero_le _) hn)
  exact ⟨w', e1, .withRoot h R hn e1, S'⟩

/-- C68: `finish` returns the root, whose handle belongs to the program from then on, and drops the cursor. -/
theorem C68_finish (h : ReachB w (l1 ++ b :: l2)) (S : Shows w a) (R : w.Spare) :
    ∃ w' res, Builder.finish w b = .ok (w', res) ∧ ReachB w' (l1 ++ l2) ∧ Shows w' (a.dropHot b.cur) ∧
      (∀ r, b.root = some r → res = .ok r ∧ Builder.share (l1 ++ l2) .plain r < w'.held .plain r) ∧
      (b.root = none → res = .error .rootNotOpened) := by
  have I := h.inv
  obtain ⟨w', e1, hr, S'⟩ := I.reach.finish_builds S R I.owned
  refine ⟨w', _, e1, .finish h R e1, S', fun r hr => ⟨by rw [hr], ?_⟩, fun hr => by rw [hr]⟩
  have h1 := I.share .plain r
  rw [Builder.share_split] at h1
  have h2 := Forest.dropHot_held (a := a) (o := b.cur) .plain r (fun c hc => by rw [S.held]; exact I.owned.cur c hc)
  rw [S.held, S'.held] at h2
  have h3 : Builder.share [b] .plain r = 1 := by simp [Builder.share, hr]
  have h4 : Builder.share [⟨none, b.cur⟩] .plain r = 0 := by simp [Builder.share]
  omega

/-- C68: dropping a builder drops its two handles. -/
theorem C68_drop (h : ReachB w (l1 ++ b :: l2)) (S : Shows w a) (R : w.Spare) :
    ∃ w', Builder.dropAll w b = .ok w' ∧ ReachB w' (l1 ++ l2) ∧ Shows w' ((a.dropPlain b.root).dropHot b.cur) := by
  have I := h.inv
  obtain ⟨w', e1, -, S'⟩ := I.reach.drop_builds S R I.owned
  exact ⟨w', e1, .drop h R e1, S'⟩

/-- C68: as long as the other calls leave the subtree of the builder alone, what they do does not matter: the
events pushed so far are a prefix of the event sequence of exactly the tree that the builder has made, and the
builder has no cursor exactly if the root is closed. -/
theorem C68_undisturbed (hr : ReachW w) (h : Fed w .new l w1 b) :
    (Event.expand l = [] ∧ b = .new) ∨
    ∃ r k u s ch, b.root = some r ∧ (b.cur = none ↔ k = 0) ∧ Describes (Event.expand l) k u ∧
      FShape w1.heap ch ∧ (∀ p, r ∉ ch p) ∧ SubtreeAt ch r s ∧ HasData w1.heap s u := by
  obtain ⟨a, S⟩ := Shows.exists hr
  obtain ⟨-, -, a1, k1, S1, F⟩ := h.state hr S ⟨by simp [Builder.new], by simp [Builder.new], fun _ => rfl⟩ (.fresh rfl)
  rw [List.nil_append] at F
  cases F with
  | fresh h0 => exact .inl ⟨h0, rfl⟩
  | @opened r x ks fs O ht =>
    obtain ⟨u, h1, h2⟩ := O.describes S1
    exact .inr ⟨r, _, u, _, _, rfl, by simp, h1, S1.children, ht, O.zip.sub, h2⟩
  | @closed r s C ht =>
    obtain ⟨u, h1, h2⟩ := C.describes S1
    exact .inr ⟨r, _, u, _, _, rfl, by simp, h1, S1.children, ht, C.sub, h2⟩

/-- C68: and the next event is accepted exactly if the whole sequence is well-formed. -/
theorem C68_undisturbed_next (hr : ReachW w) (h : Fed w .new l w1 b) (R : w1.Spare)
    (hl : ∀ c d, b.cur = some c → e = .opn d → ∀ ch, FShape w1.heap ch → LastRight w1.heap ch c) :
    ∃ w' b' res, Builder.push w1 b e = .ok (w', b', res) ∧ ReachW w' ∧ (res = .ok () ↔ Event.Good (l ++ [e])) := by
  obtain ⟨a, S⟩ := Shows.exists hr
  obtain ⟨hr1, ho, a1, k1, S1, F⟩ := h.state hr S ⟨by simp [Builder.new], by simp [Builder.new], fun _ => rfl⟩ (.fresh rfl)
  rw [List.nil_append] at F
  obtain ⟨w', b', res, a', e1, hr', S', hb, -⟩ :=
    hr1.push_builds (e := e) S1 R ho (fun c d hc he => hl c d hc he _ S1.children)
  refine ⟨w', b', res, e1, hr', ?_⟩
  rcases F.push hr1 S1 ho hb with ⟨rfl, k', F'⟩ | ⟨⟨err, rfl⟩, h1, h2⟩
  · simp only [true_iff]
    rw [← expand_append] at F'
    cases F' with
    | fresh h => exact .inl h
    | opened O _ => obtain ⟨u, h1, -⟩ := O.describes S'; exact .inr ⟨_, u, h1⟩
    | closed C _ => obtain ⟨u, h1, -⟩ := C.describes S'; exact .inr ⟨_, u, h1⟩
  · rw [← expand_append] at h1 h2
    simp only [reduceCtorEq, false_iff]
    rintro (h | h)
    · exact h1 h
    · exact h2 h

/-! ### Concrete cases

```
let mut b = TreeBuilder::new();
b.open(10)?; b.open(11)?;                    // s1, s2
let other = HotNode::new_tree(20);           // s3: node 2, in the middle of the work of the builder
let mut c = TreeBuilder::with_root(other);   // s4
c.open(21)?;                                 // s5: node 3
b.open(12)?;                                 // s6: node 4
let n1 = (node 4).parent();                  // s7: a `HotNode` for node 1
n1.detach_subtree();                         // s8: the cursor of `b` is in another tree now
b.close(2)?;                                 // s9: accepted; `b` has no cursor any more
c.close(1)?; c.finish();                     // s10, s11
drop(b);                                     // s12
```
-/

namespace DemoBuilders

def got : Except Fault (World Nat × Builder × Except BuildError Unit) → World Nat
  | .ok (w, _, _) => w
  | .error _ => .init

def bA : Builder := ⟨some 0, some 0⟩
def bB : Builder := ⟨some 0, some 1⟩
def bC : Builder := ⟨some 0, some 4⟩
def bD : Builder := ⟨some 0, none⟩
def cA : Builder := ⟨some 2, some 2⟩
def cB : Builder := ⟨some 2, some 3⟩

def s1 : World Nat := got (Builder.push .init .new (.opn 10))
def s2 : World Nat := got (Builder.push s1 bA (.opn 11))
def s3 : World Nat := DemoWorld.run [.newTree true 20] s2
def s4 : World Nat := match Builder.withRoot s3 2 with | .ok (w, _) => w | .error _ => .init
def s5 : World Nat := got (Builder.push s4 cA (.opn 21))
def s6 : World Nat := got (Builder.push s5 bB (.opn 12))
def s7 : World Nat := DemoWorld.run [.nav .hot .parent 4] s6
def s8 : World Nat := DemoWorld.run [.detach .hot 1] s7
def s9 : World Nat := got (Builder.push s8 bC (.close 2))
def s10 : World Nat := got (Builder.push s9 cB (.close 1))
def s11 : World Nat := match Builder.finish s10 cA with | .ok (w, _) => w | .error _ => .init
def s12 : World Nat := match Builder.dropAll s11 bD with | .ok w => w | .error _ => .init

theorem run1 : Builder.push .init .new (.opn 10) = .ok (s1, bA, .ok ()) := rfl
theorem run2 : Builder.push s1 bA (.opn 11) = .ok (s2, bB, .ok ()) := rfl
theorem run3 : s2.exec (.newTree true 20) = .ok (s3, .node (some 2)) := rfl
theorem run4 : Builder.withRoot s3 2 = .ok (s4, cA) := rfl
theorem run5 : Builder.push s4 cA (.opn 21) = .ok (s5, cB, .ok ()) := rfl
theorem run6 : Builder.push s5 bB (.opn 12) = .ok (s6, bC, .ok ()) := rfl
theorem run7 : s6.exec (.nav .hot .parent 4) = .ok (s7, .node (some 1)) := rfl
theorem run8 : s7.exec (.detach .hot 1) = .ok (s8, .unit) := rfl
theorem run9 : Builder.push s8 bC (.close 2) = .ok (s9, bD, .ok ()) := rfl
theorem run10 : Builder.push s9 cB (.close 1) = .ok (s10, cA, .ok ()) := rfl
theorem run11 : Builder.finish s10 cA = .ok (s11, .ok 2) := rfl
theorem run12 : Builder.dropAll s11 bD = .ok s12 := rfl

theorem spare : World.init.Spare (α := Nat) ∧ s1.Spare ∧ s2.Spare ∧ s3.Spare ∧ s4.Spare ∧ s5.Spare ∧ s6.Spare ∧
    s7.Spare ∧ s8.Spare ∧ s9.Spare ∧ s10.Spare ∧ s11.Spare := by
  refine ⟨?_, ?_, ?_, ?_, ?_, ?_, ?_, ?_, ?_, ?_, ?_, ?_⟩ <;> intro t
  · show 0 + 0 + 0 + 1 < _; decide
  · show 0 + 0 + 1 + 1 < _; decide
  · show 0 + 0 + 2 + 1 < _; decide
  · show 0 + 0 + 3 + 1 < _; decide
  · show 0 + 0 + 3 + 1 < _; decide
  · show 0 + 0 + 4 + 1 < _; decide
  · show 0 + 0 + 5 + 1 < _; decide
  · show 0 + 0 + 5 + 1 < _; decide
  · show 0 + 0 + 5 + 1 < _; decide
  · show 0 + 0 + 5 + 1 < _; decide
  · show 0 + 0 + 5 + 1 < _; decide
  · show 0 + 0 + 5 + 1 < _; decide

theorem leaf {w : World Nat} {ch : NodeId → List NodeId} {c : NodeId} (F : FShape w.heap ch)
    (ha : w.heap.alive c = true) (hf : w.heap.firstChild c = none) (hl : w.heap.navTo c .lastChild = .ok none) :
    LastRight w.heap ch c := by
  have h1 := F.first c ha
  rw [hf] at h1
  have : ch c = [] := by simpa using h1.symm
  rw [LastRight, this, hl]; rfl

theorem few {w : World Nat} {bs : List Builder} (h1 : ∀ n, n < 5 → Builder.share bs .plain n ≤ w.held .plain n ∧
      Builder.share bs .hot n ≤ w.held .hot n)
    (h2 : ∀ b ∈ bs, (∀ n, b.root = some n → n < 5) ∧ ∀ n, b.cur = some n → n < 5) :
    ∀ k n, Builder.share bs k n ≤ w.held k n := by
  intro k n
  by_cases hn : n < 5
  · cases k
    · exact (h1 n hn).1
    · exact (h1 n hn).2
    · exact Nat.zero_le _
  · have : Builder.share bs k n = 0 := by
      cases k
      · simp only [Builder.share, List.countP_eq_zero, beq_iff_eq]
        intro b hb e; exact hn ((h2 b hb).1 n e)
      · simp only [Builder.share, List.countP_eq_zero, beq_iff_eq]
        intro b hb e; exact hn ((h2 b hb).2 n e)
      · rfl
    omega

theorem room {w : World Nat} {bs : List Builder} (h : ReachB w bs) (R : w.Spare) : Room w.heap := by
  obtain ⟨v, ch, W⟩ := h.inv.reach.wide
  exact W.room_of_roomy fun t => by have := R t; omega

theorem reach1 : ReachB s1 [bA] :=
  .push (l1 := []) (l2 := []) (.new .init) spare.1 (fun c d hc => by cases hc) run1

theorem reach2 : ReachB s2 [bB] :=
  .push (l1 := []) (l2 := []) reach1 spare.2.1 (fun c d hc _ ch F => by cases hc; exact leaf F rfl rfl rfl) run2

theorem reach3 : ReachB s3 [bB] :=
  .call (op := .newTree true 20) reach2 ⟨trivial, fun ch F => ⟨trivial, fun p hp => hp.elim⟩, room reach2 spare.2.2.1, run3⟩
    (few (by decide) (by simp [bB]))

theorem reach4 : ReachB s4 [cA, bB] := .withRoot reach3 spare.2.2.2.1 (by decide) run4

theorem reach5 : ReachB s5 [cB, bB] :=
  .push (l1 := []) (l2 := [bB]) reach4 spare.2.2.2.2.1 (fun c d hc _ ch F => by cases hc; exact leaf F rfl rfl rfl) run5

theorem last5 {ch : NodeId → List NodeId} (F : FShape s5.heap ch) : LastRight s5.heap ch 1 := leaf F rfl rfl rfl

theorem reach6 : ReachB s6 [cB, bC] :=
  .push (l1 := [cB]) (l2 := []) reach5 spare.2.2.2.2.2.1 (fun c d hc _ ch F => by cases hc; exact last5 F) run6

theorem reach7 : ReachB s7 [cB, bC] :=
  .call (op := .nav .hot .parent 4) reach6 ⟨show 0 < _ by decide, fun ch F => ⟨trivial, fun p hp => hp.elim⟩,
    room reach6 spare.2.2.2.2.2.2.1, run7⟩ (few (by decide +kernel) (by simp [bC, cB]))

theorem last7 {ch : NodeId → List NodeId} (F : FShape s7.heap ch) : ch 0 = [1] ∧ LastRight s7.heap ch 0 := by
  have key : ∀ c, c < 5 → s7.heap.parent c = some 0 → c = 1 := by decide +kernel
  have h1 : ∀ c ∈ ch 0, c = 1 := fun c hc => by
    obtain ⟨g1, g2⟩ := (F.mem 0 c).1 hc
    exact key c (F.bound c g1) g2
  have h0 : ch 0 = [1] := by
    have hd := F.nodup 0
    have hf := F.first 0 rfl
    cases e : ch 0 with
    | nil => rw [e] at hf; cases hf
    | cons x xs =>
      rw [e] at h1 hd
      obtain rfl : x = 1 := h1 x (by simp)
      cases xs with
      | nil => rfl
      | cons y ys =>
        obtain rfl : y = 1 := h1 y (by simp)
        simp at hd
  refine ⟨h0, ?_⟩
  rw [LastRight, h0]; rfl

theorem step8 : s7.StepW (.detach .hot 1) s8 .unit :=
  ⟨show 0 < _ by decide +kernel, fun ch F => ⟨trivial, fun p hp => by
    replace hp : (ch p).head? = some 1 := hp
    obtain ⟨h0, h1⟩ := last7 F
    have hm : (1 : NodeId) ∈ ch p := List.mem_of_head? hp
    obtain rfl : p = 0 := F.unique_parent hm (by rw [h0]; simp)
    exact h1⟩, room reach7 spare.2.2.2.2.2.2.2.1, run8⟩

theorem reach8 : ReachB s8 [cB, bC] := .call reach7 step8 (few (by decide +kernel) (by simp [bC, cB]))

theorem reach9 : ReachB s9 [cB, bD] :=
  .push (l1 := [cB]) (l2 := []) reach8 spare.2.2.2.2.2.2.2.2.1 (fun _ _ _ h => by cases h) run9

theorem reach10 : ReachB s10 [cA, bD] :=
  .push (l1 := []) (l2 := [bD]) reach9 spare.2.2.2.2.2.2.2.2.2.1 (fun _ _ _ h => by cases h) run10

theorem reach11 : ReachB s11 [bD] := .finish (l1 := []) (l2 := [bD]) reach10 spare.2.2.2.2.2.2.2.2.2.2.1 run11

theorem reach12 : ReachB s12 [] := .drop (l1 := []) (l2 := []) reach11 spare.2.2.2.2.2.2.2.2.2.2.2 run12

/-- Making another tree leaves every builder alone. -/
theorem newTree_alone {w w' : World Nat} {r : Res} {d : Nat} {hot : Bool} {b : Builder} (hr : ReachW w)
    (hb : ∀ r, b.root = some r → w.heap.alive r = true) (s : w.StepW (.newTree hot d) w' r) : b.LeftAlone w w' := by
  intro r ch ch' e F F'
  obtain ⟨a, S⟩ := Shows.exists hr
  obtain ⟨a', S', st⟩ := C62_refines hr S s
  obtain rfl := S.children.unique F
  obtain rfl := S'.children.unique F'
  cases st
  refine ⟨fun x hx => ⟨rfl, ?_⟩, fun h => h⟩
  have hx : w.heap.alive x = true := by
    induction hx with
    | refl => exact hb r e
    | step _ hm _ => exact S.children.alive_of_mem hm
  have hne : x ≠ a.newNode := by
    rintro rfl
    have := S.children.bound _ hx
    rw [S.newNode] at this
    exact absurd this (Nat.lt_irrefl _)
  have h1 := congrFun S'.data x
  have h2 := congrFun S.data x
  rw [← h1, ← h2]
  show upd a.data a.newNode (some d) x = a.data x
  rw [upd_ne _ _ hne]

/-- The builder of two nodes is closed after another tree has been made. -/
def s3' : World Nat := got (Builder.push s3 bB (.close 2))

theorem run3' : Builder.push s3 bB (.close 2) = .ok (s3', bD, .ok ()) := rfl

theorem step3 : s2.StepW (.newTree true 20) s3 (.node (some 2)) :=
  ⟨trivial, fun ch F => ⟨trivial, fun p hp => hp.elim⟩, room reach2 spare.2.2.1, run3⟩

theorem fed : Fed .init .new [.opn 10, .opn 11, .close 2] s3' bD :=
  .push spare.1 (fun c d hc => by cases hc) run1
    (.push spare.2.1 (fun c d hc _ ch F => by cases hc; exact leaf F rfl rfl rfl) run2
      (.other (b := bB) step3 (few (by decide) (by simp [bB]))
        (newTree_alone (C68_history reach2).1 (fun r e => by cases e; rfl) step3)
        (.push spare.2.2.2.1 (fun _ _ _ h => by cases h) run3' (.nil _ _))))

end DemoBuilders

/-- `C68_push` at a builder whose cursor was moved to another tree by the program (`s8`): closing two nodes is
accepted, although the root of the builder was never closed. -/
example : ∃ w' b' res a', ReachB DemoBuilders.s8 ([DemoBuilders.cB] ++ DemoBuilders.bC :: []) ∧
    Builder.push DemoBuilders.s8 DemoBuilders.bC (.close 2) = .ok (w', b', res) ∧
    b'.isRootClosed = true ∧ res = .ok () ∧ ReachB w' ([DemoBuilders.cB] ++ b' :: []) ∧ Shows w' a' := by
  obtain ⟨a, S⟩ := Shows.exists (C68_history DemoBuilders.reach8).1
  obtain ⟨w', b', res, a', e1, h1, S1, -⟩ := C68_push (e := .close 2) (l1 := [DemoBuilders.cB]) (l2 := [])
    DemoBuilders.reach8 S DemoBuilders.spare.2.2.2.2.2.2.2.2.1 (fun _ _ _ h => by cases h)
  have e2 := DemoBuilders.run9
  rw [e1] at e2
  simp only [Except.ok.injEq, Prod.mk.injEq] at e2
  exact ⟨w', b', res, a', DemoBuilders.reach8, e1, by rw [e2.2.1]; rfl, e2.2.2, h1, S1⟩

/-- `C68_push` with an opening event while another builder is at work. -/
example : ∃ a, Shows DemoBuilders.s5 a ∧ ReachB DemoBuilders.s5 ([DemoBuilders.cB] ++ DemoBuilders.bB :: []) ∧
    DemoBuilders.s5.Spare ∧ LastRight DemoBuilders.s5.heap a.children 1 := by
  obtain ⟨a, S⟩ := Shows.exists (C68_history DemoBuilders.reach5).1
  exact ⟨a, S, DemoBuilders.reach5, DemoBuilders.spare.2.2.2.2.2.1, DemoBuilders.last5 S.children⟩

/-- `C68_with_root`, `C68_finish` and `C68_drop`. -/
example : ReachB DemoBuilders.s3 [DemoBuilders.bB] ∧ DemoBuilders.s3.Spare ∧
    Builder.share [DemoBuilders.bB] .hot 2 < DemoBuilders.s3.held .hot 2 ∧
    ReachB DemoBuilders.s10 ([] ++ DemoBuilders.cA :: [DemoBuilders.bD]) ∧ DemoBuilders.s10.Spare ∧
    Builder.finish DemoBuilders.s10 DemoBuilders.cA = .ok (DemoBuilders.s11, .ok 2) ∧
    ReachB DemoBuilders.s11 ([] ++ DemoBuilders.bD :: []) ∧ DemoBuilders.s11.Spare :=
  ⟨DemoBuilders.reach3, DemoBuilders.spare.2.2.2.1, by decide, DemoBuilders.reach10,
    DemoBuilders.spare.2.2.2.2.2.2.2.2.2.2.1, DemoBuilders.run11, DemoBuilders.reach11,
    DemoBuilders.spare.2.2.2.2.2.2.2.2.2.2.2⟩

/-- `C68_undisturbed`: the tree of the builder, between whose events another tree was made. -/
example : ∃ s ch, FShape DemoBuilders.s3'.heap ch ∧ SubtreeAt ch 0 s ∧
    HasData DemoBuilders.s3'.heap s (.node 10 [.node 11 []]) := by
  rcases C68_undisturbed .init DemoBuilders.fed with ⟨h, -⟩ | ⟨r, k, u, s, ch, h1, h2, h3, h4, -, h5, h6⟩
  · cases h
  · cases h1
    obtain ⟨rfl⟩ := h2.1 rfl
    have h0 : Describes (Event.expand [Event.opn 10, .opn 11, .close 2]) 0 (.node 10 [.node 11 []]) := rfl
    obtain ⟨-, rfl⟩ := h3.unique h0
    exact ⟨s, ch, h4, h5, h6⟩

end Dendron
