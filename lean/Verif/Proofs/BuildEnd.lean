import Verif.Proofs.BuildAll

/-! The end of a builder: `finish` and `drop`. -/

set_option linter.unusedSimpArgs false
set_option linter.unusedVariables false

set_option autoImplicit false

namespace Dendron
open RTree
variable {α β : Type} {w w' w0 : World α} {ch ch' ch0 : NodeId → List NodeId}
  {r c x : NodeId} {T : TreeId} {ps cs : List NodeId} {k : Kind}
  {E : List (Option α)} {N : List NodeId} {b : Builder}

theorem Inv.memTree_lt (I : Inv w ch) {t : TreeId} (ha : w.heap.alive x = true)
    (hm : w.heap.memTree x = some t) : t < w.heap.nTree :=
  I.wf.tree.bound t (I.wf.tree_alive ha hm)

theorem Run.untouched (R : Run w0 ch0 w ch r T ps cs) (W0 : WF w0.heap ch0) :
    Untouched w0 w ch0 ch (some r) where
  alive x hx := R.grow.alive x hx
  data x hx := R.grow.data x hx
  borrowed x hx := R.grow.mutB x hx
  tree x hx := by
    obtain ⟨t, ht, -⟩ := W0.tree.live x hx
    rw [show w0.heap.nodeTree x = .ok t from (W0.tree.treeCore_iff hx).2 ht]
    exact (R.inv.wf.tree.treeCore_iff (R.grow.alive x hx)).2 (by rw [R.grow.memTree x hx]; exact ht)
  children x hx hne := R.keep x hx (by simpa using hne)
  trees := R.trees
  grantTok := R.grantTok
  prohTok := R.prohTok

/-- Dropping the last handle to a tree that did not exist before. -/
theorem Run.dropLast (R : Run w0 ch0 w ch r T ps cs)
    (hl : (k = .plain ∧ ps = [c] ∧ cs = []) ∨ (k = .hot ∧ ps = [] ∧ cs = [c]))
    (I0 : Inv w0 ch0) (hT : w0.heap.nTree ≤ T) (hr0 : w0.heap.alive r = false) :
    ∃ w' ch', w.exec (.drop k c) = .ok (w', .unit) ∧ Inv w' ch' ∧ Reach w' ∧
      Undone w0 w' ch0 ch' := by
  have I := R.inv
  have hk : 0 < w.held k c := by
    rcases hl with ⟨rfl, rfl, rfl⟩ | ⟨rfl, rfl, rfl⟩
    · exact R.held_of_ps (by simp)
    · exact R.held_of_cs (by simp)
  obtain ⟨h', ch', e, I', K⟩ := I.dropHandle hk
  have ex : w.exec (.drop k c) = .ok (({ w with heap := h' }).take k c, .unit) := by
    simp only [World.exec, bind, Except.bind, e]; rfl
  have hheld : ∀ k' x, (({ w with heap := h' } : World α).take k c).held k' x = w0.held k' x := by
    intro k' x
    have h1 := R.plain x
    have h2 := R.hot x
    have h3 := R.frozen x
    simp only [take_held]
    rcases hl with ⟨rfl, rfl, rfl⟩ | ⟨rfl, rfl, rfl⟩
    · by_cases e : x = c
      · subst e
        cases k'
        · simp at h1 ⊢; omega
        · simpa using h2
        · simpa using h3
      · have e' : ¬ c = x := fun h => e h.symm
        cases k'
        · simpa [e, e'] using h1
        · simpa using h2
        · simpa using h3
    · by_cases e : x = c
      · subst e
        cases k'
        · simpa using h1
        · simp at h2 ⊢; omega
        · simpa using h3
      · have e' : ¬ c = x := fun h => e h.symm
        cases k'
        · simpa using h1
        · simpa [e, e'] using h2
        · simpa using h3
  have hreach : Reach (({ w with heap := h' } : World α).take k c) := by
    refine .step (op := .drop k c) R.reach ⟨hk, fun _ _ => trivial, R.isRoom ?_, ex⟩
    rcases hl with ⟨-, -, rfl⟩ | ⟨-, -, rfl⟩ <;> simp
  obtain ⟨w', hw'⟩ : ∃ w', w' = ({ w with heap := h' } : World α).take k c := ⟨_, rfl⟩
  have hh : w'.heap = h' := by rw [hw']; rfl
  have htr : w'.trees = w0.trees := by rw [hw']; exact R.trees
  rw [← hw'] at ex hreach hheld I'
  rw [← hh] at K
  refine ⟨w', ch', ex, I', hreach, ?_⟩
  -- held nodes stay where they are
  have hst : ∀ k n, 0 < w0.held k n → w0.heap.alive n = true ∧ w'.heap.alive n = true ∧
      w'.heap.memTree n = w0.heap.memTree n := by
    intro k n hn
    have a0 := I0.held_alive hn
    have a' := I'.held_alive (k := k) (n := n) (by rw [hheld]; exact hn)
    obtain ⟨t, ht, -⟩ := I0.wf.tree.live n a0
    have h1 := R.grow.memTree n a0
    rw [ht] at h1
    exact ⟨a0, a', by rw [(K.stay n t (R.grow.alive n a0) h1 id a').1, ht]⟩
  have hTa : ∀ n, w0.heap.alive n = true → w0.heap.memTree n ≠ some T := by
    intro n ha hm
    have := I0.memTree_lt ha hm
    exact absurd (Nat.lt_of_lt_of_le this hT) (Nat.lt_irrefl _)
  have hheldT : ∀ u, w'.TreeHeld u ↔ w0.TreeHeld u := by
    intro u
    unfold World.TreeHeld
    rw [htr]
    constructor
    · rintro (h | ⟨k, n, h1, h2⟩)
      · exact .inl h
      · rw [hheld] at h1
        obtain ⟨a, b, c⟩ := hst k n h1
        refine .inr ⟨k, n, h1, (I0.wf.tree.treeCore_iff a).2 ?_⟩
        rw [← c]; exact (I'.wf.tree.treeCore_iff b).1 h2
    · rintro (h | ⟨k, n, h1, h2⟩)
      · exact .inl h
      · obtain ⟨a, b, c⟩ := hst k n h1
        refine .inr ⟨k, n, by rw [hheld]; exact h1, (I'.wf.tree.treeCore_iff b).2 ?_⟩
        rw [c]; exact (I0.wf.tree.treeCore_iff a).1 h2
  have hsurv : ∀ x, w0.heap.alive x = true → w'.heap.alive x = true := by
    intro x hx
    obtain ⟨t, ht, hta⟩ := I0.wf.tree.live x hx
    have := I'.treeHeld_iff.1 ((hheldT t).2 (I0.treeHeld_iff.2 hta))
    cases ha : w'.heap.alive x with
    | true => rfl
    | false =>
      have := K.died x t (R.grow.alive x hx) ha (by rw [R.grow.memTree x hx]; exact ht)
      simp_all
  have hmt : ∀ x, w0.heap.alive x = true → w'.heap.memTree x = w0.heap.memTree x ∧ ch' x = ch x := by
    intro x hx
    obtain ⟨t, ht, hta⟩ := I0.wf.tree.live x hx
    have := K.stay x t (R.grow.alive x hx) (by rw [R.grow.memTree x hx]; exact ht) id (hsurv x hx)
    exact ⟨by rw [this.1, ht], this.2⟩
  refine ⟨⟨hsurv, ?_, ?_, ?_, ?_, htr, ?_, ?_⟩, ?_, hheld⟩
  · intro x hx
    rw [K.data x (R.grow.alive x hx) (hsurv x hx) id, R.grow.data x hx]
  · intro x hx
    rw [K.mutB x (R.grow.alive x hx) (hsurv x hx) id, R.grow.mutB x hx]
  · intro x hx
    obtain ⟨t, ht, -⟩ := I0.wf.tree.live x hx
    rw [show w0.heap.nodeTree x = .ok t from (I0.wf.tree.treeCore_iff hx).2 ht]
    exact (I'.wf.tree.treeCore_iff (hsurv x hx)).2 (by rw [(hmt x hx).1]; exact ht)
  · intro x hx _
    rw [(hmt x hx).2]
    refine R.keep x hx ?_
    rintro rfl; rw [hr0] at hx; cases hx
  · rw [hw']; exact R.grantTok
  · rw [hw']; exact R.prohTok
  · intro x hx
    obtain ⟨u, hu, hua⟩ := I'.wf.tree.live x hx
    have h0 := I0.treeHeld_iff.1 ((hheldT u).1 (I'.treeHeld_iff.2 hua))
    have hlt := I0.wf.tree.bound u h0
    have hj := K.noJoin x u hx hu id (Nat.lt_of_lt_of_le hlt R.grow.trees)
    cases ha : w0.heap.alive x with
    | true => rfl
    | false =>
      have := R.mine x hj.1 ha
      rw [hj.2] at this
      have : u = T := by simpa using this
      subst this
      exact absurd (Nat.lt_of_lt_of_le hlt hT) (Nat.lt_irrefl _)

/-- Dropping a builder started with `new`. -/
theorem BState.dropAll {j : Nat} (S : BState w0 ch0 w ch r T N E b j) (I0 : Inv w0 ch0)
    (hT : w0.heap.nTree ≤ T) (hr0 : w0.heap.alive r = false) :
    ∃ w' ch', Builder.dropAll w b = .ok w' ∧ Inv w' ch' ∧ Reach w' ∧ Undone w0 w' ch0 ch' := by
  have R := S.run
  have hroot := S.root
  cases hc : b.cur with
  | none =>
    rw [hc] at R
    obtain ⟨w', ch', e, I', h1, h2⟩ := R.dropLast (k := .plain) (c := r) (.inl ⟨rfl, rfl, rfl⟩) I0 hT hr0
    refine ⟨w', ch', ?_, I', h1, h2⟩
    simp only [Builder.dropAll, Builder.dropOpt, hroot, hc, bind, Except.bind, e, pure, Except.pure]
  | some c =>
    rw [hc] at R
    obtain ⟨w1, e1, S1, R1⟩ := R.dropPlain (c := r) (by simp) (by simp) (.inl (by simp))
    obtain ⟨w', ch', e, I', h1, h2⟩ := Run.dropLast (k := .hot) (c := c) R1
      (.inr ⟨rfl, by simp, rfl⟩) I0 hT hr0
    refine ⟨w', ch', ?_, I', h1, h2⟩
    simp only [Builder.dropAll, Builder.dropOpt, hroot, hc, bind, Except.bind, e1, e, pure, Except.pure]

/-- The tree a builder started with `new` has made. -/
theorem BState.newTree {j : Nat} {w' : World α} (S : BState w0 ch0 w ch r T [] E b j)
    (S' : Still w.heap w'.heap) (R : Run w0 ch0 w' ch r T [r] []) (hT : w0.heap.nTree ≤ T)
    (hr : ∀ p, r ∉ ch p) :
    ∃ u, Describes E j u ∧ NewTree w0 w' ch r u := by
  obtain ⟨u, s, h1, h2, h3, h4, h5⟩ := S.facts
  have ha := R.inv.held_alive (R.held_of_ps (c := r) (by simp))
  have hm := R.psT r (by simp)
  refine ⟨u, h1, ⟨T, (R.inv.wf.tree.treeCore_iff ha).2 hm, hT, ?_⟩, s, h2, ?_, ?_⟩
  · have hp : w'.heap.parent r = none := by
      cases hp : w'.heap.parent r with
      | none => rfl
      | some p => exact absurd ((R.inv.wf.toFShape.mem p r).2 ⟨ha, hp⟩) (hr p)
    have := R.inv.wf.tree.top r T ha hp hm
    simp [Heap.rootLink, this]
  · simp only [HasData, S'.data]; exact h3
  · intro x hx
    have := h5 x hx
    simp only [List.not_mem_nil, false_or] at this
    exact ⟨this.1, by rw [S'.alive]; exact h4 x hx, by rw [S'.mutB]; exact this.2⟩

theorem Run.gotPlain (R : Run w0 ch0 w ch r T [r] []) : GotPlain w0 w r := by
  intro k x
  have h1 := R.plain x
  have h2 := R.hot x
  have h3 := R.frozen x
  cases k
  · simp only [true_and]
    rw [h1]
    by_cases e : x = r
    · subst e; simp
    · have e' : ¬ r = x := fun h => e h.symm
      simp [e, e']
  · simp [h2]
  · simp [h3]

end Dendron
