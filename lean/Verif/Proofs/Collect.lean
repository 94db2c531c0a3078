import Verif.Proofs.BuildClose
import Verif.Proofs.CloneTree

/-! Turning the plain handle of a new tree into another handle; reading events from existing nodes. -/

set_option linter.unusedSimpArgs false
set_option linter.unusedVariables false

set_option autoImplicit false

namespace Dendron
open RTree
variable {α : Type} {w w1 w' : World α} {ch ch' : NodeId → List NodeId} {m : NodeId} {T : TreeId}
  {u : RTree α}

theorem Run.untouched_new {w0 : World α} {ch0 : NodeId → List NodeId} {r : NodeId} {T : TreeId}
    {ps cs : List NodeId} (R : Run w0 ch0 w ch r T ps cs) (W0 : WF w0.heap ch0)
    (hr : w0.heap.alive r = false) : Untouched w0 w ch0 ch none := by
  have U := R.untouched W0
  refine ⟨U.alive, U.data, U.borrowed, U.tree, ?_, U.trees, U.grantTok, U.prohTok⟩
  intro x hx _
  refine U.children x hx ?_
  rintro h
  simp only [Option.some.injEq] at h
  subst h; rw [hr] at hx; cases hx

theorem Still.nodeTree (S : Still w.heap w'.heap) (I : WF w.heap ch) (I' : WF w'.heap ch') {x : NodeId}
    (hx : w.heap.alive x = true) : w'.heap.nodeTree x = w.heap.nodeTree x := by
  obtain ⟨t, h1, -⟩ := I.tree.live x hx
  rw [show w.heap.nodeTree x = .ok t from (I.tree.treeCore_iff hx).2 h1]
  exact (I'.tree.treeCore_iff (by rw [S.alive]; exact hx)).2 (by rw [S.memTree]; exact h1)

theorem NewTree.still {ch1 : NodeId → List NodeId} (N : NewTree w w1 ch1 m u) (S : Still w1.heap w'.heap)
    (I : WF w1.heap ch1) (I' : WF w'.heap ch1) (hm : w1.heap.alive m = true) : NewTree w w' ch1 m u := by
  obtain ⟨⟨t, a1, a2, a3⟩, s, b1, b2, b3⟩ := N
  refine ⟨⟨t, (S.nodeTree I I' hm).trans a1, a2, ?_⟩, s, b1, ?_, ?_⟩
  · rw [← a3]; simp only [Heap.rootLink, S.root]
  · rw [HasData, S.data]; exact b2
  · intro x hx
    obtain ⟨c1, c2, c3⟩ := b3 x hx
    exact ⟨c1, by rw [S.alive]; exact c2, by rw [S.mutB]; exact c3⟩

/-- `root.tree()` of a new tree, the handle `root` being dropped. -/
theorem Run.toTree (R : Run w ch w1 ch' m T [m] []) (W : WF w.heap ch) (hm0 : w.heap.alive m = false)
    (N : NewTree w w1 ch' m u) :
    ∃ w2 w3, w1.exec (.treeOf .plain m) = .ok (w2, .tree (some T)) ∧
      w2.exec (.drop .plain m) = .ok (w3, .unit) ∧ Reach w3 ∧ WF w3.heap ch' ∧ NewTree w w3 ch' m u ∧
      w3.heap.nodeTree m = .ok T ∧ w3.held = w.held ∧ w3.trees = upd w.trees T (w.trees T + 1) ∧
      Untouched w { w3 with trees := w.trees } ch ch' none := by
  have U := R.untouched_new W hm0
  have hmT := R.psT m (by simp)
  have hk := R.held_of_ps (c := m) (by simp)
  have hma := R.inv.held_alive hk
  have C1 := Calm.refl R.inv R.reach (R.isRoom (by simp))
  obtain ⟨w2, e2, C2, t2, hh2⟩ := C1.treeOf hk hmT
  obtain ⟨w3, e3, C3, t3, hh3⟩ := C2.dropPlain (c := m) (T := T) (by rw [hh2]; exact hk)
    (by rw [C2.still.memTree]; exact hmT) (by rw [t2]; simp)
  have S := C3.still
  have tree_eq : ∀ x, w1.heap.alive x = true → w3.heap.nodeTree x = w1.heap.nodeTree x :=
    fun x hx => S.nodeTree R.inv.wf C3.inv.wf hx
  refine ⟨w2, w3, e2, e3, C3.reach, C3.inv.wf, N.still S R.inv.wf C3.inv.wf hma, ?_, ?_, ?_, ?_⟩
  · rw [tree_eq m hma]; exact (R.inv.wf.tree.treeCore_iff hma).2 hmT
  · funext k x
    rw [hh3, take_held, hh2]
    have h1 := R.gotPlain k x
    rw [h1]
    by_cases e : k = .plain ∧ x = m <;> simp [e]
  · rw [t3, t2, R.trees]
  · refine ⟨fun x hx => ?_, fun x hx => ?_, fun x hx => ?_, fun x hx => ?_, U.children, rfl, ?_, ?_⟩
    · show w3.heap.alive x = true
      rw [S.alive]; exact U.alive x hx
    · show w3.heap.data x = _
      rw [S.data]; exact U.data x hx
    · show w3.heap.mutB x = _
      rw [S.mutB]; exact U.borrowed x hx
    · exact (tree_eq x (U.alive x hx)).trans (U.tree x hx)
    · exact C3.grantTok.trans U.grantTok
    · exact C3.prohTok.trans U.prohTok

/-- A new tree can be locked: the plain handle becomes a hot or frozen one. -/
theorem Run.bundleNew {k : Kind} (R : Run w ch w1 ch' m w.heap.nTree [m] []) (I : Inv w ch)
    (hm0 : w.heap.alive m = false) (N : NewTree w w1 ch' m u) (hk : k ≠ .plain) :
    ∃ w', w1.exec (.bundle k m) = .ok (w', .unit) ∧ Reach w' ∧ WF w'.heap ch' ∧ NewTree w w' ch' m u ∧
      Untouched w w' ch ch' none ∧
      ∀ k' x, w'.held k' x = if k' = k ∧ x = m then w.held k' x + 1 else w.held k' x := by
  have U := R.untouched_new I.wf hm0
  have hp := R.held_of_ps (c := m) (by simp)
  obtain ⟨t1, rc, l, hm, hma, hta⟩ := R.inv.tree_of_held hp
  obtain rfl : t1 = w.heap.nTree := by
    have := R.psT m (by simp)
    rw [memTree_strong hm] at this; simpa using this
  obtain ⟨z1, -, -⟩ := I.fresh_tok (t := w.heap.nTree) (Nat.le_refl _)
  have hg := R.grants_le (L0 := []) hta (by
    intro x hx hmx
    have := I.wf.tree_alive hx hmx
    rw [I.wf.tree.fresh_tree] at this; cases this)
  rw [z1] at hg
  simp only [List.length_nil] at hg
  have key : ∃ h', w1.heap.acqLock m k = .ok (some h') ∧
      Inv ((({ w1 with heap := h' }).take .plain m).give k m) ch' ∧ Still w1.heap h' := by
    cases k with
    | plain => exact absurd rfl hk
    | hot =>
      rcases R.inv.bundleHot hp hm with ⟨h1, -⟩ | ⟨h1, -⟩ | ⟨-, h', e4, I4, S4⟩
      · omega
      · simp only [Lock.isizeMax] at h1; omega
      · exact ⟨h', e4, I4, S4⟩
    | frozen =>
      rcases R.inv.bundleFrozen hp hm with ⟨h1, -⟩ | ⟨h1, -⟩ | ⟨-, h', e4, I4, S4⟩
      · omega
      · simp only [Lock.isizeMin] at h1; omega
      · exact ⟨h', e4, I4, S4⟩
  obtain ⟨h', e4, I4, S4⟩ := key
  have ex : w1.exec (.bundle k m) =
      .ok ((({ w1 with heap := h' }).take .plain m).give k m, .unit) := by
    simp only [World.exec, bind, Except.bind, e4]; rfl
  obtain ⟨w4, hw4⟩ : ∃ w4, w4 = (({ w1 with heap := h' }).take .plain m).give k m := ⟨_, rfl⟩
  have hh4 : w4.heap = h' := by rw [hw4]; rfl
  have ht4 : w4.trees = w1.trees := by rw [hw4]; rfl
  have hg4 : w4.grantTok = w1.grantTok := by rw [hw4]; rfl
  have hp4 : w4.prohTok = w1.prohTok := by rw [hw4]; rfl
  have hheld : ∀ k' x, w4.held k' x = if k' = k ∧ x = m then w.held k' x + 1 else w.held k' x := by
    intro k' x
    have h1 := R.gotPlain k' x
    rw [hw4]
    simp only [give_held, take_held, h1]
    by_cases e : x = m
    · subst e
      cases k <;> cases k' <;> simp at hk ⊢
    · simp [e]
  rw [← hw4] at ex I4
  rw [← hh4] at S4
  refine ⟨w4, ex, .step (op := .bundle k m) R.reach ⟨⟨hk, hp⟩, fun _ _ => trivial, R.isRoom (by simp), ex⟩,
    I4.wf, N.still S4 R.inv.wf I4.wf hma, ?_, hheld⟩
  refine ⟨fun x hx => ?_, fun x hx => ?_, fun x hx => ?_, fun x hx => ?_, U.children, ht4.trans U.trees,
    hg4.trans U.grantTok, hp4.trans U.prohTok⟩
  · rw [S4.alive]; exact U.alive x hx
  · rw [S4.data]; exact U.data x hx
  · rw [S4.mutB]; exact U.borrowed x hx
  · exact (S4.nodeTree R.inv.wf I4.wf (U.alive x hx)).trans (U.tree x hx)

end Dendron
