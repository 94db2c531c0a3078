import Verif.Props.RootMove
import Verif.Props.Loop
import Verif.Props.Stale

/-!
# C17: every outcome of a move

For every consistent state, `try_detach_insert_subtree` returns (it never panics or gets stuck), and it is
settled which calls fail.
-/

set_option linter.unusedSimpArgs false
set_option linter.unusedVariables false

set_option autoImplicit false

namespace Dendron
open RTree
variable {α : Type} {h : Heap α} {ch : NodeId → List NodeId} {n p q a : NodeId} {t t' : TreeId}
  {m1 m2 : List NodeId} {dest : InsertAs NodeId}

private theorem dest_cases' (hs : dest.isSibling = true) :
    dest = .previousSiblingOf dest.anchor ∨ dest = .nextSiblingOf dest.anchor := by
  cases dest <;> simp [InsertAs.isSibling, InsertAs.anchor] at hs ⊢

private theorem insert_no_parent' {held : List NodeId} (b : Bool) (hs : dest.isSibling = true)
    (hp : h.parentLink dest.anchor = none) :
    h.insert held n b dest = .ok (h, .error .siblingsWithoutParent) := by
  cases dest with
  | firstChildOf p => cases hs
  | lastChildOf p => cases hs
  | previousSiblingOf a =>
    have : h.parentLink a = none := hp
    simp only [Heap.insert, this]
  | nextSiblingOf a =>
    have : h.parentLink a = none := hp
    simp only [Heap.insert, this]

/-- C17, violated in every case of a moved root: moving the root `n` of a tree to a place beside the
root `a` of another tree fails, but `n` has become a member of the other tree, whose root is still `a`; and
if there is no `Tree` handle of the old tree, that tree has been destroyed, and `n` has no children any
more. -/
theorem C17_root_always_violated (W : WF h ch) (hn : h.alive n = true) (hroot : ∀ p, n ∉ ch p)
    (hh : ∃ u rc l, h.mem n = .strong u rc l) (ht : h.memTree n = some t)
    (hsib : dest.isSibling = true) (hda : dest.anchor = a) (ha : h.alive a = true) (htop : ∀ q, a ∉ ch q)
    (ht' : h.memTree a = some t') (hne : t ≠ t') (hlocks : LocksCounted h t) (hgrant : 0 ≤ h.grants t')
    (hmax : h.grants t' + h.grants t ≤ Lock.isizeMax) :
    ∃ h', h.detachInsert n dest = .ok (h', .error .siblingsWithoutParent) ∧ h'.alive n = true ∧
      h'.parentLink n = none ∧ h'.memTree n = some t' ∧ h'.root t' = some a ∧ a ≠ n ∧
      (h.treeRc t = 0 → h'.treeAlive t = false ∧ h'.firstChildLink n = none) ∧
      (0 < h.treeRc t → h'.root t = some n) := by
  obtain ⟨T, hT⟩ := W.toFShape.exists_subtree n
  have G : RootGoes h ch n T t t' (.lastChildOf a) a (ch a) [] :=
    ⟨W, hn, hroot, hT, ht, hh, .last a, ha, ht', hne, hlocks, hgrant, hmax⟩
  have C := G.ctx
  have hnT := C.n_mem
  have haT := G.qT
  have han : a ≠ n := by rintro rfl; exact haT hnT
  have hpa : h.parent a = none := by
    cases e : h.parent a with
    | none => rfl
    | some q => exact absurd (W.mem_of_parent ha e) (htop q)
  have hra : h.root t' = some a := W.tree.top a t' ha hpa ht'
  have hrn : h.root t = some n := W.tree.top n t hn G.parent ht
  have run : ∀ k2, (h.acqTree t').setMemberships n t' = .ok (some k2) → k2.parent a = none →
      (∃ rc l, k2.mem n = .strong t' rc l) → n < k2.nNode →
      h.detachInsert n dest = .ok (k2.setTreeRc t' (k2.treeRc t' - 1), .error .siblingsWithoutParent) := by
    intro k2 hm hp hst hb
    have hbt : h.belongsToSameTree n dest.anchor = false := by
      rw [hda]; simp [Heap.belongsToSameTree, Ne.symm han, ht, ht', hne]
    have htc : h.treeCore dest.anchor = .ok t' := by rw [hda]; exact W.tree.treeCore ha ht'
    have hroot : (h.acqTree t').isRoot n = true := by
      have : h.isRoot n = true := by simp [Heap.isRoot, Heap.parentLink, G.parent, Heap.upgrade]
      exact this
    have hpl : k2.parentLink dest.anchor = none := by
      rw [hda]; simp [Heap.parentLink, hp, Heap.upgrade]
    have hmo : (h.acqTree t').moveOther n dest t' = .ok (k2, .error .siblingsWithoutParent) := by
      unfold Heap.moveOther Heap.newByUnlink
      simp only [hroot, if_true, bind, Except.bind, hm]
      exact insert_no_parent' false hsib hpl
    have hrel : k2.relTree [] t' = .ok (k2.setTreeRc t' (k2.treeRc t' - 1)) := by
      unfold Heap.relTree
      apply maybeDropTree_held
      obtain ⟨rc, l, hx⟩ := hst
      exact .inr ⟨n, rc, l, hx, hb⟩
    unfold Heap.detachInsert
    simp only [hbt, Bool.false_eq_true, if_false, htc, bind, Except.bind, hmo, hrel, pure, Except.pure]
  obtain ⟨rc, l, hmv⟩ := moveTo_strong (t' := t') hh
  rcases Nat.eq_zero_or_pos (h.treeRc t) with hrc | hrc
  · have hm := C.memb_drop (by
      show upd h.treeRc t' _ t = 0
      rw [upd_ne _ _ hne]; exact hrc)
    have hnh : n ∈ (h.acqTree t').handlesIn T.nodes := mem_handlesIn.2 ⟨hnT, hh⟩
    obtain ⟨e1, e2, e3, e4, e5⟩ := cleared_kept (t := t) (t' := t') hnh
    have hmn : ((h.acqTree t').cleared T.nodes t t').mem n = .strong t' rc l := by rw [e4]; exact hmv
    have := run _ hm (by rw [cleared_parent_out haT]; exact hpa) ⟨rc, l, hmn⟩ (W.bound n hn)
    refine ⟨_, this, ?_, ?_, ?_, ?_, han, ?_, by omega⟩
    · show (((h.acqTree t').cleared T.nodes t t').data n).isSome = true
      rw [e5]; exact hn
    · show ((h.acqTree t').cleared T.nodes t t').upgrade (((h.acqTree t').cleared T.nodes t t').parent n) = none
      rw [e1]
      have : (h.acqTree t').parent n = none := G.parent
      rw [this]; rfl
    · show ((h.acqTree t').cleared T.nodes t t').memTree n = some t'
      simp [Heap.memTree, hmn]
    · show ((h.acqTree t').cleared T.nodes t t').root t' = some a
      rw [cleared_root, upd_ne _ _ hne.symm]; exact hra
    · intro _
      refine ⟨?_, ?_⟩
      · show (((h.acqTree t').cleared T.nodes t t').root t).isSome = false
        rw [cleared_root, upd_same]; rfl
      · exact cleared_first_in (h := h.acqTree t') hnT
  · have hm := C.memb_held (by
      show 0 < upd h.treeRc t' _ t
      rw [upd_ne _ _ hne]; exact hrc)
    have hmn : ((h.acqTree t').relabel T.nodes t t').mem n = .strong t' rc l := by
      simp only [Heap.relabel, hnT, if_true]; exact hmv
    have := run _ hm hpa ⟨rc, l, hmn⟩ (W.bound n hn)
    refine ⟨_, this, hn, ?_, ?_, hra, han, by omega, fun _ => hrn⟩
    · show h.upgrade (h.parent n) = none
      rw [G.parent]; rfl
    · show ((h.acqTree t').relabel T.nodes t t').memTree n = some t'
      simp [Heap.memTree, hmn]

/-- A place for a node exists at each destination that does not ask for a sibling of a root. -/
private theorem place_exists (c : NodeId → List NodeId)
    (hs : dest.isSibling = true → ∃ q, dest.anchor ∈ c q) :
    ∃ q m1 m2, DestSplit c dest q m1 m2 ∧ (q = dest.anchor ∨ dest.anchor ∈ c q) := by
  cases dest with
  | firstChildOf x => exact ⟨_, _, _, .first x, .inl rfl⟩
  | lastChildOf x => exact ⟨_, _, _, .last x, .inl rfl⟩
  | previousSiblingOf x =>
    obtain ⟨q, hq⟩ := hs rfl
    obtain ⟨m1, m2, hx⟩ := List.append_of_mem hq
    exact ⟨_, _, _, .prev hx, .inr hq⟩
  | nextSiblingOf x =>
    obtain ⟨q, hq⟩ := hs rfl
    obtain ⟨m1, m2, hx⟩ := List.append_of_mem hq
    exact ⟨_, _, _, .next hx, .inr hq⟩

/-- The moves that fail: a node with a parent beside itself, or any node beside another node that is a
root. -/
def MoveFails (ch : NodeId → List NodeId) (n : NodeId) (dest : InsertAs NodeId) : Prop :=
  dest.isSibling = true ∧ (((∃ p, n ∈ ch p) ∧ dest.anchor = n) ∨ (dest.anchor ≠ n ∧ ∀ q, dest.anchor ∉ ch q))

/-- C17, every outcome: for every consistent state, every node with a handle and every destination, the
call returns; it returns an error exactly in the cases of `MoveFails`. -/
theorem C17_outcome (W : WF h ch) (hn : h.alive n = true) (hh : ∃ u rc l, h.mem n = .strong u rc l)
    (ht : h.memTree n = some t) (ha : h.alive dest.anchor = true) (ht' : h.memTree dest.anchor = some t')
    (hlocks : LocksCounted h t) (hgrant : 0 ≤ h.grants t')
    (hmax : h.grants t' + h.grants t ≤ Lock.isizeMax) :
    (MoveFails ch n dest → ∃ h' e, h.detachInsert n dest = .ok (h', .error e)) ∧
    (¬ MoveFails ch n dest → ∃ h', h.detachInsert n dest = .ok (h', .ok ())) := by
  have hsame : t = t' → h.belongsToSameTree n dest.anchor = true := by
    intro e; simp [Heap.belongsToSameTree, ht, ht', e]
  constructor
  · rintro ⟨hsib, hcase⟩
    by_cases e : t = t'
    · refine (C17_fails_iff W hn ha (hsame e)).2 ⟨?_, hsib, ?_⟩
      · rcases hcase with ⟨h1, -⟩ | ⟨h1, h2⟩
        · exact h1
        · refine Classical.byContradiction fun hc => h1 ?_
          have hp1 : h.parent n = none := by
            cases e : h.parent n with
            | none => rfl
            | some q => exact absurd ⟨q, W.mem_of_parent hn e⟩ hc
          have hp2 : h.parent dest.anchor = none := by
            cases e : h.parent dest.anchor with
            | none => rfl
            | some q => exact absurd (W.mem_of_parent ha e) (h2 q)
          have h3 := W.tree.top n t hn hp1 ht
          have h4 := W.tree.top _ t' ha hp2 ht'
          rw [← e, h3] at h4; simpa using h4.symm
      · rcases hcase with ⟨-, h1⟩ | ⟨-, h1⟩
        · exact .inl h1
        · exact .inr h1
    · have hroot : ∀ q, dest.anchor ∉ ch q := by
        rcases hcase with ⟨-, h1⟩ | ⟨-, h1⟩
        · rw [h1, ht] at ht'; exact absurd (by simpa using ht') e
        · exact h1
      by_cases hp : ∃ p, n ∈ ch p
      · obtain ⟨p, hp⟩ := hp
        obtain ⟨h', ch', e, -⟩ := C17_other_tree_violated W hp ht hsib rfl ha hroot ht' e hlocks hgrant hmax
        exact ⟨h', _, e⟩
      · obtain ⟨h', e, -⟩ := C17_root_always_violated W hn (fun p h1 => hp ⟨p, h1⟩) hh ht hsib rfl ha hroot ht'
          e hlocks hgrant hmax
        exact ⟨h', _, e⟩
  · intro hnf
    by_cases e : t = t'
    · by_cases hp : ∃ p, n ∈ ch p
      · obtain ⟨p, hp⟩ := hp
        obtain ⟨l1, l2, hs⟩ := List.append_of_mem hp
        obtain ⟨T, hT⟩ := W.toFShape.exists_subtree n
        have hsub : ∀ x, dest.isSibling = true → dest.anchor ∈ ch x → dest.anchor ∈ upd ch p (l1 ++ l2) x := by
          intro x hsib hx
          by_cases ex : x = p
          · subst ex
            rw [upd_same]
            rw [hs] at hx
            simp only [List.mem_append, List.mem_cons] at hx ⊢
            rcases hx with h1 | h1 | h1
            · exact .inl h1
            · exact absurd ⟨hsib, .inl ⟨⟨x, hp⟩, h1⟩⟩ hnf
            · exact .inr h1
          · rw [upd_ne _ _ ex]; exact hx
        have hsup : ∀ x y, y ∈ upd ch p (l1 ++ l2) x → y ∈ ch x := by
          intro x y hy
          by_cases ex : x = p
          · subst ex
            rw [upd_same] at hy; rw [hs]
            simp only [List.mem_append, List.mem_cons] at hy ⊢
            rcases hy with h1 | h1
            · exact .inl h1
            · exact .inr (.inr h1)
          · rwa [upd_ne _ _ ex] at hy
        obtain ⟨q, m1, m2, hd, hq⟩ := place_exists (dest := dest) (upd ch p (l1 ++ l2)) (by
          intro hsib
          refine Classical.byContradiction fun hc => hnf ⟨hsib, .inr ⟨?_, ?_⟩⟩
          · intro h1; exact hnf ⟨hsib, .inl ⟨⟨p, hp⟩, h1⟩⟩
          · intro x hx; exact hc ⟨x, hsub x hsib hx⟩)
        have hqa : h.alive q = true ∧ h.memTree q = some t' := by
          rcases hq with rfl | hq
          · exact ⟨ha, ht'⟩
          · have hq := hsup _ _ hq
            exact ⟨W.alive_parent hq, by
              rw [← W.tree.child _ q ha (W.parent_of_mem hq)]; exact ht'⟩
        have hnt : h.nodeTree n = h.nodeTree q := by
          have h1 : h.nodeTree n = .ok t := (W.tree.treeCore_iff hn).2 ht
          have h2 : h.nodeTree q = .ok t' := (W.tree.treeCore_iff hqa.1).2 hqa.2
          rw [h1, h2, e]
        by_cases hqT : q ∈ T.nodes
        · have hqp : q ≠ p := by
            rintro rfl
            exact W.toFShape.not_desc_parent hp ((hT.mem_nodes_iff q).1 hqT)
          have hd' := hd.congr (ch' := ch) (by rw [upd_ne _ _ hqp])
          obtain ⟨h', e1, -⟩ := C16_always_violated W hp hT hqT hd'
          exact ⟨h', e1⟩
        · by_cases hpos : l1 = [] ∨ l2 ≠ []
          · obtain ⟨h', ch', e1, -⟩ := C14_move_same_tree_partial W hs hpos hT hd hqa.1 hqT hnt
            exact ⟨h', e1⟩
          · have hl2 : l2 = [] := Classical.byContradiction fun h1 => hpos (.inr h1)
            subst hl2
            rw [List.append_nil] at hd
            obtain ⟨h', e1, -⟩ := C14_always_violated W hs (fun h1 => hpos (.inl h1)) hT hd hqa.1 hqT hnt
            exact ⟨h', e1⟩
      · exact ⟨h, C16_move_root_below_itself_partial W hn (fun p h1 => hp ⟨p, h1⟩) (hsame e)⟩
    · have hna : dest.anchor ≠ n := by
        intro h1; rw [h1, ht] at ht'; exact e (by simpa using ht')
      obtain ⟨q, m1, m2, hd, hq⟩ := place_exists (dest := dest) ch (by
        intro hsib
        exact Classical.byContradiction fun hc => hnf ⟨hsib, .inr ⟨hna, fun q hq => hc ⟨q, hq⟩⟩⟩)
      have hqa : h.alive q = true ∧ h.memTree q = some t' := by
        rcases hq with rfl | hq
        · exact ⟨ha, ht'⟩
        · exact ⟨W.alive_parent hq, by
            rw [← W.tree.child _ q ha (W.parent_of_mem hq)]; exact ht'⟩
      by_cases hp : ∃ p, n ∈ ch p
      · obtain ⟨p, hp⟩ := hp
        obtain ⟨l1, l2, hs⟩ := List.append_of_mem hp
        obtain ⟨T, hT⟩ := W.toFShape.exists_subtree n
        obtain ⟨h', ch', e1, -⟩ := C15_move_forward W hs hT ht hd hqa.1 hqa.2 e hlocks hgrant hmax
        exact ⟨h', e1⟩
      · obtain ⟨h', e1, -⟩ := C18_consistent_iff (h := h) (ch := ch) (n := n) (t := t) (t' := t')
          ⟨W, hn, fun p h1 => hp ⟨p, h1⟩, hh, ht, hd, hqa.1, hqa.2, e, hlocks, hgrant, hmax⟩
        exact ⟨h', e1⟩

/-- The hypotheses are met: node 6, the root of the other tree of the demo, moves beside the root 0 or
beside node 1. -/
example : WF Demo.heap Demo.ch ∧ Demo.heap.alive 6 = true ∧ (∀ p, 6 ∉ Demo.ch p) ∧
    (∃ u rc l, Demo.heap.mem 6 = .strong u rc l) ∧ Demo.heap.memTree 6 = some 1 ∧
    Demo.heap.memTree 0 = some 0 ∧ (∀ p, 0 ∉ Demo.ch p) ∧ LocksCounted Demo.heap 1 ∧
    MoveFails Demo.ch 6 (.nextSiblingOf 0) ∧ ¬ MoveFails Demo.ch 6 (.nextSiblingOf 1) := by
  have h0 : ∀ p, 0 ∉ Demo.ch p := by
    intro p hp
    have := Demo.wf.parent_of_mem hp
    simp [show Demo.heap.parent 0 = none from rfl] at this
  refine ⟨Demo.wf, rfl, Demo.movesRoot.root, ⟨_, _, _, rfl⟩, rfl, rfl, h0, Demo.locksCounted 1,
    ⟨rfl, .inr ⟨by decide, h0⟩⟩, ?_⟩
  rintro ⟨-, ⟨-, h1⟩ | ⟨-, h1⟩⟩
  · exact absurd h1 (by decide)
  · exact h1 0 (by decide)

end Dendron
