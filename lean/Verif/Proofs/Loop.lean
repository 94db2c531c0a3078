import Verif.Proofs.MoveMore
import Verif.Props.Move

/-! Moves that fail, and moves below the moved node itself. -/

set_option linter.unusedSimpArgs false
set_option autoImplicit false

namespace Dendron
variable {α : Type} {h h' : Heap α} {ch : NodeId → List NodeId} {n p q : NodeId} {l1 l2 m1 m2 : List NodeId}
  {dest : InsertAs NodeId}

open Heap in
theorem insertFirst_parent (S : Shape h ch) (hp : h.alive p = true) :
    ∃ h', h.insertFirstL n true p = .ok (h', .ok ()) ∧ SameNonLink h h' ∧
      (∀ x, h'.parent x = if x = n then some p else h.parent x) := by
  unfold insertFirstL loopCheck
  cases hc : ch p with
  | nil =>
    rw [S.firstLast_nil hp hc]
    simp only [bind, Except.bind, pure, Except.pure, Bool.false_eq_true, if_false, if_true]
    refine ⟨_, rfl, ⟨rfl, rfl, rfl, rfl, rfl, rfl, rfl, rfl⟩, ?_⟩
    intro x; simp [setPrev, setParent, setFirst, numAdd, setNum, upd_apply]
  | cons f l =>
    rw [S.firstLast_cons hc]
    simp only [bind, Except.bind, pure, Except.pure, Bool.false_eq_true, if_false, if_true]
    refine ⟨_, rfl, ⟨rfl, rfl, rfl, rfl, rfl, rfl, rfl, rfl⟩, ?_⟩
    intro x
    simp [setPrev, setNext, connectAdjacent, setParent, setFirst, numAdd, setNum, upd_apply]

open Heap in
theorem insertLast_parent (S : Shape h ch) (hp : h.alive p = true) :
    ∃ h', h.insertLastL n true p = .ok (h', .ok ()) ∧ SameNonLink h h' ∧
      (∀ x, h'.parent x = if x = n then some p else h.parent x) := by
  unfold insertLastL loopCheck
  cases hc : ch p with
  | nil =>
    rw [S.firstLast_nil hp hc]
    simp only [bind, Except.bind, pure, Except.pure, Bool.false_eq_true, if_false, if_true]
    refine ⟨_, rfl, ⟨rfl, rfl, rfl, rfl, rfl, rfl, rfl, rfl⟩, ?_⟩
    intro x; simp [setPrev, setParent, setFirst, numAdd, setNum, upd_apply]
  | cons f l =>
    rw [S.firstLast_cons hc]
    simp only [bind, Except.bind, pure, Except.pure, Bool.false_eq_true, if_false, if_true]
    refine ⟨_, rfl, ⟨rfl, rfl, rfl, rfl, rfl, rfl, rfl, rfl⟩, ?_⟩
    intro x
    simp [setPrev, setNext, connectAdjacent, setParent, numAdd, setNum, upd_apply]

open Heap in
theorem insertBetween_parent {a b : NodeId} (S : Shape h ch) (hs : ch p = (l1 ++ [a]) ++ b :: l2) :
    ∃ h', h.insertBetweenL n p a b = .ok h' ∧ SameNonLink h h' ∧
      (∀ x, h'.parent x = if x = n then some p else h.parent x) := by
  have hma : a ∈ ch p := by simp [hs]
  have hmb : b ∈ ch p := by simp [hs]
  have hna : h.next a = some b := by
    have := S.next_at (p := p) (n := a) (l1 := l1) (l2 := b :: l2) (by simp [hs])
    simpa using this
  unfold insertBetweenL betweenChecks
  rw [S.parentLink (S.alive_of_mem hma), S.parentLink (S.alive_of_mem hmb),
    S.parent_of_mem hma, S.parent_of_mem hmb, S.prevLink_at hs]
  simp only [nextLink, hna, bind, Except.bind, pure, Except.pure, ne_eq, not_true_eq_false, if_false,
    List.getLast?_append, List.getLast?_singleton, Option.some_or]
  refine ⟨_, rfl, ⟨rfl, rfl, rfl, rfl, rfl, rfl, rfl, rfl⟩, ?_⟩
  intro x
  simp [setPrev, setNext, setParent, numAdd, setNum, upd_apply]

/-- An insertion without loop check only changes the parent of the inserted node, wherever it is. -/
theorem insert_parent (S : Shape h ch) (hp : h.alive p = true) (hd : DestSplit ch dest p l1 l2) :
    ∃ h', h.insertL n true dest = .ok (h', .ok ()) ∧ SameNonLink h h' ∧
      (∀ x, h'.parent x = if x = n then some p else h.parent x) := by
  cases hd with
  | first => exact insertFirst_parent S hp
  | last => exact insertLast_parent S hp
  | @prev _ a l1 l2 hs =>
    have hm : a ∈ ch p := by simp [hs]
    simp only [Heap.insertL]
    rw [S.parentLink (S.alive_of_mem hm), S.parent_of_mem hm]
    simp only
    rw [S.prevLink_at hs]
    rcases List.eq_nil_or_concat l1 with rfl | ⟨l, b, rfl⟩
    · simp only [List.getLast?_nil, bind, Except.bind]
      exact insertFirst_parent S hp
    · rw [List.concat_eq_append] at *
      simp only [List.getLast?_append, List.getLast?_singleton, Option.some_or, bind, Except.bind]
      obtain ⟨h', h1, h2⟩ := insertBetween_parent (n := n) S hs
      rw [h1]
      exact ⟨h', rfl, h2⟩
  | @next _ a l1 l2 hs =>
    have hm : a ∈ ch p := by simp [hs]
    have hnx := S.next_at hs
    simp only [Heap.insertL]
    rw [S.parentLink (S.alive_of_mem hm), S.parent_of_mem hm]
    simp only [Heap.nextLink, hnx]
    cases l2 with
    | nil =>
      simp only [List.head?_nil]
      exact insertLast_parent S hp
    | cons b l2 =>
      simp only [List.head?_cons, bind, Except.bind]
      obtain ⟨h', h1, h2⟩ := insertBetween_parent (n := n) (p := p) (a := a) (b := b) (l1 := l1) (l2 := l2) S (by simp [hs])
      rw [h1]
      exact ⟨h', rfl, h2⟩

/-- Moving a node to a place below itself. -/
theorem moveBelow (S : Shape h ch) (hs : ch p = l1 ++ n :: l2) (hd : DestSplit ch dest q m1 m2)
    (hq : Desc ch n q) :
    ∃ h', h.moveSameL n dest = .ok (h', .ok ()) ∧ SameNonLink h h' ∧
      (∀ x, h'.parent x = if x = n then some q else h.parent x) := by
  have hm : n ∈ ch p := by simp [hs]
  have ha := S.alive_of_mem hm
  have hqa := S.desc_alive ha hq
  have hqp : q ≠ p := by rintro rfl; exact S.not_desc_parent hm hq
  obtain ⟨hx, h1, he, sim, s1, S1, p1⟩ := unlink_wide S hs
  have hd' : DestSplit (upd ch p (l1 ++ l2)) dest q m1 m2 := hd.congr (by simp [hqp])
  obtain ⟨h2, hi, s2, p2⟩ := insert_parent (n := n) S1 (by rw [s1.alive]; exact hqa) hd'
  have hno : ∀ x ∈ upd ch p (l1 ++ l2) q, ¬ StaleHead l1 l2 x := by
    rintro x hxq ⟨rfl, hx⟩
    rw [upd_ne _ _ hqp] at hxq
    exact hqp (S.unique_parent hxq (by rw [hs]; exact List.mem_append_left _ (List.mem_of_head? hx)))
  obtain ⟨h0, e0, sim0⟩ := SimP.get (hi ▸ SimP.flip (sim.symm.insertL (n := n) (b := true) (dest := dest)
    (InsReads.of_shape S1 (by rw [s1.alive]; exact hqa) hd' (fun x hxm hx => absurd hx (hno x hxm))
      (fun _ x hxm => hno x (List.mem_of_head? hxm)))))
  refine ⟨h0, ?_, sim0.symm.sameNonLink (s1.trans s2), ?_⟩
  · simp only [Heap.moveSameL, S.isRoot_false hm, Bool.false_eq_true, if_false, bind, Except.bind, he, e0]
  · intro x
    rw [← sim0.parent, p2]
    by_cases e : x = n
    · simp [e]
    · simp [e, p1]

/-- What `insert` checks for siblings. -/
theorem insert_no_parentL (b : Bool) (hs : dest = .previousSiblingOf q ∨ dest = .nextSiblingOf q)
    (hp : h.parentLink q = none) : h.insertL n b dest = .ok (h, .error .siblingsWithoutParent) := by
  rcases hs with rfl | rfl <;> simp only [Heap.insertL, hp]

theorem insertFirst_newL {e : HierarchyError} : h.insertFirstL n true p ≠ .ok (h', .error e) := by
  intro hh
  simp only [Heap.insertFirstL, Heap.loopCheck, bind, Except.bind, pure, Except.pure, if_true,
    Bool.false_eq_true, if_false] at hh
  split at hh
  · cases hh
  · simp at hh

theorem insertLast_newL {e : HierarchyError} : h.insertLastL n true p ≠ .ok (h', .error e) := by
  intro hh
  simp only [Heap.insertLastL, Heap.loopCheck, bind, Except.bind, pure, Except.pure, if_true,
    Bool.false_eq_true, if_false] at hh
  split at hh
  · cases hh
  · split at hh <;> simp at hh

/-- A failed insertion of an unlinked node. -/
theorem insert_errorL {e : HierarchyError} (he : h.insertL n true dest = .ok (h', .error e)) :
    e = .siblingsWithoutParent ∧ h' = h ∧
      (dest = .previousSiblingOf dest.anchor ∨ dest = .nextSiblingOf dest.anchor) ∧
      h.parentLink dest.anchor = none := by
  cases dest with
  | firstChildOf a => exact absurd he insertFirst_newL
  | lastChildOf a => exact absurd he insertLast_newL
  | previousSiblingOf a =>
    simp only [Heap.insertL] at he
    split at he
    · rename_i h1
      simp only [Except.ok.injEq, Prod.mk.injEq, Except.error.injEq] at he
      exact ⟨he.2.symm, he.1.symm, .inl rfl, h1⟩
    · exfalso
      simp only [bind, Except.bind, pure, Except.pure] at he
      split at he
      · simp at he
      · split at he
        · split at he <;> simp at he
        · exact insertFirst_newL he
  | nextSiblingOf a =>
    simp only [Heap.insertL] at he
    split at he
    · rename_i h1
      simp only [Except.ok.injEq, Prod.mk.injEq, Except.error.injEq] at he
      exact ⟨he.2.symm, he.1.symm, .inr rfl, h1⟩
    · exfalso
      simp only [bind, Except.bind, pure, Except.pure] at he
      split at he
      · split at he <;> simp at he
      · exact insertLast_newL he

/-- The chain of parents of a node below `n` leads to `n`. -/
theorem Desc.up (S : FShape h ch) (hd : Desc ch n q) (hm : n ∈ ch p)
    (hp : ∀ x, h'.parent x = if x = n then some q else h.parent x) (ha : ∀ x, h'.alive x = h.alive x) :
    Relation.TransGen (fun a b => h'.parentLink a = some b) n n := by
  have hpl : ∀ x, h'.alive x = true → ∀ y, h'.parent x = some y → h'.alive y = true → h'.parentLink x = some y := by
    intro x hx y hy hya
    simp [Heap.parentLink, Heap.upgrade, hy, hya]
  have hna := S.alive_of_mem hm
  have up : ∀ x, Desc ch n x → x = n ∨ Relation.TransGen (fun a b => h'.parentLink a = some b) x n := by
    intro x hx
    induction hx with
    | refl => exact .inl rfl
    | @step y z hy hz ih =>
      right
      have hzn : z ≠ n := by
        rintro rfl
        exact S.not_desc_parent hz hy
      have h1 : h'.parentLink z = some y :=
        hpl z (by rw [ha]; exact S.alive_of_mem hz) y (by rw [hp, if_neg hzn]; exact S.parent_of_mem hz)
          (by rw [ha]; exact S.desc_alive hna hy)
      rcases ih with rfl | ih
      · exact .single h1
      · exact .trans (.single h1) ih
  have h1 : h'.parentLink n = some q :=
    hpl n (by rw [ha]; exact hna) q (by rw [hp, if_pos rfl]) (by rw [ha]; exact S.desc_alive hna hd)
  rcases up q hd with rfl | h2
  · exact .single h1
  · exact .trans (.single h1) h2

end Dendron
