import Verif.Proofs.Anc

/-! Link surgery of `new_by_unlink` and the insertions. -/

set_option linter.unusedSimpArgs false
set_option linter.unusedVariables false

set_option autoImplicit false

namespace Dendron
variable {α : Type} {h h' : Heap α} {ch : NodeId → List NodeId} {n p : NodeId}
  {l1 l2 : List NodeId}

/-- Nothing but neighbor links and child counts differs. -/
structure SameNonLink (h h' : Heap α) : Prop where
  data : h'.data = h.data
  mutB : h'.mutB = h.mutB
  mem : h'.mem = h.mem
  root : h'.root = h.root
  grants : h'.grants = h.grants
  treeRc : h'.treeRc = h.treeRc
  nNode : h'.nNode = h.nNode
  nTree : h'.nTree = h.nTree

theorem SameNonLink.refl (h : Heap α) : SameNonLink h h := ⟨rfl, rfl, rfl, rfl, rfl, rfl, rfl, rfl⟩

theorem SameNonLink.trans {h h' h'' : Heap α} (a : SameNonLink h h') (b : SameNonLink h' h'') :
    SameNonLink h h'' :=
  ⟨b.data.trans a.data, b.mutB.trans a.mutB, b.mem.trans a.mem, b.root.trans a.root,
   b.grants.trans a.grants, b.treeRc.trans a.treeRc, b.nNode.trans a.nNode, b.nTree.trans a.nTree⟩

theorem SameNonLink.alive (a : SameNonLink h h') (x : NodeId) : h'.alive x = h.alive x := by
  simp [Heap.alive, a.data]

open Heap in
/-- Effect of `new_by_unlink` on a node at a known position. -/
theorem newByUnlink_eq (S : Shape h ch) (hs : ch p = l1 ++ n :: l2) :
    ∃ h', h.newByUnlinkL n = .ok (h', true) ∧ SameNonLink h h' ∧
      (∀ x, h'.parent x = if x = n then none else h.parent x) ∧
      (∀ x, h'.firstChild x = if x = p then (l1 ++ l2).head? else h.firstChild x) ∧
      (∀ x, h'.next x =
        if x = n then none else if l1.getLast? = some x then l2.head? else h.next x) ∧
      (∀ x, h'.prevCyc x = if x = n then some n
        else if l2.head? = some x then l1.getLast?.or l2.getLast? else h.prevCyc x) ∧
      (∀ x, h'.numCh x = if x = p then h.numCh p - 1 else h.numCh x) := by
  have hm : n ∈ ch p := by simp [hs]
  have ha := S.alive_of_mem hm
  have hp := S.alive_parent hm
  have hpar := S.parent_of_mem hm
  have hnum : h.numCh p = (l1 ++ n :: l2).length := by rw [S.num p hp, hs]
  have hpos : h.numCh p ≠ 0 := by rw [hnum]; simp
  have hnp : n ≠ p := fun e => S.not_self (e ▸ hm)
  have hfirst := S.first p hp
  rw [hs] at hfirst
  have hnd := S.nodup p
  rw [hs, nodup_mid] at hnd
  unfold newByUnlinkL
  rw [S.isRoot_false hm, S.prevLink_at hs, S.prevCycLink_at hs, S.parentLink ha, hpar,
    S.isFirst_at hs]
  have hnext := S.next_at hs
  simp only [nextLink, hnext, Bool.false_eq_true, if_false, bind, Except.bind]
  rcases List.eq_nil_or_concat l1 with rfl | ⟨l, a, rfl⟩
  · cases l2 with
    | nil =>
      simp only [List.isEmpty_nil, if_true, setFirst, numSub, setNum, hpos, if_false,
        show ¬ h.numCh p < 1 by omega, pure, Except.pure]
      refine ⟨_, rfl, ⟨rfl, rfl, rfl, rfl, rfl, rfl, rfl, rfl⟩, ?_, ?_, ?_, ?_, ?_⟩ <;>
        intro x <;> simp [setParent, setPrev, setNext, upd_apply]
    | cons b l2 =>
      simp only [List.isEmpty_nil, if_true, setFirst, numSub, setNum, hpos, if_false,
        show ¬ h.numCh p < 1 by omega, pure, Except.pure]
      have hbn : b ≠ n := by rintro rfl; exact hnd.2.1 (by simp)
      refine ⟨_, rfl, ⟨rfl, rfl, rfl, rfl, rfl, rfl, rfl, rfl⟩, ?_, ?_, ?_, ?_, ?_⟩ <;>
        intro x <;> simp [setParent, setPrev, setNext, upd_apply]
      by_cases e : b = x
      · subst e; simp [List.getLast?_cons]
      · simp [e, Ne.symm e]
  · rw [List.concat_eq_append] at *
    have han : a ≠ n := by rintro rfl; exact hnd.1 (by simp)
    have hne : (l ++ [a]).isEmpty = false := by simp
    have hhead : ∀ t : List NodeId, (l ++ [a] ++ t).head? = h.firstChild p := by
      intro t
      rw [hfirst]
      simp only [List.head?_append]
      cases l <;> simp
    cases l2 with
    | nil =>
      simp only [hne, Bool.false_eq_true, if_false, numSub, setNum, hpos,
        show ¬ h.numCh p < 1 by omega, pure, Except.pure]
      refine ⟨_, rfl, ⟨by simp; rfl, by simp; rfl, by simp; rfl, by simp; rfl, by simp; rfl, by simp; rfl, by simp; rfl, by simp; rfl⟩, ?_, ?_, ?_, ?_, ?_⟩ <;>
        intro x
      · simp [setParent, setPrev, setNext, upd_apply]
      · rw [hhead]
        simp only [List.getLast?_append, List.getLast?_singleton, setParent, setPrev, setNext]
        by_cases e : x = p <;> simp [e]
      · simp [setParent, setPrev, setNext, upd_apply, @eq_comm _ x a]
      · simp [setParent, setPrev, setNext, upd_apply]
      · simp [setParent, setPrev, setNext, upd_apply]
    | cons b l2 =>
      have hbn : b ≠ n := by rintro rfl; exact hnd.2.1 (by simp)
      simp only [hne, Bool.false_eq_true, if_false, numSub, setNum, hpos,
        show ¬ h.numCh p < 1 by omega, pure, Except.pure]
      refine ⟨_, rfl, ⟨by simp; rfl, by simp; rfl, by simp; rfl, by simp; rfl, by simp; rfl, by simp; rfl, by simp; rfl, by simp; rfl⟩, ?_, ?_, ?_, ?_, ?_⟩ <;>
        intro x
      · simp [setParent, setPrev, setNext, upd_apply]
      · rw [hhead]
        simp only [List.getLast?_append, List.getLast?_singleton, setParent, setPrev, setNext]
        by_cases e : x = p <;> simp [e]
      · simp [setParent, setPrev, setNext, upd_apply, @eq_comm _ x a]
      · simp [setParent, setPrev, setNext, upd_apply, @eq_comm _ x b]
      · simp [setParent, setPrev, setNext, upd_apply]

/-- Removing a node from its parent: the forward structure is right for every position. -/
theorem unlink_forward (S : Shape h ch) (hs : ch p = l1 ++ n :: l2) :
    ∃ h', h.newByUnlinkL n = .ok (h', true) ∧ SameNonLink h h' ∧
      FShape h' (upd ch p (l1 ++ l2)) ∧ NumOK h' (upd ch p (l1 ++ l2)) ∧
      h'.parent n = none ∧
      ((l1 = [] ∨ l2 ≠ []) → BackOK h' (upd ch p (l1 ++ l2))) := by
  obtain ⟨h', he, hsame, h1, h2, h3, h4, h5⟩ := newByUnlink_eq S hs
  exact ⟨h', he, hsame, S.unlinkAt hs hsame.alive h1 h2 h3 hsame.nNode,
    S.num.unlinkAt hs hsame.alive h5, by simp [h1],
    fun hpos => BackOK.unlinkAt S hs hpos hsame.alive h1 h4⟩

theorem unlink_shape (S : Shape h ch) (hs : ch p = l1 ++ n :: l2) (hpos : l1 = [] ∨ l2 ≠ []) :
    ∃ h', h.newByUnlinkL n = .ok (h', true) ∧ SameNonLink h h' ∧
      Shape h' (upd ch p (l1 ++ l2)) ∧ h'.parent n = none := by
  obtain ⟨h', he, hsame, hF, hN, hpn, hB⟩ := unlink_forward S hs
  exact ⟨h', he, hsame, { toFShape := hF, num := hN, back := hB hpos }, hpn⟩

open Heap in
theorem loopCheck_false (S : FShape h ch) (ha : h.alive p = true) (hnd : ¬ Desc ch n p)
    (isNew : Bool) : h.loopCheck n isNew p = .ok false := by
  unfold loopCheck
  cases isNew
  · simp [isAncestorOf_spec S ha, hnd]
  · rfl

open Heap in
theorem insertFirst_shape (S : Shape h ch) (hn : h.alive n = true) (hpn : h.parent n = none)
    (hp : h.alive p = true) (hnd : ¬ Desc ch n p) (isNew : Bool) :
    ∃ h', h.insertFirstL n isNew p = .ok (h', .ok ()) ∧ SameNonLink h h' ∧
      Shape h' (upd ch p (n :: ch p)) ∧
      (∀ x, h'.parent x = if x = n then some p else h.parent x) := by
  have hnp : n ≠ p := fun e => hnd (e ▸ Desc.refl n)
  have hnm := S.not_mem_of_root hpn p
  have hnn := S.rootNext n hn hpn
  unfold insertFirstL
  rw [loopCheck_false S.toFShape hp hnd]
  cases hc : ch p with
  | nil =>
    rw [S.firstLast_nil hp hc]
    simp only [bind, Except.bind, pure, Except.pure, Bool.false_eq_true, if_false]
    refine ⟨_, rfl, ⟨rfl, rfl, rfl, rfl, rfl, rfl, rfl, rfl⟩, ?_, ?_⟩
    · refine { toFShape := S.insertAt (l1 := []) (l2 := []) (by simp [hc]) hn hpn hnd hp ?_ ?_ ?_ ?_ ?_
               num := S.num.insertAt (l1 := []) (l2 := []) (by simp [hc]) ?_ ?_
               back := BackOK.insertAt S (l1 := []) (l2 := []) (by simp [hc]) hpn ?_ ?_ ?_ } <;>
        first
        | rfl
        | (intro x; simp [setPrev, setParent, setFirst, numAdd, setNum, upd_apply, Heap.alive])
      rintro rfl; exact hnn
    · intro x; simp [setPrev, setParent, setFirst, numAdd, setNum, upd_apply]
  | cons f l =>
    rw [S.firstLast_cons hc]
    have hfn : f ≠ n := by rintro rfl; exact hnm (by simp [hc])
    simp only [bind, Except.bind, pure, Except.pure, Bool.false_eq_true, if_false]
    refine ⟨_, rfl, ⟨rfl, rfl, rfl, rfl, rfl, rfl, rfl, rfl⟩, ?_, ?_⟩
    · refine { toFShape := S.insertAt (l1 := []) (l2 := f :: l) (by simp [hc]) hn hpn hnd hp ?_ ?_ ?_ ?_ ?_
               num := S.num.insertAt (l1 := []) (l2 := f :: l) (by simp [hc]) ?_ ?_
               back := BackOK.insertAt S (l1 := []) (l2 := f :: l) (by simp [hc]) hpn ?_ ?_ ?_ } <;>
        first
        | rfl
        | (intro x; simp [setPrev, setNext, connectAdjacent, setParent, setFirst, numAdd, setNum, upd_apply, Heap.alive])
      by_cases e : x = n
      · subst e; simp [Ne.symm hfn, List.getLast?_eq_some_getLast]
      · by_cases e2 : x = f
        · subst e2; simp [e]
        · simp [e, e2, Ne.symm e2]
    · intro x
      simp [setPrev, setNext, connectAdjacent, setParent, setFirst, numAdd, setNum, upd_apply]

open Heap in
theorem insertLast_shape (S : Shape h ch) (hn : h.alive n = true) (hpn : h.parent n = none)
    (hp : h.alive p = true) (hnd : ¬ Desc ch n p) (isNew : Bool) :
    ∃ h', h.insertLastL n isNew p = .ok (h', .ok ()) ∧ SameNonLink h h' ∧
      Shape h' (upd ch p (ch p ++ [n])) ∧
      (∀ x, h'.parent x = if x = n then some p else h.parent x) := by
  have hnp : n ≠ p := fun e => hnd (e ▸ Desc.refl n)
  have hnm := S.not_mem_of_root hpn p
  have hnn := S.rootNext n hn hpn
  unfold insertLastL
  rw [loopCheck_false S.toFShape hp hnd]
  cases hc : ch p with
  | nil =>
    rw [S.firstLast_nil hp hc]
    simp only [bind, Except.bind, pure, Except.pure, Bool.false_eq_true, if_false]
    refine ⟨_, rfl, ⟨rfl, rfl, rfl, rfl, rfl, rfl, rfl, rfl⟩, ?_, ?_⟩
    · refine { toFShape := S.insertAt (l1 := []) (l2 := []) (by simp [hc]) hn hpn hnd hp ?_ ?_ ?_ ?_ ?_
               num := S.num.insertAt (l1 := []) (l2 := []) (by simp [hc]) ?_ ?_
               back := BackOK.insertAt S (l1 := []) (l2 := []) (by simp [hc]) hpn ?_ ?_ ?_ } <;>
        first
        | rfl
        | (intro x; simp [setPrev, setParent, setFirst, numAdd, setNum, upd_apply, Heap.alive])
      rintro rfl; exact hnn
    · intro x; simp [setPrev, setParent, setFirst, numAdd, setNum, upd_apply]
  | cons f l =>
    rw [S.firstLast_cons hc]
    have hfn : f ≠ n := by rintro rfl; exact hnm (by simp [hc])
    generalize hz : (f :: l).getLast (List.cons_ne_nil _ _) = z
    have hgl : (f :: l).getLast? = some z := by rw [List.getLast?_eq_some_getLast (List.cons_ne_nil _ _), hz]
    have hzn : z ≠ n := by
      rintro rfl; exact hnm (by rw [hc]; exact List.mem_of_getLast? hgl)
    have hfirst := S.first p hp
    rw [hc] at hfirst
    simp only [bind, Except.bind, pure, Except.pure, Bool.false_eq_true, if_false]
    refine ⟨_, rfl, ⟨rfl, rfl, rfl, rfl, rfl, rfl, rfl, rfl⟩, ?_, ?_⟩
    · refine { toFShape := S.insertAt (l1 := f :: l) (l2 := []) (by simp [hc]) hn hpn hnd hp ?_ ?_ ?_ ?_ ?_
               num := S.num.insertAt (l1 := f :: l) (l2 := []) (by simp [hc]) ?_ ?_
               back := BackOK.insertAt S (l1 := f :: l) (l2 := []) (by simp [hc]) hpn ?_ ?_ ?_ } <;>
        first
        | rfl
        | (intro x; try simp only [hgl]
           simp [setPrev, setNext, connectAdjacent, setParent, setFirst, numAdd, setNum, upd_apply, Heap.alive])
      · rintro rfl; simpa using hfirst
      · by_cases e : x = n
        · subst e; simp [Ne.symm hzn, hnn]
        · simp [e, @eq_comm _ z x]
      · by_cases e : x = n
        · subst e; simp
        · simp [e, @eq_comm _ f x]
    · intro x
      simp [setPrev, setNext, connectAdjacent, setParent, numAdd, setNum, upd_apply]

open Heap in
theorem insertBetween_shape {a b : NodeId} (S : Shape h ch) (hn : h.alive n = true)
    (hpn : h.parent n = none) (hnd : ¬ Desc ch n p) (hs : ch p = (l1 ++ [a]) ++ b :: l2) :
    ∃ h', h.insertBetweenL n p a b = .ok h' ∧ SameNonLink h h' ∧
      Shape h' (upd ch p ((l1 ++ [a]) ++ n :: b :: l2)) ∧
      (∀ x, h'.parent x = if x = n then some p else h.parent x) := by
  have hma : a ∈ ch p := by simp [hs]
  have hmb : b ∈ ch p := by simp [hs]
  have hp := S.alive_parent hma
  have hnp : n ≠ p := fun e => hnd (e ▸ Desc.refl n)
  have hnm := S.not_mem_of_root hpn p
  have hnn := S.rootNext n hn hpn
  have han : a ≠ n := by rintro rfl; exact hnm hma
  have hbn : b ≠ n := by rintro rfl; exact hnm hmb
  have hna : h.next a = some b := by
    have := S.next_at (p := p) (n := a) (l1 := l1) (l2 := b :: l2) (by simp [hs])
    simpa using this
  have hpb : h.prevCyc b = some a := by
    have := S.prevCyc_at hs
    simpa using this
  have hfirst := S.first p hp
  rw [hs] at hfirst
  unfold insertBetweenL betweenChecks
  rw [S.parentLink (S.alive_of_mem hma), S.parentLink (S.alive_of_mem hmb),
    S.parent_of_mem hma, S.parent_of_mem hmb, S.prevLink_at hs]
  simp only [nextLink, hna, bind, Except.bind, pure, Except.pure, ne_eq, not_true_eq_false, if_false,
    List.getLast?_append, List.getLast?_singleton, Option.some_or]
  refine ⟨_, rfl, ⟨rfl, rfl, rfl, rfl, rfl, rfl, rfl, rfl⟩, ?_, ?_⟩
  · refine { toFShape := S.insertAt hs hn hpn hnd hp ?_ ?_ ?_ ?_ ?_
             num := S.num.insertAt hs ?_ ?_
             back := BackOK.insertAt S hs hpn ?_ ?_ ?_ } <;>
      first
      | rfl
      | (intro x; simp [setPrev, setNext, connectAdjacent, setParent, setFirst, numAdd, setNum, upd_apply, Heap.alive])
    · rintro rfl
      rw [hfirst]
      cases l1 <;> simp
    · simp [@eq_comm _ a x, hna]
    · simp [@eq_comm _ b x, hpb]
  · intro x
    simp [setPrev, setNext, setParent, numAdd, setNum, upd_apply]

theorem DestSplit.eq {dest : InsertAs NodeId} (hd : DestSplit ch dest p l1 l2) :
    ch p = l1 ++ l2 := by
  cases hd with
  | first => simp
  | last => simp
  | prev hs => exact hs
  | next hs => simp [hs]

open Heap in
theorem insert_shape {dest : InsertAs NodeId} (S : Shape h ch) (hn : h.alive n = true)
    (hpn : h.parent n = none) (hp : h.alive p = true) (hnd : ¬ Desc ch n p)
    (hd : DestSplit ch dest p l1 l2) (isNew : Bool) :
    ∃ h', h.insertL n isNew dest = .ok (h', .ok ()) ∧ SameNonLink h h' ∧
      Shape h' (upd ch p (l1 ++ n :: l2)) ∧
      (∀ x, h'.parent x = if x = n then some p else h.parent x) := by
  cases hd with
  | first => exact insertFirst_shape S hn hpn hp hnd isNew
  | last => exact insertLast_shape S hn hpn hp hnd isNew
  | @prev _ a l1 l2 hs =>
    have hm : a ∈ ch p := by simp [hs]
    simp only [Heap.insertL]
    rw [S.parentLink (S.alive_of_mem hm), S.parent_of_mem hm]
    simp only
    rw [S.prevLink_at hs]
    rcases List.eq_nil_or_concat l1 with rfl | ⟨l, b, rfl⟩
    · simp only [List.getLast?_nil, bind, Except.bind]
      obtain ⟨h', h1, h2, h3⟩ := insertFirst_shape S hn hpn hp hnd isNew
      rw [hs] at h3
      exact ⟨h', h1, h2, h3⟩
    · rw [List.concat_eq_append] at *
      simp only [List.getLast?_append, List.getLast?_singleton, Option.some_or, bind, Except.bind]
      obtain ⟨h', h1, h2, h3⟩ := insertBetween_shape S hn hpn hnd hs
      rw [h1]
      exact ⟨h', rfl, h2, h3⟩
  | @next _ a l1 l2 hs =>
    have hm : a ∈ ch p := by simp [hs]
    have hnx := S.next_at hs
    simp only [Heap.insertL]
    rw [S.parentLink (S.alive_of_mem hm), S.parent_of_mem hm]
    simp only [nextLink, hnx]
    cases l2 with
    | nil =>
      simp only [List.head?_nil]
      obtain ⟨h', h1, h2, h3⟩ := insertLast_shape S hn hpn hp hnd isNew
      rw [hs] at h3
      exact ⟨h', h1, h2, h3⟩
    | cons b l2 =>
      simp only [List.head?_cons, bind, Except.bind]
      obtain ⟨h', h1, h2, h3⟩ := insertBetween_shape (a := a) (b := b) (l1 := l1) (l2 := l2) S hn hpn hnd (by simp [hs])
      rw [h1]
      exact ⟨h', rfl, h2, h3⟩

end Dendron
