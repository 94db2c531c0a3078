import Verif.Proofs.Detach

/-! Replacing a node by its children. -/

set_option linter.unusedSimpArgs false
set_option linter.unusedVariables false

set_option autoImplicit false

namespace Dendron
open RTree
variable {α : Type} {h h1 h2 h' : Heap α} {ch : NodeId → List NodeId} {n p r q : NodeId} {t t' : TreeId}
  {T R : RTree NodeId} {l1 l2 : List NodeId}

/-- The child lists after `n` below `p` has been replaced by its children. -/
def spliced (ch : NodeId → List NodeId) (p n : NodeId) (l1 l2 : List NodeId) : NodeId → List NodeId :=
  upd (upd ch p (l1 ++ (ch n ++ l2))) n []

theorem spliced_apply (q : NodeId) : spliced ch p n l1 l2 q =
    if q = n then [] else if q = p then l1 ++ (ch n ++ l2) else ch q := rfl

/-- Facts about the lists involved. -/
structure SpliceFacts (h : Heap α) (ch : NodeId → List NodeId) (n p : NodeId) (l1 l2 : List NodeId) :
    Prop where
  np : n ≠ p
  nodup : (l1 ++ (ch n ++ l2)).Nodup
  n1 : n ∉ l1
  n2 : n ∉ l2
  ncs : n ∉ ch n
  pcs : p ∉ ch n

theorem FShape.spliceFacts (S : FShape h ch) (hs : ch p = l1 ++ n :: l2) :
    SpliceFacts h ch n p l1 l2 := by
  have hm : n ∈ ch p := by simp [hs]
  obtain ⟨ht, hh⟩ := S.acyc
  have h1 := hh p n hm
  have hnp : n ≠ p := by rintro rfl; exact absurd h1 (Nat.lt_irrefl _)
  have hnd := S.nodup p
  rw [hs, nodup_mid] at hnd
  have hdis : ∀ x, x ∈ ch n → x ∉ l1 ++ l2 := by
    intro x hx hx'
    have : x ∈ ch p := by
      rw [hs]; simp at hx' ⊢; rcases hx' with h1 | h1 <;> simp [h1]
    exact hnp (S.parent_unique hx this)
  refine ⟨hnp, ?_, hnd.1, hnd.2.1, ?_, ?_⟩
  · have h12 := List.nodup_append.1 hnd.2.2
    rw [List.nodup_append, List.nodup_append]
    refine ⟨h12.1, ⟨S.nodup n, h12.2.1, ?_⟩, ?_⟩
    · rintro x hx y hy rfl; exact hdis x hx (by simp [hy])
    · rintro x hx y hy rfl
      rcases List.mem_append.1 hy with hy | hy
      · exact hdis x hy (by simp [hx])
      · exact h12.2.2 x hx x hy rfl
  · intro e; exact absurd (hh n n e) (Nat.lt_irrefl _)
  · intro e; have := hh n p e; exact absurd (Nat.lt_trans h1 this) (Nat.lt_irrefl _)

theorem FShape.spliceAt (S : FShape h ch) (hs : ch p = l1 ++ n :: l2)
    (halive : ∀ x, h'.alive x = h.alive x)
    (hpar : ∀ x, h'.parent x = if x = n then none else if x ∈ ch n then some p else h.parent x)
    (hfc : ∀ x, h'.firstChild x = if x = n then none
      else if x = p then (l1 ++ (ch n ++ l2)).head? else h.firstChild x)
    (hnx : ∀ x, h'.next x = if x = n then none else if l1.getLast? = some x then (ch n ++ l2).head?
      else if (ch n).getLast? = some x then l2.head? else h.next x)
    (hnn : h'.nNode = h.nNode) : FShape h' (spliced ch p n l1 l2) := by
  obtain ⟨hnp, hnd, hn1, hn2, hncs, hpcs⟩ := S.spliceFacts hs
  have hm : n ∈ ch p := by simp [hs]
  have ha := S.alive_of_mem hm
  have hp := S.alive_parent hm
  have hd := List.nodup_append.1 hnd
  have hd2 := List.nodup_append.1 hd.2.1
  have hmem : ∀ x, x ∈ l1 ++ (ch n ++ l2) ↔ (x ∈ ch p ∧ x ≠ n) ∨ x ∈ ch n := by
    intro x
    rw [hs]
    simp only [List.mem_append, List.mem_cons]
    constructor
    · rintro (h1 | h1 | h1)
      · exact .inl ⟨.inl h1, fun e => hn1 (e ▸ h1)⟩
      · exact .inr h1
      · exact .inl ⟨.inr (.inr h1), fun e => hn2 (e ▸ h1)⟩
    · rintro (⟨h1 | h1 | h1, h2⟩ | h1)
      · exact .inl h1
      · exact absurd h1 h2
      · exact .inr (.inr h1)
      · exact .inr (.inl h1)
  constructor
  · intro q hq
    rw [halive] at hq
    rw [spliced_apply]
    by_cases e : q = n
    · simp [e]
    · by_cases e2 : q = p
      · subst e2; rw [hp] at hq; simp at hq
      · simp [e, e2, S.dead q hq]
  · intro q hq
    rw [halive] at hq
    rw [spliced_apply, hfc]
    by_cases e : q = n
    · simp [e]
    · by_cases e2 : q = p
      · subst e2; simp [e]
      · simp [e, e2, S.first q hq]
  · intro q
    rw [spliced_apply]
    split
    · simp
    · split
      · exact hnd
      · exact S.nodup q
  · intro q c
    rw [halive, hpar, spliced_apply]
    by_cases e : q = n
    · subst e
      simp only [if_true, List.not_mem_nil, false_iff, not_and]
      intro hc
      by_cases e1 : c = q
      · simp [e1]
      · by_cases e2 : c ∈ ch q
        · simp [e1, e2, Ne.symm hnp]
        · simp only [e1, e2, if_false]
          intro e3; exact e2 ((S.mem q c).2 ⟨hc, e3⟩)
    · by_cases e2 : q = p
      · subst e2
        simp only [e, if_true, if_false]
        rw [hmem]
        by_cases e1 : c = n
        · subst e1; simp [hncs]
        · by_cases e3 : c ∈ ch n
          · simp [e1, e3, S.alive_of_mem e3]
          · simp [e1, e3, S.mem q c]
      · simp only [e, e2, if_false]
        by_cases e1 : c = n
        · subst e1
          simp only [if_true, reduceCtorEq, and_false, iff_false]
          intro e3; exact e2 (S.parent_unique e3 hm)
        · by_cases e3 : c ∈ ch n
          · simp only [e1, e3, if_true, if_false]
            constructor
            · intro e4; exact absurd (S.parent_unique e4 e3) e
            · rintro ⟨_, e4⟩; exact absurd (by simpa using e4.symm) e2
          · simp [e1, e3, S.mem q c]
  · intro q
    rw [spliced_apply]
    by_cases e : q = n
    · simp [e, Seg]
    · by_cases e2 : q = p
      · subst e2
        simp only [e, if_true, if_false]
        have hseg := S.seg q
        rw [hs, Seg.append] at hseg
        obtain ⟨hsg1, hsgn, hsg2⟩ := hseg
        rw [Seg.append, Seg.append]
        simp only [Option.or_none]
        refine ⟨hsg1.reEnd hd.1 ?_ ?_, (S.seg n).reEnd hd2.1 ?_ ?_, (Seg.congr ?_).1 hsg2⟩
        · intro x hx hne
          have hxn : x ≠ n := fun e => hn1 (e ▸ hx)
          have : (ch n).getLast? ≠ some x := fun e =>
            hd.2.2 x hx x (List.mem_append_left _ (List.mem_of_getLast? e)) rfl
          rw [hnx]; simp [hxn, hne, this]
        · intro x hx
          have hxn : x ≠ n := fun e => hn1 (e ▸ List.mem_of_getLast? hx)
          rw [hnx]; simp [hxn, hx]
        · intro x hx hne
          have hxn : x ≠ n := fun e => hncs (e ▸ hx)
          have : l1.getLast? ≠ some x := fun e =>
            hd.2.2 x (List.mem_of_getLast? e) x (List.mem_append_left _ hx) rfl
          rw [hnx]; simp [hxn, hne, this]
        · intro x hx
          have hxn : x ≠ n := by rintro rfl; exact hncs (List.mem_of_getLast? hx)
          have : l1.getLast? ≠ some x := fun e =>
            hd.2.2 x (List.mem_of_getLast? e) x
              (List.mem_append_left _ (List.mem_of_getLast? hx)) rfl
          rw [hnx]; simp [hxn, hx, this]
        · intro x hx
          have hxn : x ≠ n := fun e => hn2 (e ▸ hx)
          have t1 : l1.getLast? ≠ some x := fun e =>
            hd.2.2 x (List.mem_of_getLast? e) x (List.mem_append_right _ hx) rfl
          have t2 : (ch n).getLast? ≠ some x := fun e =>
            hd2.2.2 x (List.mem_of_getLast? e) x hx rfl
          rw [hnx]; simp [hxn, t1, t2]
      · simp only [e, e2, if_false]
        refine (Seg.congr ?_).1 (S.seg q)
        intro x hx
        have hxn : x ≠ n := by rintro rfl; exact e2 (S.parent_unique hx hm)
        have t1 : l1.getLast? ≠ some x := fun e => e2 (S.parent_unique hx
          (by rw [hs]; exact List.mem_append_left _ (List.mem_of_getLast? e)))
        have t2 : (ch n).getLast? ≠ some x := fun e3 =>
          e (S.parent_unique hx (List.mem_of_getLast? e3))
        rw [hnx]; simp [hxn, t1, t2]
  · intro c hc hpc
    rw [halive] at hc
    rw [hpar] at hpc
    rw [hnx]
    by_cases e : c = n
    · simp [e]
    · by_cases e2 : c ∈ ch n
      · simp [e, e2] at hpc
      · simp only [e, e2, if_false] at hpc ⊢
        have t1 : l1.getLast? ≠ some c := fun e => S.not_mem_of_root hpc p
          (by rw [hs]; exact List.mem_append_left _ (List.mem_of_getLast? e))
        have t2 : (ch n).getLast? ≠ some c := fun e3 => e2 (List.mem_of_getLast? e3)
        simp [t1, t2, S.rootNext c hc hpc]
  · obtain ⟨ht, hh⟩ := S.acyc
    refine ⟨ht, ?_⟩
    intro q c hc
    rw [spliced_apply] at hc
    by_cases e : q = n
    · simp [e] at hc
    · by_cases e2 : q = p
      · subst e2
        simp only [e, if_true, if_false] at hc
        rcases (hmem c).1 hc with ⟨h1, _⟩ | h1
        · exact hh q c h1
        · exact Nat.lt_trans (hh n c h1) (hh q n hm)
      · simp only [e, e2, if_false] at hc; exact hh q c hc
  · intro x hx
    rw [halive] at hx
    rw [hnn]; exact S.bound x hx

theorem BackOK.spliceAt (S : Shape h ch) (hs : ch p = l1 ++ n :: l2)
    (hpos : ch n ≠ [] ∨ l1 = [] ∨ l2 ≠ [])
    (halive : ∀ x, h'.alive x = h.alive x)
    (hpar : ∀ x, h'.parent x = if x = n then none else if x ∈ ch n then some p else h.parent x)
    (hpv : ∀ x, h'.prevCyc x = if x = n then some n
      else if (ch n).head? = some x then l1.getLast?.or (l2.getLast?.or (ch n).getLast?)
      else if l2.head? = some x then (ch n).getLast?.or (l1.getLast?.or l2.getLast?)
      else if l2 = [] ∧ ch n ≠ [] ∧ l1.head? = some x then (ch n).getLast?
      else h.prevCyc x) :
    BackOK h' (spliced ch p n l1 l2) := by
  obtain ⟨hnp, hnd, hn1, hn2, hncs, hpcs⟩ := S.spliceFacts hs
  have hm : n ∈ ch p := by simp [hs]
  have hd := List.nodup_append.1 hnd
  have hd2 := List.nodup_append.1 hd.2.1
  constructor
  · intro q
    rw [spliced_apply]
    by_cases e : q = n
    · simp [e, PSeg]
    · by_cases e2 : q = p
      · subst e2
        simp only [e, if_true, if_false]
        have hseg := S.back.pseg q
        rw [hs, PSeg.append] at hseg
        obtain ⟨hsg1, hsgn, hsg2⟩ := hseg
        have hsgc := S.back.pseg n
        rw [PSeg.append, PSeg.append]
        refine ⟨hsg1.reBeg hd.1 ?_ ?_, hsgc.reBeg hd2.1 ?_ ?_, hsg2.reBeg hd2.2.1 ?_ ?_⟩
        · intro x hx hne
          have hxn : x ≠ n := fun e => hn1 (e ▸ hx)
          have t1 : (ch n).head? ≠ some x := fun e =>
            hd.2.2 x hx x (List.mem_append_left _ (List.mem_of_head? e)) rfl
          have t2 : l2.head? ≠ some x := fun e =>
            hd.2.2 x hx x (List.mem_append_right _ (List.mem_of_head? e)) rfl
          rw [hpv]; simp [hxn, hne, t1, t2]
        · intro x hx
          have hxl := List.mem_of_head? hx
          have hxn : x ≠ n := fun e => hn1 (e ▸ hxl)
          have t1 : (ch n).head? ≠ some x := fun e =>
            hd.2.2 x hxl x (List.mem_append_left _ (List.mem_of_head? e)) rfl
          have t2 : l2.head? ≠ some x := fun e =>
            hd.2.2 x hxl x (List.mem_append_right _ (List.mem_of_head? e)) rfl
          have hl1 : l1 ≠ [] := by rintro rfl; simp at hxl
          rw [hpv]
          simp only [hxn, t1, t2, if_false, hx, and_true]
          have hpx : h.prevCyc x = (l1 ++ n :: l2).getLast? := by
            obtain ⟨y, l, rfl⟩ := List.exists_cons_of_ne_nil hl1
            simp only [List.head?_cons, Option.some.injEq] at hx
            subst hx
            exact hsg1.1
          by_cases e3 : l2 = []
          · subst e3
            by_cases e4 : ch n = []
            · simp [e4, hl1] at hpos
            · simp only [e4, ne_eq, not_false_eq_true, and_self, if_true, List.append_nil]
              rw [List.getLast?_append, List.getLast?_eq_some_getLast e4]; simp
          · simp only [e3, false_and, if_false, hpx]
            rw [List.getLast?_append, List.getLast?_append, List.getLast?_append,
              List.getLast?_cons, List.getLast?_eq_some_getLast e3]
            simp [List.getLast?_eq_some_getLast e3]
        · intro x hx hne
          have hxn : x ≠ n := fun e => hncs (e ▸ hx)
          have t2 : l2.head? ≠ some x := fun e =>
            hd2.2.2 x hx x (List.mem_of_head? e) rfl
          have t3 : l1.head? ≠ some x := fun e =>
            hd.2.2 x (List.mem_of_head? e) x (List.mem_append_left _ hx) rfl
          rw [hpv]; simp [hxn, hne, t2, t3]
        · intro x hx
          have hxl := List.mem_of_head? hx
          have hxn : x ≠ n := fun e => hncs (e ▸ hxl)
          have hcs : ch n ≠ [] := by intro e; rw [e] at hxl; simp at hxl
          rw [hpv]
          simp only [hxn, hx, if_false, if_true]
          rw [List.getLast?_append, List.getLast?_append]
          cases l1.getLast? <;> simp
        · intro x hx hne
          have hxn : x ≠ n := fun e => hn2 (e ▸ hx)
          have hl2 : l2 ≠ [] := by rintro rfl; simp at hx
          have t1 : (ch n).head? ≠ some x := fun e =>
            hd2.2.2 x (List.mem_of_head? e) x hx rfl
          rw [hpv]; simp [hxn, hne, t1, hl2]
        · intro x hx
          have hxl := List.mem_of_head? hx
          have hxn : x ≠ n := fun e => hn2 (e ▸ hxl)
          have hl2 : l2 ≠ [] := by rintro rfl; simp at hxl
          have t1 : (ch n).head? ≠ some x := fun e =>
            hd2.2.2 x (List.mem_of_head? e) x hxl rfl
          rw [hpv]
          simp only [hxn, hx, t1, if_false, if_true]
          rw [List.getLast?_append, List.getLast?_append, List.getLast?_eq_some_getLast hl2]
          cases l1.getLast? <;> cases (ch n).getLast? <;> simp
      · simp only [e, e2, if_false]
        refine (PSeg.congr ?_).1 (S.back.pseg q)
        intro x hx
        have hxn : x ≠ n := by rintro rfl; exact e2 (S.parent_unique hx hm)
        have hxp : x ∉ l1 ++ n :: l2 := by
          intro e3; rw [← hs] at e3; exact e2 (S.parent_unique hx e3)
        have t1 : (ch n).head? ≠ some x := fun e3 =>
          e (S.parent_unique hx (List.mem_of_head? e3))
        have t2 : l2.head? ≠ some x := fun e3 => hxp (by simp [List.mem_of_head? e3])
        have t3 : l1.head? ≠ some x := fun e3 => hxp (by simp [List.mem_of_head? e3])
        rw [hpv]; simp [hxn, t1, t2, t3]
  · intro c hc hpc
    rw [halive] at hc
    rw [hpar] at hpc
    rw [hpv]
    by_cases e : c = n
    · simp [e]
    · by_cases e2 : c ∈ ch n
      · simp [e, e2] at hpc
      · simp only [e, e2, if_false] at hpc ⊢
        have hcp : c ∉ l1 ++ n :: l2 := by
          rw [← hs]; exact S.not_mem_of_root hpc p
        have t1 : (ch n).head? ≠ some c := fun e3 => e2 (List.mem_of_head? e3)
        have t2 : l2.head? ≠ some c := fun e3 => hcp (by simp [List.mem_of_head? e3])
        have t3 : l1.head? ≠ some c := fun e3 => hcp (by simp [List.mem_of_head? e3])
        simp [t1, t2, t3, S.back.rootPrev c hc hpc]

theorem NumOK.spliceAt (S : NumOK h ch) (hs : ch p = l1 ++ n :: l2) (hnp : n ≠ p)
    (ha : h.alive n = true) (halive : ∀ x, h'.alive x = h.alive x)
    (hnum : ∀ x, h'.numCh x = if x = n then 0 else if x = p then h.numCh p - 1 + h.numCh n
      else h.numCh x) :
    NumOK h' (spliced ch p n l1 l2) := by
  intro q hq
  rw [halive] at hq
  rw [hnum, spliced_apply]
  by_cases e : q = n
  · simp [e]
  · by_cases e2 : q = p
    · subst e2
      simp only [e, if_true, if_false, S q hq, S n ha, hs, List.length_append, List.length_cons]
      omega
    · simp [e, e2, S q hq]

/-- The link resets at the start of the tail of `try_replace_with_children`. -/
def Heap.isolate (h : Heap α) (n : NodeId) : Heap α :=
  ((((h.setParent n none).setFirst n none).setPrev n (some n)).setNext n none).setNum n 0

theorem replaceTail_eq (h : Heap α) (n : NodeId) :
    h.replaceTailL n = (h.isolate n).createNewTree n := rfl

theorem sameNonLink_tail (h : Heap α) (p n : NodeId) (a b : Nat) :
    SameNonLink h (((h.setNum p a).numAdd p b).isolate n) :=
  ⟨rfl, rfl, rfl, rfl, rfl, rfl, rfl, rfl⟩

open Heap in
/-- Effect of the non-root branch and of the link resets. -/
theorem replaceNonRoot_eq (S : Shape h ch) (hs : ch p = l1 ++ n :: l2) :
    ∃ h1, h.replaceNonRootL n p (ch n).head? = .ok h1 ∧ SameNonLink h (h1.isolate n) ∧
      (∀ x, (h1.isolate n).parent x =
        if x = n then none else if x ∈ ch n then some p else h.parent x) ∧
      (∀ x, (h1.isolate n).firstChild x = if x = n then none
        else if x = p then (l1 ++ (ch n ++ l2)).head? else h.firstChild x) ∧
      (∀ x, (h1.isolate n).next x = if x = n then none
        else if l1.getLast? = some x then (ch n ++ l2).head?
        else if (ch n).getLast? = some x then l2.head? else h.next x) ∧
      (∀ x, (h1.isolate n).prevCyc x = if x = n then some n
        else if (ch n).head? = some x then l1.getLast?.or (l2.getLast?.or (ch n).getLast?)
        else if l2.head? = some x then (ch n).getLast?.or (l1.getLast?.or l2.getLast?)
        else if l2 = [] ∧ ch n ≠ [] ∧ l1.head? = some x then (ch n).getLast?
        else h.prevCyc x) ∧
      (∀ x, (h1.isolate n).numCh x = if x = n then 0
        else if x = p then h.numCh p - 1 + h.numCh n else h.numCh x) := by
  obtain ⟨hnp, hnd, hn1, hn2, hncs, hpcs⟩ := S.spliceFacts hs
  have hm : n ∈ ch p := by simp [hs]
  have ha := S.alive_of_mem hm
  have hp := S.alive_parent hm
  have hd := List.nodup_append.1 hnd
  have hd2 := List.nodup_append.1 hd.2.1
  -- the loop
  obtain ⟨h0, hh0⟩ : ∃ h0 : Heap α, h0 = { h with
      parent := fun x => if x ∈ ch n then some p else h.parent x } := ⟨_, rfl⟩
  have hloop : Heap.reparentLoopL (h.nNode + 1) (ch n).head? p h = .ok h0 := by
    rw [reparentLoop_spec p (ch n) _ h (S.seg n) (S.length_lt n), hh0]
  have h0al : ∀ x, h0.alive x = h.alive x := by intro x; subst hh0; rfl
  have h0nx : h0.next = h.next := by subst hh0; rfl
  have h0pv : h0.prevCyc = h.prevCyc := by subst hh0; rfl
  have h0fc : h0.firstChild = h.firstChild := by subst hh0; rfl
  have h0nu : h0.numCh = h.numCh := by subst hh0; rfl
  have h0pc : ∀ x, h0.prevCycLink x = h.prevCycLink x := by
    intro x; subst hh0; rfl
  have hprev : h0.prevLink n = .ok l1.getLast? := by
    have : h0.prevLink n = h.prevLink n := by subst hh0; rfl
    rw [this]; exact S.prevLink_at hs
  have hnext : h0.nextLink n = l2.head? := by
    simp only [Heap.nextLink, h0nx]; exact S.next_at hs
  have hnump : h.numCh p = (l1 ++ n :: l2).length := by rw [S.num p hp, hs]
  -- the result
  have hfp : h.firstChild p = (l1 ++ n :: l2).head? := by rw [S.first p hp, hs]
  have hpvn : h.prevCyc n = l1.getLast?.or (l1 ++ n :: l2).getLast? := by
    have := S.back.pseg p; rw [hs] at this; exact this.at
  have hlast : ∀ f cs, ch n = f :: cs → h.prevCyc f = (ch n).getLast? ∧
      h0.prevCycLink f = .ok ((f :: cs).getLast (by simp)) := by
    intro f cs hf
    have h1 := S.back.pseg n
    rw [hf] at h1
    have h2 := h1.1
    rw [hf]
    refine ⟨h2, ?_⟩
    rw [h0pc]
    unfold Heap.prevCycLink Heap.upgrade
    rw [h2, List.getLast?_eq_some_getLast (List.cons_ne_nil _ _)]
    have : h.alive ((f :: cs).getLast (by simp)) = true := by
      apply S.alive_of_mem (p := n); rw [hf]; exact List.getLast_mem _
    simp [Option.filter, this]
  -- the relinked heap
  have hrel : ∃ h1, (match (ch n).head? with
      | some f => h0.replaceRelinkSomeL p f l1.getLast? l2.head?
      | none => h0.replaceRelinkNoneL p l1.getLast? l2.head?) = .ok h1 ∧ SameNonLink h0 h1 ∧
      h1.parent = h0.parent ∧ h1.numCh = h0.numCh ∧
      (∀ x, x ≠ n → h1.firstChild x = if x = p then (l1 ++ (ch n ++ l2)).head? else h.firstChild x) ∧
      (∀ x, x ≠ n → h1.next x = if l1.getLast? = some x then (ch n ++ l2).head?
        else if (ch n).getLast? = some x then l2.head? else h.next x) ∧
      (∀ x, x ≠ n → h1.prevCyc x =
        if (ch n).head? = some x then l1.getLast?.or (l2.getLast?.or (ch n).getLast?)
        else if l2.head? = some x then (ch n).getLast?.or (l1.getLast?.or l2.getLast?)
        else if l2 = [] ∧ ch n ≠ [] ∧ l1.head? = some x then (ch n).getLast?
        else h.prevCyc x) := by
    cases hcs : ch n with
    | nil =>
      simp only [List.head?_nil, Heap.replaceRelinkNoneL]
      rcases List.eq_nil_or_concat l1 with e1 | ⟨k1, a, e1⟩
      · subst e1
        cases l2 with
        | nil =>
          simp only [List.getLast?_nil, List.head?_nil, List.nil_append]
          refine ⟨_, rfl, ⟨rfl, rfl, rfl, rfl, rfl, rfl, rfl, rfl⟩, rfl, rfl, ?_, ?_, ?_⟩
          · intro x hx; simp only [Heap.setFirst, upd_apply, h0fc]
          · intro x hx; simp [Heap.setFirst, h0nx]
          · intro x hx; simp [Heap.setFirst, h0pv]
        | cons b k2 =>
          have hw : h0.lastChildLinkWeak p = some (b :: k2).getLast? := by
            simp only [Heap.lastChildLinkWeak, Heap.firstChildLink, h0fc, hfp, h0pv]
            simp [hpvn, List.getLast?_cons_cons]
          simp only [List.getLast?_nil, List.head?_cons, hw, List.nil_append]
          refine ⟨_, rfl, ⟨rfl, rfl, rfl, rfl, rfl, rfl, rfl, rfl⟩, rfl, rfl, ?_, ?_, ?_⟩
          · intro x hx; simp only [Heap.setFirst, Heap.setPrev, upd_apply, h0fc, List.head?_cons]
          · intro x hx; simp [Heap.setFirst, Heap.setPrev, h0nx]
          · intro x hx
            simp only [Heap.setFirst, Heap.setPrev, upd_apply, h0pv]
            by_cases e : x = b
            · simp [e]
            · simp [e, Ne.symm e]
      · have hla : l1.getLast? = some a := by rw [e1]; simp
        have hl1 : l1 ≠ [] := by rw [e1]; simp
        cases l2 with
        | nil =>
          simp only [hla, List.head?_nil]
          refine ⟨_, rfl, ⟨rfl, rfl, rfl, rfl, rfl, rfl, rfl, rfl⟩, rfl, rfl, ?_, ?_, ?_⟩
          · intro x hx
            simp only [Heap.setNext, h0fc]
            by_cases e : x = p
            · subst e; rw [hfp]
              obtain ⟨g, k, hg⟩ := List.exists_cons_of_ne_nil hl1
              simp [hg]
            · simp [e]
          · intro x hx
            simp only [Heap.setNext, upd_apply, h0nx]
            by_cases e : x = a
            · simp [e]
            · simp [e, Ne.symm e]
          · intro x hx; simp [Heap.setNext, h0pv]
        | cons b k2 =>
          simp only [hla, List.head?_cons]
          refine ⟨_, rfl, ⟨rfl, rfl, rfl, rfl, rfl, rfl, rfl, rfl⟩, rfl, rfl, ?_, ?_, ?_⟩
          · intro x hx
            simp only [Heap.connectAdjacent, Heap.setNext, Heap.setPrev, h0fc]
            by_cases e : x = p
            · subst e; rw [hfp]
              obtain ⟨g, k, hg⟩ := List.exists_cons_of_ne_nil hl1
              simp [hg]
            · simp [e]
          · intro x hx
            simp only [Heap.connectAdjacent, Heap.setNext, Heap.setPrev, upd_apply, h0nx]
            by_cases e : x = a
            · simp [e]
            · simp [e, Ne.symm e]
          · intro x hx
            simp only [Heap.connectAdjacent, Heap.setNext, Heap.setPrev, upd_apply, h0pv]
            by_cases e : x = b
            · simp [e]
            · simp [e, Ne.symm e]
    | cons f cs =>
      obtain ⟨hpf, hlf⟩ := hlast f cs hcs
      obtain ⟨z, hz⟩ : ∃ z, z = (f :: cs).getLast (by simp) := ⟨_, rfl⟩
      have hzl : (f :: cs).getLast? = some z := by
        rw [hz]; exact List.getLast?_eq_some_getLast (List.cons_ne_nil _ _)
      rw [← hz] at hlf
      simp only [List.head?_cons, Heap.replaceRelinkSomeL, hlf, bind, Except.bind]
      have hzm : z ∈ ch n := by rw [hcs]; exact List.mem_of_getLast? hzl
      have hfm : f ∈ ch n := by rw [hcs]; simp
      rw [hcs, hzl] at hpf
      rcases List.eq_nil_or_concat l1 with e1 | ⟨k1, a, e1⟩
      · subst e1
        cases l2 with
        | nil =>
          simp only [List.getLast?_nil, List.head?_nil, pure, Except.pure]
          refine ⟨_, rfl, ⟨rfl, rfl, rfl, rfl, rfl, rfl, rfl, rfl⟩, rfl, rfl, ?_, ?_, ?_⟩
          · intro x hx; simp [Heap.setFirst, upd_apply, h0fc]
          · intro x hx
            simp only [Heap.setFirst, h0nx, hzl]
            by_cases e : x = z
            · subst e
              have := S.seg n
              rw [hcs] at this
              obtain ⟨k, hk⟩ : ∃ k, f :: cs = k ++ [x] := by
                refine ⟨(f :: cs).dropLast, ?_⟩
                rw [hz, List.dropLast_concat_getLast]
              rw [hk] at this
              have := this.at
              simp [this]
            · simp [Ne.symm e]
          · intro x hx
            simp only [Heap.setFirst, h0pv, hzl]
            by_cases e : x = f
            · subst e; simp [hpf]
            · simp [Ne.symm e]
        | cons b k2 =>
          have hw : ∀ k : Heap α, k.firstChild = h.firstChild →
              k.prevCyc n = h.prevCyc n →
              k.lastChildLinkWeak p = some (b :: k2).getLast? := by
            intro k hk1 hk2
            simp only [Heap.lastChildLinkWeak, Heap.firstChildLink, hk1, hfp]
            simp [hk2, hpvn, List.getLast?_cons_cons]
          have hbn : b ≠ n := by rintro rfl; simp at hn2
          have hbf : b ≠ f := by
            rintro rfl; exact hd2.2.2 b hfm b (by simp) rfl
          have := hw (h0.connectAdjacent z b) h0fc (by
            simp [Heap.connectAdjacent, Heap.setNext, Heap.setPrev, h0pv, Ne.symm hbn])
          simp only [List.getLast?_nil, List.head?_cons, this, pure, Except.pure]
          refine ⟨_, rfl, ⟨rfl, rfl, rfl, rfl, rfl, rfl, rfl, rfl⟩, rfl, rfl, ?_, ?_, ?_⟩
          · intro x hx
            simp [Heap.setFirst, Heap.connectAdjacent, Heap.setNext, Heap.setPrev, upd_apply, h0fc]
          · intro x hx
            simp only [Heap.setFirst, Heap.connectAdjacent, Heap.setNext, Heap.setPrev, upd_apply,
              h0nx, hzl]
            by_cases e : x = z
            · simp [e]
            · simp [e, Ne.symm e]
          · intro x hx
            simp only [Heap.setFirst, Heap.connectAdjacent, Heap.setNext, Heap.setPrev, upd_apply,
              h0pv, hzl]
            by_cases e : x = f
            · subst e; simp [List.getLast?_eq_some_getLast (List.cons_ne_nil b k2)]
            · by_cases e2 : x = b
              · subst e2; simp [e, Ne.symm e]
              · simp [e, Ne.symm e, e2, Ne.symm e2]
      · have hla : l1.getLast? = some a := by rw [e1]; simp
        have hl1 : l1 ≠ [] := by rw [e1]; simp
        have ham : a ∈ l1 := List.mem_of_getLast? hla
        have haz : a ≠ z := by
          rintro rfl; exact hd.2.2 a ham a (List.mem_append_left _ hzm) rfl
        cases l2 with
        | nil =>
          obtain ⟨g, k, hgk⟩ := List.exists_cons_of_ne_nil hl1
          have hgm : g ∈ l1 := by rw [hgk]; simp
          have hgf : g ≠ f := by
            rintro rfl; exact hd.2.2 g hgm g (List.mem_append_left _ hfm) rfl
          have hfl : (h0.connectAdjacent a f).firstChildLink p = some g := by
            simp [Heap.connectAdjacent, Heap.setNext, Heap.setPrev, Heap.firstChildLink, h0fc, hfp,
              hgk]
          simp only [hla, List.head?_nil, hfl, pure, Except.pure]
          refine ⟨_, rfl, ⟨rfl, rfl, rfl, rfl, rfl, rfl, rfl, rfl⟩, rfl, rfl, ?_, ?_, ?_⟩
          · intro x hx
            simp only [Heap.connectAdjacent, Heap.setNext, Heap.setPrev, h0fc]
            by_cases e : x = p
            · subst e; rw [hfp]; simp [hgk]
            · simp [e]
          · intro x hx
            simp only [Heap.connectAdjacent, Heap.setNext, Heap.setPrev, upd_apply, h0nx, hzl]
            by_cases e : x = a
            · simp [e]
            · by_cases e2 : x = z
              · subst e2
                have := S.seg n
                rw [hcs] at this
                obtain ⟨k, hk⟩ : ∃ k, f :: cs = k ++ [x] := by
                  refine ⟨(f :: cs).dropLast, ?_⟩
                  rw [hz, List.dropLast_concat_getLast]
                rw [hk] at this
                have := this.at
                simp [this, e, Ne.symm e]
              · simp [e, Ne.symm e, Ne.symm e2]
          · intro x hx
            simp only [Heap.connectAdjacent, Heap.setNext, Heap.setPrev, upd_apply, h0pv, hzl]
            by_cases e : x = f
            · subst e; simp [Ne.symm hgf]
            · by_cases e2 : x = g
              · subst e2; simp [e, Ne.symm e, hgk]
              · simp [e, Ne.symm e, e2, Ne.symm e2, hgk]
        | cons b k2 =>
          have hbf : b ≠ f := by
            rintro rfl; exact hd2.2.2 b hfm b (by simp) rfl
          simp only [hla, List.head?_cons, pure, Except.pure]
          refine ⟨_, rfl, ⟨rfl, rfl, rfl, rfl, rfl, rfl, rfl, rfl⟩, rfl, rfl, ?_, ?_, ?_⟩
          · intro x hx
            simp only [Heap.connectAdjacent, Heap.setNext, Heap.setPrev, h0fc]
            by_cases e : x = p
            · subst e; rw [hfp]
              obtain ⟨g, k, hg⟩ := List.exists_cons_of_ne_nil hl1
              simp [hg]
            · simp [e]
          · intro x hx
            simp only [Heap.connectAdjacent, Heap.setNext, Heap.setPrev, upd_apply, h0nx, hzl]
            by_cases e : x = a
            · subst e; simp [haz]
            · by_cases e2 : x = z
              · subst e2; simp [e, Ne.symm e]
              · simp [e, Ne.symm e, e2, Ne.symm e2]
          · intro x hx
            simp only [Heap.connectAdjacent, Heap.setNext, Heap.setPrev, upd_apply, h0pv, hzl]
            by_cases e : x = f
            · subst e; simp [Ne.symm hbf]
            · by_cases e2 : x = b
              · subst e2; simp [e, Ne.symm e]
              · simp [e, Ne.symm e, e2, Ne.symm e2]
  obtain ⟨h1, hr1, s1, q1, q2, q3, q4, q5⟩ := hrel
  have hnu1 : h1.numCh p ≠ 0 := by rw [q2, h0nu, hnump]; simp
  obtain ⟨k, hk⟩ : ∃ k, k = (h1.setNum p (h1.numCh p - 1)).numAdd p
    ((h1.setNum p (h1.numCh p - 1)).numCh n) := ⟨_, rfl⟩
  refine ⟨k, ?_, ?_, ?_, ?_, ?_, ?_, ?_⟩
  · have hns : ¬ h1.numCh p < 1 := by omega
    simp only [Heap.replaceNonRootL, hloop, bind, Except.bind, hprev, hnext]
    have e0 : h0.next = h.next := h0nx
    cases hcs : (ch n).head? with
    | none =>
      rw [hcs] at hr1
      simp only at hr1 ⊢
      simp only [hr1, hnu1, if_false, Heap.numSub, hns, pure, Except.pure, hk]
    | some f =>
      rw [hcs] at hr1
      simp only at hr1 ⊢
      simp only [hr1, hnu1, if_false, Heap.numSub, hns, pure, Except.pure, hk]
  · have e0 : SameNonLink h h0 := by subst hh0; exact ⟨rfl, rfl, rfl, rfl, rfl, rfl, rfl, rfl⟩
    refine (e0.trans s1).trans ?_
    rw [hk]; exact sameNonLink_tail _ _ _ _ _
  · intro x
    have : k.parent = h1.parent := by subst hk; rfl
    simp only [Heap.isolate, Heap.setNum, Heap.setNext, Heap.setPrev, Heap.setFirst, Heap.setParent,
      upd_apply, this, q1]
    subst hh0; rfl
  · intro x
    have : k.firstChild = h1.firstChild := by subst hk; rfl
    simp only [Heap.isolate, Heap.setNum, Heap.setNext, Heap.setPrev, Heap.setFirst, Heap.setParent,
      upd_apply, this]
    by_cases e : x = n
    · simp [e]
    · simp only [e, if_false]; exact q3 x e
  · intro x
    have : k.next = h1.next := by subst hk; rfl
    simp only [Heap.isolate, Heap.setNum, Heap.setNext, Heap.setPrev, Heap.setFirst, Heap.setParent,
      upd_apply, this]
    by_cases e : x = n
    · simp [e]
    · simp only [e, if_false]; exact q4 x e
  · intro x
    have : k.prevCyc = h1.prevCyc := by subst hk; rfl
    simp only [Heap.isolate, Heap.setNum, Heap.setNext, Heap.setPrev, Heap.setFirst, Heap.setParent,
      upd_apply, this]
    by_cases e : x = n
    · simp [e]
    · simp only [e, if_false]; exact q5 x e
  · intro x
    subst hk
    simp only [Heap.isolate, Heap.setNum, Heap.setNext, Heap.setPrev, Heap.setFirst, Heap.setParent,
      upd_apply, Heap.numAdd, q2, h0nu]
    by_cases e : x = n
    · simp [e]
    · by_cases e2 : x = p
      · simp [e, e2, hnp]
      · simp [e, e2]

end Dendron
