import Verif.Proofs.LinkOps

/-!
Insertions do not touch and do not see the parent, previous-sibling and counter fields of nodes outside
of the destination.
-/

set_option linter.unusedSimpArgs false
set_option linter.unusedVariables false

set_option autoImplicit false

namespace Dendron
variable {α : Type} {h h' k k' k0 : Heap α} {ch c : NodeId → List NodeId} {n p q : NodeId}
  {A B m1 m2 : List NodeId}

/-- The heap `k`, with parents and previous-sibling pointers of the nodes in `A` and the child counts of
the nodes in `B` as in `k0`. -/
def Heap.graft (k : Heap α) (A B : List NodeId) (k0 : Heap α) : Heap α :=
  { k with
    parent := fun x => if x ∈ A then k0.parent x else k.parent x
    prevCyc := fun x => if x ∈ A then k0.prevCyc x else k.prevCyc x
    numCh := fun x => if x ∈ B then k0.numCh x else k.numCh x }

theorem graft_setParent {x : NodeId} {v : Option NodeId} (hx : x ∉ A) :
    (k.graft A B k0).setParent x v = (k.setParent x v).graft A B k0 := by
  simp only [Heap.graft, Heap.setParent]
  congr 1; funext y; simp only [upd_apply]
  by_cases e : y = x
  · subst e; simp [hx]
  · simp [e]

theorem graft_setPrev {x : NodeId} {v : Option NodeId} (hx : x ∉ A) :
    (k.graft A B k0).setPrev x v = (k.setPrev x v).graft A B k0 := by
  simp only [Heap.graft, Heap.setPrev]
  congr 1; funext y; simp only [upd_apply]
  by_cases e : y = x
  · subst e; simp [hx]
  · simp [e]

theorem graft_setNext {x : NodeId} {v : Option NodeId} :
    (k.graft A B k0).setNext x v = (k.setNext x v).graft A B k0 := rfl

theorem graft_setFirst {x : NodeId} {v : Option NodeId} :
    (k.graft A B k0).setFirst x v = (k.setFirst x v).graft A B k0 := rfl

theorem graft_numAdd {x : NodeId} {v : Nat} (hx : x ∉ B) :
    (k.graft A B k0).numAdd x v = (k.numAdd x v).graft A B k0 := by
  simp only [Heap.graft, Heap.numAdd, Heap.setNum]
  congr 1; funext y; simp only [upd_apply]
  by_cases e : y = x
  · subst e; simp [hx]
  · simp [e]

theorem graft_upgrade {o : Option NodeId} : (k.graft A B k0).upgrade o = k.upgrade o := rfl

theorem graft_parentLink {x : NodeId} (hx : x ∉ A) : (k.graft A B k0).parentLink x = k.parentLink x := by
  unfold Heap.parentLink
  rw [graft_upgrade]
  simp [Heap.graft, hx]

theorem graft_prevCyc {x : NodeId} (hx : x ∉ A) : (k.graft A B k0).prevCyc x = k.prevCyc x := by
  simp [Heap.graft, hx]

theorem graft_prevCycLink {x : NodeId} (hx : x ∉ A) :
    (k.graft A B k0).prevCycLink x = k.prevCycLink x := by
  simp only [Heap.prevCycLink, graft_upgrade, graft_prevCyc hx]

theorem graft_prevLink {x : NodeId} (hx : x ∉ A) : (k.graft A B k0).prevLink x = k.prevLink x := by
  simp only [Heap.prevLink, graft_prevCycLink hx]; rfl

theorem graft_firstLast {x : NodeId} (hx : ∀ f, k.firstChild x = some f → f ∉ A) :
    (k.graft A B k0).firstLastChildLink x = k.firstLastChildLink x := by
  unfold Heap.firstLastChildLink
  have : (k.graft A B k0).firstChildLink x = k.firstChildLink x := rfl
  rw [this]
  cases hf : k.firstChildLink x with
  | none => rfl
  | some f => simp only [graft_prevCycLink (hx f hf)]

theorem graft_ancLoop (S : FShape k c) : ∀ (f : Nat) (o : Option NodeId),
    (∀ a, o = some a → k.alive a = true ∧ ∀ x, Desc c x a → x ∉ A) →
    (k.graft A B k0).isAncestorLoop n f o = k.isAncestorLoop n f o
  | 0, none, _ => rfl
  | 0, some _, _ => rfl
  | f + 1, none, _ => rfl
  | f + 1, some a, hA => by
    obtain ⟨ha, hA⟩ := hA a rfl
    unfold Heap.isAncestorLoop
    rw [graft_parentLink (hA a (Desc.refl a))]
    split
    · rfl
    · refine graft_ancLoop S f _ ?_
      intro b hb
      rw [S.parentLink ha] at hb
      have hm := S.mem_of_parent ha hb
      exact ⟨S.alive_parent hm, fun x hx => hA x (hx.step hm)⟩

theorem graft_loopCheck (S : FShape k c) {b : Bool} (hq : k.alive q = true)
    (hA : ∀ x, Desc c x q → x ∉ A) : (k.graft A B k0).loopCheck n b q = k.loopCheck n b q := by
  unfold Heap.loopCheck Heap.isAncestorOf
  split
  · rfl
  · exact graft_ancLoop S _ _ (fun a ha => by cases ha; exact ⟨hq, hA⟩)

theorem graft_insertFirst {b : Bool} {r : Except HierarchyError Unit} (S : FShape k c)
    (hq : k.alive q = true) (hnA : n ∉ A) (hqB : q ∉ B) (hanc : ∀ x, Desc c x q → x ∉ A)
    (hch : ∀ x ∈ c q, x ∉ A) (he : k.insertFirstL n b q = .ok (k', r)) :
    (k.graft A B k0).insertFirstL n b q = .ok (k'.graft A B k0, r) := by
  have hfst : ∀ f, k.firstChild q = some f → f ∉ A := by
    intro f hf
    rw [S.first q hq] at hf
    exact hch f (List.mem_of_mem_head? hf)
  unfold Heap.insertFirstL at he ⊢
  simp only [bind, Except.bind, pure, Except.pure] at he ⊢
  rw [graft_loopCheck S hq hanc]
  split at he
  · cases he
  rename_i v hv
  split at he
  · rename_i hb
    rw [if_pos hb]
    cases he; rfl
  rename_i hb
  rw [if_neg hb, graft_firstLast hfst]
  split at he
  · cases he
  rename_i fl hfl
  cases he
  cases fl with
  | none =>
    simp only [graft_setPrev hnA, graft_setParent hnA, graft_setFirst, graft_numAdd hqB]
  | some w =>
    obtain ⟨f, l⟩ := w
    have hf : f ∉ A := by
      unfold Heap.firstLastChildLink at hfl
      cases hfc : k.firstChildLink q with
      | none => simp [hfc] at hfl
      | some f' =>
        rw [hfc] at hfl
        simp only at hfl
        cases hpc : k.prevCycLink f' with
        | error e => simp [hpc, Except.map] at hfl
        | ok z =>
          simp [hpc, Except.map] at hfl
          rw [← hfl.1]; exact hfst f' hfc
    simp only [Heap.connectAdjacent, graft_setPrev hnA, graft_setPrev hf, graft_setNext, graft_setParent hnA,
      graft_setFirst, graft_numAdd hqB]

theorem graft_insertLast {b : Bool} {r : Except HierarchyError Unit} (S : FShape k c)
    (hq : k.alive q = true) (hnA : n ∉ A) (hqB : q ∉ B) (hanc : ∀ x, Desc c x q → x ∉ A)
    (hch : ∀ x ∈ c q, x ∉ A) (he : k.insertLastL n b q = .ok (k', r)) :
    (k.graft A B k0).insertLastL n b q = .ok (k'.graft A B k0, r) := by
  have hfst : ∀ f, k.firstChild q = some f → f ∉ A := by
    intro f hf
    rw [S.first q hq] at hf
    exact hch f (List.mem_of_mem_head? hf)
  unfold Heap.insertLastL at he ⊢
  simp only [bind, Except.bind, pure, Except.pure] at he ⊢
  rw [graft_loopCheck S hq hanc]
  split at he
  · cases he
  rename_i v hv
  split at he
  · rename_i hb
    rw [if_pos hb]
    cases he; rfl
  rename_i hb
  rw [if_neg hb, graft_firstLast hfst]
  split at he
  · cases he
  rename_i fl hfl
  cases he
  cases fl with
  | none =>
    simp only [graft_setPrev hnA, graft_setParent hnA, graft_setFirst, graft_numAdd hqB]
  | some w =>
    obtain ⟨f, l⟩ := w
    have hf : f ∉ A := by
      unfold Heap.firstLastChildLink at hfl
      cases hfc : k.firstChildLink q with
      | none => simp [hfc] at hfl
      | some f' =>
        rw [hfc] at hfl
        simp only at hfl
        cases hpc : k.prevCycLink f' with
        | error e => simp [hpc, Except.map] at hfl
        | ok z =>
          simp [hpc, Except.map] at hfl
          rw [← hfl.1]; exact hfst f' hfc
    simp only [Heap.connectAdjacent, graft_setPrev hnA, graft_setPrev hf, graft_setNext, graft_setParent hnA,
      graft_setFirst, graft_numAdd hqB]

theorem graft_insertBetween {a b : NodeId} (hnA : n ∉ A) (hqB : q ∉ B) (ha : a ∉ A) (hb : b ∉ A)
    (he : k.insertBetweenL n q a b = .ok k') :
    (k.graft A B k0).insertBetweenL n q a b = .ok (k'.graft A B k0) := by
  unfold Heap.insertBetweenL at he ⊢
  have hbc : (k.graft A B k0).betweenChecks q a b = k.betweenChecks q a b := by
    simp only [Heap.betweenChecks, graft_parentLink ha, graft_parentLink hb, graft_prevLink hb]; rfl
  rw [hbc]
  simp only [bind, Except.bind, pure, Except.pure] at he ⊢
  split at he
  · cases he
  cases he
  have h1 : ((((k.graft A B k0).setParent n (some q)).setNext a (some n)).setNext n
      (((k.graft A B k0).setParent n (some q)).next a))
      = (((k.setParent n (some q)).setNext a (some n)).setNext n
      ((k.setParent n (some q)).next a)).graft A B k0 := by
    rw [graft_setParent hnA]; rfl
  rw [h1, graft_prevCyc hb, graft_setPrev hb, graft_setPrev hnA, graft_numAdd hqB]

theorem graft_insert {dest : InsertAs NodeId} {b : Bool} {r : Except HierarchyError Unit} (S : Shape k c)
    (hd : DestSplit c dest q m1 m2) (hq : k.alive q = true) (hnA : n ∉ A) (hqB : q ∉ B)
    (hanc : ∀ x, Desc c x q → x ∉ A) (hch : ∀ x ∈ c q, x ∉ A)
    (he : k.insertL n b dest = .ok (k', r)) :
    (k.graft A B k0).insertL n b dest = .ok (k'.graft A B k0, r) := by
  have F := S.toFShape
  cases hd with
  | first => exact graft_insertFirst F hq hnA hqB hanc hch he
  | last => exact graft_insertLast F hq hnA hqB hanc hch he
  | @prev _ a l1 l2 hs =>
    have hm : a ∈ c q := by simp [hs]
    simp only [Heap.insertL, graft_parentLink (hch a hm), graft_prevLink (hch a hm)] at he ⊢
    rw [S.parentLink (S.alive_of_mem hm), S.parent_of_mem hm] at he ⊢
    simp only [S.prevLink_at hs, bind, Except.bind, pure, Except.pure] at he ⊢
    rcases List.eq_nil_or_concat m1 with rfl | ⟨l, s, rfl⟩
    · simp only [List.getLast?_nil] at he ⊢
      exact graft_insertFirst F hq hnA hqB hanc hch he
    · rw [List.concat_eq_append] at *
      simp only [List.getLast?_append, List.getLast?_singleton, Option.some_or] at he ⊢
      split at he
      · cases he
      rename_i k1 hk1
      cases he
      rw [graft_insertBetween hnA hqB (hch s (by simp [hs])) (hch a hm) hk1]
  | @next _ a l1 l2 hs =>
    have hm : a ∈ c q := by simp [hs]
    have hnl : (k.graft A B k0).nextLink a = k.nextLink a := rfl
    simp only [Heap.insertL, graft_parentLink (hch a hm), hnl] at he ⊢
    rw [S.parentLink (S.alive_of_mem hm), S.parent_of_mem hm] at he ⊢
    simp only [Heap.nextLink, S.next_at hs, bind, Except.bind, pure, Except.pure] at he ⊢
    cases m2 with
    | nil =>
      simp only [List.head?_nil] at he ⊢
      exact graft_insertLast F hq hnA hqB hanc hch he
    | cons s l2 =>
      simp only [List.head?_cons] at he ⊢
      split at he
      · cases he
      rename_i k1 hk1
      cases he
      rw [graft_insertBetween hnA hqB (hch a hm) (hch s (by simp [hs])) hk1]

end Dendron
