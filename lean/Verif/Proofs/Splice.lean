import Verif.Proofs.Getters

/-! Inserting an orphan into, and removing a node from, a child list. -/

set_option autoImplicit false

namespace Dendron
variable {α : Type} {h h' : Heap α} {ch : NodeId → List NodeId} {n p : NodeId}
  {l1 l2 : List NodeId}

theorem Desc.trans {a b c : NodeId} (h1 : Desc ch a b) (h2 : Desc ch b c) : Desc ch a c := by
  induction h2 with
  | refl => exact h1
  | step _ hm ih => exact .step ih hm

theorem Desc.child {a b : NodeId} (h1 : b ∈ ch a) : Desc ch a b := .step (.refl a) h1

theorem Desc.leaf {a b : NodeId} (hd : Desc ch a b) (hl : ch a = []) : b = a := by
  induction hd with
  | refl => rfl
  | step _ hm ih => subst ih; rw [hl] at hm; simp at hm

/-- New ranks when a subtree rooted at `n` is put below a node outside of it. -/
theorem acyc_attach (ha : ∃ ht : NodeId → Nat, ∀ p c, c ∈ ch p → ht c < ht p)
    (hnd : ¬ Desc ch n p) {ch' : NodeId → List NodeId}
    (hch : ∀ q c, c ∈ ch' q → c ∈ ch q ∨ (q = p ∧ c = n)) :
    ∃ ht : NodeId → Nat, ∀ p c, c ∈ ch' p → ht c < ht p := by
  obtain ⟨ht, hh⟩ := ha
  open Classical in
  refine ⟨fun x => if Desc ch n x then ht x else ht x + ht n + 1, ?_⟩
  intro q c hc
  rcases hch q c hc with hc | ⟨rfl, rfl⟩
  · have := hh q c hc
    by_cases hq : Desc ch n q
    · have hd : Desc ch n c := .step hq hc
      simp [hq, hd, this]
    · by_cases hd : Desc ch n c
      · simp [hq, hd]; omega
      · simp [hq, hd]; omega
  · simp [hnd, Desc.refl]; omega

theorem acyc_sub (ha : ∃ ht : NodeId → Nat, ∀ p c, c ∈ ch p → ht c < ht p)
    {ch' : NodeId → List NodeId} (hch : ∀ q c, c ∈ ch' q → c ∈ ch q) :
    ∃ ht : NodeId → Nat, ∀ p c, c ∈ ch' p → ht c < ht p := by
  obtain ⟨ht, hh⟩ := ha
  exact ⟨ht, fun q c hc => hh q c (hch q c hc)⟩

/-! ### Insertion -/

theorem FShape.not_mem_of_root (S : FShape h ch) (hpn : h.parent n = none) (q : NodeId) :
    n ∉ ch q := by
  intro hm
  rw [S.parent_of_mem hm] at hpn
  simp at hpn

theorem FShape.insertAt (S : FShape h ch) (hs : ch p = l1 ++ l2) (hn : h.alive n = true)
    (hpn : h.parent n = none) (hnd : ¬ Desc ch n p) (hp : h.alive p = true)
    (halive : ∀ x, h'.alive x = h.alive x)
    (hpar : ∀ x, h'.parent x = if x = n then some p else h.parent x)
    (hfc : ∀ x, h'.firstChild x = if x = p then (l1 ++ n :: l2).head? else h.firstChild x)
    (hnx : ∀ x, h'.next x =
      if x = n then l2.head? else if l1.getLast? = some x then some n else h.next x)
    (hnn : h'.nNode = h.nNode) : FShape h' (upd ch p (l1 ++ n :: l2)) := by
  have hroot := S.not_mem_of_root hpn
  have hnp : n ≠ p := fun e => hnd (e ▸ Desc.refl n)
  have hnl : n ∉ l1 ++ l2 := hs ▸ hroot p
  have hnl1 : n ∉ l1 := fun hm => hnl (List.mem_append_left _ hm)
  have hnl2 : n ∉ l2 := fun hm => hnl (List.mem_append_right _ hm)
  have hnd12 : (l1 ++ l2).Nodup := hs ▸ S.nodup p
  constructor
  · intro q hq
    rw [halive] at hq
    by_cases hqp : q = p
    · subst hqp; rw [hp] at hq; simp at hq
    · rw [upd_ne _ _ hqp]; exact S.dead q hq
  · intro q hq
    rw [halive] at hq
    rw [hfc]
    by_cases hqp : q = p
    · subst hqp; simp
    · simp [hqp, S.first q hq]
  · intro q
    by_cases hqp : q = p
    · subst hqp
      rw [upd_same, nodup_mid]
      exact ⟨hnl1, hnl2, hnd12⟩
    · rw [upd_ne _ _ hqp]; exact S.nodup q
  · intro q c
    rw [halive, hpar]
    by_cases hqp : q = p
    · subst hqp
      rw [upd_same]
      by_cases hcn : c = n
      · subst hcn; simp [hn]
      · have := S.mem q c
        rw [hs] at this
        simp only [List.mem_append, List.mem_cons, hcn, false_or, if_false]
        simpa using this
    · rw [upd_ne _ _ hqp, S.mem q c]
      by_cases hcn : c = n
      · subst hcn
        simp [hpn, Ne.symm hqp]
      · simp [hcn]
  · intro q
    by_cases hqp : q = p
    · subst hqp
      rw [upd_same, Seg.append]
      have hseg := S.seg q
      rw [hs, Seg.append] at hseg
      have hd := List.nodup_append.1 hnd12
      refine ⟨hseg.1.reEnd hd.1 ?_ ?_, ?_⟩
      · intro x hx hne
        have hxn : x ≠ n := fun e => hnl1 (e ▸ hx)
        rw [hnx]
        simp [hxn, hne]
      · intro x hx
        have hxn : x ≠ n := fun e => hnl1 (e ▸ List.mem_of_getLast? hx)
        rw [hnx]
        simp [hxn, hx]
      · refine ⟨by simp [hnx], (Seg.congr ?_).1 hseg.2⟩
        intro x hx
        have hxn : x ≠ n := fun e => hnl2 (e ▸ hx)
        have : l1.getLast? ≠ some x := fun e =>
          hd.2.2 x (List.mem_of_getLast? e) x hx rfl
        rw [hnx]
        simp [hxn, this]
    · rw [upd_ne _ _ hqp]
      refine (Seg.congr ?_).1 (S.seg q)
      intro x hx
      have hxn : x ≠ n := fun e => hroot q (e ▸ hx)
      have : l1.getLast? ≠ some x := fun e =>
        hqp (S.unique_parent hx (by rw [hs]; exact List.mem_append_left _ (List.mem_of_getLast? e)))
      rw [hnx]
      simp [hxn, this]
  · intro c hc hpc
    rw [halive] at hc
    rw [hpar] at hpc
    by_cases hcn : c = n
    · simp [hcn] at hpc
    · simp only [hcn, if_false] at hpc
      rw [hnx]
      have : l1.getLast? ≠ some c := fun e =>
        S.not_mem_of_root hpc p (by rw [hs]; exact List.mem_append_left _ (List.mem_of_getLast? e))
      simp [hcn, this, S.rootNext c hc hpc]
  · apply acyc_attach S.acyc hnd
    intro q c hc
    by_cases hqp : q = p
    · subst hqp
      rw [upd_same] at hc
      simp only [List.mem_append, List.mem_cons] at hc
      rw [hs]
      simp only [List.mem_append]
      rcases hc with hc | hc | hc <;> simp [hc]
    · rw [upd_ne _ _ hqp] at hc; exact .inl hc
  · intro x hx
    rw [halive] at hx
    rw [hnn]; exact S.bound x hx

theorem BackOK.insertAt (S : Shape h ch) (hs : ch p = l1 ++ l2)
    (hpn : h.parent n = none)
    (halive : ∀ x, h'.alive x = h.alive x)
    (hpar : ∀ x, h'.parent x = if x = n then some p else h.parent x)
    (hpv : ∀ x, h'.prevCyc x =
      if x = n then l1.getLast?.or (l2.getLast?.or (some n))
      else if l2.head? = some x then some n
      else if l2 = [] ∧ l1.head? = some x then some n
      else h.prevCyc x) :
    BackOK h' (upd ch p (l1 ++ n :: l2)) := by
  have hroot := S.not_mem_of_root hpn
  have hnl : n ∉ l1 ++ l2 := hs ▸ hroot p
  have hnl1 : n ∉ l1 := fun hm => hnl (List.mem_append_left _ hm)
  have hnl2 : n ∉ l2 := fun hm => hnl (List.mem_append_right _ hm)
  have hnd12 : (l1 ++ l2).Nodup := hs ▸ S.nodup p
  constructor
  · intro q
    by_cases hqp : q = p
    · subst hqp
      rw [upd_same, PSeg.append]
      have hseg := S.back.pseg q
      rw [hs, PSeg.append] at hseg
      have hd := List.nodup_append.1 hnd12
      refine ⟨?_, ?_, ?_⟩
      · -- the elements before `n`
        refine hseg.1.reBeg hd.1 ?_ ?_
        · intro x hx hne
          have hxn : x ≠ n := fun e => hnl1 (e ▸ hx)
          have : l2.head? ≠ some x := fun e =>
            hd.2.2 x hx x (List.mem_of_head? e) rfl
          rw [hpv]
          simp [hxn, hne, this]
        · intro x hx
          have hxl : x ∈ l1 := List.mem_of_head? hx
          have hxn : x ≠ n := fun e => hnl1 (e ▸ hxl)
          have : l2.head? ≠ some x := fun e =>
            hd.2.2 x hxl x (List.mem_of_head? e) rfl
          rw [hpv]
          simp only [hxn, if_false, this, hx]
          by_cases hl2 : l2 = []
          · subst hl2; simp
          · simp only [hl2, false_and, if_false]
            have hl1 : ∃ t, l1 = x :: t := by
              cases l1 with
              | nil => simp at hx
              | cons a t => simp at hx; exact ⟨t, by rw [hx]⟩
            obtain ⟨t, rfl⟩ := hl1
            have := hseg.1.1
            rw [this]
            cases l2 with
            | nil => exact absurd rfl hl2
            | cons b l2 =>
              rw [List.getLast?_append, List.getLast?_append, List.getLast?_cons_cons,
                List.getLast?_cons]
      · -- `n` itself
        rw [hpv]
        simp only [if_true]
        cases hl1 : l1.getLast? with
        | some y => simp
        | none =>
          have : l1 = [] := by simpa using hl1
          subst this
          simp only [List.nil_append, Option.none_or]
          rw [List.getLast?_cons]
          cases l2.getLast? <;> simp
      · -- the elements after `n`
        refine hseg.2.reBeg hd.2.1 ?_ ?_
        · intro x hx hne
          have hxn : x ≠ n := fun e => hnl2 (e ▸ hx)
          have : ¬ (l2 = [] ∧ l1.head? = some x) := by
            rintro ⟨e, _⟩; subst e; simp at hx
          rw [hpv]
          simp [hxn, hne, this]
        · intro x hx
          have hxn : x ≠ n := fun e => hnl2 (e ▸ List.mem_of_head? hx)
          rw [hpv]
          simp [hxn, hx]
    · rw [upd_ne _ _ hqp]
      refine (PSeg.congr ?_).1 (S.back.pseg q)
      intro x hx
      have hxn : x ≠ n := fun e => hroot q (e ▸ hx)
      have h1 : ¬ (l2 = [] ∧ l1.head? = some x) := fun e =>
        hqp (S.unique_parent hx (by rw [hs]; exact List.mem_append_left _ (List.mem_of_head? e.2)))
      have h2 : l2.head? ≠ some x := fun e =>
        hqp (S.unique_parent hx (by rw [hs]; exact List.mem_append_right _ (List.mem_of_head? e)))
      rw [hpv]
      simp [hxn, h1, h2]
  · intro c hc hpc
    rw [halive] at hc
    rw [hpar] at hpc
    by_cases hcn : c = n
    · simp [hcn] at hpc
    · simp only [hcn, if_false] at hpc
      have hr := S.not_mem_of_root hpc p
      rw [hs] at hr
      have h1 : ¬ (l2 = [] ∧ l1.head? = some c) := fun e =>
        hr (List.mem_append_left _ (List.mem_of_head? e.2))
      have h2 : l2.head? ≠ some c := fun e =>
        hr (List.mem_append_right _ (List.mem_of_head? e))
      rw [hpv]
      simp [hcn, h1, h2, S.back.rootPrev c hc hpc]

theorem NumOK.insertAt (S : NumOK h ch) (hs : ch p = l1 ++ l2)
    (halive : ∀ x, h'.alive x = h.alive x)
    (hnum : ∀ x, h'.numCh x = if x = p then h.numCh p + 1 else h.numCh x) :
    NumOK h' (upd ch p (l1 ++ n :: l2)) := by
  intro q hq
  rw [halive] at hq
  rw [hnum]
  by_cases hqp : q = p
  · subst hqp
    simp [S q hq, hs]; omega
  · simp [hqp, S q hq]

/-! ### Removal -/

theorem FShape.unlinkAt (S : FShape h ch) (hs : ch p = l1 ++ n :: l2)
    (halive : ∀ x, h'.alive x = h.alive x)
    (hpar : ∀ x, h'.parent x = if x = n then none else h.parent x)
    (hfc : ∀ x, h'.firstChild x = if x = p then (l1 ++ l2).head? else h.firstChild x)
    (hnx : ∀ x, h'.next x =
      if x = n then none else if l1.getLast? = some x then l2.head? else h.next x)
    (hnn : h'.nNode = h.nNode) : FShape h' (upd ch p (l1 ++ l2)) := by
  have hm : n ∈ ch p := by simp [hs]
  have hp := S.alive_parent hm
  have hnd := S.nodup p
  rw [hs, nodup_mid] at hnd
  obtain ⟨hnl1, hnl2, hnd12⟩ := hnd
  constructor
  · intro q hq
    rw [halive] at hq
    by_cases hqp : q = p
    · subst hqp; rw [hp] at hq; simp at hq
    · rw [upd_ne _ _ hqp]; exact S.dead q hq
  · intro q hq
    rw [halive] at hq
    rw [hfc]
    by_cases hqp : q = p
    · subst hqp; simp
    · simp [hqp, S.first q hq]
  · intro q
    by_cases hqp : q = p
    · subst hqp
      rw [upd_same]
      exact hnd12
    · rw [upd_ne _ _ hqp]; exact S.nodup q
  · intro q c
    rw [halive, hpar]
    by_cases hqp : q = p
    · subst hqp
      rw [upd_same]
      by_cases hcn : c = n
      · subst hcn; simp [hnl1, hnl2]
      · have := S.mem q c
        rw [hs] at this
        simp only [List.mem_append, List.mem_cons, hcn, false_or, if_false] at this ⊢
        exact this
    · rw [upd_ne _ _ hqp]
      by_cases hcn : c = n
      · subst hcn
        simp only [if_true]
        constructor
        · intro hc; exact absurd (S.unique_parent hc hm) hqp
        · rintro ⟨_, hc⟩; simp at hc
      · rw [S.mem q c]; simp [hcn]
  · intro q
    by_cases hqp : q = p
    · subst hqp
      rw [upd_same, Seg.append]
      have hseg := S.seg q
      rw [hs, Seg.append] at hseg
      have hd := List.nodup_append.1 hnd12
      refine ⟨hseg.1.reEnd hd.1 ?_ ?_, (Seg.congr ?_).1 hseg.2.2⟩
      · intro x hx hne
        have hxn : x ≠ n := fun e => hnl1 (e ▸ hx)
        rw [hnx]
        simp [hxn, hne]
      · intro x hx
        have hxn : x ≠ n := fun e => hnl1 (e ▸ List.mem_of_getLast? hx)
        rw [hnx]
        simp [hxn, hx]
      · intro x hx
        have hxn : x ≠ n := fun e => hnl2 (e ▸ hx)
        have : l1.getLast? ≠ some x := fun e =>
          hd.2.2 x (List.mem_of_getLast? e) x hx rfl
        rw [hnx]
        simp [hxn, this]
    · rw [upd_ne _ _ hqp]
      refine (Seg.congr ?_).1 (S.seg q)
      intro x hx
      have hxn : x ≠ n := fun e => hqp (S.unique_parent hx (e ▸ hm))
      have : l1.getLast? ≠ some x := fun e =>
        hqp (S.unique_parent hx (by rw [hs]; exact List.mem_append_left _ (List.mem_of_getLast? e)))
      rw [hnx]
      simp [hxn, this]
  · intro c hc hpc
    rw [halive] at hc
    rw [hpar] at hpc
    rw [hnx]
    by_cases hcn : c = n
    · simp [hcn]
    · simp only [hcn, if_false] at hpc
      have : l1.getLast? ≠ some c := fun e =>
        S.not_mem_of_root hpc p (by rw [hs]; exact List.mem_append_left _ (List.mem_of_getLast? e))
      simp [hcn, this, S.rootNext c hc hpc]
  · apply acyc_sub S.acyc
    intro q c hc
    by_cases hqp : q = p
    · subst hqp
      rw [upd_same] at hc
      rw [hs]
      simp only [List.mem_append, List.mem_cons] at hc ⊢
      rcases hc with hc | hc <;> simp [hc]
    · rwa [upd_ne _ _ hqp] at hc
  · intro x hx
    rw [halive] at hx
    rw [hnn]; exact S.bound x hx

theorem BackOK.unlinkAt (S : Shape h ch) (hs : ch p = l1 ++ n :: l2)
    (hpos : l1 = [] ∨ l2 ≠ [])
    (halive : ∀ x, h'.alive x = h.alive x)
    (hpar : ∀ x, h'.parent x = if x = n then none else h.parent x)
    (hpv : ∀ x, h'.prevCyc x =
      if x = n then some n
      else if l2.head? = some x then l1.getLast?.or l2.getLast?
      else h.prevCyc x) :
    BackOK h' (upd ch p (l1 ++ l2)) := by
  have hm : n ∈ ch p := by simp [hs]
  have hnd := S.nodup p
  rw [hs, nodup_mid] at hnd
  obtain ⟨hnl1, hnl2, hnd12⟩ := hnd
  constructor
  · intro q
    by_cases hqp : q = p
    · subst hqp
      rw [upd_same, PSeg.append]
      have hseg := S.back.pseg q
      rw [hs, PSeg.append] at hseg
      have hd := List.nodup_append.1 hnd12
      refine ⟨?_, hseg.2.2.reBeg hd.2.1 ?_ ?_⟩
      · rcases hpos with rfl | hl2
        · simp [PSeg]
        · have hlast : (l1 ++ n :: l2).getLast? = (l1 ++ l2).getLast? := by
            cases l2 with
            | nil => exact absurd rfl hl2
            | cons b l2 =>
              rw [List.getLast?_append, List.getLast?_append, List.getLast?_cons_cons]
          rw [hlast] at hseg
          refine (PSeg.congr ?_).1 hseg.1
          intro x hx
          have hxn : x ≠ n := fun e => hnl1 (e ▸ hx)
          have : l2.head? ≠ some x := fun e =>
            hd.2.2 x hx x (List.mem_of_head? e) rfl
          rw [hpv]
          simp [hxn, this]
      · intro x hx hne
        have hxn : x ≠ n := fun e => hnl2 (e ▸ hx)
        rw [hpv]
        simp [hxn, hne]
      · intro x hx
        have hxn : x ≠ n := fun e => hnl2 (e ▸ List.mem_of_head? hx)
        rw [hpv]
        simp only [hxn, if_false, hx, if_true]
        rw [List.getLast?_append]
        cases hl1 : l1.getLast? with
        | some y => simp
        | none => simp
    · rw [upd_ne _ _ hqp]
      refine (PSeg.congr ?_).1 (S.back.pseg q)
      intro x hx
      have hxn : x ≠ n := fun e => hqp (S.unique_parent hx (e ▸ hm))
      have h2 : l2.head? ≠ some x := fun e =>
        hqp (S.unique_parent hx (by
          rw [hs]; exact List.mem_append_right _ (List.mem_cons_of_mem _ (List.mem_of_head? e))))
      rw [hpv]
      simp [hxn, h2]
  · intro c hc hpc
    rw [halive] at hc
    rw [hpar] at hpc
    rw [hpv]
    by_cases hcn : c = n
    · simp [hcn]
    · simp only [hcn, if_false] at hpc
      have hr := S.not_mem_of_root hpc p
      rw [hs] at hr
      have h2 : l2.head? ≠ some c := fun e =>
        hr (List.mem_append_right _ (List.mem_cons_of_mem _ (List.mem_of_head? e)))
      simp [hcn, h2, S.back.rootPrev c hc hpc]

theorem NumOK.unlinkAt (S : NumOK h ch) (hs : ch p = l1 ++ n :: l2)
    (halive : ∀ x, h'.alive x = h.alive x)
    (hnum : ∀ x, h'.numCh x = if x = p then h.numCh p - 1 else h.numCh x) :
    NumOK h' (upd ch p (l1 ++ l2)) := by
  intro q hq
  rw [halive] at hq
  rw [hnum]
  by_cases hqp : q = p
  · subst hqp
    simp [S q hq, hs]
  · simp [hqp, S q hq]

end Dendron
