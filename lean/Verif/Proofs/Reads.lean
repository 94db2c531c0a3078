import Verif.Proofs.SafeFacts

/-! Getting a handle and dropping it again restores the memory exactly. -/

set_option linter.unusedSimpArgs false
set_option linter.unusedVariables false

set_option autoImplicit false

namespace Dendron
variable {α : Type} {h h' : Heap α} {w w' : World α} {ch : NodeId → List NodeId} {n m : NodeId}
  {t t' : TreeId} {k : Kind} {op : Op α}

theorem Heap.setMem_setMem (h : Heap α) (n : NodeId) (a b : Membership) :
    (h.setMem n a).setMem n b = h.setMem n b := by
  simp only [Heap.setMem]
  congr 1
  funext x
  by_cases e : x = n <;> simp [e]

theorem Heap.setMem_setGrants (h : Heap α) (n : NodeId) (a : Membership) (g : Int) :
    (h.setMem n a).setGrants t g = (h.setGrants t g).setMem n a := rfl

/-- A new plain handle, dropped again. -/
theorem WF.withNodeCore_dropLink {h1 : Heap α} (W : WF h ch) (ha : h.alive n = true)
    (e : h.withNodeCore n = .ok h1) : h1.dropLink n = .ok h := by
  have hrel : h.release h.relFuel [] n = .ok h := by
    rw [Heap.relFuel, release_referenced (W.referenced ha)]
  unfold Heap.withNodeCore Heap.incRef at e
  cases hm : h.mem n with
  | strong t rc l =>
    simp only [hm, Except.ok.injEq] at e
    subst e
    have hp := W.refs.pos _ _ _ _ hm
    have h1 : ¬ rc = 0 := by omega
    have e1 : (h.setMem n (.strong t (rc + 1) l)).mem n = .strong t (rc + 1) l := by simp [Heap.setMem]
    have e2 : (h.setMem n (.strong t (rc + 1) l)).setMem n (.strong t rc l) = h := by
      rw [Heap.setMem_setMem, ← hm]; exact Heap.setMem_self rfl
    simp only [Heap.dropLink, Heap.decRef, e1, bind, Except.bind, Nat.add_sub_cancel, h1, if_false, e2]
    exact hrel
  | weak o =>
    simp only [hm] at e
    cases hf : o.filter h.treeAlive with
    | none => simp [hf] at e
    | some t =>
      simp only [hf, Except.ok.injEq] at e
      subst e
      obtain ⟨ho, hta⟩ := Option.filter_eq_some_iff.1 hf
      subst ho
      have e1 : (h.setMem n (.strong t 1 0)).mem n = .strong t 1 0 := by simp [Heap.setMem]
      have e2 : (h.setMem n (.strong t 1 0)).setMem n (.weak (some t)) = h := by
        rw [Heap.setMem_setMem, ← hm]; exact Heap.setMem_self rfl
      simp only [Heap.dropLink, Heap.decRef, e1, bind, Except.bind, Nat.sub_self, if_true, ne_eq,
        not_true, if_false, e2, W.maybeDropTree]
      exact hrel

/-- A new lock of a node, released again. -/
theorem acqLock_decLock {h1 : Heap α} (hk : k ≠ .plain) (e : h.acqLock n k = .ok (some h1)) :
    h1.decLock n = .ok h := by
  cases k with
  | plain => exact absurd rfl hk
  | hot =>
    simp only [Heap.acqLock, Heap.acquireEditGrant] at e
    cases hm : h.mem n with
    | weak o => simp [hm] at e
    | strong t rc l =>
      simp only [hm] at e
      split at e
      · simp at e
      · rename_i hg
        simp only [Lock.ensureGrantAcquirable, decide_eq_true_eq, Bool.not_eq_true', Bool.not_eq_false,
          decide_eq_false_iff_not] at hg
        split at e
        · rename_i hl
          simp only [Except.ok.injEq, Option.some.injEq] at e
          subst e
          have e1 : (h.setMem n (.strong t rc (l + 1))).mem n = .strong t rc (l + 1) := by simp [Heap.setMem]
          have e2 : (h.setMem n (.strong t rc (l + 1))).setMem n (.strong t rc l) = h := by
            rw [Heap.setMem_setMem, ← hm]; exact Heap.setMem_self rfl
          have e3 : ¬ l + 1 = 0 := by omega
          simp [Heap.decLock, e1, e3, hl, e2]
        · rename_i hl
          have hl : l = 0 := by simpa using hl
          subst hl
          have hg' : 0 ≤ h.grants t := by simpa using hg
          have h2 : ¬ h.grants t < 0 := by omega
          simp only [Lock.acquireGrant, h2, if_false] at e
          split at e
          · cases e
          · cases e
          · rename_i g hgg
            split at hgg
            · cases hgg
            · simp only [Except.ok.injEq, Option.some.injEq] at hgg
              subst hgg
              simp only [Except.ok.injEq, Option.some.injEq] at e
              subst e
              have e1 : ((h.setGrants t (h.grants t + 1)).setMem n (.strong t rc 1)).mem n = .strong t rc 1 := by
                simp [Heap.setMem]
              have hpos : 0 < h.grants t + 1 := by omega
              simp only [Heap.decLock, e1, Nat.sub_self, if_true, Nat.one_ne_zero, if_false]
              rw [Heap.setMem_setMem]
              have e4 : ((h.setGrants t (h.grants t + 1)).setMem n (.strong t rc 0)).grants t = h.grants t + 1 := by
                simp [Heap.setMem, Heap.setGrants]
              simp only [e4, Lock.releaseAny, hpos, if_true]
              rw [Heap.setMem_setGrants, Heap.setGrants_setGrants, Int.add_sub_cancel, setGrants_self, ← hm]
              exact congrArg _ (Heap.setMem_self rfl)
  | frozen =>
    simp only [Heap.acqLock, Heap.acquireEditProhibition] at e
    cases hm : h.mem n with
    | weak o => simp [hm] at e
    | strong t rc l =>
      simp only [hm] at e
      split at e
      · simp at e
      · rename_i hg
        simp only [Lock.ensureProhibitionAcquirable, decide_eq_true_eq, Bool.not_eq_true', Bool.not_eq_false,
          decide_eq_false_iff_not] at hg
        split at e
        · rename_i hl
          simp only [Except.ok.injEq, Option.some.injEq] at e
          subst e
          have e1 : (h.setMem n (.strong t rc (l + 1))).mem n = .strong t rc (l + 1) := by simp [Heap.setMem]
          have e2 : (h.setMem n (.strong t rc (l + 1))).setMem n (.strong t rc l) = h := by
            rw [Heap.setMem_setMem, ← hm]; exact Heap.setMem_self rfl
          have e3 : ¬ l + 1 = 0 := by omega
          simp [Heap.decLock, e1, e3, hl, e2]
        · rename_i hl
          have hl : l = 0 := by simpa using hl
          subst hl
          have hg' : h.grants t ≤ 0 := by simpa using hg
          have h2 : ¬ 0 < h.grants t := by omega
          simp only [Lock.acquireProhibition, h2, if_false] at e
          split at e
          · cases e
          · cases e
          · rename_i g hgg
            split at hgg
            · cases hgg
            · simp only [Except.ok.injEq, Option.some.injEq] at hgg
              subst hgg
              simp only [Except.ok.injEq, Option.some.injEq] at e
              subst e
              have e1 : ((h.setGrants t (h.grants t - 1)).setMem n (.strong t rc 1)).mem n = .strong t rc 1 := by
                simp [Heap.setMem]
              have hpos : ¬ 0 < h.grants t - 1 := by omega
              have hne : ¬ h.grants t - 1 = 0 := by omega
              simp only [Heap.decLock, e1, Nat.sub_self, if_true, Nat.one_ne_zero, if_false]
              rw [Heap.setMem_setMem]
              have e4 : ((h.setGrants t (h.grants t - 1)).setMem n (.strong t rc 0)).grants t = h.grants t - 1 := by
                simp [Heap.setMem, Heap.setGrants]
              simp only [e4, Lock.releaseAny, hpos, hne, if_false]
              rw [Heap.setMem_setGrants, Heap.setGrants_setGrants, Int.sub_add_cancel, setGrants_self, ← hm]
              exact congrArg _ (Heap.setMem_self rfl)

theorem WF.wrap_drop {h1 : Heap α} (W : WF h ch) (ha : h.alive n = true)
    (e : h.wrap n k = .ok h1) : h1.dropHandle n k = .ok h := by
  simp only [Heap.wrap, bind, Except.bind] at e
  split at e
  · cases e
  · rename_i g hg
    have e' := expectLock_ok e
    by_cases hk : k = .plain
    · subst hk
      simp only [Heap.acqLock, Except.ok.injEq, Option.some.injEq] at e'
      subst e'
      exact W.withNodeCore_dropLink ha hg
    · have h2 := acqLock_decLock hk e'
      have h3 := W.withNodeCore_dropLink ha hg
      cases k with
      | plain => exact absurd rfl hk
      | hot => simp only [Heap.dropHandle, h2, bind, Except.bind]; exact h3
      | frozen => simp only [Heap.dropHandle, h2, bind, Except.bind]; exact h3

theorem give_take_kind (w : World α) (h1 h2 : Heap α) (k : Kind) (n : NodeId) :
    ({ (({ w with heap := h1 } : World α).give k n) with heap := h2 } : World α).take k n
      = { w with heap := h2 } := by
  simp only [World.give, World.take]
  congr 1
  funext k' m
  by_cases e : k' = k ∧ m = n <;> simp [e]

/-- Clones of locks, dropped again. -/
theorem WF.clone_drop {h1 : Heap α} (W : WF h ch) (e : h.cloneHandle n k = .ok h1) :
    h1.dropHandle n k = .ok h := by
  have link : ∀ {g g1 : Heap α}, (∀ t rc l, g.mem n = .strong t rc l → 0 < rc) →
      g.cloneLink n = .ok g1 → g1.decRef n = .ok g := by
    intro g g1 hpos e
    unfold Heap.cloneLink at e
    cases hm : g.mem n with
    | weak o => simp [hm] at e
    | strong t rc l =>
      simp only [hm, Except.ok.injEq] at e
      subst e
      have := hpos t rc l hm
      have h1 : ¬ rc = 0 := by omega
      have e1 : (g.setMem n (.strong t (rc + 1) l)).mem n = .strong t (rc + 1) l := by simp [Heap.setMem]
      have e2 : (g.setMem n (.strong t (rc + 1) l)).setMem n (.strong t rc l) = g := by
        rw [Heap.setMem_setMem, ← hm]; exact Heap.setMem_self rfl
      simp only [Heap.decRef, e1, Nat.add_sub_cancel, h1, if_false, e2]
  have hpos : ∀ t rc l, h.mem n = .strong t rc l → 0 < rc := fun t rc l hm => (W.refs.pos _ _ _ _ hm).1
  have hrel : ∀ t rc l, h.mem n = .strong t rc l → h.release h.relFuel [] n = .ok h := by
    intro t rc l hm
    rw [Heap.relFuel, release_referenced (W.referenced (W.refs.alive _ _ _ _ hm))]
  have strong_of : ∀ {g1 : Heap α}, h.cloneLink n = .ok g1 → ∃ t rc l, h.mem n = .strong t rc l := by
    intro g1 e
    unfold Heap.cloneLink at e
    cases hm : h.mem n with
    | weak o => simp [hm] at e
    | strong t rc l => exact ⟨t, rc, l, rfl⟩
  by_cases hk : k = .plain
  · subst hk
    have e : h.cloneLink n = .ok h1 := e
    obtain ⟨t, rc, l, hm⟩ := strong_of e
    simp only [Heap.dropHandle, Heap.dropLink, link hpos e, bind, Except.bind]
    exact hrel _ _ _ hm
  · have e : (do let h ← h.incLockNonzero n; h.cloneLink n : Except Fault (Heap α)) = .ok h1 := by
      cases k <;> first | exact absurd rfl hk | exact e
    have hd : h1.dropHandle n k = (do let h ← h1.decLock n; h.dropLink n : Except Fault (Heap α)) := by
      cases k <;> first | exact absurd rfl hk | rfl
    rw [hd]
    simp only [bind, Except.bind] at e ⊢
    cases hm : h.mem n with
    | weak o => simp [Heap.incLockNonzero, hm] at e
    | strong t rc l =>
      by_cases hl : l = 0
      · simp [Heap.incLockNonzero, hm, hl] at e
      · have hp := hpos _ _ _ hm
        have e1 : (h.setMem n (.strong t rc (l + 1))).mem n = .strong t rc (l + 1) := by simp [Heap.setMem]
        simp only [Heap.incLockNonzero, hm, hl, if_false, Heap.cloneLink, e1, Except.ok.injEq,
          Heap.setMem_setMem] at e
        subst e
        have e2 : (h.setMem n (.strong t (rc + 1) (l + 1))).mem n = .strong t (rc + 1) (l + 1) := by
          simp [Heap.setMem]
        have e3 : ¬ l + 1 = 0 := by omega
        have e4 : (h.setMem n (.strong t (rc + 1) l)).mem n = .strong t (rc + 1) l := by
          simp [Heap.setMem]
        have e5 : ¬ rc = 0 := by omega
        have e6 : h.setMem n (.strong t rc l) = h := by rw [← hm]; exact Heap.setMem_self rfl
        simp only [Heap.decLock, e2, e3, if_false, Nat.add_sub_cancel, hl, Heap.setMem_setMem,
          Heap.dropLink, Heap.decRef, e4, e5, bind, Except.bind, e6]
        exact hrel _ _ _ hm

end Dendron
