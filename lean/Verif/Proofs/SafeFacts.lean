import Verif.Proofs.SafeAll
import Verif.Proofs.WorldFacts

/-! Reading the ownership invariant in terms of the API; what dropping handles can do. -/

set_option linter.unusedSimpArgs false
set_option linter.unusedVariables false

set_option autoImplicit false

namespace Dendron
variable {α : Type} {h h' : Heap α} {w w' : World α} {n m : NodeId}
  {t t' : TreeId} {k : Kind} {op : Op α}

theorem Own.nodeTree_held (I : Own w) (hk : 0 < w.held k n) :
    w.heap.nodeTree n = .ok t ↔ w.heap.memTree n = some t := by
  obtain ⟨u, rc, l, hm, -, -⟩ := I.tree_of_held hk
  simp [Heap.nodeTree, Heap.treeCore, Heap.treeCoreOpt, Heap.memTree, hm]

theorem Own.nodeTree_some (I : Own w) (hk : 0 < w.held k n) :
    ∃ t, w.heap.nodeTree n = .ok t ∧ w.heap.treeAlive t = true := by
  obtain ⟨u, rc, l, hm, -, hta⟩ := I.tree_of_held hk
  exact ⟨u, by simp [Heap.nodeTree, Heap.treeCore, Heap.treeCoreOpt, hm], hta⟩

/-- The alive locks, in terms of the counter. -/
theorem Own.alive_locks (I : Own w) (hta : w.heap.treeAlive t = true) :
    (w.GrantAlive t ↔ 0 < w.heap.grants t) ∧ (w.ProhAlive t ↔ w.heap.grants t < 0) := by
  obtain ⟨L, hL, hmem, hmode, hb⟩ := I.locks t hta
  have hex : ∀ x ∈ L, 0 < w.held .hot x ∧ w.heap.nodeTree x = .ok t ∨
      0 < w.held .frozen x ∧ w.heap.nodeTree x = .ok t := by
    intro x hx
    obtain ⟨h1, h2⟩ := (hmem x).1 hx
    by_cases h0 : 0 < w.held .hot x
    · exact .inl ⟨h0, (I.nodeTree_held h0).2 h1⟩
    · have h0 : 0 < w.held .frozen x := by omega
      exact .inr ⟨h0, (I.nodeTree_held h0).2 h1⟩
  have hsub : ∀ x k, 0 < w.held k x → w.heap.nodeTree x = .ok t → k ≠ .plain → 0 < L.length := by
    intro x k hk hx hkp
    refine List.length_pos_of_mem ((hmem x).2 ⟨(I.nodeTree_held hk).1 hx, ?_⟩)
    cases k <;> simp at hkp <;> omega
  have hne : 0 < L.length → ∃ x, x ∈ L := fun h => List.exists_mem_of_length_pos h
  rcases hmode with ⟨a, b, c⟩ | ⟨a, b, c⟩
  · constructor
    · constructor
      · rintro (h1 | ⟨x, h1, h2⟩)
        · omega
        · have := hsub x _ h1 h2 (by simp); omega
      · intro hg
        by_cases h0 : 0 < w.grantTok t
        · exact .inl h0
        · obtain ⟨x, hx⟩ := hne (by omega)
          rcases hex x hx with h1 | h1
          · exact .inr ⟨x, h1⟩
          · have := b x ((hmem x).1 hx).1; omega
    · constructor
      · rintro (h1 | ⟨x, h1, h2⟩)
        · omega
        · have := b x ((I.nodeTree_held h1).1 h2); omega
      · intro hg; omega
  · constructor
    · constructor
      · rintro (h1 | ⟨x, h1, h2⟩)
        · omega
        · have := b x ((I.nodeTree_held h1).1 h2); omega
      · intro hg; omega
    · constructor
      · rintro (h1 | ⟨x, h1, h2⟩)
        · omega
        · have := hsub x _ h1 h2 (by simp); omega
      · intro hg
        by_cases h0 : 0 < w.prohTok t
        · exact .inl h0
        · obtain ⟨x, hx⟩ := hne (by omega)
          rcases hex x hx with h1 | h1
          · have := b x ((hmem x).1 hx).1; omega
          · exact .inr ⟨x, h1⟩

theorem Own.locksExact (I : Own w) (hta : w.heap.treeAlive t = true) : w.LocksExact t := by
  obtain ⟨e1, e2⟩ := I.alive_locks hta
  obtain ⟨L, hL, hmem, hmode, hb⟩ := I.locks t hta
  refine ⟨L, hL, ?_, ?_, ?_, ?_⟩
  · intro x
    rw [hmem]
    constructor
    · rintro ⟨h1, h2⟩
      have : 0 < w.held .hot x ∨ 0 < w.held .frozen x := by omega
      refine ⟨h2, ?_⟩
      rcases this with h3 | h3 <;> exact (I.nodeTree_held h3).2 h1
    · rintro ⟨h2, h1⟩
      have : 0 < w.held .hot x ∨ 0 < w.held .frozen x := by omega
      refine ⟨?_, h2⟩
      rcases this with h3 | h3 <;> exact (I.nodeTree_held h3).1 h1
  · intro hg
    rw [e1] at hg
    rcases hmode with ⟨a, b, c⟩ | ⟨a, b, c⟩ <;> omega
  · intro hg
    rw [e2] at hg
    rcases hmode with ⟨a, b, c⟩ | ⟨a, b, c⟩ <;> omega
  · intro h1 h2
    rw [e1] at h1; rw [e2] at h2; omega


/-- Dropping a node reference runs no assertion that can fail. -/
theorem release_noPanic {pins : List NodeId} : ∀ {f : Nat} {n : NodeId} {h : Heap α} {s : String},
    Heap.release f pins n h ≠ .error (.panic s)
  | 0, n, h, s => by simp [Heap.release]
  | f + 1, n, h, s => by
    intro e
    simp only [Heap.release] at e
    split at e
    · cases e
    · split at e
      · rename_i er her
        simp only [Except.error.injEq] at e; subst e
        split at her
        · exact release_noPanic her
        · cases her
      · split at e
        · exact release_noPanic e
        · cases e

theorem dropStep_noPanic {j : Nat} {pins : List NodeId} {v : NodeId} {s : String} :
    h.dropStep j pins v ≠ .error (.panic s) := by
  intro e
  unfold Heap.dropStep at e
  split at e
  · simp only [bind, Except.bind] at e
    split at e
    · rename_i er her
      simp only [Except.error.injEq] at e; subst e
      split at her
      · exact release_noPanic her
      · cases her
    · split at e
      · rename_i er her
        simp only [Except.error.injEq] at e; subst e
        exact release_noPanic her
      · exact release_noPanic e
  · exact release_noPanic e

theorem dropLoop_noPanic {j : Nat} {pins : List NodeId} : ∀ {f : Nat} {ev : Option (DftEvent NodeId)}
    {h : Heap α} {s : String}, Heap.dropLoop j f pins ev h ≠ .error (.panic s)
  | f, none, h, s => by cases f <;> simp [Heap.dropLoop]
  | 0, some _, h, s => by simp [Heap.dropLoop]
  | f + 1, some ev, h, s => by
    intro e
    cases ev with
    | opn v =>
      simp only [Heap.dropLoop] at e
      split at e
      · rename_i er her
        simp only [Except.error.injEq] at e; subst e
        exact release_noPanic her
      · exact dropLoop_noPanic e
    | cls v =>
      simp only [Heap.dropLoop] at e
      split at e
      · rename_i er her
        simp only [Except.error.injEq] at e; subst e
        exact dropStep_noPanic her
      · exact dropLoop_noPanic e

theorem maybeDropTree_noPanic {pins : List NodeId} {s : String} :
    h.maybeDropTree pins t ≠ .error (.panic s) := by
  intro e
  unfold Heap.maybeDropTree Heap.dropTree Heap.dropTreeWith at e
  split at e
  · split at e
    · cases e
    · split at e
      · rename_i er her
        simp only [Except.error.injEq] at e; subst e
        exact dropLoop_noPanic her
      · exact release_noPanic e
  · cases e

theorem Own.dropLink_noPanic {s : String} (I : Own w) (hk : 0 < w.held .plain n) :
    w.heap.dropLink n ≠ .error (.panic s) := by
  intro e
  obtain ⟨u, rc, l, hm, -, hta⟩ := I.tree_of_held hk
  obtain ⟨e1, e2, e3⟩ := I.strong _ _ _ _ hm
  simp only [Heap.dropLink, Heap.decRef, hm, bind, Except.bind] at e
  split at e
  · rename_i er her
    simp only [Except.error.injEq] at e; subst e
    split at her
    · split at her
      · omega
      · exact maybeDropTree_noPanic her
    · cases her
  · exact release_noPanic e

theorem Own.drop_noPanic {s : String} (I : Own w) (hk : 0 < w.held k n) :
    w.exec (.drop k n) ≠ .error (.panic s) := by
  intro e
  simp only [World.exec, bind, Except.bind, pure, Except.pure] at e
  split at e
  · rename_i er her
    simp only [Except.error.injEq] at e; subst e
    by_cases hkp : k = .plain
    · subst hkp; exact I.dropLink_noPanic hk her
    · obtain ⟨h1, e1, I1⟩ := I.unbundle hk hkp
      have e2 : h1.dropLink n = .error (.panic s) := by
        cases k with
        | plain => exact absurd rfl hkp
        | hot => simpa [Heap.dropHandle, e1, bind, Except.bind] using her
        | frozen => simpa [Heap.dropHandle, e1, bind, Except.bind] using her
      exact I1.dropLink_noPanic (n := n) (by simp) (by simpa using e2)
  · cases e

end Dendron
