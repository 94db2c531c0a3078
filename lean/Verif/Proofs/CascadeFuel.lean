import Verif.Proofs.CascadeFacts

/-! The bound on how deep the destructors are nested does not matter. -/

set_option linter.unusedSimpArgs false
set_option linter.unusedVariables false
set_option autoImplicit false

namespace Dendron
variable {α : Type} {h h' : Heap α} {n x p : NodeId} {t u : TreeId} {c : Nest} {d d' : Dtor α}
  {pins : List NodeId} {own : NodeId → List Asset} {a : Asset}

/-- Where `d` returns, `d'` returns the same. -/
def Dtor.Le (d d' : Dtor α) : Prop := ∀ c x h h', d c x h = .ok h' → d' c x h = .ok h'

theorem releaseC_le (D : Dtor.Le d d') : ∀ {f : Nat} {n : NodeId} {h h' : Heap α},
    h.releaseC d c f pins n = .ok h' → h.releaseC d' c f pins n = .ok h'
  | 0, _, _, _, e => by cases e
  | f + 1, n, h, h', e => by
    unfold Heap.releaseC at e ⊢
    split at e
    · rename_i hc; rw [if_pos hc]; exact e
    · rename_i hc
      rw [if_neg hc]
      simp only at e ⊢
      split at e
      · cases e
      · rename_i h2 e2
        rw [D _ _ _ _ e2]
        simp only
        have step : ∀ {o : Option NodeId} {g g' : Heap α},
            (match o with | some x => Heap.releaseC d c f pins x g | none => Except.ok g) = .ok g' →
            (match o with | some x => Heap.releaseC d' c f pins x g | none => Except.ok g) = .ok g' := by
          intro o g g' e
          cases o with
          | none => exact e
          | some y => exact releaseC_le D e
        split at e
        · cases e
        · rename_i h3 e3
          have e3' := step e3
          have e' := step e
          cases hf : h.firstChild n <;> cases hn : h.next n <;> simp only [hf, hn] at e3' e' ⊢ <;>
            first
            | (cases e3'; exact e')
            | (rw [e3']; exact e')

theorem dropStepC_le (D : Dtor.Le d d') {k : Nat} (e : h.dropStepC d c k pins n = .ok h') :
    h.dropStepC d' c k pins n = .ok h' := by
  unfold Heap.dropStepC at e ⊢
  split at e
  · rename_i q hq
    simp only [bind, Except.bind] at e ⊢
    split at e
    · cases e
    rename_i g1 e1
    split at e
    · cases e
    rename_i g2 e2
    have e1' : (match h.firstChild q with
      | some x => Heap.releaseC d' c k (q :: n :: pins) x ((h.setNext n none).setFirst q (h.next n))
      | none => Except.ok ((h.setNext n none).setFirst q (h.next n))) = .ok g1 := by
      split at e1
      · rename_i hf; rw [hf]; exact releaseC_le D e1
      · rename_i hf; rw [hf]; exact e1
    have e2' := releaseC_le D e2
    have e' := releaseC_le D e
    cases hf : h.firstChild q <;> simp only [hf] at e1' ⊢
    · cases e1'; rw [e2']; exact e'
    · rw [e1']; simp only; rw [e2']; exact e'
  · exact releaseC_le D e

theorem dropLoopC_le (D : Dtor.Le d d') {k : Nat} : ∀ {f : Nat} {ev : Option (DftEvent NodeId)} {h h' : Heap α},
    h.dropLoopC d c k f pins ev = .ok h' → h.dropLoopC d' c k f pins ev = .ok h'
  | f, none, h, h', e => by cases f <;> exact e
  | 0, some _, _, _, e => by cases e
  | f + 1, some ev, h, h', e => by
    unfold Heap.dropLoopC at e ⊢
    simp only at e ⊢
    split at e
    · cases e
    · rename_i h1 e1
      have e2 := dropLoopC_le D e
      cases ev with
      | opn v =>
        simp only at e1 ⊢
        rw [releaseC_le D e1]; exact e2
      | cls v =>
        simp only at e1 ⊢
        rw [dropStepC_le D e1]; exact e2

theorem dropTreeC_le (D : Dtor.Le d d') (e : h.dropTreeC d c pins t = .ok h') : h.dropTreeC d' c pins t = .ok h' := by
  unfold Heap.dropTreeC at e ⊢
  split at e
  · exact e
  · rename_i r hr
    split at e
    · cases e
    · rename_i h1 e1
      rw [dropLoopC_le D e1]
      exact releaseC_le D e

theorem maybeDropTreeC_le (D : Dtor.Le d d') (e : h.maybeDropTreeC d c pins t = .ok h') :
    h.maybeDropTreeC d' c pins t = .ok h' := by
  unfold Heap.maybeDropTreeC at e ⊢
  split at e
  · rename_i hc; rw [if_pos hc]; exact dropTreeC_le D e
  · rename_i hc; rw [if_neg hc]; exact e

theorem decRefC_le (D : Dtor.Le d d') (e : h.decRefC d c n = .ok h') : h.decRefC d' c n = .ok h' := by
  unfold Heap.decRefC at e ⊢
  split at e
  · cases e
  · rename_i hc
    rw [if_neg hc]
    split at e
    · cases e
    · split at e
      · rename_i h1
        rw [if_pos h1]
        split at e
        · cases e
        · rename_i h2
          rw [if_neg h2]
          exact maybeDropTreeC_le D e
      · rename_i h1; rw [if_neg h1]; exact e

theorem dropLinkC_le (D : Dtor.Le d d') (e : h.dropLinkC d c n = .ok h') : h.dropLinkC d' c n = .ok h' := by
  unfold Heap.dropLinkC at e ⊢
  simp only [bind, Except.bind] at e ⊢
  split at e
  · cases e
  · rename_i h1 e1
    rw [decRefC_le D e1]
    exact releaseC_le D e

theorem dropAssetC_le (D : Dtor.Le d d') (e : h.dropAssetC d c a = .ok h') : h.dropAssetC d' c a = .ok h' := by
  cases a with
  | node k n =>
    have key : ∀ {g : Heap α}, (do let h ← h.decLockC c n; h.dropLinkC d c n) = .ok g →
        (do let h ← h.decLockC c n; h.dropLinkC d' c n) = .ok g := by
      intro g e
      simp only [bind, Except.bind] at e ⊢
      split at e
      · cases e
      · exact dropLinkC_le D e
    cases k with
    | plain => exact dropLinkC_le D e
    | hot => exact key e
    | frozen => exact key e
  | tree t => exact maybeDropTreeC_le D e
  | token g t => exact e

theorem dropAllC_le (D : Dtor.Le d d') : ∀ {P : List Asset} {h h' : Heap α},
    h.dropAllC d c P = .ok h' → h.dropAllC d' c P = .ok h'
  | [], _, _, e => e
  | a :: as, h, h', e => by
    unfold Heap.dropAllC at e ⊢
    split at e
    · cases e
    · rename_i h1 e1
      rw [dropAssetC_le D e1]
      exact dropAllC_le D e

theorem dtor_le_succ (own : NodeId → List Asset) : ∀ f, Dtor.Le (Heap.dtor own f : Dtor α) (Heap.dtor own (f + 1))
  | 0 => fun _ _ _ _ e => by cases e
  | f + 1 => fun _ _ _ _ e => dropAllC_le (dtor_le_succ own f) e

theorem dtor_le (own : NodeId → List Asset) (f : Nat) : ∀ k, Dtor.Le (Heap.dtor own f : Dtor α) (Heap.dtor own (f + k))
  | 0 => fun _ _ _ _ e => e
  | k + 1 => fun c x h h' e => dtor_le_succ own (f + k) c x h h' (dtor_le own f k c x h h' e)

theorem ReachW.dropAll_any_room {b : World α} {P : List Asset} (hb : ReachW b) (hr : Room b.heap) (hS : OwnsAll own b P) :
    ∃ b', (∀ f, b.heap.nNode ≤ f → b.heap.dropAllC (Heap.dtor own f) Nest.start P = .ok b'.heap) ∧ Drops own P b b' ∧
      Room b'.heap := by
  obtain ⟨b', e, D, R⟩ := hb.dropAll_room (own := own) hr hS (Nat.le_refl _)
  refine ⟨b', fun f hf => ?_, D, R⟩
  obtain ⟨k, rfl⟩ := Nat.exists_eq_add_of_le hf
  exact dropAllC_le (dtor_le own _ k) e

theorem ReachW.dropAll_any {b : World α} {P : List Asset} (hb : ReachW b) (hr : Room b.heap) (hS : OwnsAll own b P) :
    ∃ b', (∀ f, b.heap.nNode ≤ f → b.heap.dropAllC (Heap.dtor own f) Nest.start P = .ok b'.heap) ∧ Drops own P b b' := by
  obtain ⟨b', h1, h2, -⟩ := hb.dropAll_any_room hr hS
  exact ⟨b', h1, h2⟩

/-- Without cycles, nothing stays. -/
theorem Drops.empty {b b' : World α} {P : List Asset} {A : List NodeId} (D : Drops own P b b') (hb : ReachW b)
    (hA : A.Nodup) (hAm : ∀ x, x ∈ A ↔ b.heap.alive x = true)
    (hall : ∀ a, b.count a = (P ++ A.flatMap own).count a) (rank : TreeId → Nat)
    (hrank : ∀ x ∈ A, ∀ a ∈ own x, ∀ u t, b.heap.memTree x = some u → b.Ties a t → rank t < rank u) :
    ∀ t, b'.heap.treeAlive t = false := by
  obtain ⟨l, h1, h2, h3⟩ := D.account hb
  have hb' := D.reach hb
  have F := D.fade hb
  -- the survivors own everything that is left
  have hown : ∀ a, 0 < b'.count a → ∃ x, b'.heap.alive x = true ∧ a ∈ own x := by
    intro a ha
    obtain ⟨l', hp⟩ := subset_perm h1 (fun x hx => (hAm x).2 ((h2 x).1 hx).1)
    have e1 := h3 a
    have e2 := hall a
    rw [List.count_append, (List.Perm.flatMap_right own hp).count_eq, List.flatMap_append, List.count_append] at e2
    rw [List.count_append] at e1
    have : 0 < (l'.flatMap own).count a := by omega
    obtain ⟨x, hx, hax⟩ := List.mem_flatMap.1 (List.count_pos_iff.1 this)
    refine ⟨x, ?_, hax⟩
    have hxA : x ∈ A := hp.symm.subset (List.mem_append_right _ hx)
    cases e : b'.heap.alive x with
    | true => rfl
    | false =>
      have hxl := (h2 x).2 ⟨(hAm x).1 hxA, e⟩
      have hn := (hp.nodup_iff).1 hA
      rw [List.nodup_append] at hn
      exact absurd rfl (hn.2.2 x hxl x hx)
  have key : ∀ N t, b'.heap.treeAlive t = true → ∃ u, b'.heap.treeAlive u = true ∧ N ≤ rank u := by
    intro N
    induction N with
    | zero => exact fun t ht => ⟨t, ht, Nat.zero_le _⟩
    | succ N ih =>
      intro t ht
      obtain ⟨u, hu, hN⟩ := ih t ht
      obtain ⟨a, ha, hau⟩ := World.Ties.exists hb' hu
      obtain ⟨x, hx, hax⟩ := hown a ha
      obtain ⟨v, ch, W⟩ := hb'.wide
      obtain ⟨q, hq⟩ := W.fwd.tree.live x hx
      have hau' : b.Ties a u := by
        cases a with
        | node k n =>
          have h4 : b'.heap.memTree n = some u := hau
          rw [D.members hb n (W.held_alive ha)] at h4; exact h4
        | tree w => exact hau
        | token g w => exact hau
      refine ⟨q, hq.2, ?_⟩
      have := hrank x ((hAm x).2 (F.alive hx)) a hax q u (by rw [← D.members hb x hx]; exact hq.1) hau'
      omega
  intro t
  cases e : b'.heap.treeAlive t with
  | false => rfl
  | true =>
    exfalso
    -- ranks of living trees are bounded
    obtain ⟨v, ch, W⟩ := hb'.wide
    have hbd : ∃ N, ∀ u, u < b'.heap.nTree → rank u < N := by
      generalize b'.heap.nTree = m
      induction m with
      | zero => exact ⟨0, fun u hu => absurd hu (Nat.not_lt_zero _)⟩
      | succ m ih =>
        obtain ⟨N, hN⟩ := ih
        refine ⟨max N (rank m + 1), fun u hu => ?_⟩
        rcases Nat.lt_succ_iff_lt_or_eq.1 hu with h | rfl
        · exact Nat.lt_of_lt_of_le (hN u h) (Nat.le_max_left _ _)
        · exact Nat.lt_of_lt_of_le (Nat.lt_succ_self _) (Nat.le_max_right _ _)
    obtain ⟨N, hN⟩ := hbd
    obtain ⟨u, hu, hNu⟩ := key N t e
    have := hN u (W.fwd.tree.bound u hu)
    omega

end Dendron
