import Verif.Proofs.SafeWorld

/-! The ownership and lock invariant: dropping handles, freeing, changing trees. -/

set_option linter.unusedSimpArgs false
set_option linter.unusedVariables false

set_option autoImplicit false

namespace Dendron
variable {α : Type} {h h' : Heap α} {w w' : World α} {n : NodeId} {t t' : TreeId} {k : Kind}

theorem Own.frees (I : Own w) (B : Base h') (F : Frees w.heap h') : Own { w with heap := h' } := by
  refine { base := B, strong := ?_, weak := ?_, treeRc := ?_, treesAlive := ?_, toks := ?_,
           tokX := I.tokX, locks := ?_ }
  · intro n t rc l hm; exact I.strong n t rc l ((F.mem _ _ _ _).2 hm)
  · intro n o hm k
    cases hx : w.heap.mem n with
    | weak o' => exact I.weak n o' hx k
    | strong t rc l =>
      have := (F.mem _ _ _ _).1 hx
      have hm : h'.mem n = .weak o := hm
      rw [hm] at this; cases this
  · intro t
    show h'.treeRc t = w.trees t
    rw [F.treeRc]; exact I.treeRc t
  · intro t ht
    have ht : 0 < w.trees t := ht
    have := I.treeRc t
    rcases F.tree t with ⟨a, -⟩ | ⟨-, a, -⟩
    · show h'.treeAlive t = true
      rw [a]; exact I.treesAlive t ht
    · omega
  · intro t ht; show t < h'.nTree; rw [F.nTree]; exact I.toks t ht
  · intro t ht
    have ht : h'.treeAlive t = true := ht
    rcases F.tree t with ⟨a, b⟩ | ⟨a, -⟩
    · have key : ∀ x, 0 < w.held .hot x + w.held .frozen x → h'.memTree x = w.heap.memTree x := by
        intro x hx
        have : ∃ k, 0 < w.held k x := by
          by_cases h0 : 0 < w.held .hot x
          · exact ⟨.hot, h0⟩
          · exact ⟨.frozen, by omega⟩
        obtain ⟨k, hk⟩ := this
        obtain ⟨u, rc, l, hm, -, -⟩ := I.tree_of_held hk
        rw [memTree_strong hm, memTree_strong ((F.mem _ _ _ _).1 hm)]
      rw [a] at ht
      refine (I.locks t ht).congr b rfl rfl ?_ ?_
      · intro x h0 hx
        exact ⟨(key x h0).symm.trans hx, Iff.rfl, Iff.rfl⟩
      · intro x h0 hx
        exact ⟨(key x h0).trans hx, Iff.rfl, Iff.rfl⟩
    · rw [a] at ht; cases ht

theorem Own.relinks {P : List NodeId} (I : Own w) (R : Relinks P w.heap h') :
    Own { w with heap := h' } :=
  I.frees R.base R.frees

theorem Own.acqTree (I : Own w) (hta : w.heap.treeAlive t = true) :
    Own { w with heap := w.heap.acqTree t, trees := upd w.trees t (w.trees t + 1) } := by
  refine { base := I.base.setTreeRc, strong := I.strong, weak := I.weak, treeRc := ?_,
           treesAlive := ?_, toks := I.toks, tokX := I.tokX, locks := ?_ }
  · intro u
    have := I.treeRc u
    by_cases e : u = t
    · subst e; simp [Heap.acqTree, Heap.setTreeRc]; omega
    · simp [Heap.acqTree, Heap.setTreeRc, e]; omega
  · intro u hu
    show w.heap.treeAlive u = true
    by_cases e : u = t
    · rw [e]; exact hta
    · exact I.treesAlive u (by simpa [e] using hu)
  · intro u hu
    exact (I.locks u hu).congr rfl rfl rfl (fun x _ hx => ⟨hx, Iff.rfl, Iff.rfl⟩)
      (fun x _ hx => ⟨hx, Iff.rfl, Iff.rfl⟩)

theorem Own.relTree {pins : List NodeId} (I : Own w) (ht : 0 < w.trees t)
    (e : w.heap.relTree pins t = .ok h') :
    Own { w with heap := h', trees := upd w.trees t (w.trees t - 1) } := by
  have I1 : Own { w with heap := w.heap.setTreeRc t (w.heap.treeRc t - 1), trees := upd w.trees t (w.trees t - 1) } := by
    refine { base := I.base.setTreeRc, strong := I.strong, weak := I.weak, treeRc := ?_,
             treesAlive := ?_, toks := I.toks, tokX := I.tokX, locks := ?_ }
    · intro u
      have := I.treeRc u
      by_cases e : u = t
      · subst e; simp [Heap.setTreeRc]; omega
      · simp [Heap.setTreeRc, e]; omega
    · intro u hu
      show w.heap.treeAlive u = true
      by_cases e : u = t
      · rw [e]; exact I.treesAlive t ht
      · exact I.treesAlive u (by simpa [e] using hu)
    · intro u hu
      exact (I.locks u hu).congr rfl rfl rfl (fun x _ hx => ⟨hx, Iff.rfl, Iff.rfl⟩)
        (fun x _ hx => ⟨hx, Iff.rfl, Iff.rfl⟩)
  unfold Heap.relTree at e
  obtain ⟨B, F⟩ := I1.base.maybeDropTree e
  exact I1.frees B F

theorem Base.setMem {m : Membership} (B : Base h)
    (hm : ∀ t rc l, m = .strong t rc l → h.alive n = true ∧ h.treeAlive t = true) :
    Base (h.setMem n m) := by
  refine ⟨B.next, B.first, B.root, B.bound, B.tbound, ?_⟩
  intro x t rc l e
  simp only [Heap.setMem, upd_apply] at e
  split at e
  · rename_i ex; rw [ex]; exact hm _ _ _ e
  · exact B.memb _ _ _ _ e

/-- Dropping the link of a plain handle. -/
theorem Own.dropLink (I : Own w) (hk : 0 < w.held .plain n) (e : w.heap.dropLink n = .ok h') :
    Own (({ w with heap := h' }).take .plain n) := by
  obtain ⟨t, rc, l, hm, ha, hta⟩ := I.tree_of_held hk
  obtain ⟨e1, e2, e3⟩ := I.strong _ _ _ _ hm
  simp only [Heap.dropLink, bind, Except.bind] at e
  split at e
  · cases e
  · rename_i h1 hd
    have I1 : Own (({ w with heap := h1 }).take .plain n) := by
      unfold Heap.decRef at hd
      simp only [hm] at hd
      split at hd
      · rename_i hrc
        split at hd
        · cases hd
        · rename_i hl
          have hz : w.held .hot n = 0 ∧ w.held .frozen n = 0 ∧ w.held .plain n = 1 := by omega
          have I2 : Own (({ w with heap := w.heap.setMem n (.weak (some t)) }).take .plain n) := by
            have hmem : ∀ x, (w.heap.setMem n (.weak (some t))).mem x =
                if x = n then .weak (some t) else w.heap.mem x := fun x => rfl
            have hheld : ∀ k x, x ≠ n → (({ w with heap := w.heap.setMem n (.weak (some t)) } : World α).take .plain n).held k x = w.held k x := by
              intro k x hx; simp [hx]
            refine { base := I.base.setMem (by intro _ _ _ e; cases e), strong := ?_, weak := ?_,
                     treeRc := I.treeRc, treesAlive := I.treesAlive, toks := I.toks, tokX := I.tokX,
                     locks := ?_ }
            · intro x u a b hx
              simp only [take_heap, hmem] at hx
              split at hx
              · cases hx
              · rename_i ex
                rw [hheld _ _ ex, hheld _ _ ex, hheld _ _ ex]
                exact I.strong _ _ _ _ hx
            · intro x o hx k
              simp only [take_heap, hmem] at hx
              split at hx
              · rename_i ex; subst ex
                cases k <;> simp <;> omega
              · rename_i ex
                rw [hheld _ _ ex]; exact I.weak _ _ hx k
            · intro u hu
              refine (I.locks u hu).congr rfl rfl rfl ?_ ?_
              · intro x h0 hx
                have ex : x ≠ n := by
                  rintro rfl; simp at h0; omega
                rw [hheld _ _ ex, hheld _ _ ex]
                refine ⟨?_, Iff.rfl, Iff.rfl⟩
                simpa [Heap.memTree, hmem, ex] using hx
              · intro x h0 hx
                have ex : x ≠ n := by
                  rintro rfl; omega
                rw [hheld _ _ ex, hheld _ _ ex]
                refine ⟨?_, Iff.rfl, Iff.rfl⟩
                simpa [Heap.memTree, hmem, ex] using hx
          obtain ⟨B, F⟩ := I2.base.maybeDropTree hd
          exact I2.frees B F
      · rename_i hrc
        simp only [Except.ok.injEq] at hd
        subst hd
        refine I.nodeSame (rc := rc - 1) (l := l) ha (memTree_strong hm) hta rfl ?_ (by omega) ?_ ?_
          rfl rfl rfl ?_ ?_ <;> simp
        · intro k m h1 _ h2; exact absurd h2 h1
        · omega
        · omega
    obtain ⟨B, F⟩ := I1.base.release e
    exact I1.frees B F

theorem take_give_plain (hk : 0 < w.held k n) (h1 h2 : Heap α) :
    ({ ((({ w with heap := h1 }).take k n).give .plain n) with heap := h2 } : World α).take .plain n
      = ({ w with heap := h2 } : World α).take k n := by
  simp only [World.give, World.take]
  congr 1
  funext k' m
  by_cases e : k' = .plain ∧ m = n
  · by_cases e2 : k = .plain
    · subst e2; simp only [e, and_self, if_true]; omega
    · have : ¬ (Kind.plain = k) := fun h => e2 h.symm
      simp [e, this]
  · by_cases e2 : k' = k ∧ m = n
    · have : ¬ k = .plain := fun h => e ⟨e2.1.trans h, e2.2⟩
      simp [e2, this]
    · simp [e, e2]

/-- Dropping a handle. -/
theorem Own.dropHandle (I : Own w) (hk : 0 < w.held k n) (e : w.heap.dropHandle n k = .ok h') :
    Own (({ w with heap := h' }).take k n) := by
  cases k with
  | plain => exact I.dropLink hk e
  | hot =>
    simp only [Heap.dropHandle, bind, Except.bind] at e
    obtain ⟨h1, e1, I1⟩ := I.unbundle hk (by simp)
    rw [e1] at e
    have := I1.dropLink (n := n) (by simp) e
    rwa [take_give_plain hk] at this
  | frozen =>
    simp only [Heap.dropHandle, bind, Except.bind] at e
    obtain ⟨h1, e1, I1⟩ := I.unbundle hk (by simp)
    rw [e1] at e
    have := I1.dropLink (n := n) (by simp) e
    rwa [take_give_plain hk] at this

/-! ### Changing the tree of a node -/

theorem Heap.setGrants_setGrants (h : Heap α) (t : TreeId) (a b : Int) :
    (h.setGrants t a).setGrants t b = h.setGrants t b := by
  unfold Heap.setGrants
  congr 1
  funext x
  by_cases e : x = t <;> simp [e, upd]

theorem Heap.setMem_self {m : Membership} (hm : h.mem n = m) : h.setMem n m = h := by
  subst hm
  unfold Heap.setMem
  have : upd h.mem n (h.mem n) = h.mem := by
    funext x; by_cases e : x = n <;> simp [e, upd]
  rw [this]

theorem transferLock_same {h1 : Heap α} (e : h.transferLock t t = .ok (some h1)) : h1 = h := by
  unfold Heap.transferLock at e
  split at e
  · split at e
    · cases e
    · cases e
    · rename_i g hg
      simp only [Except.ok.injEq, Option.some.injEq] at e
      subst e
      rw [Heap.setGrants_setGrants]
      unfold Lock.acquireGrant at hg
      split at hg
      · cases hg
      · split at hg
        · cases hg
        · simp only [Except.ok.injEq, Option.some.injEq] at hg
          subst hg
          simp only [Heap.setGrants, upd_same]
          have : h.grants t + 1 - 1 = h.grants t := by omega
          rw [this]
          exact setGrants_self h t
  · split at e
    · simp only [Except.ok.injEq, Option.some.injEq] at e
      exact e.symm
    · split at e
      · cases e
      · cases e
      · rename_i g hg
        simp only [Except.ok.injEq, Option.some.injEq] at e
        subst e
        rw [Heap.setGrants_setGrants]
        unfold Lock.acquireProhibition at hg
        split at hg
        · cases hg
        · split at hg
          · cases hg
          · simp only [Except.ok.injEq, Option.some.injEq] at hg
            subst hg
            simp only [Heap.setGrants, upd_same]
            have : h.grants t - 1 + 1 = h.grants t := by omega
            rw [this]
            exact setGrants_self h t

/-- A transfer between different trees. -/
theorem transferLock_ne {h1 : Heap α} (hne : t ≠ t') (e : h.transferLock t t' = .ok (some h1)) :
    (0 < h.grants t ∧ 0 ≤ h.grants t' ∧ h.grants t' + 1 ≤ Lock.isizeMax ∧
      h1 = (h.setGrants t' (h.grants t' + 1)).setGrants t (h.grants t - 1)) ∨
    (h.grants t = 0 ∧ h1 = h) ∨
    (h.grants t < 0 ∧ h.grants t' ≤ 0 ∧ Lock.isizeMin ≤ h.grants t' - 1 ∧
      h1 = (h.setGrants t' (h.grants t' - 1)).setGrants t (h.grants t + 1)) := by
  unfold Heap.transferLock at e
  split at e
  · rename_i hp
    left
    split at e
    · cases e
    · cases e
    · rename_i g hg
      simp only [Except.ok.injEq, Option.some.injEq] at e
      subst e
      unfold Lock.acquireGrant at hg
      split at hg
      · cases hg
      · split at hg
        · cases hg
        · simp only [Except.ok.injEq, Option.some.injEq] at hg
          subst hg
          refine ⟨hp, by omega, by omega, ?_⟩
          simp [Heap.setGrants, hne]
  · split at e
    · rename_i h0
      simp only [Except.ok.injEq, Option.some.injEq] at e
      exact .inr (.inl ⟨h0, e.symm⟩)
    · right; right
      split at e
      · cases e
      · cases e
      · rename_i g hg
        simp only [Except.ok.injEq, Option.some.injEq] at e
        subst e
        unfold Lock.acquireProhibition at hg
        split at hg
        · cases hg
        · split at hg
          · cases hg
          · simp only [Except.ok.injEq, Option.some.injEq] at hg
            subst hg
            refine ⟨by omega, by omega, by omega, ?_⟩
            simp [Heap.setGrants, hne]

theorem Own.locked_tree (I : Own w) {x : NodeId} (hx : 0 < w.held .hot x + w.held .frozen x) :
    ∃ u rc l, w.heap.mem x = .strong u rc l := by
  have : ∃ k, 0 < w.held k x := by
    by_cases h0 : 0 < w.held .hot x
    · exact ⟨.hot, h0⟩
    · exact ⟨.frozen, by omega⟩
  obtain ⟨k, hk⟩ := this
  obtain ⟨u, rc, l, hm, -, -⟩ := I.tree_of_held hk
  exact ⟨u, rc, l, hm⟩

/-- A node gets another tree; lock counters other than those of the two trees are unchanged. -/
theorem Own.retree {rc l : Nat} {g : TreeId → Int} (I : Own w) (hm : w.heap.mem n = .strong t rc l)
    (hta : w.heap.treeAlive t' = true)
    (hl : ∀ u, w.heap.treeAlive u = true → (u = t ∨ u = t') →
      LockOK { w with heap := ({ w.heap with grants := g } : Heap α).setMem n (.strong t' rc l) } u)
    (hg : ∀ u, u ≠ t → u ≠ t' → g u = w.heap.grants u) :
    Own { w with heap := ({ w.heap with grants := g } : Heap α).setMem n (.strong t' rc l) } := by
  have hmem : ∀ x, (({ w.heap with grants := g } : Heap α).setMem n (.strong t' rc l)).mem x =
      if x = n then .strong t' rc l else w.heap.mem x := fun x => rfl
  have B0 : Base ({ w.heap with grants := g } : Heap α) :=
    ⟨I.base.next, I.base.first, I.base.root, I.base.bound, I.base.tbound, I.base.memb⟩
  refine { base := B0.setMem ?_, strong := ?_, weak := ?_,
           treeRc := I.treeRc, treesAlive := I.treesAlive, toks := I.toks, tokX := I.tokX,
           locks := ?_ }
  · intro u a b e
    simp only [Membership.strong.injEq] at e
    rw [← e.1]
    exact ⟨(I.base.memb _ _ _ _ hm).1, hta⟩
  · intro x u a b hx
    simp only [hmem] at hx
    split at hx
    · rename_i ex
      simp only [Membership.strong.injEq] at hx
      have := I.strong _ _ _ _ hm
      rw [ex, ← hx.2.1, ← hx.2.2]; exact this
    · exact I.strong _ _ _ _ hx
  · intro x o hx k
    simp only [hmem] at hx
    split at hx
    · cases hx
    · exact I.weak _ _ hx k
  · intro u hu
    by_cases h1 : u = t
    · exact hl u hu (.inl h1)
    · by_cases h2 : u = t'
      · exact hl u hu (.inr h2)
      · refine (I.locks u hu).congr (hg u h1 h2) rfl rfl ?_ ?_
        · intro x h0 hx
          have ex : x ≠ n := by
            rintro rfl
            simp only [Heap.memTree, hmem, if_pos] at hx
            exact h2 (by simpa using hx.symm)
          exact ⟨by simpa [Heap.memTree, hmem, ex] using hx, Iff.rfl, Iff.rfl⟩
        · intro x h0 hx
          have ex : x ≠ n := by
            rintro rfl
            rw [memTree_strong hm] at hx
            exact h1 (by simpa using hx.symm)
          exact ⟨by simpa [Heap.memTree, hmem, ex] using hx, Iff.rfl, Iff.rfl⟩

theorem Own.setTreeCore {pins : List NodeId} (I : Own w) (hta : w.heap.treeAlive t' = true)
    (e : w.heap.setTreeCore pins n t' = .ok (some h')) : Own { w with heap := h' } := by
  unfold Heap.setTreeCore at e
  split at e
  · rename_i o hm
    simp only [Except.ok.injEq, Option.some.injEq] at e
    subst e
    have F : Frees w.heap (w.heap.setMem n (.weak (some t'))) := by
      refine ⟨?_, fun _ _ => rfl, fun _ => .inl ⟨rfl, rfl⟩, rfl, rfl, rfl⟩
      intro x u a b
      simp only [Heap.setMem, upd_apply]
      split
      · rename_i ex; rw [ex, hm]; simp
      · rfl
    exact I.frees (I.base.setMem (by intro _ _ _ e; cases e)) F
  · rename_i t rc l hm
    obtain ⟨e1, e2, e3⟩ := I.strong _ _ _ _ hm
    obtain ⟨ha, htal⟩ := I.base.memb _ _ _ _ hm
    have htm := memTree_strong hm
    split at e
    · cases e
    · cases e
    · rename_i h1 hx
      simp only at e
      split at e
      · cases e
      · rename_i h3 hd
        simp only [Except.ok.injEq, Option.some.injEq] at e
        subst e
        have I2 : Own { w with heap := h1.setMem n (.strong t' rc l) } := by
          by_cases hne : t = t'
          · subst hne
            have : h1 = w.heap := by
              split at hx
              · exact transferLock_same hx
              · simp only [Except.ok.injEq, Option.some.injEq] at hx; exact hx.symm
            rw [this, Heap.setMem_self hm]; exact I
          · have hmem : ∀ g : TreeId → Int, ∀ x, (({ w.heap with grants := g } : Heap α).setMem n (.strong t' rc l)).mem x =
                if x = n then .strong t' rc l else w.heap.mem x := fun _ x => rfl
            have hmt : ∀ g : TreeId → Int, ∀ x, x ≠ n → (({ w.heap with grants := g } : Heap α).setMem n (.strong t' rc l)).memTree x = w.heap.memTree x := by
              intro g x hx; simp [Heap.memTree, hmem, hx]
            have hmn : ∀ g : TreeId → Int, (({ w.heap with grants := g } : Heap α).setMem n (.strong t' rc l)).memTree n = some t' := by
              intro g; simp [Heap.memTree, hmem]
            by_cases hl : l = 0
            · rw [if_neg (by simp [hl])] at hx
              simp only [Except.ok.injEq, Option.some.injEq] at hx
              subst hx
              refine I.retree (g := w.heap.grants) hm hta ?_ (fun _ _ _ => rfl)
              intro u hu _
              refine (I.locks u hu).congr rfl rfl rfl ?_ ?_
              · intro x h0 hx
                have h0 : 0 < w.held .hot x + w.held .frozen x := h0
                have ex : x ≠ n := by rintro rfl; omega
                rw [hmt _ _ ex] at hx
                exact ⟨hx, Iff.rfl, Iff.rfl⟩
              · intro x h0 hx
                have ex : x ≠ n := by rintro rfl; omega
                rw [← hmt w.heap.grants _ ex] at hx
                exact ⟨hx, Iff.rfl, Iff.rfl⟩
            · rw [if_pos hl] at hx
              obtain ⟨L, hL, hLm, hmode, hb⟩ := I.locks t htal
              have hin : n ∈ L := (hLm n).2 ⟨htm, by omega⟩
              have hLp : 0 < L.length := List.length_pos_of_mem hin
              have hlk := I.locks t' hta
              -- the two lists afterwards
              have hne' : ¬ t' = t := fun e => hne e.symm
              have listOld : ∀ g : TreeId → Int, ∃ L' : List NodeId, L'.Nodup ∧
                  (∀ m, m ∈ L' ↔ (({ w.heap with grants := g } : Heap α).setMem n (.strong t' rc l)).memTree m = some t ∧
                    0 < w.held .hot m + w.held .frozen m) ∧ (L'.length : Int) = L.length - 1 := by
                intro g
                obtain ⟨L', a, b, c⟩ := adjust_list (n := n) (P' := fun m =>
                  (({ w.heap with grants := g } : Heap α).setMem n (.strong t' rc l)).memTree m = some t ∧
                    0 < w.held .hot m + w.held .frozen m) hL hLm
                  (by intro m hm'; rw [hmt g m hm'])
                refine ⟨L', a, b, ?_⟩
                rw [hmn g] at c
                have : 0 < w.held .hot n + w.held .frozen n := by omega
                simp [htm, this, hne'] at c
                omega
              have listNew : ∀ g : TreeId → Int, ∀ M : List NodeId, M.Nodup →
                  (∀ m, m ∈ M ↔ w.heap.memTree m = some t' ∧ 0 < w.held .hot m + w.held .frozen m) →
                  ∃ L' : List NodeId, L'.Nodup ∧
                  (∀ m, m ∈ L' ↔ (({ w.heap with grants := g } : Heap α).setMem n (.strong t' rc l)).memTree m = some t' ∧
                    0 < w.held .hot m + w.held .frozen m) ∧ (L'.length : Int) = M.length + 1 := by
                intro g M hM hMm
                obtain ⟨L', a, b, c⟩ := adjust_list (n := n) (P' := fun m =>
                  (({ w.heap with grants := g } : Heap α).setMem n (.strong t' rc l)).memTree m = some t' ∧
                    0 < w.held .hot m + w.held .frozen m) hM hMm
                  (by intro m hm'; rw [hmt g m hm'])
                refine ⟨L', a, b, ?_⟩
                rw [hmn g] at c
                have : 0 < w.held .hot n + w.held .frozen n := by omega
                simp [htm, this, hne] at c
                omega
              rcases transferLock_ne hne hx with ⟨c1, c2, c3, rfl⟩ | ⟨c1, rfl⟩ | ⟨c1, c2, c3, rfl⟩
              · have G : GrantMode w t L := by
                  rcases hmode with G | G
                  · exact G
                  · have := G.2.2; omega
                obtain ⟨M, hM, hMm, GM⟩ := hlk.grantMode c2
                refine I.retree (g := upd (upd w.heap.grants t' (w.heap.grants t' + 1)) t (w.heap.grants t - 1))
                  hm hta ?_ (by intro u h1 h2; simp [h1, h2])
                rintro u hu (rfl | rfl)
                · obtain ⟨L', a, b, c⟩ := listOld _
                  refine ⟨L', a, b, .inl ⟨G.1, ?_, ?_⟩, ?_⟩
                  · intro x hx
                    have ex : x ≠ n := by
                      rintro rfl; rw [hmn] at hx; exact hne' (by simpa using hx)
                    rw [hmt _ _ ex] at hx; exact G.2.1 x hx
                  · have := G.2.2
                    simp [Heap.setMem]
                    omega
                  · simp only [Heap.setMem, upd_same]
                    simp only [Lock.isizeMin, Lock.isizeMax] at *
                    omega
                · obtain ⟨L', a, b, c⟩ := listNew _ M hM hMm
                  refine ⟨L', a, b, .inl ⟨GM.1, ?_, ?_⟩, ?_⟩
                  · intro x hx
                    by_cases ex : x = n
                    · rw [ex]; exact G.2.1 n htm
                    · rw [hmt _ _ ex] at hx; exact GM.2.1 x hx
                  · have := GM.2.2
                    simp [Heap.setMem, hne']
                    omega
                  · simp only [Heap.setMem, upd_ne _ _ hne', upd_same]
                    simp only [Lock.isizeMin, Lock.isizeMax] at *
                    omega
              · exfalso
                rcases hmode with G | G <;> have := G.2.2 <;> omega
              · have G : ProhMode w t L := by
                  rcases hmode with G | G
                  · have := G.2.2; omega
                  · exact G
                obtain ⟨M, hM, hMm, GM⟩ := hlk.prohMode c2
                refine I.retree (g := upd (upd w.heap.grants t' (w.heap.grants t' - 1)) t (w.heap.grants t + 1))
                  hm hta ?_ (by intro u h1 h2; simp [h1, h2])
                rintro u hu (rfl | rfl)
                · obtain ⟨L', a, b, c⟩ := listOld _
                  refine ⟨L', a, b, .inr ⟨G.1, ?_, ?_⟩, ?_⟩
                  · intro x hx
                    have ex : x ≠ n := by
                      rintro rfl; rw [hmn] at hx; exact hne' (by simpa using hx)
                    rw [hmt _ _ ex] at hx; exact G.2.1 x hx
                  · have := G.2.2
                    simp [Heap.setMem]
                    omega
                  · simp only [Heap.setMem, upd_same]
                    simp only [Lock.isizeMin, Lock.isizeMax] at *
                    omega
                · obtain ⟨L', a, b, c⟩ := listNew _ M hM hMm
                  refine ⟨L', a, b, .inr ⟨GM.1, ?_, ?_⟩, ?_⟩
                  · intro x hx
                    by_cases ex : x = n
                    · rw [ex]; exact G.2.1 n htm
                    · rw [hmt _ _ ex] at hx; exact GM.2.1 x hx
                  · have := GM.2.2
                    simp [Heap.setMem, hne']
                    omega
                  · simp only [Heap.setMem, upd_ne _ _ hne', upd_same]
                    simp only [Lock.isizeMin, Lock.isizeMax] at *
                    omega
        obtain ⟨B, F⟩ := I2.base.maybeDropTree hd
        exact I2.frees B F

theorem Own.setMembLoop {start : NodeId} : ∀ {f : Nat} {ev : Option (DftEvent NodeId)} {h h' : Heap α},
    Own { w with heap := h } → 0 < w.trees t → Heap.setMembLoop f start t ev h = .ok (some h') →
    Own { w with heap := h' }
  | f, none, h, h', I, ht, e => by
    cases f <;> simp only [Heap.setMembLoop, Except.ok.injEq, Option.some.injEq] at e <;> subst e <;>
      exact I
  | 0, some _, h, h', I, ht, e => by cases e
  | f + 1, some ev, h, h', I, ht, e => by
    simp only [Heap.setMembLoop] at e
    split at e
    · simp only [Except.ok.injEq, Option.some.injEq] at e; subst e; exact I
    · split at e
      · split at e
        · cases e
        · cases e
        · rename_i h1 he1
          have I1 := I.setTreeCore (I.treesAlive t ht) he1
          split at e
          · cases e
          · rename_i h2 he2
            obtain ⟨B, F⟩ := I1.base.release he2
            exact Own.setMembLoop (I1.frees B F) ht e
      · split at e
        · cases e
        · rename_i h2 he2
          obtain ⟨B, F⟩ := I.base.release he2
          exact Own.setMembLoop (I.frees B F) ht e

end Dendron
