import Verif.Proofs.SafeLink
import Verif.Proofs.WorldTok

/-! The ownership and lock invariant, which every call keeps, also in damaged hierarchies: operations on
handles and tokens. -/

set_option linter.unusedSimpArgs false
set_option linter.unusedVariables false

set_option autoImplicit false

namespace Dendron
variable {α : Type} {h h' : Heap α} {w w' : World α} {n : NodeId} {t : TreeId} {k : Kind}

/-- Handles, tokens, reference counts and lock counts agree. -/
structure Own (w : World α) : Prop where
  base : Base w.heap
  strong : ∀ n t rc l, w.heap.mem n = .strong t rc l →
    rc = w.held .plain n + w.held .hot n + w.held .frozen n ∧ l = w.held .hot n + w.held .frozen n ∧
      0 < rc
  weak : ∀ n o, w.heap.mem n = .weak o → ∀ k, w.held k n = 0
  treeRc : ∀ t, w.heap.treeRc t = w.trees t
  treesAlive : ∀ t, 0 < w.trees t → w.heap.treeAlive t = true
  toks : ∀ t, 0 < w.grantTok t + w.prohTok t → t < w.heap.nTree
  tokX : TokX w
  locks : ∀ t, w.heap.treeAlive t = true → LockOK w t

theorem Own.tree_of_held (I : Own w) (hk : 0 < w.held k n) :
    ∃ t rc l, w.heap.mem n = .strong t rc l ∧ w.heap.alive n = true ∧ w.heap.treeAlive t = true := by
  cases hm : w.heap.mem n with
  | weak o => have := I.weak n o hm k; omega
  | strong t rc l => exact ⟨t, rc, l, rfl, I.base.memb _ _ _ _ hm⟩

/-- One node gets another number of handles, and the lock counter of its tree is adjusted. -/
theorem Own.node {rc l : Nat} {g : Int} (I : Own w) (ha : w.heap.alive n = true)
    (ht : w.heap.memTree n = some t) (hta : w.heap.treeAlive t = true)
    (hheap : w'.heap = (w.heap.setGrants t g).setMem n (.strong t rc l))
    (hheld : ∀ k m, m ≠ n → w'.held k m = w.held k m) (hpos : 0 < rc)
    (hrc : rc = w'.held .plain n + w'.held .hot n + w'.held .frozen n)
    (hl : l = w'.held .hot n + w'.held .frozen n)
    (e1 : w'.trees = w.trees) (e2 : w'.grantTok = w.grantTok) (e3 : w'.prohTok = w.prohTok)
    (hlock : LockOK w' t) : Own w' := by
  have hmt : ∀ x, w'.heap.memTree x = w.heap.memTree x := by
    intro x
    rw [hheap]
    by_cases hx : x = n
    · subst hx; simp [Heap.memTree, Heap.setMem]; exact ht.symm
    · simp [Heap.memTree, Heap.setMem, Heap.setGrants, upd_ne _ _ hx]
  have hmem : ∀ x, w'.heap.mem x = if x = n then .strong t rc l else w.heap.mem x := by
    intro x; rw [hheap]; rfl
  have hgr : ∀ u, u ≠ t → w'.heap.grants u = w.heap.grants u := by
    intro u hu; rw [hheap]; simp [Heap.setMem, Heap.setGrants, hu]
  have hal : ∀ x, w'.heap.alive x = w.heap.alive x := by intro x; rw [hheap]; rfl
  have htal : ∀ x, w'.heap.treeAlive x = w.heap.treeAlive x := by intro x; rw [hheap]; rfl
  have hnT : w'.heap.nTree = w.heap.nTree := by rw [hheap]; rfl
  constructor
  · have B := I.base
    constructor
    · intro m x e; rw [hal, hal]; exact B.next m x (by rw [hheap] at e; exact e)
    · intro m x e; rw [hal, hal]; exact B.first m x (by rw [hheap] at e; exact e)
    · intro u x e; rw [hal]; exact B.root u x (by rw [hheap] at e; exact e)
    · intro x hx; rw [hal] at hx; rw [hheap]; exact B.bound x hx
    · intro x hx; rw [htal] at hx; rw [hnT]; exact B.tbound x hx
    · intro x u a b hx
      rw [hmem] at hx
      rw [hal, htal]
      split at hx
      · rename_i e; rw [e]; simp at hx; rw [← hx.1]; exact ⟨ha, hta⟩
      · exact B.memb _ _ _ _ hx
  · intro x u a b hx
    rw [hmem] at hx
    split at hx
    · rename_i e
      rw [e]
      simp at hx
      omega
    · rename_i e
      rw [hheld _ _ e, hheld _ _ e, hheld _ _ e]
      exact I.strong _ _ _ _ hx
  · intro x o hx k
    rw [hmem] at hx
    split at hx
    · simp at hx
    · rename_i e
      rw [hheld _ _ e]; exact I.weak _ _ hx k
  · intro u; rw [e1, hheap]; exact I.treeRc u
  · intro u hu; rw [e1] at hu; rw [htal]; exact I.treesAlive u hu
  · intro u hu; rw [e2, e3] at hu; rw [hnT]; exact I.toks u hu
  · intro u; rw [e2, e3]; exact I.tokX u
  · intro u hu
    rw [htal] at hu
    by_cases hut : u = t
    · rw [hut]; exact hlock
    · refine (I.locks u hu).congr (hgr u hut) (by rw [e2]) (by rw [e3]) ?_ ?_
      · intro x h0 hx
        rw [hmt] at hx
        have hxn : x ≠ n := by rintro rfl; rw [ht] at hx; exact hut (by simpa using hx.symm)
        rw [hheld _ _ hxn, hheld _ _ hxn]
        exact ⟨hx, Iff.rfl, Iff.rfl⟩
      · intro x h0 hx
        have hxn : x ≠ n := by rintro rfl; rw [ht] at hx; exact hut (by simpa using hx.symm)
        rw [hmt, hheld _ _ hxn, hheld _ _ hxn]
        exact ⟨hx, Iff.rfl, Iff.rfl⟩

/-- Handles change without any lock being acquired or released. -/
theorem Own.nodeSame {rc l : Nat} (I : Own w) (ha : w.heap.alive n = true)
    (ht : w.heap.memTree n = some t) (hta : w.heap.treeAlive t = true)
    (hheap : w'.heap = w.heap.setMem n (.strong t rc l))
    (hheld : ∀ k m, m ≠ n → w'.held k m = w.held k m) (hpos : 0 < rc)
    (hrc : rc = w'.held .plain n + w'.held .hot n + w'.held .frozen n)
    (hl : l = w'.held .hot n + w'.held .frozen n)
    (e1 : w'.trees = w.trees) (e2 : w'.grantTok = w.grantTok) (e3 : w'.prohTok = w.prohTok)
    (h1 : w'.held .hot n = 0 ↔ w.held .hot n = 0)
    (h2 : w'.held .frozen n = 0 ↔ w.held .frozen n = 0) : Own w' := by
  have hheap' : w'.heap = (w.heap.setGrants t (w.heap.grants t)).setMem n (.strong t rc l) := by
    rw [setGrants_self]; exact hheap
  refine I.node ha ht hta hheap' hheld hpos hrc hl e1 e2 e3 ?_
  have hmt : ∀ x, w'.heap.memTree x = w.heap.memTree x := by
    rw [hheap']; exact memTree_setMem (m := .weak none) ht
  refine (I.locks t hta).congr (by rw [hheap]; rfl) (by rw [e2]) (by rw [e3]) ?_ ?_
  · intro x _ hx
    rw [hmt] at hx
    by_cases e : x = n
    · subst e; exact ⟨hx, h1, h2⟩
    · rw [hheld _ _ e, hheld _ _ e]; exact ⟨hx, Iff.rfl, Iff.rfl⟩
  · intro x _ hx
    rw [hmt]
    by_cases e : x = n
    · subst e; exact ⟨hx, h1, h2⟩
    · rw [hheld _ _ e, hheld _ _ e]; exact ⟨hx, Iff.rfl, Iff.rfl⟩

/-- `Node::with_node_core` gives a plain handle. -/
theorem Own.givePlain (I : Own w) (ha : w.heap.alive n = true) (e : w.heap.withNodeCore n = .ok h') :
    Own (({ w with heap := h' }).give .plain n) ∧ (∀ u, h'.grants u = w.heap.grants u) ∧
      h'.memTree n = w.heap.memTree n := by
  unfold Heap.withNodeCore Heap.incRef at e
  cases hm : w.heap.mem n with
  | strong u rc l =>
    simp only [hm, Except.ok.injEq] at e
    subst e
    obtain ⟨e1, e2, e3⟩ := I.strong _ _ _ _ hm
    refine ⟨?_, fun _ => rfl, by simp [Heap.memTree, Heap.setMem, hm]⟩
    refine I.nodeSame (rc := rc + 1) (l := l) ha (memTree_strong hm) (I.base.memb _ _ _ _ hm).2 rfl ?_
      (by omega) ?_ ?_ rfl rfl rfl ?_ ?_ <;> simp
    · intro k m h1 _ h2; exact absurd h2 h1
    · omega
    · omega
  | weak o =>
    have e0 := I.weak _ _ hm
    simp only [hm] at e
    cases hf : o.filter w.heap.treeAlive with
    | none => simp [hf] at e
    | some t =>
      simp only [hf, Except.ok.injEq] at e
      subst e
      obtain ⟨ho, hta⟩ := Option.filter_eq_some_iff.1 hf
      refine ⟨?_, fun _ => rfl, by simp [Heap.memTree, Heap.setMem, hm, ho]⟩
      refine I.nodeSame (rc := 1) (l := 0) ha (by simp [Heap.memTree, hm, ho]) hta rfl ?_
        (by omega) ?_ ?_ rfl rfl rfl ?_ ?_ <;> simp [e0]
      intro k m h1 _ h2; exact absurd h2 h1

/-- Cloning the link of a handle gives another plain handle. -/
theorem Own.clonePlain (I : Own w) (hk : 0 < w.held k n) :
    ∃ h', w.heap.cloneLink n = .ok h' ∧ Own (({ w with heap := h' }).give .plain n) := by
  obtain ⟨t, rc, l, hm, ha, hta⟩ := I.tree_of_held hk
  have e : w.heap.withNodeCore n = .ok (w.heap.setMem n (.strong t (rc + 1) l)) := by
    simp [Heap.withNodeCore, Heap.incRef, hm]
  exact ⟨_, by simp [Heap.cloneLink, hm], (I.givePlain ha e).1⟩

/-- Cloning a handle. -/
theorem Own.cloneHandle (I : Own w) (hk : 0 < w.held k n) :
    ∃ h', w.heap.cloneHandle n k = .ok h' ∧ Own (({ w with heap := h' }).give k n) := by
  obtain ⟨t, rc, l, hm, ha, hta⟩ := I.tree_of_held hk
  obtain ⟨e1, e2, e3⟩ := I.strong _ _ _ _ hm
  have main : k ≠ .plain → ∃ h', (do let h ← w.heap.incLockNonzero n; h.cloneLink n : Except Fault (Heap α)) = .ok h' ∧
      Own (({ w with heap := h' }).give k n) := by
    intro hkp
    have hl : l ≠ 0 := by cases k <;> simp at hkp <;> omega
    have hx : (w.heap.setMem n (.strong t rc (l+1))).setMem n (.strong t (rc + 1) (l + 1))
        = w.heap.setMem n (.strong t (rc + 1) (l + 1)) := by
      unfold Heap.setMem; congr 1; funext x; by_cases e : x = n <;> simp [upd, e]
    refine ⟨w.heap.setMem n (.strong t (rc + 1) (l + 1)), ?_, ?_⟩
    · simp only [Heap.incLockNonzero, hm, hl, if_false, bind, Except.bind, Heap.cloneLink]
      rw [show ((w.heap.setMem n (.strong t rc (l+1))).mem n) = .strong t rc (l+1) by
        simp [Heap.setMem]]
      simp only [hx]
    · refine I.nodeSame (rc := rc + 1) (l := l + 1) ha (memTree_strong hm) hta rfl ?_ (by omega)
        ?_ ?_ rfl rfl rfl ?_ ?_
      · intro k' m hx; simp [hx]
      all_goals cases k <;> simp at hkp hk ⊢ <;> omega
  cases k with
  | plain => exact I.clonePlain hk
  | hot => exact main (by simp)
  | frozen => exact main (by simp)

/-- Making a plain handle hot. -/
theorem Own.bundleHot {rc l : Nat} (I : Own w) (hp : 0 < w.held .plain n)
    (hm : w.heap.mem n = .strong t rc l) :
    (w.heap.grants t < 0 ∧ w.heap.acquireEditGrant n = .ok none) ∨
    (w.heap.grants t = Lock.isizeMax ∧ l = 0 ∧
      w.heap.acquireEditGrant n = .error (.panic "too many hierarchy edit grants")) ∨
    (0 ≤ w.heap.grants t ∧ ∃ h', w.heap.acquireEditGrant n = .ok (some h') ∧
      Own ((({ w with heap := h' }).take .plain n).give .hot n)) := by
  obtain ⟨ha, hta⟩ := I.base.memb _ _ _ _ hm
  have ht := memTree_strong hm
  obtain ⟨e1, e2, e3⟩ := I.strong _ _ _ _ hm
  have LK := I.locks t hta
  by_cases hg : w.heap.grants t < 0
  · left
    refine ⟨hg, ?_⟩
    simp [Heap.acquireEditGrant, hm, Lock.ensureGrantAcquirable, hg]
  · have hg' : 0 ≤ w.heap.grants t := by omega
    obtain ⟨L, hL, hmem, G⟩ := LK.grantMode hg'
    have hb : Lock.isizeMin ≤ w.heap.grants t ∧ w.heap.grants t ≤ Lock.isizeMax := by
      obtain ⟨_, _, _, _, hb⟩ := LK; exact hb
    have hf := G.2.1 n ht
    by_cases hl : l = 0
    · by_cases hov : Lock.isizeMax < w.heap.grants t + 1
      · right; left
        refine ⟨by omega, hl, ?_⟩
        simp [Heap.acquireEditGrant, hm, Lock.ensureGrantAcquirable, hg', hl, Lock.acquireGrant, hg,
          hov]
      · right; right
        refine ⟨hg', (w.heap.setGrants t (w.heap.grants t + 1)).setMem n (.strong t rc 1), ?_, ?_⟩
        · simp [Heap.acquireEditGrant, hm, Lock.ensureGrantAcquirable, hg', hl, Lock.acquireGrant,
            hg, hov]
        · refine I.node (rc := rc) (l := 1) (g := w.heap.grants t + 1) ha ht hta rfl ?_ (by omega)
            ?_ ?_ rfl rfl rfl ?_
          · intro k' m hx; simp [hx]
          · simp; omega
          · simp; omega
          · refine LockOK.ofGrant (n := n) hL hmem G ht (memTree_setMem (m := .weak none) ht) ?_ rfl
              rfl ?_ ?_ ?_
            · intro k' m hx; simp [hx]
            · simp; omega
            · have h0 : w.held .hot n = 0 := by omega
              simp [Heap.setMem, Heap.setGrants, h0]
            · simp [Heap.setMem, Heap.setGrants]
              simp only [Lock.isizeMin, Lock.isizeMax] at *
              omega
    · right; right
      refine ⟨hg', w.heap.setMem n (.strong t rc (l + 1)), ?_, ?_⟩
      · simp [Heap.acquireEditGrant, hm, Lock.ensureGrantAcquirable, hg', hl]
      · refine I.nodeSame (rc := rc) (l := l + 1) ha ht hta rfl ?_ (by omega) ?_ ?_ rfl rfl rfl ?_ ?_
        · intro k' m hx; simp [hx]
        all_goals simp; try omega

/-- Making a plain handle frozen. -/
theorem Own.bundleFrozen {rc l : Nat} (I : Own w) (hp : 0 < w.held .plain n)
    (hm : w.heap.mem n = .strong t rc l) :
    (0 < w.heap.grants t ∧ w.heap.acquireEditProhibition n = .ok none) ∨
    (w.heap.grants t = Lock.isizeMin ∧ l = 0 ∧
      w.heap.acquireEditProhibition n = .error (.panic "too many hierarchy edit prohibitions")) ∨
    (w.heap.grants t ≤ 0 ∧ ∃ h', w.heap.acquireEditProhibition n = .ok (some h') ∧
      Own ((({ w with heap := h' }).take .plain n).give .frozen n)) := by
  obtain ⟨ha, hta⟩ := I.base.memb _ _ _ _ hm
  have ht := memTree_strong hm
  obtain ⟨e1, e2, e3⟩ := I.strong _ _ _ _ hm
  have LK := I.locks t hta
  by_cases hg : 0 < w.heap.grants t
  · left
    refine ⟨hg, ?_⟩
    simp [Heap.acquireEditProhibition, hm, Lock.ensureProhibitionAcquirable, hg]
  · have hg' : w.heap.grants t ≤ 0 := by omega
    obtain ⟨L, hL, hmem, G⟩ := LK.prohMode hg'
    have hb : Lock.isizeMin ≤ w.heap.grants t ∧ w.heap.grants t ≤ Lock.isizeMax := by
      obtain ⟨_, _, _, _, hb⟩ := LK; exact hb
    have hf := G.2.1 n ht
    by_cases hl : l = 0
    · by_cases hov : w.heap.grants t - 1 < Lock.isizeMin
      · right; left
        refine ⟨by omega, hl, ?_⟩
        simp [Heap.acquireEditProhibition, hm, Lock.ensureProhibitionAcquirable, hg', hl,
          Lock.acquireProhibition, hg, hov]
      · right; right
        refine ⟨hg', (w.heap.setGrants t (w.heap.grants t - 1)).setMem n (.strong t rc 1), ?_, ?_⟩
        · simp [Heap.acquireEditProhibition, hm, Lock.ensureProhibitionAcquirable, hg', hl,
            Lock.acquireProhibition, hg, hov]
        · refine I.node (rc := rc) (l := 1) (g := w.heap.grants t - 1) ha ht hta rfl ?_ (by omega)
            ?_ ?_ rfl rfl rfl ?_
          · intro k' m hx; simp [hx]
          · simp; omega
          · simp; omega
          · refine LockOK.ofProh (n := n) hL hmem G ht (memTree_setMem (m := .weak none) ht) ?_ rfl
              rfl ?_ ?_ ?_
            · intro k' m hx; simp [hx]
            · simp; omega
            · have h0 : w.held .frozen n = 0 := by omega
              simp [Heap.setMem, Heap.setGrants, h0]
            · simp [Heap.setMem, Heap.setGrants]
              simp only [Lock.isizeMin, Lock.isizeMax] at *
              omega
    · right; right
      refine ⟨hg', w.heap.setMem n (.strong t rc (l + 1)), ?_, ?_⟩
      · simp [Heap.acquireEditProhibition, hm, Lock.ensureProhibitionAcquirable, hg', hl]
      · refine I.nodeSame (rc := rc) (l := l + 1) ha ht hta rfl ?_ (by omega) ?_ ?_ rfl rfl rfl ?_ ?_
        · intro k' m hx; simp [hx]
        all_goals simp; try omega

/-- Releasing the lock of a hot or frozen handle turns it into a plain one. -/
theorem Own.unbundle (I : Own w) (hk : 0 < w.held k n) (hkp : k ≠ .plain) :
    ∃ h', w.heap.decLock n = .ok h' ∧
      Own ((({ w with heap := h' }).take k n).give .plain n) := by
  obtain ⟨t, rc, l, hm, ha, hta⟩ := I.tree_of_held hk
  obtain ⟨e1, e2, e3⟩ := I.strong _ _ _ _ hm
  have ht := memTree_strong hm
  have LK := I.locks t hta
  have hl : l ≠ 0 := by cases k <;> simp at hkp <;> omega
  have hb : Lock.isizeMin ≤ w.heap.grants t ∧ w.heap.grants t ≤ Lock.isizeMax := by
    obtain ⟨_, _, _, _, hb⟩ := LK; exact hb
  by_cases hl1 : l = 1
  · obtain ⟨L, hL, hmem, hmode, -⟩ := LK
    have hin : n ∈ L := (hmem n).2 ⟨ht, by omega⟩
    have hLp : 0 < L.length := List.length_pos_of_mem hin
    rcases hmode with G | G
    · have hf := G.2.1 n ht
      have hg := G.2.2
      have hkh : k = .hot := by cases k <;> simp at hkp ⊢ <;> omega
      subst hkh
      have hgp : 0 < w.heap.grants t := by omega
      refine ⟨(w.heap.setGrants t (w.heap.grants t - 1)).setMem n (.strong t rc 0), ?_, ?_⟩
      · simp [Heap.decLock, hm, hl1, Lock.releaseAny, Heap.setMem, Heap.setGrants, hgp]
      · refine I.node (rc := rc) (l := 0) (g := w.heap.grants t - 1) ha ht hta rfl ?_ (by omega)
          ?_ ?_ rfl rfl rfl ?_
        · intro k' m hx; simp [hx]
        · simp; omega
        · simp; omega
        · refine LockOK.ofGrant (n := n) hL hmem G ht (memTree_setMem (m := .weak none) ht) ?_ rfl
            rfl ?_ ?_ ?_
          · intro k' m hx; simp [hx]
          · simp; omega
          · have h0 : w.held .hot n = 1 := by omega
            simp [Heap.setMem, Heap.setGrants, h0]
          · simp [Heap.setMem, Heap.setGrants]
            simp only [Lock.isizeMin, Lock.isizeMax] at *
            omega
    · have hf := G.2.1 n ht
      have hg := G.2.2
      have hkh : k = .frozen := by cases k <;> simp at hkp ⊢ <;> omega
      subst hkh
      have hgp : w.heap.grants t < 0 := by omega
      refine ⟨(w.heap.setGrants t (w.heap.grants t + 1)).setMem n (.strong t rc 0), ?_, ?_⟩
      · have h1 : ¬ 0 < w.heap.grants t := by omega
        have h2 : ¬ w.heap.grants t = 0 := by omega
        simp [Heap.decLock, hm, hl1, Lock.releaseAny, Heap.setMem, Heap.setGrants, h1, h2]
      · refine I.node (rc := rc) (l := 0) (g := w.heap.grants t + 1) ha ht hta rfl ?_ (by omega)
          ?_ ?_ rfl rfl rfl ?_
        · intro k' m hx; simp [hx]
        · simp; omega
        · simp; omega
        · refine LockOK.ofProh (n := n) hL hmem G ht (memTree_setMem (m := .weak none) ht) ?_ rfl
            rfl ?_ ?_ ?_
          · intro k' m hx; simp [hx]
          · simp; omega
          · have h0 : w.held .frozen n = 1 := by omega
            simp [Heap.setMem, Heap.setGrants, h0]
          · simp [Heap.setMem, Heap.setGrants]
            simp only [Lock.isizeMin, Lock.isizeMax] at *
            omega
  · have hex : w.held .hot n = 0 ∨ w.held .frozen n = 0 := by
      obtain ⟨L, hL, hmem, hmode, -⟩ := LK
      rcases hmode with G | G
      · exact .inr (G.2.1 n ht)
      · exact .inl (G.2.1 n ht)
    refine ⟨w.heap.setMem n (.strong t rc (l - 1)), ?_, ?_⟩
    · have : l - 1 ≠ 0 := by omega
      simp [Heap.decLock, hm, hl, this]
    · refine I.nodeSame (rc := rc) (l := l - 1) ha ht hta rfl ?_ (by omega) ?_ ?_ rfl rfl rfl ?_ ?_
      · intro k' m hx; simp [hx]
      all_goals cases k <;> simp at hkp hk ⊢ <;> omega


/-- The tokens of a living tree and its lock counter change together. -/
theorem Own.setToks {g : Int} {gt pt : Nat} (I : Own w) (hta : w.heap.treeAlive t = true)
    (hl : ∀ L : List NodeId, (GrantMode w t L ∨ ProhMode w t L) →
      (pt = 0 ∧ (∀ n, w.heap.memTree n = some t → w.held .frozen n = 0) ∧ g = gt + L.length) ∨
      (gt = 0 ∧ (∀ n, w.heap.memTree n = some t → w.held .hot n = 0) ∧
        g = -((pt : Int) + L.length)))
    (hb : Lock.isizeMin ≤ g ∧ g ≤ Lock.isizeMax) :
    Own { w with heap := w.heap.setGrants t g, grantTok := upd w.grantTok t gt,
                 prohTok := upd w.prohTok t pt } := by
  refine { base := I.base.setGrants, strong := I.strong, weak := I.weak, treeRc := I.treeRc,
           treesAlive := I.treesAlive, toks := ?_, tokX := ?_, locks := ?_ }
  · intro u hu
    by_cases e : u = t
    · rw [e]; exact I.base.tbound t hta
    · simp [upd_apply, e] at hu; exact I.toks u (by omega)
  · intro u
    by_cases e : u = t
    · subst e
      obtain ⟨L, a, b, c, d⟩ := I.locks u hta
      rcases hl L c with ⟨p, q, r⟩ | ⟨p, q, r⟩ <;> simp [p]
    · simpa [upd_apply, e] using I.tokX u
  · intro u hu
    have LK := I.locks u hu
    by_cases e : u = t
    · subst e
      obtain ⟨L, a, b, c, d⟩ := LK
      refine ⟨L, a, b, ?_, ?_⟩
      · rcases hl L c with ⟨p, q, r⟩ | ⟨p, q, r⟩
        · exact .inl ⟨by simpa using p, q, by simpa [Heap.setGrants] using r⟩
        · exact .inr ⟨by simpa using p, q, by simpa [Heap.setGrants] using r⟩
      · simpa [Heap.setGrants] using hb
    · exact LK.congr (by simp [Heap.setGrants, e]) (by simp [e]) (by simp [e])
        (fun x _ hx => ⟨hx, Iff.rfl, Iff.rfl⟩) (fun x _ hx => ⟨hx, Iff.rfl, Iff.rfl⟩)

theorem Own.acquireTok (I : Own w) (hta : w.heap.treeAlive t = true) (b : Bool) :
    (w.execAcquire b t = .ok (w, .denied) ∧
      (if b then w.heap.grants t < 0 else 0 < w.heap.grants t)) ∨
    ((∃ m, w.execAcquire b t = .error (.panic m)) ∧
      (if b then w.heap.grants t = Lock.isizeMax else w.heap.grants t = Lock.isizeMin)) ∨
    ((if b then 0 ≤ w.heap.grants t else w.heap.grants t ≤ 0) ∧
      ∃ h', w.execAcquire b t = .ok (({ w with heap := h' }).giveTok b t, .unit) ∧
        Own (({ w with heap := h' }).giveTok b t)) := by
  have LK := I.locks t hta
  obtain ⟨hb1, hb2⟩ : Lock.isizeMin ≤ w.heap.grants t ∧ w.heap.grants t ≤ Lock.isizeMax := by
    obtain ⟨_, _, _, _, hb⟩ := LK; exact hb
  cases b with
  | true =>
    by_cases h1 : w.heap.grants t < 0
    · left; simp [World.execAcquire, World.lockTree, Lock.acquireGrant, h1]
    · by_cases h2 : Lock.isizeMax < w.heap.grants t + 1
      · right; left; simp [World.execAcquire, World.lockTree, Lock.acquireGrant, h1, h2]; omega
      · right; right
        refine ⟨by simp; omega, w.heap.setGrants t (w.heap.grants t + 1), ?_, ?_⟩
        · simp [World.execAcquire, World.lockTree, Lock.acquireGrant, h1, h2]
        · obtain ⟨L0, -, hm0, G⟩ := LK.grantMode (by omega)
          have := I.setToks (g := w.heap.grants t + 1) (gt := w.grantTok t + 1) (pt := w.prohTok t)
            hta (by
              intro L hL
              rcases hL with h | h
              · exact .inl ⟨h.1, h.2.1, by have := h.2.2; omega⟩
              · have h3 := h.2.2
                have h4 := h.1
                exact .inl ⟨G.1, G.2.1, by omega⟩) (by omega)
          have e : upd w.prohTok t (w.prohTok t) = w.prohTok := by
            funext x; by_cases e : x = t <;> simp [e, upd]
          rw [e] at this
          exact this
  | false =>
    by_cases h1 : 0 < w.heap.grants t
    · left; simp [World.execAcquire, World.lockTree, Lock.acquireProhibition, h1]
    · by_cases h2 : w.heap.grants t - 1 < Lock.isizeMin
      · right; left; simp [World.execAcquire, World.lockTree, Lock.acquireProhibition, h1, h2]; omega
      · right; right
        refine ⟨by simp; omega, w.heap.setGrants t (w.heap.grants t - 1), ?_, ?_⟩
        · simp [World.execAcquire, World.lockTree, Lock.acquireProhibition, h1, h2]
        · obtain ⟨L0, -, hm0, G⟩ := LK.prohMode (by omega)
          have := I.setToks (g := w.heap.grants t - 1) (gt := w.grantTok t) (pt := w.prohTok t + 1)
            hta (by
              intro L hL
              rcases hL with h | h
              · have h3 := h.2.2
                have h4 := h.1
                exact .inr ⟨G.1, G.2.1, by omega⟩
              · exact .inr ⟨h.1, h.2.1, by have := h.2.2; omega⟩) (by omega)
          have e : upd w.grantTok t (w.grantTok t) = w.grantTok := by
            funext x; by_cases e : x = t <;> simp [e, upd]
          rw [e] at this
          exact this

theorem Own.releaseTok {b : Bool} (I : Own w) (hta : w.heap.treeAlive t = true)
    (hk : if b then 0 < w.grantTok t else 0 < w.prohTok t) :
    ∃ g, World.unlockTree (w.heap.grants t) b = .ok g ∧
      Own (({ w with heap := w.heap.setGrants t g }).takeTok b t) := by
  have LK := I.locks t hta
  obtain ⟨L0, hL0, hm0, hmode, hb1, hb2⟩ := LK
  cases b with
  | true =>
    simp only [if_true] at hk
    have hgp : 0 < w.heap.grants t := by
      rcases hmode with ⟨a, b, c⟩ | ⟨a, b, c⟩ <;> omega
    refine ⟨w.heap.grants t - 1, ?_, ?_⟩
    · have : ¬ w.heap.grants t ≤ 0 := by omega
      simp [World.unlockTree, Lock.releaseGrant, this]
    · have := I.setToks (g := w.heap.grants t - 1) (gt := w.grantTok t - 1) (pt := w.prohTok t)
        hta (by
          intro L hL
          rcases hL with h | h
          · exact .inl ⟨h.1, h.2.1, by have := h.2.2; omega⟩
          · have := h.1; omega)
        (by simp only [Lock.isizeMin, Lock.isizeMax] at *; omega)
      have e : upd w.prohTok t (w.prohTok t) = w.prohTok := by
        funext x; by_cases e : x = t <;> simp [e, upd]
      rw [e] at this
      exact this
  | false =>
    simp only [Bool.false_eq_true, if_false] at hk
    have hgp : w.heap.grants t < 0 := by
      rcases hmode with ⟨a, b, c⟩ | ⟨a, b, c⟩ <;> omega
    refine ⟨w.heap.grants t + 1, ?_, ?_⟩
    · have : ¬ 0 ≤ w.heap.grants t := by omega
      simp [World.unlockTree, Lock.releaseProhibition, this]
    · have := I.setToks (g := w.heap.grants t + 1) (gt := w.grantTok t) (pt := w.prohTok t - 1)
        hta (by
          intro L hL
          rcases hL with h | h
          · have := h.1; omega
          · exact .inr ⟨h.1, h.2.1, by have := h.2.2; omega⟩)
        (by simp only [Lock.isizeMin, Lock.isizeMax] at *; omega)
      have e : upd w.grantTok t (w.grantTok t) = w.grantTok := by
        funext x; by_cases e : x = t <;> simp [e, upd]
      rw [e] at this
      exact this

/-- Tokens of a dead tree come and go without effect. -/
theorem Own.deadToks {gt pt : TreeId → Nat} (I : Own w) (hd : w.heap.treeAlive t = false)
    (hb : t < w.heap.nTree) (hx : gt t = 0 ∨ pt t = 0)
    (h1 : ∀ u, u ≠ t → gt u = w.grantTok u ∧ pt u = w.prohTok u) :
    Own { w with grantTok := gt, prohTok := pt } := by
  refine { base := I.base, strong := I.strong, weak := I.weak, treeRc := I.treeRc,
           treesAlive := I.treesAlive, toks := ?_, tokX := ?_, locks := ?_ }
  · intro u hu
    by_cases e : u = t
    · rw [e]; exact hb
    · simp only [h1 u e] at hu; exact I.toks u hu
  · intro u
    by_cases e : u = t
    · rw [e]; exact hx
    · simp only [h1 u e]; exact I.tokX u
  · intro u hu
    have e : u ≠ t := by
      rintro rfl
      have hu : w.heap.treeAlive u = true := hu
      rw [hd] at hu; cases hu
    exact (I.locks u hu).congr rfl (h1 u e).1 (h1 u e).2 (fun x _ hx => ⟨hx, Iff.rfl, Iff.rfl⟩)
      (fun x _ hx => ⟨hx, Iff.rfl, Iff.rfl⟩)

end Dendron
