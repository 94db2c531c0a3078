import Verif.Proofs.WorldInv

/-! Operations on a single handle keep the invariant. -/

set_option linter.unusedSimpArgs false
set_option linter.unusedVariables false

set_option autoImplicit false

namespace Dendron
variable {α : Type} {h h' : Heap α} {w w' : World α} {ch ch' : NodeId → List NodeId} {n : NodeId}
  {t : TreeId} {k : Kind}

open Classical in
/-- Membership of one element changes. -/
theorem adjust_list {L : List NodeId} {P P' : NodeId → Prop} (hL : L.Nodup)
    (hm : ∀ m, m ∈ L ↔ P m) (hP : ∀ m, m ≠ n → (P' m ↔ P m)) :
    ∃ L' : List NodeId, L'.Nodup ∧ (∀ m, m ∈ L' ↔ P' m) ∧
      (L'.length : Int) = L.length + (if P' n then 1 else 0) - (if P n then 1 else 0) := by
  by_cases h1 : P' n <;> by_cases h2 : P n
  · refine ⟨L, hL, fun m => ?_, by simp [h1, h2]⟩
    by_cases e : m = n
    · subst e; rw [hm]; simp [h1, h2]
    · rw [hm, hP m e]
  · refine ⟨n :: L, List.nodup_cons.2 ⟨fun hc => h2 ((hm n).1 hc), hL⟩, fun m => ?_, ?_⟩
    · by_cases e : m = n
      · subst e; simp [h1]
      · simp [e, hm, hP m e]
    · simp [h1, h2]
  · refine ⟨L.erase n, hL.erase n, fun m => ?_, ?_⟩
    · rw [hL.mem_erase_iff]
      by_cases e : m = n
      · subst e; simp [h1]
      · simp [e, hm, hP m e]
    · have := List.length_erase_of_mem ((hm n).2 h2)
      have hp : 0 < L.length := List.length_pos_of_mem ((hm n).2 h2)
      simp [h1, h2]; omega
  · refine ⟨L, hL, fun m => ?_, by simp [h1, h2]⟩
    by_cases e : m = n
    · subst e; rw [hm]; simp [h1, h2]
    · rw [hm, hP m e]

theorem LockOK.ofGrant {L : List NodeId} (hL : L.Nodup)
    (hmem : ∀ n, n ∈ L ↔ w.heap.memTree n = some t ∧ 0 < w.held .hot n + w.held .frozen n)
    (G : GrantMode w t L) (ht : w.heap.memTree n = some t)
    (hmt : ∀ x, w'.heap.memTree x = w.heap.memTree x)
    (hheld : ∀ k m, m ≠ n → w'.held k m = w.held k m)
    (e2 : w'.grantTok = w.grantTok) (e3 : w'.prohTok = w.prohTok)
    (hf : w'.held .frozen n = 0)
    (hg : w'.heap.grants t = w.heap.grants t + (if w'.held .hot n = 0 then 0 else 1)
      - (if w.held .hot n = 0 then 0 else 1))
    (hb : Lock.isizeMin ≤ w'.heap.grants t ∧ w'.heap.grants t ≤ Lock.isizeMax) : LockOK w' t := by
  have hfr := G.2.1 n ht
  obtain ⟨L', a, b, c⟩ := adjust_list (n := n)
    (P' := fun n => w'.heap.memTree n = some t ∧ 0 < w'.held .hot n + w'.held .frozen n) hL hmem
    (by intro m hm; simp only [hmt, hheld _ _ hm])
  refine ⟨L', a, b, .inl ⟨by rw [e3]; exact G.1, ?_, ?_⟩, hb⟩
  · intro m hm
    by_cases e : m = n
    · rw [e]; exact hf
    · rw [hheld _ _ e]; exact G.2.1 m (by rw [← hmt]; exact hm)
  · have := G.2.2
    simp only [hmt, ht, true_and, hf, hfr] at c
    rw [hg, e2, c, this]
    by_cases x : w'.held .hot n = 0 <;> by_cases y : w.held .hot n = 0 <;>
      simp [x, y, Nat.pos_iff_ne_zero] <;> omega

theorem LockOK.ofProh {L : List NodeId} (hL : L.Nodup)
    (hmem : ∀ n, n ∈ L ↔ w.heap.memTree n = some t ∧ 0 < w.held .hot n + w.held .frozen n)
    (G : ProhMode w t L) (ht : w.heap.memTree n = some t)
    (hmt : ∀ x, w'.heap.memTree x = w.heap.memTree x)
    (hheld : ∀ k m, m ≠ n → w'.held k m = w.held k m)
    (e2 : w'.grantTok = w.grantTok) (e3 : w'.prohTok = w.prohTok)
    (hf : w'.held .hot n = 0)
    (hg : w'.heap.grants t = w.heap.grants t - (if w'.held .frozen n = 0 then 0 else 1)
      + (if w.held .frozen n = 0 then 0 else 1))
    (hb : Lock.isizeMin ≤ w'.heap.grants t ∧ w'.heap.grants t ≤ Lock.isizeMax) : LockOK w' t := by
  have hfr := G.2.1 n ht
  obtain ⟨L', a, b, c⟩ := adjust_list (n := n)
    (P' := fun n => w'.heap.memTree n = some t ∧ 0 < w'.held .hot n + w'.held .frozen n) hL hmem
    (by intro m hm; simp only [hmt, hheld _ _ hm])
  refine ⟨L', a, b, .inr ⟨by rw [e2]; exact G.1, ?_, ?_⟩, hb⟩
  · intro m hm
    by_cases e : m = n
    · rw [e]; exact hf
    · rw [hheld _ _ e]; exact G.2.1 m (by rw [← hmt]; exact hm)
  · have := G.2.2
    simp only [hmt, ht, true_and, hf, hfr] at c
    rw [hg, e3, c, this]
    by_cases x : w'.held .frozen n = 0 <;> by_cases y : w.held .frozen n = 0 <;>
      simp [x, y, Nat.pos_iff_ne_zero] <;> omega

theorem setGrants_self (h : Heap α) (t : TreeId) : h.setGrants t (h.grants t) = h := by
  unfold Heap.setGrants
  have : upd h.grants t (h.grants t) = h.grants := by
    funext x; by_cases e : x = t <;> simp [e, upd]
  rw [this]

theorem memTree_setMem {m : Membership} {rc l : Nat} {g : Int} (ht : h.memTree n = some t) (x : NodeId) :
    ((h.setGrants t g).setMem n (.strong t rc l)).memTree x = h.memTree x := by
  by_cases hx : x = n
  · subst hx; simp [Heap.memTree, Heap.setMem]; exact ht.symm
  · simp [Heap.memTree, Heap.setMem, Heap.setGrants, upd_ne _ _ hx]

/-- Handles change without any lock being acquired or released. -/
theorem Inv.nodeSame {rc l : Nat} (I : Inv w ch) (ha : w.heap.alive n = true)
    (ht : w.heap.memTree n = some t)
    (hheap : w'.heap = w.heap.setMem n (.strong t rc l))
    (hheld : ∀ k m, m ≠ n → w'.held k m = w.held k m) (hpos : 0 < rc)
    (hrc : rc = w'.held .plain n + w'.held .hot n + w'.held .frozen n)
    (hl : l = w'.held .hot n + w'.held .frozen n)
    (e1 : w'.trees = w.trees) (e2 : w'.grantTok = w.grantTok) (e3 : w'.prohTok = w.prohTok)
    (h1 : w'.held .hot n = 0 ↔ w.held .hot n = 0)
    (h2 : w'.held .frozen n = 0 ↔ w.held .frozen n = 0) : Inv w' ch ∧ Still w.heap w'.heap := by
  have hta := I.wf.tree_alive ha ht
  have hheap' : w'.heap = (w.heap.setGrants t (w.heap.grants t)).setMem n (.strong t rc l) := by
    rw [setGrants_self]; exact hheap
  refine I.node ha ht hheap' hheld hpos hrc hl e1 e2 e3 ?_
  have hmt : ∀ x, w'.heap.memTree x = w.heap.memTree x := by
    rw [hheap']; exact memTree_setMem (m := .weak none) ht
  refine (I.locks t hta).congr (by rw [hheap]; rfl) (by rw [e2]) (by rw [e3]) ?_ ?_
  · intro x _ hx
    rw [hmt] at hx
    by_cases e : x = n
    · subst e; exact ⟨hx, h1, h2⟩
    · rw [hheld _ _ e, hheld _ _ e]; exact ⟨hx, Iff.rfl, Iff.rfl⟩
  · intro x _ hx
    rw [hmt]
    by_cases e : x = n
    · subst e; exact ⟨hx, h1, h2⟩
    · rw [hheld _ _ e, hheld _ _ e]; exact ⟨hx, Iff.rfl, Iff.rfl⟩

@[simp] theorem give_heap : (w.give k n).heap = w.heap := rfl
@[simp] theorem take_heap : (w.take k n).heap = w.heap := rfl
@[simp] theorem give_trees : (w.give k n).trees = w.trees := rfl
@[simp] theorem take_trees : (w.take k n).trees = w.trees := rfl
@[simp] theorem give_grantTok : (w.give k n).grantTok = w.grantTok := rfl
@[simp] theorem take_grantTok : (w.take k n).grantTok = w.grantTok := rfl
@[simp] theorem give_prohTok : (w.give k n).prohTok = w.prohTok := rfl
@[simp] theorem take_prohTok : (w.take k n).prohTok = w.prohTok := rfl
@[simp] theorem give_held {k' : Kind} {m : NodeId} : (w.give k n).held k' m =
    if k' = k ∧ m = n then w.held k' m + 1 else w.held k' m := rfl
@[simp] theorem take_held {k' : Kind} {m : NodeId} : (w.take k n).held k' m =
    if k' = k ∧ m = n then w.held k' m - 1 else w.held k' m := rfl

/-- `Node::with_node_core` gives a plain handle. -/
theorem Inv.givePlain (I : Inv w ch) (ha : w.heap.alive n = true) :
    ∃ h', w.heap.withNodeCore n = .ok h' ∧ Inv (({ w with heap := h' }).give .plain n) ch ∧
      Still w.heap h' := by
  obtain ⟨t, ht, hta⟩ := I.wf.tree.live n ha
  unfold Heap.withNodeCore Heap.incRef
  cases hm : w.heap.mem n with
  | strong u rc l =>
    obtain rfl : u = t := by rw [memTree_strong hm] at ht; simpa using ht
    obtain ⟨e1, e2⟩ := I.strong _ _ _ _ hm
    refine ⟨_, rfl, ?_⟩
    refine I.nodeSame (rc := rc + 1) (l := l) ha ht rfl ?_ (by omega) ?_ ?_ rfl rfl rfl ?_ ?_ <;> simp
    · intro k m h1 _ h2; exact absurd h2 h1
    · omega
    · omega
  | weak o =>
    have ho : o = some t := by simpa [Heap.memTree, hm] using ht
    have e := I.weak _ _ hm
    have e1 : (some t).filter w.heap.treeAlive = some t := by simp [Option.filter, hta]
    simp only [ho, e1]
    refine ⟨_, rfl, ?_⟩
    refine I.nodeSame (rc := 1) (l := 0) ha ht rfl ?_ (by omega) ?_ ?_ rfl rfl rfl ?_ ?_ <;>
      simp [e]
    intro k m h1 _ h2; exact absurd h2 h1

/-- Cloning the link of a handle gives another plain handle. -/
theorem Inv.clonePlain (I : Inv w ch) (hk : 0 < w.held k n) :
    ∃ h', w.heap.cloneLink n = .ok h' ∧ Inv (({ w with heap := h' }).give .plain n) ch ∧
      Still w.heap h' := by
  obtain ⟨t, rc, l, hm, ha, hta⟩ := I.tree_of_held hk
  obtain ⟨h', e, r⟩ := I.givePlain ha
  refine ⟨h', ?_, r⟩
  rw [← e]
  simp [Heap.withNodeCore, Heap.incRef, Heap.cloneLink, hm]

/-- Cloning a handle. -/
theorem Inv.cloneHandle (I : Inv w ch) (hk : 0 < w.held k n) :
    ∃ h', w.heap.cloneHandle n k = .ok h' ∧ Inv (({ w with heap := h' }).give k n) ch ∧
      Still w.heap h' := by
  obtain ⟨t, rc, l, hm, ha, hta⟩ := I.tree_of_held hk
  obtain ⟨e1, e2⟩ := I.strong _ _ _ _ hm
  have main : k ≠ .plain → ∃ h', (do let h ← w.heap.incLockNonzero n; h.cloneLink n : Except Fault (Heap α)) = .ok h' ∧
      Inv (({ w with heap := h' }).give k n) ch ∧ Still w.heap h' := by
    intro hkp
    have hl : l ≠ 0 := by cases k <;> simp at hkp <;> omega
    have hx : (w.heap.setMem n (.strong t rc (l+1))).setMem n (.strong t (rc + 1) (l + 1))
        = w.heap.setMem n (.strong t (rc + 1) (l + 1)) := by
      unfold Heap.setMem; congr 1; funext x; by_cases e : x = n <;> simp [upd, e]
    refine ⟨w.heap.setMem n (.strong t (rc + 1) (l + 1)), ?_, ?_⟩
    · simp only [Heap.incLockNonzero, hm, hl, if_false, bind, Except.bind, Heap.cloneLink]
      rw [show ((w.heap.setMem n (.strong t rc (l+1))).mem n) = .strong t rc (l+1) by
        simp [Heap.setMem]]
      simp only [hx]
    · refine I.nodeSame (rc := rc + 1) (l := l + 1) ha (memTree_strong hm) rfl ?_ (by omega)
        ?_ ?_ rfl rfl rfl ?_ ?_
      · intro k' m hx; simp [hx]
      all_goals cases k <;> simp at hkp hk ⊢ <;> omega
  cases k with
  | plain => exact I.clonePlain hk
  | hot => exact main (by simp)
  | frozen => exact main (by simp)

/-- Making a plain handle hot. -/
theorem Inv.bundleHot {rc l : Nat} (I : Inv w ch) (hp : 0 < w.held .plain n)
    (hm : w.heap.mem n = .strong t rc l) :
    (w.heap.grants t < 0 ∧ w.heap.acquireEditGrant n = .ok none) ∨
    (w.heap.grants t = Lock.isizeMax ∧ l = 0 ∧
      w.heap.acquireEditGrant n = .error (.panic "too many hierarchy edit grants")) ∨
    (0 ≤ w.heap.grants t ∧ ∃ h', w.heap.acquireEditGrant n = .ok (some h') ∧
      Inv ((({ w with heap := h' }).take .plain n).give .hot n) ch ∧ Still w.heap h') := by
  have ha := I.wf.refs.alive _ _ _ _ hm
  have ht := memTree_strong hm
  have hta := I.wf.tree_alive ha ht
  obtain ⟨e1, e2⟩ := I.strong _ _ _ _ hm
  have LK := I.locks t hta
  by_cases hg : w.heap.grants t < 0
  · left
    refine ⟨hg, ?_⟩
    simp [Heap.acquireEditGrant, hm, Lock.ensureGrantAcquirable, hg]
  · have hg' : 0 ≤ w.heap.grants t := by omega
    obtain ⟨L, hL, hmem, G⟩ := LK.grantMode hg'
    have hb : Lock.isizeMin ≤ w.heap.grants t ∧ w.heap.grants t ≤ Lock.isizeMax := by
      obtain ⟨_, _, _, _, hb⟩ := LK; exact hb
    have hf := G.2.1 n ht
    by_cases hl : l = 0
    · by_cases hov : Lock.isizeMax < w.heap.grants t + 1
      · right; left
        refine ⟨by omega, hl, ?_⟩
        simp [Heap.acquireEditGrant, hm, Lock.ensureGrantAcquirable, hg', hl, Lock.acquireGrant, hg,
          hov]
      · right; right
        refine ⟨hg', (w.heap.setGrants t (w.heap.grants t + 1)).setMem n (.strong t rc 1), ?_, ?_⟩
        · simp [Heap.acquireEditGrant, hm, Lock.ensureGrantAcquirable, hg', hl, Lock.acquireGrant,
            hg, hov]
        · refine I.node (rc := rc) (l := 1) (g := w.heap.grants t + 1) ha ht rfl ?_ (by omega)
            ?_ ?_ rfl rfl rfl ?_
          · intro k' m hx; simp [hx]
          · simp; omega
          · simp; omega
          · refine LockOK.ofGrant (n := n) hL hmem G ht (memTree_setMem (m := .weak none) ht) ?_ rfl
              rfl ?_ ?_ ?_
            · intro k' m hx; simp [hx]
            · simp; omega
            · have h0 : w.held .hot n = 0 := by omega
              simp [Heap.setMem, Heap.setGrants, h0]
            · simp [Heap.setMem, Heap.setGrants]
              simp only [Lock.isizeMin, Lock.isizeMax] at *
              omega
    · right; right
      refine ⟨hg', w.heap.setMem n (.strong t rc (l + 1)), ?_, ?_⟩
      · simp [Heap.acquireEditGrant, hm, Lock.ensureGrantAcquirable, hg', hl]
      · refine I.nodeSame (rc := rc) (l := l + 1) ha ht rfl ?_ (by omega) ?_ ?_ rfl rfl rfl ?_ ?_
        · intro k' m hx; simp [hx]
        all_goals simp; try omega

/-- Making a plain handle frozen. -/
theorem Inv.bundleFrozen {rc l : Nat} (I : Inv w ch) (hp : 0 < w.held .plain n)
    (hm : w.heap.mem n = .strong t rc l) :
    (0 < w.heap.grants t ∧ w.heap.acquireEditProhibition n = .ok none) ∨
    (w.heap.grants t = Lock.isizeMin ∧ l = 0 ∧
      w.heap.acquireEditProhibition n = .error (.panic "too many hierarchy edit prohibitions")) ∨
    (w.heap.grants t ≤ 0 ∧ ∃ h', w.heap.acquireEditProhibition n = .ok (some h') ∧
      Inv ((({ w with heap := h' }).take .plain n).give .frozen n) ch ∧ Still w.heap h') := by
  have ha := I.wf.refs.alive _ _ _ _ hm
  have ht := memTree_strong hm
  have hta := I.wf.tree_alive ha ht
  obtain ⟨e1, e2⟩ := I.strong _ _ _ _ hm
  have LK := I.locks t hta
  by_cases hg : 0 < w.heap.grants t
  · left
    refine ⟨hg, ?_⟩
    simp [Heap.acquireEditProhibition, hm, Lock.ensureProhibitionAcquirable, hg]
  · have hg' : w.heap.grants t ≤ 0 := by omega
    obtain ⟨L, hL, hmem, G⟩ := LK.prohMode hg'
    have hb : Lock.isizeMin ≤ w.heap.grants t ∧ w.heap.grants t ≤ Lock.isizeMax := by
      obtain ⟨_, _, _, _, hb⟩ := LK; exact hb
    have hf := G.2.1 n ht
    by_cases hl : l = 0
    · by_cases hov : w.heap.grants t - 1 < Lock.isizeMin
      · right; left
        refine ⟨by omega, hl, ?_⟩
        simp [Heap.acquireEditProhibition, hm, Lock.ensureProhibitionAcquirable, hg', hl,
          Lock.acquireProhibition, hg, hov]
      · right; right
        refine ⟨hg', (w.heap.setGrants t (w.heap.grants t - 1)).setMem n (.strong t rc 1), ?_, ?_⟩
        · simp [Heap.acquireEditProhibition, hm, Lock.ensureProhibitionAcquirable, hg', hl,
            Lock.acquireProhibition, hg, hov]
        · refine I.node (rc := rc) (l := 1) (g := w.heap.grants t - 1) ha ht rfl ?_ (by omega)
            ?_ ?_ rfl rfl rfl ?_
          · intro k' m hx; simp [hx]
          · simp; omega
          · simp; omega
          · refine LockOK.ofProh (n := n) hL hmem G ht (memTree_setMem (m := .weak none) ht) ?_ rfl
              rfl ?_ ?_ ?_
            · intro k' m hx; simp [hx]
            · simp; omega
            · have h0 : w.held .frozen n = 0 := by omega
              simp [Heap.setMem, Heap.setGrants, h0]
            · simp [Heap.setMem, Heap.setGrants]
              simp only [Lock.isizeMin, Lock.isizeMax] at *
              omega
    · right; right
      refine ⟨hg', w.heap.setMem n (.strong t rc (l + 1)), ?_, ?_⟩
      · simp [Heap.acquireEditProhibition, hm, Lock.ensureProhibitionAcquirable, hg', hl]
      · refine I.nodeSame (rc := rc) (l := l + 1) ha ht rfl ?_ (by omega) ?_ ?_ rfl rfl rfl ?_ ?_
        · intro k' m hx; simp [hx]
        all_goals simp; try omega

/-- Releasing the lock of a hot or frozen handle turns it into a plain one. -/
theorem Inv.unbundle (I : Inv w ch) (hk : 0 < w.held k n) (hkp : k ≠ .plain) :
    ∃ h', w.heap.decLock n = .ok h' ∧
      Inv ((({ w with heap := h' }).take k n).give .plain n) ch ∧ Still w.heap h' := by
  obtain ⟨t, rc, l, hm, ha, hta⟩ := I.tree_of_held hk
  obtain ⟨e1, e2⟩ := I.strong _ _ _ _ hm
  have ht := memTree_strong hm
  have LK := I.locks t hta
  have hl : l ≠ 0 := by cases k <;> simp at hkp <;> omega
  have hb : Lock.isizeMin ≤ w.heap.grants t ∧ w.heap.grants t ≤ Lock.isizeMax := by
    obtain ⟨_, _, _, _, hb⟩ := LK; exact hb
  by_cases hl1 : l = 1
  · obtain ⟨L, hL, hmem, hmode, -⟩ := LK
    have hin : n ∈ L := (hmem n).2 ⟨ht, by omega⟩
    have hLp : 0 < L.length := List.length_pos_of_mem hin
    rcases hmode with G | G
    · have hf := G.2.1 n ht
      have hg := G.2.2
      have hkh : k = .hot := by cases k <;> simp at hkp ⊢ <;> omega
      subst hkh
      have hgp : 0 < w.heap.grants t := by omega
      refine ⟨(w.heap.setGrants t (w.heap.grants t - 1)).setMem n (.strong t rc 0), ?_, ?_⟩
      · simp [Heap.decLock, hm, hl1, Lock.releaseAny, Heap.setMem, Heap.setGrants, hgp]
      · refine I.node (rc := rc) (l := 0) (g := w.heap.grants t - 1) ha ht rfl ?_ (by omega)
          ?_ ?_ rfl rfl rfl ?_
        · intro k' m hx; simp [hx]
        · simp; omega
        · simp; omega
        · refine LockOK.ofGrant (n := n) hL hmem G ht (memTree_setMem (m := .weak none) ht) ?_ rfl
            rfl ?_ ?_ ?_
          · intro k' m hx; simp [hx]
          · simp; omega
          · have h0 : w.held .hot n = 1 := by omega
            simp [Heap.setMem, Heap.setGrants, h0]
          · simp [Heap.setMem, Heap.setGrants]
            simp only [Lock.isizeMin, Lock.isizeMax] at *
            omega
    · have hf := G.2.1 n ht
      have hg := G.2.2
      have hkh : k = .frozen := by cases k <;> simp at hkp ⊢ <;> omega
      subst hkh
      have hgp : w.heap.grants t < 0 := by omega
      refine ⟨(w.heap.setGrants t (w.heap.grants t + 1)).setMem n (.strong t rc 0), ?_, ?_⟩
      · have h1 : ¬ 0 < w.heap.grants t := by omega
        have h2 : ¬ w.heap.grants t = 0 := by omega
        simp [Heap.decLock, hm, hl1, Lock.releaseAny, Heap.setMem, Heap.setGrants, h1, h2]
      · refine I.node (rc := rc) (l := 0) (g := w.heap.grants t + 1) ha ht rfl ?_ (by omega)
          ?_ ?_ rfl rfl rfl ?_
        · intro k' m hx; simp [hx]
        · simp; omega
        · simp; omega
        · refine LockOK.ofProh (n := n) hL hmem G ht (memTree_setMem (m := .weak none) ht) ?_ rfl
            rfl ?_ ?_ ?_
          · intro k' m hx; simp [hx]
          · simp; omega
          · have h0 : w.held .frozen n = 1 := by omega
            simp [Heap.setMem, Heap.setGrants, h0]
          · simp [Heap.setMem, Heap.setGrants]
            simp only [Lock.isizeMin, Lock.isizeMax] at *
            omega
  · have hex : w.held .hot n = 0 ∨ w.held .frozen n = 0 := by
      obtain ⟨L, hL, hmem, hmode, -⟩ := LK
      rcases hmode with G | G
      · exact .inr (G.2.1 n ht)
      · exact .inl (G.2.1 n ht)
    refine ⟨w.heap.setMem n (.strong t rc (l - 1)), ?_, ?_⟩
    · have : l - 1 ≠ 0 := by omega
      simp [Heap.decLock, hm, hl, this]
    · refine I.nodeSame (rc := rc) (l := l - 1) ha ht rfl ?_ (by omega) ?_ ?_ rfl rfl rfl ?_ ?_
      · intro k' m hx; simp [hx]
      all_goals cases k <;> simp at hkp hk ⊢ <;> omega

end Dendron
