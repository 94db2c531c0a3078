import Verif.Proofs.WorldOps

/-! Dropping handles; `Tree` values; tokens. -/

set_option linter.unusedSimpArgs false
set_option linter.unusedVariables false

set_option autoImplicit false

namespace Dendron
variable {α : Type} {h h' : Heap α} {w w' : World α} {ch ch' : NodeId → List NodeId} {n r : NodeId}
  {t : TreeId} {k : Kind} {R : RTree NodeId}

/-- No tree. -/
abbrev NoTree : TreeId → Prop := fun _ => False
/-- No node. -/
abbrev NoNode : NodeId → Prop := fun _ => False

/-- A heap that differs in counts only, with the handles adjusted accordingly. -/
theorem Inv.still (I : Inv w ch) (S : Still w.heap w'.heap) (R : RefWF w'.heap)
    (hs : ∀ n t rc l, w'.heap.mem n = .strong t rc l →
      rc = w'.held .plain n + w'.held .hot n + w'.held .frozen n ∧
        l = w'.held .hot n + w'.held .frozen n)
    (hw : ∀ n o, w'.heap.mem n = .weak o → ∀ k, w'.held k n = 0)
    (htr : ∀ t, w'.heap.treeRc t = w'.trees t)
    (hta : ∀ t, 0 < w'.trees t → w.heap.treeAlive t = true)
    (htk : ∀ t, 0 < w'.grantTok t + w'.prohTok t → t < w.heap.nTree)
    (hl : ∀ t, w.heap.treeAlive t = true → LockOK w t → LockOK w' t) : Inv w' ch where
  wf := I.wf.still S R
  strong := hs
  weak := hw
  treeRc := htr
  treesAlive t ht := by rw [S.treeAlive]; exact hta t ht
  toks t ht := by rw [S.nTree]; exact htk t ht
  locks t ht := by rw [S.treeAlive] at ht; exact hl t ht (I.locks t ht)

/-- The last owner of tree `t` is gone: its nodes `A` are freed. -/
theorem Inv.freed {A : List NodeId} (I : Inv w ch) (hta : w.heap.treeAlive t = true)
    (hA : ∀ x, x ∈ A ↔ w.heap.alive x = true ∧ w.heap.memTree x = some t)
    (W : WF w'.heap (without ch A))
    (hdata : ∀ x, w'.heap.data x = if x ∈ A then none else w.heap.data x)
    (hmut : ∀ x, x ∉ A → w'.heap.mutB x = w.heap.mutB x)
    (hmem : ∀ x, w'.heap.mem x = if x ∈ A then .weak none else w.heap.mem x)
    (hroot : w'.heap.root = upd w.heap.root t none)
    (hgr : ∀ u, u ≠ t → w'.heap.grants u = w.heap.grants u)
    (hrc : ∀ u, w'.heap.treeRc u = if u = t then 0 else w.heap.treeRc u)
    (hnn : w'.heap.nNode = w.heap.nNode) (hnt : w'.heap.nTree = w.heap.nTree)
    (hheld : ∀ k x, w'.held k x = if x ∈ A then 0 else w.held k x)
    (htrees : ∀ u, w'.trees u = if u = t then 0 else w.trees u)
    (e2 : w'.grantTok = w.grantTok) (e3 : w'.prohTok = w.prohTok) :
    Inv w' (without ch A) ∧ Keeps w.heap w'.heap ch (without ch A) NoTree NoNode := by
  have hal : ∀ x, w'.heap.alive x = if x ∈ A then false else w.heap.alive x := by
    intro x; simp only [Heap.alive, hdata]; split <;> rfl
  have hmt : ∀ x, x ∉ A → w'.heap.memTree x = w.heap.memTree x := by
    intro x hx; simp only [Heap.memTree, hmem, hx, if_false]
  have htal : ∀ u, w'.heap.treeAlive u = if u = t then false else w.heap.treeAlive u := by
    intro u; simp only [Heap.treeAlive, hroot, upd_apply]; split <;> rfl
  constructor
  · constructor
    · exact W
    · intro x u rc l hx
      rw [hmem] at hx
      split at hx
      · cases hx
      · rename_i e; simp only [hheld, e, if_false]; exact I.strong _ _ _ _ hx
    · intro x o hx k
      rw [hmem] at hx
      split at hx
      · rename_i e; simp [hheld, e]
      · rename_i e; simp only [hheld, e, if_false]; exact I.weak _ _ hx k
    · intro u; rw [hrc, htrees, I.treeRc]
    · intro u hu
      rw [htrees] at hu
      split at hu
      · omega
      · rename_i e; rw [htal, if_neg e]; exact I.treesAlive u hu
    · intro u hu; rw [hnt]; rw [e2, e3] at hu; exact I.toks u hu
    · intro u hu
      rw [htal] at hu
      split at hu
      · cases hu
      · rename_i e
        refine (I.locks u hu).congr (hgr u e) (by rw [e2]) (by rw [e3]) ?_ ?_
        · intro x h0 hx
          have hxA : x ∉ A := by intro hc; simp [hheld, hc] at h0
          simp only [hheld, hxA, if_false]
          exact ⟨by rw [← hmt x hxA]; exact hx, trivial, trivial⟩
        · intro x h0 hx
          have hxA : x ∉ A := by
            intro hc; rw [((hA x).1 hc).2] at hx; exact e (by simpa using hx.symm)
          simp only [hheld, hxA, if_false]
          exact ⟨by rw [hmt x hxA]; exact hx, trivial, trivial⟩
  · constructor
    · intro x u ha hm _ ha'
      have hxA : x ∉ A := by intro hc; rw [hal, if_pos hc] at ha'; cases ha'
      exact ⟨by rw [hmt x hxA]; exact hm, by simp [without, hxA]⟩
    · intro x u ha hm _ _
      have hxA : x ∉ A := by intro hc; rw [hal, if_pos hc] at ha; cases ha
      rw [hal, if_neg hxA] at ha
      exact ⟨ha, by rw [← hmt x hxA]; exact hm⟩
    · intro x u ha hd hm
      have hxA : x ∈ A := by
        by_cases hc : x ∈ A
        · exact hc
        · rw [hal, if_neg hc, ha] at hd; cases hd
      have : u = t := by rw [((hA x).1 hxA).2] at hm; simpa using hm.symm
      rw [htal, if_pos this]
    · intro x ha ha' _
      have hxA : x ∉ A := by intro hc; rw [hal, if_pos hc] at ha'; cases ha'
      rw [hdata, if_neg hxA]
    · intro x ha ha' _
      have hxA : x ∉ A := by intro hc; rw [hal, if_pos hc] at ha'; cases ha'
      exact hmut x hxA
    · rw [hnn]; exact Nat.le_refl _
    · rw [hnt]; exact Nat.le_refl _
    · intro x _ hd; rw [hal, hd]; simp
    · intro u _ hd; rw [htal, hd]; simp

/-- Dropping a plain handle when something else keeps the tree alive. -/
theorem Inv.dropPlain_keep {rc l : Nat} (I : Inv w ch) (hk : 0 < w.held .plain n)
    (hm : w.heap.mem n = .strong t rc l)
    (hkeep : 1 < rc ∨ 0 < w.heap.treeRc t ∨ ∃ x rc' l, x ≠ n ∧ w.heap.mem x = .strong t rc' l) :
    ∃ h', w.heap.dropLink n = .ok h' ∧ Inv (({ w with heap := h' }).take .plain n) ch ∧
      Still w.heap h' := by
  have ha := I.wf.refs.alive _ _ _ _ hm
  obtain ⟨e1, e2⟩ := I.strong _ _ _ _ hm
  have ht := memTree_strong hm
  obtain ⟨hd, hW⟩ := dropLink_keep I.wf hm (by omega) hkeep
  refine ⟨_, hd, ?_⟩
  have S : Still w.heap (w.heap.setMem n (w.heap.mem n).dec) := by
    constructor
    case memTree =>
      intro x
      by_cases hx : x = n
      · subst hx
        simp only [Heap.memTree, Heap.setMem, upd_same, hm, Membership.dec]
        by_cases e : rc = 1 <;> simp [e]
      · simp [Heap.memTree, Heap.setMem, hx]
    all_goals rfl
  refine ⟨?_, S⟩
  by_cases h1 : rc = 1
  · have hmem' : ∀ x, (w.heap.setMem n (w.heap.mem n).dec).mem x =
        if x = n then .weak (some t) else w.heap.mem x := by
      intro x; simp only [Heap.setMem, upd_apply, hm, Membership.dec, h1, if_true]
    have hz : w.held .hot n = 0 ∧ w.held .frozen n = 0 ∧ w.held .plain n = 1 := by omega
    refine I.still (w' := ({ w with heap := w.heap.setMem n (w.heap.mem n).dec }).take .plain n)
      S hW.refs ?_ ?_ I.treeRc I.treesAlive I.toks ?_
    · intro x u a b hx
      simp only [take_heap] at hx
      rw [hmem'] at hx
      split at hx
      · cases hx
      · rename_i e; simp only [take_held, e, and_false, if_false]; exact I.strong _ _ _ _ hx
    · intro x o hx k
      simp only [take_heap] at hx
      rw [hmem'] at hx
      split at hx
      · rename_i e; subst e; cases k <;> simp [hz]
      · rename_i e; simp only [take_held, e, and_false, if_false]; exact I.weak _ _ hx k
    · intro u hu LK
      refine LK.congr rfl rfl rfl ?_ ?_
      · intro x _ hx
        simp only [take_heap, S.memTree] at hx
        exact ⟨hx, by simp, by simp⟩
      · intro x _ hx
        simp only [take_heap, S.memTree]
        exact ⟨hx, by simp, by simp⟩
  · refine (I.nodeSame (w' := ({ w with heap := w.heap.setMem n (w.heap.mem n).dec }).take .plain n)
      (rc := rc - 1) (l := l) ha ht ?_ ?_ (by omega) ?_ ?_ rfl rfl rfl ?_ ?_).1
    · simp [hm, Membership.dec, h1]
    · intro k' m hx; simp [hx]
    · simp; omega
    · simp; omega
    · simp
    · simp

/-- Dropping a plain handle. -/
theorem Inv.dropPlain (I : Inv w ch) (hk : 0 < w.held .plain n) :
    ∃ h' ch', w.heap.dropLink n = .ok h' ∧ Inv (({ w with heap := h' }).take .plain n) ch' ∧
      Keeps w.heap h' ch ch' NoTree NoNode := by
  obtain ⟨t, rc, l, hm, ha, hta⟩ := I.tree_of_held hk
  obtain ⟨e1, e2⟩ := I.strong _ _ _ _ hm
  have ht := memTree_strong hm
  by_cases hkeep : 1 < rc ∨ 0 < w.heap.treeRc t ∨ ∃ x rc' l, x ≠ n ∧ w.heap.mem x = .strong t rc' l
  · obtain ⟨h', h1, h2, h3⟩ := I.dropPlain_keep hk hm hkeep
    exact ⟨h', ch, h1, h2, h3.keeps ch NoTree NoNode⟩
  · simp only [not_or, not_exists, not_and] at hkeep
    obtain ⟨h1, h2, h3⟩ := hkeep
    have hrc1 : rc = 1 := by omega
    have hl0 : l = 0 := by omega
    subst hrc1 hl0
    obtain ⟨r, R, hr, hR, hRn⟩ := I.wf.tree_nodes hta
    obtain ⟨hd, hW⟩ := dropLink_last I.wf hm (by omega) (fun x rc l hx => h3 x rc l hx) hr hR
    refine ⟨_, without ch R.nodes, hd, ?_⟩
    have hnR : n ∈ R.nodes := (hRn n).2 ⟨ha, ht⟩
    refine I.freed (w' := ({ w with heap := w.heap.dropped t R.nodes }).take .plain n) hta hRn hW
      ?_ ?_ ?_ rfl ?_ ?_ rfl rfl ?_ ?_ rfl rfl
    · intro x; simp [Heap.dropped, Heap.setGrants, Heap.setRoot, Heap.wipe]
    · intro x hx; simp [Heap.dropped, Heap.setGrants, Heap.setRoot, Heap.wipe, hx]
    · intro x; simp [Heap.dropped, Heap.setGrants, Heap.setRoot, Heap.wipe]
    · intro u hu; simp [Heap.dropped, Heap.setGrants, Heap.setRoot, Heap.wipe, hu]
    · intro u
      show w.heap.treeRc u = _
      split
      · rename_i e; subst e; omega
      · rfl
    · intro k x
      by_cases hx : x = n
      · subst hx; simp only [hnR, if_true]; cases k <;> simp <;> omega
      · simp only [take_held, hx, and_false, if_false]
        split
        · rename_i hxR
          obtain ⟨hxa, hxt⟩ := (hRn x).1 hxR
          cases hmx : w.heap.mem x with
          | weak o => exact I.weak _ _ hmx k
          | strong u a b =>
            have : u = t := by rw [memTree_strong hmx] at hxt; simpa using hxt
            subst this
            exact absurd hmx (h3 x a b hx)
        · rfl
    · intro u
      show w.trees u = _
      split
      · rename_i e; subst e; have := I.treeRc u; omega
      · rfl

/-- Dropping a handle of any kind. -/
theorem Inv.dropHandle (I : Inv w ch) (hk : 0 < w.held k n) :
    ∃ h' ch', w.heap.dropHandle n k = .ok h' ∧ Inv (({ w with heap := h' }).take k n) ch' ∧
      Keeps w.heap h' ch ch' NoTree NoNode := by
  have main : k ≠ .plain → ∃ h' ch', (do let h ← w.heap.decLock n; h.dropLink n : Except Fault (Heap α)) = .ok h' ∧
      Inv (({ w with heap := h' }).take k n) ch' ∧ Keeps w.heap h' ch ch' NoTree NoNode := by
    intro hkp
    obtain ⟨h1, e1, I1, S1⟩ := I.unbundle hk hkp
    obtain ⟨h2, ch', e2, I2, K2⟩ := I1.dropPlain (n := n) (by simp)
    refine ⟨h2, ch', ?_, ?_, S1.keeps_trans K2⟩
    · simp only [e1, bind, Except.bind]; exact e2
    · have : ({ ((({ w with heap := h1 } : World α).take k n).give .plain n) with heap := h2 } : World α).take .plain n
          = ({ w with heap := h2 } : World α).take k n := by
        simp only [World.take, World.give]
        congr 1
        funext k' m
        by_cases c : k' = .plain ∧ m = n
        · simp only [c, and_self, if_true]; omega
        · simp only [c, if_false]
      rw [← this]; exact I2
  cases k with
  | plain => exact I.dropPlain hk
  | hot => exact main (by simp)
  | frozen => exact main (by simp)

/-- Dropping a handle of any kind when another handle keeps the tree alive. -/
theorem Inv.dropHandle_keep (I : Inv w ch) (hk : 0 < w.held k n) (ht : w.heap.memTree n = some t)
    (hkeep : 1 < w.held .plain n + w.held .hot n + w.held .frozen n ∨
      ∃ k' x, x ≠ n ∧ 0 < w.held k' x ∧ w.heap.memTree x = some t) :
    ∃ h', w.heap.dropHandle n k = .ok h' ∧ Inv (({ w with heap := h' }).take k n) ch ∧
      Still w.heap h' := by
  have plain : ∀ {w : World α}, Inv w ch → 0 < w.held .plain n → w.heap.memTree n = some t →
      (1 < w.held .plain n + w.held .hot n + w.held .frozen n ∨
        ∃ k' x, x ≠ n ∧ 0 < w.held k' x ∧ w.heap.memTree x = some t) →
      ∃ h', w.heap.dropLink n = .ok h' ∧ Inv (({ w with heap := h' }).take .plain n) ch ∧
        Still w.heap h' := by
    intro w I hk ht hkeep
    obtain ⟨u, rc, l, hm, ha, hta⟩ := I.tree_of_held hk
    obtain rfl : u = t := by rw [memTree_strong hm] at ht; simpa using ht
    refine I.dropPlain_keep hk hm ?_
    rcases hkeep with h1 | ⟨k', x, h1, h2, h3⟩
    · exact .inl (by rw [(I.strong _ _ _ _ hm).1]; exact h1)
    · obtain ⟨v, rc', l', hm', -, -⟩ := I.tree_of_held h2
      obtain rfl : v = u := by rw [memTree_strong hm'] at h3; simpa using h3
      exact .inr (.inr ⟨x, rc', l', h1, hm'⟩)
  have main : k ≠ .plain → ∃ h', (do let h ← w.heap.decLock n; h.dropLink n : Except Fault (Heap α)) = .ok h' ∧
      Inv (({ w with heap := h' }).take k n) ch ∧ Still w.heap h' := by
    intro hkp
    obtain ⟨h1, e1, I1, S1⟩ := I.unbundle hk hkp
    obtain ⟨h2, e2, I2, K2⟩ := plain I1 (by simp) (by simpa using (S1.memTree n).trans ht) (by
      rcases hkeep with h0 | ⟨k', x, h0, h2, h3⟩
      · left
        cases k <;> simp_all <;> omega
      · exact .inr ⟨k', x, h0, by simpa [h0] using h2, by simpa using (S1.memTree x).trans h3⟩)
    refine ⟨h2, ?_, ?_, S1.trans K2⟩
    · simp only [e1, bind, Except.bind]; exact e2
    · have : ({ ((({ w with heap := h1 } : World α).take k n).give .plain n) with heap := h2 } : World α).take .plain n
          = ({ w with heap := h2 } : World α).take k n := by
        simp only [World.take, World.give]
        congr 1
        funext k' m
        by_cases c : k' = .plain ∧ m = n
        · simp only [c, and_self, if_true]; omega
        · simp only [c, if_false]
      rw [← this]; exact I2
  cases k with
  | plain => exact plain I hk ht hkeep
  | hot => exact main (by simp)
  | frozen => exact main (by simp)

/-! ### `Tree` values -/

theorem Inv.acqTree (I : Inv w ch) (hta : w.heap.treeAlive t = true) :
    Inv { w with heap := w.heap.acqTree t, trees := upd w.trees t (w.trees t + 1) } ch ∧
      Still w.heap (w.heap.acqTree t) := by
  have S : Still w.heap (w.heap.acqTree t) := ⟨rfl, rfl, rfl, rfl, rfl, rfl, rfl, fun _ => rfl, rfl, rfl, rfl⟩
  refine ⟨?_, S⟩
  refine I.still (w' := { w with heap := w.heap.acqTree t, trees := upd w.trees t (w.trees t + 1) })
    S (acqTree_wf I.wf t).refs I.strong I.weak ?_ ?_ I.toks ?_
  · intro u
    show upd w.heap.treeRc t (w.heap.treeRc t + 1) u = upd w.trees t (w.trees t + 1) u
    have := I.treeRc
    simp [upd_apply, this]
  · intro u hu
    by_cases e : u = t
    · rw [e]; exact hta
    · simp [upd_apply, e] at hu; exact I.treesAlive u hu
  · intro u hu LK
    exact LK.congr rfl rfl rfl (fun x _ hx => ⟨hx, Iff.rfl, Iff.rfl⟩) (fun x _ hx => ⟨hx, Iff.rfl, Iff.rfl⟩)

theorem Inv.relTree (I : Inv w ch) (ht : 0 < w.trees t) :
    ∃ h' ch', w.heap.relTree [] t = .ok h' ∧
      Inv { w with heap := h', trees := upd w.trees t (w.trees t - 1) } ch' ∧
      Keeps w.heap h' ch ch' NoTree NoNode := by
  have hta := I.treesAlive t ht
  have hrc := I.treeRc t
  by_cases hk : 1 < w.heap.treeRc t ∨ ∃ x rc l, w.heap.mem x = .strong t rc l
  · obtain ⟨e, W⟩ := relTree_keep I.wf hk
    refine ⟨_, ch, e, ?_⟩
    have S : Still w.heap (w.heap.setTreeRc t (w.heap.treeRc t - 1)) :=
      ⟨rfl, rfl, rfl, rfl, rfl, rfl, rfl, fun _ => rfl, rfl, rfl, rfl⟩
    refine ⟨?_, S.keeps ch NoTree NoNode⟩
    refine I.still (w' := { w with heap := w.heap.setTreeRc t (w.heap.treeRc t - 1),
                                   trees := upd w.trees t (w.trees t - 1) })
      S W.refs I.strong I.weak ?_ ?_ I.toks ?_
    · intro u
      show upd w.heap.treeRc t (w.heap.treeRc t - 1) u = upd w.trees t (w.trees t - 1) u
      have := I.treeRc
      simp [upd_apply, this]
    · intro u hu
      by_cases e : u = t
      · rw [e]; exact hta
      · simp [upd_apply, e] at hu; exact I.treesAlive u hu
    · intro u hu LK
      exact LK.congr rfl rfl rfl (fun x _ hx => ⟨hx, Iff.rfl, Iff.rfl⟩)
        (fun x _ hx => ⟨hx, Iff.rfl, Iff.rfl⟩)
  · simp only [not_or, not_exists] at hk
    obtain ⟨h1, h2⟩ := hk
    obtain ⟨r, R, hr, hR, hRn⟩ := I.wf.tree_nodes hta
    obtain ⟨e, W⟩ := relTree_last I.wf (by omega) h2 hr hR
    refine ⟨_, without ch R.nodes, e, ?_⟩
    refine I.freed (w' := { w with heap := (w.heap.setTreeRc t 0).dropped t R.nodes,
                                   trees := upd w.trees t (w.trees t - 1) }) hta hRn W
      ?_ ?_ ?_ rfl ?_ ?_ rfl rfl ?_ ?_ rfl rfl
    · intro x; simp [Heap.dropped, Heap.setGrants, Heap.setRoot, Heap.wipe, Heap.setTreeRc]
    · intro x hx; simp [Heap.dropped, Heap.setGrants, Heap.setRoot, Heap.wipe, Heap.setTreeRc, hx]
    · intro x; simp [Heap.dropped, Heap.setGrants, Heap.setRoot, Heap.wipe, Heap.setTreeRc]
    · intro u hu; simp [Heap.dropped, Heap.setGrants, Heap.setRoot, Heap.wipe, Heap.setTreeRc, hu]
    · intro u; rfl
    · intro k x
      simp only
      split
      · rename_i hxR
        obtain ⟨hxa, hxt⟩ := (hRn x).1 hxR
        cases hmx : w.heap.mem x with
        | weak o => exact I.weak _ _ hmx k
        | strong u a b =>
          have : u = t := by rw [memTree_strong hmx] at hxt; simpa using hxt
          subst this
          exact absurd hmx (h2 x a b)
      · rfl
    · intro u
      show upd w.trees t (w.trees t - 1) u = _
      simp only [upd_apply]
      split
      · omega
      · rfl

/-! ### Tokens -/

/-- The tokens of a living tree and its lock counter change together. -/
theorem Inv.setToks {g : Int} {gt pt : Nat} (I : Inv w ch) (hta : w.heap.treeAlive t = true)
    (hl : ∀ L : List NodeId, (GrantMode w t L ∨ ProhMode w t L) →
      (pt = 0 ∧ (∀ n, w.heap.memTree n = some t → w.held .frozen n = 0) ∧ g = gt + L.length) ∨
      (gt = 0 ∧ (∀ n, w.heap.memTree n = some t → w.held .hot n = 0) ∧
        g = -((pt : Int) + L.length)))
    (hb : Lock.isizeMin ≤ g ∧ g ≤ Lock.isizeMax) :
    Inv { w with heap := w.heap.setGrants t g, grantTok := upd w.grantTok t gt,
                 prohTok := upd w.prohTok t pt } ch ∧
      Still w.heap (w.heap.setGrants t g) := by
  have S : Still w.heap (w.heap.setGrants t g) :=
    ⟨rfl, rfl, rfl, rfl, rfl, rfl, rfl, fun _ => rfl, rfl, rfl, rfl⟩
  refine ⟨?_, S⟩
  refine I.still (w' := { w with heap := w.heap.setGrants t g, grantTok := upd w.grantTok t gt,
                                 prohTok := upd w.prohTok t pt })
    S ?_ I.strong I.weak I.treeRc I.treesAlive ?_ ?_
  · exact ⟨I.wf.refs.alive, I.wf.refs.pos, I.wf.refs.held⟩
  · intro u hu
    by_cases e : u = t
    · rw [e]; exact I.wf.tree.bound t hta
    · simp [upd_apply, e] at hu; exact I.toks u (by omega)
  · intro u hu LK
    by_cases e : u = t
    · subst e
      obtain ⟨L, a, b, c, d⟩ := LK
      refine ⟨L, a, b, ?_, ?_⟩
      · rcases hl L c with ⟨p, q, r⟩ | ⟨p, q, r⟩
        · exact .inl ⟨by simpa using p, q, by simpa [Heap.setGrants] using r⟩
        · exact .inr ⟨by simpa using p, q, by simpa [Heap.setGrants] using r⟩
      · simpa [Heap.setGrants] using hb
    · exact LK.congr (by simp [Heap.setGrants, e]) (by simp [e]) (by simp [e])
        (fun x _ hx => ⟨hx, Iff.rfl, Iff.rfl⟩) (fun x _ hx => ⟨hx, Iff.rfl, Iff.rfl⟩)

theorem Inv.acquireTok (I : Inv w ch) (hta : w.heap.treeAlive t = true) (b : Bool) :
    (w.execAcquire b t = .ok (w, .denied) ∧
      (if b then w.heap.grants t < 0 else 0 < w.heap.grants t)) ∨
    ((∃ m, w.execAcquire b t = .error (.panic m)) ∧
      (if b then w.heap.grants t = Lock.isizeMax else w.heap.grants t = Lock.isizeMin)) ∨
    ((if b then 0 ≤ w.heap.grants t else w.heap.grants t ≤ 0) ∧
      ∃ h', w.execAcquire b t = .ok (({ w with heap := h' }).giveTok b t, .unit) ∧
        Inv (({ w with heap := h' }).giveTok b t) ch ∧ Still w.heap h') := by
  have LK := I.locks t hta
  obtain ⟨hb1, hb2⟩ : Lock.isizeMin ≤ w.heap.grants t ∧ w.heap.grants t ≤ Lock.isizeMax := by
    obtain ⟨_, _, _, _, hb⟩ := LK; exact hb
  cases b with
  | true =>
    by_cases h1 : w.heap.grants t < 0
    · left; simp [World.execAcquire, World.lockTree, Lock.acquireGrant, h1]
    · by_cases h2 : Lock.isizeMax < w.heap.grants t + 1
      · right; left; simp [World.execAcquire, World.lockTree, Lock.acquireGrant, h1, h2]; omega
      · right; right
        refine ⟨by simp; omega, w.heap.setGrants t (w.heap.grants t + 1), ?_, ?_⟩
        · simp [World.execAcquire, World.lockTree, Lock.acquireGrant, h1, h2]
        · obtain ⟨L0, -, hm0, G⟩ := LK.grantMode (by omega)
          have := I.setToks (g := w.heap.grants t + 1) (gt := w.grantTok t + 1) (pt := w.prohTok t)
            hta (by
              intro L hL
              rcases hL with h | h
              · exact .inl ⟨h.1, h.2.1, by have := h.2.2; omega⟩
              · have h3 := h.2.2
                have h4 := h.1
                exact .inl ⟨G.1, G.2.1, by omega⟩) (by omega)
          refine ⟨?_, this.2⟩
          have e : upd w.prohTok t (w.prohTok t) = w.prohTok := by
            funext x; by_cases e : x = t <;> simp [e, upd]
          rw [e] at this
          exact this.1
  | false =>
    by_cases h1 : 0 < w.heap.grants t
    · left; simp [World.execAcquire, World.lockTree, Lock.acquireProhibition, h1]
    · by_cases h2 : w.heap.grants t - 1 < Lock.isizeMin
      · right; left; simp [World.execAcquire, World.lockTree, Lock.acquireProhibition, h1, h2]; omega
      · right; right
        refine ⟨by simp; omega, w.heap.setGrants t (w.heap.grants t - 1), ?_, ?_⟩
        · simp [World.execAcquire, World.lockTree, Lock.acquireProhibition, h1, h2]
        · obtain ⟨L0, -, hm0, G⟩ := LK.prohMode (by omega)
          have := I.setToks (g := w.heap.grants t - 1) (gt := w.grantTok t) (pt := w.prohTok t + 1)
            hta (by
              intro L hL
              rcases hL with h | h
              · have h3 := h.2.2
                have h4 := h.1
                exact .inr ⟨G.1, G.2.1, by omega⟩
              · exact .inr ⟨h.1, h.2.1, by have := h.2.2; omega⟩) (by omega)
          refine ⟨?_, this.2⟩
          have e : upd w.grantTok t (w.grantTok t) = w.grantTok := by
            funext x; by_cases e : x = t <;> simp [e, upd]
          rw [e] at this
          exact this.1

theorem Inv.releaseTok {b : Bool} (I : Inv w ch) (hta : w.heap.treeAlive t = true)
    (hk : if b then 0 < w.grantTok t else 0 < w.prohTok t) :
    ∃ g, World.unlockTree (w.heap.grants t) b = .ok g ∧
      Inv (({ w with heap := w.heap.setGrants t g }).takeTok b t) ch ∧
      Still w.heap (w.heap.setGrants t g) := by
  have LK := I.locks t hta
  obtain ⟨L0, hL0, hm0, hmode, hb1, hb2⟩ := LK
  cases b with
  | true =>
    simp only [if_true] at hk
    have hgp : 0 < w.heap.grants t := by
      rcases hmode with ⟨a, b, c⟩ | ⟨a, b, c⟩ <;> omega
    refine ⟨w.heap.grants t - 1, ?_, ?_⟩
    · have : ¬ w.heap.grants t ≤ 0 := by omega
      simp [World.unlockTree, Lock.releaseGrant, this]
    · have := I.setToks (g := w.heap.grants t - 1) (gt := w.grantTok t - 1) (pt := w.prohTok t)
        hta (by
          intro L hL
          rcases hL with h | h
          · exact .inl ⟨h.1, h.2.1, by have := h.2.2; omega⟩
          · have := h.1; omega)
        (by simp only [Lock.isizeMin, Lock.isizeMax] at *; omega)
      refine ⟨?_, this.2⟩
      have e : upd w.prohTok t (w.prohTok t) = w.prohTok := by
        funext x; by_cases e : x = t <;> simp [e, upd]
      rw [e] at this
      exact this.1
  | false =>
    simp only [Bool.false_eq_true, if_false] at hk
    have hgp : w.heap.grants t < 0 := by
      rcases hmode with ⟨a, b, c⟩ | ⟨a, b, c⟩ <;> omega
    refine ⟨w.heap.grants t + 1, ?_, ?_⟩
    · have : ¬ 0 ≤ w.heap.grants t := by omega
      simp [World.unlockTree, Lock.releaseProhibition, this]
    · have := I.setToks (g := w.heap.grants t + 1) (gt := w.grantTok t) (pt := w.prohTok t - 1)
        hta (by
          intro L hL
          rcases hL with h | h
          · have := h.1; omega
          · exact .inr ⟨h.1, h.2.1, by have := h.2.2; omega⟩)
        (by simp only [Lock.isizeMin, Lock.isizeMax] at *; omega)
      refine ⟨?_, this.2⟩
      have e : upd w.grantTok t (w.grantTok t) = w.grantTok := by
        funext x; by_cases e : x = t <;> simp [e, upd]
      rw [e] at this
      exact this.1

/-- Tokens of a dead tree come and go without effect. -/
theorem Inv.deadToks {gt pt : TreeId → Nat} (I : Inv w ch) (hd : w.heap.treeAlive t = false)
    (hb : t < w.heap.nTree) (h1 : ∀ u, u ≠ t → gt u = w.grantTok u ∧ pt u = w.prohTok u) :
    Inv { w with grantTok := gt, prohTok := pt } ch := by
  refine I.still (w' := { w with grantTok := gt, prohTok := pt }) (Still.refl _) I.wf.refs I.strong
    I.weak I.treeRc I.treesAlive ?_ ?_
  · intro u hu
    by_cases e : u = t
    · rw [e]; exact hb
    · simp only [h1 u e] at hu; exact I.toks u hu
  · intro u hu LK
    have e : u ≠ t := by rintro rfl; rw [hd] at hu; cases hu
    exact LK.congr rfl (h1 u e).1 (h1 u e).2 (fun x _ hx => ⟨hx, Iff.rfl, Iff.rfl⟩)
      (fun x _ hx => ⟨hx, Iff.rfl, Iff.rfl⟩)

end Dendron
