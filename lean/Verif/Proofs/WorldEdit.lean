import Verif.Proofs.WorldDrop
import Verif.Proofs.Interrupt
import Verif.Proofs.MoveMore
import Verif.Proofs.ReplaceSpec

/-! Edits keep the invariant: the generic part. -/

set_option linter.unusedSimpArgs false
set_option linter.unusedVariables false

set_option autoImplicit false

namespace Dendron
variable {α : Type} {h h' : Heap α} {w w' : World α} {ch ch' : NodeId → List NodeId} {n r : NodeId}
  {t t' : TreeId} {k : Kind}

theorem length_filter_split {β : Type} (p : β → Bool) (L : List β) :
    L.length = (L.filter p).length + (L.filter (fun x => !p x)).length := by
  induction L with
  | nil => rfl
  | cons a l ih =>
    cases hp : p a <;> simp [List.filter_cons, hp] <;> omega

theorem Inv.held_alive (I : Inv w ch) (hk : 0 < w.held k n) : w.heap.alive n = true := by
  obtain ⟨t, rc, l, hm, ha, hta⟩ := I.tree_of_held hk; exact ha

theorem Inv.held_dead (I : Inv w ch) (hd : w.heap.alive n = false) : w.held k n = 0 := by
  apply Classical.byContradiction
  intro hc
  have := I.held_alive (k := k) (n := n) (by omega)
  rw [hd] at this; cases this

theorem Inv.fresh_tok (I : Inv w ch) (hb : w.heap.nTree ≤ t) :
    w.grantTok t = 0 ∧ w.prohTok t = 0 ∧ w.trees t = 0 := by
  have h1 : ¬ 0 < w.grantTok t + w.prohTok t := fun hc => absurd (I.toks t hc) (by exact Nat.not_lt.2 hb)
  have h2 : ¬ 0 < w.trees t := fun hc =>
    absurd (I.wf.tree.bound t (I.treesAlive t hc)) (by exact Nat.not_lt.2 hb)
  omega

/-- One node more, with a plain handle, in an existing tree. -/
theorem Inv.createdPlain {d : α} (I : Inv w ch) (W : WF h' ch') (hta : w.heap.treeAlive t = true)
    (hdata : h'.data = upd w.heap.data w.heap.nNode (some d))
    (hmut : h'.mutB = upd w.heap.mutB w.heap.nNode false)
    (hmem : h'.mem = upd w.heap.mem w.heap.nNode (.strong t 1 0))
    (hroot : ∀ u, h'.treeAlive u = w.heap.treeAlive u)
    (hgr : h'.grants = w.heap.grants) (hrc : h'.treeRc = w.heap.treeRc)
    (hnn : h'.nNode = w.heap.nNode + 1) (hnt : h'.nTree = w.heap.nTree)
    (hch : ∀ x, w.heap.alive x = true → w.heap.memTree x ≠ some t → ch' x = ch x) :
    Inv (({ w with heap := h' }).give .plain w.heap.nNode) ch' ∧
      Keeps w.heap h' ch ch' (fun u => u = t) NoNode := by
  have hfresh : w.heap.alive w.heap.nNode = false := by
    cases hx : w.heap.alive w.heap.nNode with
    | false => rfl
    | true => exact absurd (I.wf.bound _ hx) (Nat.lt_irrefl _)
  have hz : ∀ k, w.held k w.heap.nNode = 0 := fun k => I.held_dead hfresh
  have hal : ∀ x, x ≠ w.heap.nNode → h'.alive x = w.heap.alive x := by
    intro x hx; simp [Heap.alive, hdata, hx]
  have hmt : ∀ x, x ≠ w.heap.nNode → h'.memTree x = w.heap.memTree x := by
    intro x hx; simp [Heap.memTree, hmem, hx]
  have hmtn : h'.memTree w.heap.nNode = some t := by simp [Heap.memTree, hmem]
  constructor
  · constructor
    · exact W
    · intro x u rc l hx
      simp only [give_heap, hmem, upd_apply] at hx
      split at hx
      · rename_i e; subst e
        simp at hx
        simp [hz]; omega
      · rename_i e; simp only [give_held, e, and_false, if_false]; exact I.strong _ _ _ _ hx
    · intro x o hx k
      simp only [give_heap, hmem, upd_apply] at hx
      split at hx
      · cases hx
      · rename_i e; simp only [give_held, e, and_false, if_false]; exact I.weak _ _ hx k
    · intro u; simp only [give_heap, give_trees, hrc]; exact I.treeRc u
    · intro u hu; simp only [give_heap, hroot]; exact I.treesAlive u hu
    · intro u hu; simp only [give_heap, hnt]; exact I.toks u hu
    · intro u hu
      simp only [give_heap, hroot] at hu
      refine (I.locks u hu).congr (by simp [hgr]) rfl rfl ?_ ?_
      · intro x h0 hx
        have hxn : x ≠ w.heap.nNode := by
          rintro rfl; simp [hz] at h0
        simp only [give_heap] at hx
        rw [hmt x hxn] at hx
        exact ⟨hx, by simp, by simp⟩
      · intro x h0 hx
        have hxn : x ≠ w.heap.nNode := by
          rintro rfl; simp [hz] at h0
        simp only [give_heap]
        exact ⟨by rw [hmt x hxn]; exact hx, by simp, by simp⟩
  · have ne_of_alive : ∀ x, w.heap.alive x = true → x ≠ w.heap.nNode := by
      rintro x hx rfl; rw [hfresh] at hx; cases hx
    constructor
    · intro x u ha hm hu _
      refine ⟨by rw [hmt x (ne_of_alive x ha)]; exact hm, hch x ha ?_⟩
      intro hc; rw [hm] at hc; exact hu (by simpa using hc)
    · intro x u ha hm hu _
      have hxn : x ≠ w.heap.nNode := by
        rintro rfl; rw [hmtn] at hm; exact hu (by simpa using hm.symm)
      exact ⟨by rw [← hal x hxn]; exact ha, by rw [← hmt x hxn]; exact hm⟩
    · intro x u ha hd _; rw [hal x (ne_of_alive x ha), ha] at hd; cases hd
    · intro x ha _ _; rw [hdata, upd_ne _ _ (ne_of_alive x ha)]
    · intro x ha _ _; rw [hmut, upd_ne _ _ (ne_of_alive x ha)]
    · rw [hnn]; exact Nat.le_succ _
    · rw [hnt]; exact Nat.le_refl _
    · intro x hb hd; rw [hal x (Nat.ne_of_lt hb)]; exact hd
    · intro u _ hd; rw [hroot]; exact hd

/-- A failed creation: the new node is gone again. -/
theorem Inv.sameLive (I : Inv w ch) (s : SameLive w.heap h') :
    Inv { w with heap := h' } ch ∧ Keeps w.heap h' ch ch NoTree NoNode := by
  have hta : ∀ u, h'.treeAlive u = w.heap.treeAlive u := by intro u; simp [Heap.treeAlive, s.root]
  have hmt : ∀ x, w.heap.alive x = true → h'.memTree x = w.heap.memTree x := by
    intro x hx; simp [Heap.memTree, s.mem x hx]
  constructor
  · constructor
    · exact s.wf I.wf
    · intro x u rc l hx
      have ha := s.deadMem _ _ _ _ hx
      simp only at hx
      rw [s.mem x ha] at hx
      exact I.strong _ _ _ _ hx
    · intro x o hx k
      cases ha : w.heap.alive x with
      | false => exact I.held_dead ha
      | true =>
        simp only at hx
        rw [s.mem x ha] at hx
        exact I.weak _ _ hx k
    · intro u; simp only [s.treeRc]; exact I.treeRc u
    · intro u hu; simp only [hta]; exact I.treesAlive u hu
    · intro u hu; simp only [s.nTree]; exact I.toks u hu
    · intro u hu
      simp only [hta] at hu
      refine (I.locks u hu).congr (by simp [s.grants]) rfl rfl ?_ ?_
      · intro x h0 hx
        have ha : w.heap.alive x = true := by
          cases ha : w.heap.alive x with
          | true => rfl
          | false =>
            simp only [I.held_dead (k := .hot) ha, I.held_dead (k := .frozen) ha] at h0; omega
        exact ⟨by rw [← hmt x ha]; exact hx, Iff.rfl, Iff.rfl⟩
      · intro x h0 hx
        have ha : w.heap.alive x = true := by
          cases ha : w.heap.alive x with
          | true => rfl
          | false =>
            simp only [I.held_dead (k := .hot) ha, I.held_dead (k := .frozen) ha] at h0; omega
        exact ⟨by rw [← hx]; exact hmt x ha, Iff.rfl, Iff.rfl⟩
  · constructor
    · intro x u ha hm _ _; exact ⟨by rw [hmt x ha]; exact hm, rfl⟩
    · intro x u ha hm _ _
      rw [s.alive] at ha
      exact ⟨ha, by rw [← hmt x ha]; exact hm⟩
    · intro x u ha hd _; rw [s.alive, ha] at hd; cases hd
    · intro x _ _ _; rw [s.data]
    · intro x ha _ _; exact s.mutB x ha
    · exact s.nNode
    · exact Nat.le_of_eq s.nTree.symm
    · intro x _ hd; rw [s.alive]; exact hd
    · intro u _ hd; rw [hta]; exact hd

theorem setRoot_self (h : Heap α) (t : TreeId) : h.setRoot t (h.root t) = h := by
  unfold Heap.setRoot
  have : upd h.root t (h.root t) = h.root := by
    funext x; by_cases e : x = t <;> simp [e, upd]
  rw [this]

theorem locked_iff (I : Inv w ch) (x : NodeId) :
    w.heap.locked x = true ↔ 0 < w.held .hot x + w.held .frozen x := by
  unfold Heap.locked
  cases hm : w.heap.mem x with
  | weak o => have := I.weak _ _ hm; simp [this]
  | strong u rc l => have := (I.strong _ _ _ _ hm).2; simp; omega

/-- The nodes `D` of tree `t` become members of tree `t'`. -/
theorem Inv.rehomed {r0 : Option NodeId} {ch1 : NodeId → List NodeId} {D L' : List NodeId} {g : Int}
    (I : Inv w ch) (W : WF h' ch')
    (R : Rehomed (w.heap.setRoot t r0) h' ch1 ch' D t t' g)
    (hr0 : r0.isSome = true)
    (hta : w.heap.treeAlive t = true) (hg : 0 ≤ w.heap.grants t) (htt : t ≠ t')
    (hD : D.Nodup) (hDm : ∀ x ∈ D, w.heap.alive x = true ∧ w.heap.memTree x = some t)
    -- the destination tree
    (hroot' : (h'.root t').isSome = true) (hrc' : h'.treeRc t' = w.trees t')
    (ht'b : w.heap.treeAlive t' = true ∨ w.heap.nTree ≤ t')
    (hL' : L'.Nodup)
    (hLm : ∀ n, n ∈ L' ↔ w.heap.memTree n = some t' ∧ 0 < w.held .hot n + w.held .frozen n)
    (hp' : w.prohTok t' = 0) (hf' : ∀ n, w.heap.memTree n = some t' → w.held .frozen n = 0)
    (hg' : g = w.grantTok t' + L'.length)
    (hmax : g + w.heap.lockedIn D ≤ Lock.isizeMax)
    (hnt : w.heap.nTree ≤ h'.nTree) (ht'n : t' < h'.nTree)
    (hch1 : ∀ x, w.heap.memTree x ≠ some t → w.heap.memTree x ≠ some t' → ch1 x = ch x) :
    Inv { w with heap := h' } ch' ∧ Keeps w.heap h' ch ch' (fun u => u = t ∨ u = t') NoNode := by
  have hLK := I.locks t hta
  obtain ⟨L, hL, hmem, G⟩ := hLK.grantMode hg
  have hab : ∀ x, h'.alive x = true → ¬ Abandoned (w.heap.setRoot t r0) D t x := by
    intro x ha hc; rw [R.freed x hc] at ha; cases ha
  have habh : ∀ x k, Abandoned (w.heap.setRoot t r0) D t x → w.held k x = 0 := by
    intro x k hc
    cases hmx : w.heap.mem x with
    | weak o => exact I.weak _ _ hmx k
    | strong u a b =>
      exfalso
      have : u = t := by
        have := hc.2.1
        rw [show (w.heap.setRoot t r0).memTree x = w.heap.memTree x from rfl, memTree_strong hmx] at this
        simpa using this
      subst this
      exact hc.1.2 x a b hc.2.2 hmx
  have hDna : ∀ x ∈ D, ¬ Abandoned (w.heap.setRoot t r0) D t x := fun x hx hc => hc.2.2 hx
  have hmt : ∀ x, ¬ Abandoned (w.heap.setRoot t r0) D t x →
      h'.memTree x = if x ∈ D then some t' else w.heap.memTree x := by
    intro x hx
    split
    · rename_i hxD
      have := R.moved x hxD
      simp only [Heap.memTree, this]
      cases (w.heap.setRoot t r0).mem x <;> rfl
    · rename_i hxD
      have := R.others x hxD hx
      simp only [Heap.memTree, this]; rfl
  have hlockD : (D.filter w.heap.locked).Nodup := hD.filter _
  have hlk : ∀ x, w.heap.locked x = true ↔ 0 < w.held .hot x + w.held .frozen x := locked_iff I
  have hlen : w.heap.lockedIn D = (D.filter w.heap.locked).length := rfl
  have hlen0 : (w.heap.setRoot t r0).lockedIn D = w.heap.lockedIn D := rfl
  have hbnd : Lock.isizeMin ≤ w.heap.grants t ∧ w.heap.grants t ≤ Lock.isizeMax := by
    obtain ⟨_, _, _, _, hb⟩ := hLK; exact hb
  have hal : ∀ x, ¬ Abandoned (w.heap.setRoot t r0) D t x → h'.alive x = w.heap.alive x := by
    intro x hx; simp only [Heap.alive, (R.data x hx).1]; rfl
  have hheldna : ∀ x k, 0 < w.held k x → ¬ Abandoned (w.heap.setRoot t r0) D t x := by
    intro x k hk hc; have := habh x k hc; omega
  constructor
  · constructor
    · exact W
    · intro x u rc l hx
      have hna := hab x (W.refs.alive _ _ _ _ hx)
      by_cases hxD : x ∈ D
      · have := R.moved x hxD
        simp only at hx
        rw [this] at hx
        cases hmx : (w.heap.setRoot t r0).mem x with
        | weak o => rw [hmx] at hx; cases hx
        | strong u' a b =>
          rw [hmx] at hx
          simp only [Membership.moveTo, Membership.strong.injEq] at hx
          have := I.strong x u' a b hmx
          simp only; omega
      · have := R.others x hxD hna
        simp only at hx
        rw [this] at hx
        exact I.strong _ _ _ _ hx
    · intro x o hx k
      by_cases hna : Abandoned (w.heap.setRoot t r0) D t x
      · exact habh x k hna
      by_cases hxD : x ∈ D
      · have := R.moved x hxD
        simp only at hx
        rw [this] at hx
        cases hmx : (w.heap.setRoot t r0).mem x with
        | weak o => exact I.weak x o hmx k
        | strong u' a b => rw [hmx] at hx; cases hx
      · have := R.others x hxD hna
        simp only at hx
        rw [this] at hx
        exact I.weak _ _ hx k
    · intro u
      by_cases e : u = t'
      · subst e; exact hrc'
      · simp only [R.treeRc u e]; exact I.treeRc u
    · intro u hu
      simp only [Heap.treeAlive]
      by_cases e : u = t'
      · subst e; exact hroot'
      · by_cases e2 : u = t
        · subst e2
          rw [Option.isSome_iff_ne_none]
          intro hc
          have := (R.rootOld.1 hc).1
          have h2 := I.treeRc u
          rw [show (w.heap.setRoot u r0).treeRc u = w.heap.treeRc u from rfl] at this
          simp only at hu; omega
        · rw [R.rootOther u e2 e]
          have := I.treesAlive u hu
          simpa [Heap.treeAlive, Heap.setRoot, e2] using this
    · intro u hu; exact Nat.lt_of_lt_of_le (I.toks u hu) hnt
    · intro u hu
      by_cases e : u = t'
      · subst e
        have hdis : ∀ x, x ∈ L' → x ∉ D := by
          intro x hx hxD
          have h1 := ((hLm x).1 hx).1
          rw [(hDm x hxD).2] at h1
          exact htt (by simpa using h1)
        refine ⟨L' ++ D.filter w.heap.locked, ?_, ?_, .inl ⟨hp', ?_, ?_⟩, ?_⟩
        · rw [List.nodup_append]
          refine ⟨hL', hlockD, ?_⟩
          intro a ha b hb hab
          subst hab
          exact hdis a ha (List.mem_filter.1 hb).1
        · intro x
          simp only [List.mem_append, hLm, List.mem_filter, hlk]
          constructor
          · rintro (⟨h1, h2⟩ | ⟨h1, h2⟩)
            · refine ⟨?_, h2⟩
              have hxL := (hLm x).2 ⟨h1, h2⟩
              have hna : ¬ Abandoned (w.heap.setRoot t r0) D t x := by
                intro hc
                have a1 := habh x .hot hc; have a2 := habh x .frozen hc; omega
              rw [hmt x hna, if_neg (hdis x hxL)]; exact h1
            · refine ⟨?_, h2⟩
              rw [hmt x (hDna x h1), if_pos h1]
          · rintro ⟨h1, h2⟩
            have hna : ¬ Abandoned (w.heap.setRoot t r0) D t x := by
              intro hc
              have a1 := habh x .hot hc; have a2 := habh x .frozen hc; omega
            rw [hmt x hna] at h1
            split at h1
            · rename_i hx; exact .inr ⟨hx, h2⟩
            · exact .inl ⟨h1, h2⟩
        · intro x hx
          by_cases h0 : w.held .frozen x = 0
          · exact h0
          · have hna := hheldna x .frozen (by omega)
            simp only at hx
            rw [hmt x hna] at hx
            split at hx
            · rename_i hxD; exact G.2.1 x (hDm x hxD).2
            · exact hf' x hx
        · simp only [R.grantsNew, hlen0, hlen, List.length_append]; omega
        · simp only [R.grantsNew, hlen0]
          simp only [Lock.isizeMin, Lock.isizeMax] at *
          omega
      · by_cases e2 : u = t
        · subst e2
          have hnl : ¬ LastHandlesLeave (w.heap.setRoot u r0) D u := by
            intro hc
            have := R.rootOld.2 hc
            simp only [Heap.treeAlive, this] at hu
            cases hu
          have hgold := R.grantsOld hnl
          have hna : ∀ x, ¬ Abandoned (w.heap.setRoot u r0) D u x := fun x hc => hnl hc.1
          have hsub : ∀ x, x ∈ L → (x ∈ D ↔ x ∈ D.filter w.heap.locked) := by
            intro x hx
            simp only [List.mem_filter, hlk, ((hmem x).1 hx).2, and_true]
          -- the locked members that stay
          have hlenL : (L.filter (fun x => !decide (x ∈ D))).length + (D.filter w.heap.locked).length
              = L.length := by
            have h1 := length_filter_split (fun x => decide (x ∈ D)) L
            have h2 : (L.filter (fun x => decide (x ∈ D))).Perm (D.filter w.heap.locked) := by
              refine (List.perm_ext_iff_of_nodup (hL.filter _) hlockD).2 ?_
              intro x
              simp only [List.mem_filter, decide_eq_true_eq, hmem, hlk]
              constructor
              · rintro ⟨⟨a, b⟩, c⟩; exact ⟨c, b⟩
              · rintro ⟨a, b⟩; exact ⟨⟨(hDm x a).2, b⟩, a⟩
            have := h2.length_eq
            omega
          refine ⟨L.filter (fun x => !decide (x ∈ D)), hL.filter _, ?_, .inl ⟨G.1, ?_, ?_⟩, ?_⟩
          · intro x
            simp only [List.mem_filter, hmem, Bool.not_eq_true', decide_eq_false_iff_not]
            rw [hmt x (hna x)]
            constructor
            · rintro ⟨⟨a, b⟩, c⟩; exact ⟨by rw [if_neg c]; exact a, b⟩
            · rintro ⟨a, b⟩
              split at a
              · exact absurd (by simpa using a.symm) htt
              · rename_i c; exact ⟨⟨a, b⟩, c⟩
          · intro x hx
            simp only at hx
            rw [hmt x (hna x)] at hx
            split at hx
            · exact absurd (by simpa using hx.symm) htt
            · exact G.2.1 x hx
          · have := G.2.2
            simp only
            rw [hgold, hlen0, hlen]
            have e3 : (w.heap.setRoot u r0).grants u = w.heap.grants u := rfl
            rw [e3]; omega
          · simp only
            rw [hgold, hlen0, hlen]
            have e3 : (w.heap.setRoot u r0).grants u = w.heap.grants u := rfl
            have := G.2.2
            simp only [Lock.isizeMin, Lock.isizeMax] at *
            rw [e3]; omega
        · have hu' : w.heap.treeAlive u = true := by
            simp only [Heap.treeAlive, R.rootOther u e2 e] at hu
            simpa [Heap.treeAlive, Heap.setRoot, e2] using hu
          refine (I.locks u hu').congr ?_ rfl rfl ?_ ?_
          · simp only [R.grantsOther u e2 e]; rfl
          · intro x h0 hx
            simp only at h0 hx
            have hna : ¬ Abandoned (w.heap.setRoot t r0) D t x := by
              intro hc
              have a1 := habh x .hot hc; have a2 := habh x .frozen hc; omega
            rw [hmt x hna] at hx
            split at hx
            · exact absurd (by simpa using hx.symm) e
            · exact ⟨hx, Iff.rfl, Iff.rfl⟩
          · intro x h0 hx
            have hna : ¬ Abandoned (w.heap.setRoot t r0) D t x := by
              intro hc
              have a1 := habh x .hot hc; have a2 := habh x .frozen hc; omega
            have hxD : x ∉ D := by
              intro hc; rw [(hDm x hc).2] at hx; exact e2 (by simpa using hx.symm)
            refine ⟨?_, Iff.rfl, Iff.rfl⟩
            simp only
            rw [hmt x hna, if_neg hxD]; exact hx
  · constructor
    · intro x u ha hm hu ha'
      simp only [not_or] at hu
      have hxD : x ∉ D := by
        intro hc; rw [(hDm x hc).2] at hm; exact hu.1 (by simpa using hm.symm)
      refine ⟨by rw [hmt x (hab x ha'), if_neg hxD]; exact hm, ?_⟩
      rw [R.children x (hab x ha')]
      refine hch1 x ?_ ?_
      · intro hc; rw [hm] at hc; exact hu.1 (by simpa using hc)
      · intro hc; rw [hm] at hc; exact hu.2 (by simpa using hc)
    · intro x u ha hm hu hb
      simp only [not_or] at hu
      have hna := hab x ha
      rw [hmt x hna] at hm
      rw [hal x hna] at ha
      split at hm
      · exact absurd (by simpa using hm.symm) hu.2
      · exact ⟨ha, hm⟩
    · intro x u ha hd hm
      by_cases hc : Abandoned (w.heap.setRoot t r0) D t x
      · have : u = t := by
          have := hc.2.1
          rw [show (w.heap.setRoot t r0).memTree x = w.heap.memTree x from rfl, hm] at this
          simpa using this
        subst this
        simp [Heap.treeAlive, R.rootOld.2 hc.1]
      · rw [hal x hc, ha] at hd; cases hd
    · intro x _ ha' _
      rw [(R.data x (hab x ha')).1]; rfl
    · intro x _ ha' _
      rw [(R.data x (hab x ha')).2]; rfl
    · rw [R.nNode]; exact Nat.le_refl _
    · exact hnt
    · intro x hb hd
      cases ha' : h'.alive x with
      | false => rfl
      | true => rw [hal x (hab x ha'), hd] at ha'; cases ha'
    · intro u hb hd
      have e2 : u ≠ t := by rintro rfl; rw [hta] at hd; cases hd
      have e : u ≠ t' := by
        rintro rfl
        rcases ht'b with h1 | h1
        · rw [h1] at hd; cases hd
        · exact absurd hb (Nat.not_lt.2 h1)
      simp only [Heap.treeAlive, R.rootOther u e2 e]
      simpa [Heap.treeAlive, Heap.setRoot, e2] using hd

end Dendron
