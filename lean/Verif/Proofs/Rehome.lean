import Verif.Proofs.Settle

/-! Moving an unlinked subtree to another tree. -/

set_option linter.unusedSimpArgs false
set_option linter.unusedVariables false

set_option autoImplicit false

namespace Dendron
open RTree
variable {α : Type} {h h1 h2 h' : Heap α} {ch : NodeId → List NodeId} {n p r : NodeId} {t t' : TreeId}
  {T R : RTree NodeId} {l1 l2 : List NodeId}

theorem FShape.parent_unique (S : FShape h ch) {a b c : NodeId} (h1 : c ∈ ch a) (h2 : c ∈ ch b) :
    a = b := by
  have := S.parent_of_mem h1
  rw [S.parent_of_mem h2] at this
  simpa using this.symm

/-- The subtree of a node is still its subtree when a node outside loses a child. -/
theorem SubtreeAt.upd {l : List NodeId} (hT : SubtreeAt ch n T) (hnp : ¬ Desc ch n p) :
    SubtreeAt (upd ch p l) n T := by
  refine ⟨hT.1, hT.2.congr ?_⟩
  intro x hx
  rw [upd_ne]
  rintro rfl
  exact hnp ((hT.mem_nodes_iff x).1 hx)

/-- Without the node `n` in its parent's list, no descendant of `n` is reached from elsewhere. -/
theorem desc_unlinked (S : FShape h ch) (hs : ch p = l1 ++ n :: l2) {x y : NodeId}
    (hx : Desc (upd ch p (l1 ++ l2)) x y) (hxn : ¬ Desc ch n x) : ¬ Desc ch n y := by
  have hm : n ∈ ch p := by simp [hs]
  have hnd := S.nodup p
  rw [hs] at hnd
  have hsub : ∀ q c, c ∈ upd ch p (l1 ++ l2) q → c ∈ ch q ∧ c ≠ n := by
    intro q c hc
    by_cases e : q = p
    · subst e
      rw [upd_same] at hc
      refine ⟨by rw [hs]; simp at hc ⊢; rcases hc with h1 | h1 <;> simp [h1], ?_⟩
      rintro rfl
      simp only [List.nodup_append, List.nodup_cons, List.mem_cons] at hnd
      rcases List.mem_append.1 hc with h1 | h1
      · exact hnd.2.2 _ h1 _ (.inl rfl) rfl
      · exact hnd.2.1.1 h1
    · rw [upd_ne _ _ e] at hc
      refine ⟨hc, ?_⟩
      rintro rfl
      exact e (S.parent_unique hc hm)
  induction hx with
  | refl => exact hxn
  | @step m d _ hd ih =>
    intro hnd'
    obtain ⟨h1, h2⟩ := hsub m d hd
    cases hnd' with
    | refl => exact h2 rfl
    | step h3 h4 =>
      rw [S.parent_unique h4 h1] at h3
      exact ih h3

/-- A state in which `n` has been unlinked from its parent and is about to be moved to `t'`. -/
structure Unlinked (h h2 : Heap α) (ch : NodeId → List NodeId) (n p : NodeId) (l1 l2 : List NodeId)
    (t t' : TreeId) : Prop where
  split : ch p = l1 ++ n :: l2
  memb : h.memTree n = some t
  ne : t ≠ t'
  shape : FShape h2 (upd ch p (l1 ++ l2))
  num : NumOK h2 (upd ch p (l1 ++ l2))
  data : h2.data = h.data
  mutB : h2.mutB = h.mutB
  mem : h2.mem = h.mem
  nNode : h2.nNode = h.nNode
  nTree : h.nTree ≤ h2.nTree
  parent : ∀ x, h2.parent x = if x = n then none else h.parent x
  root : ∀ u, u ≠ t' → h2.root u = h.root u
  root' : ∀ r, h.root t' = some r → h2.root t' = some r
  root'' : ∀ r, h2.root t' = some r → r = n ∨ h.root t' = some r
  alive' : h2.treeAlive t' = true
  bound' : t' < h2.nTree
  treeRc : ∀ u, u ≠ t' → h2.treeRc u = h.treeRc u
  grants : ∀ u, u ≠ t' → h2.grants u = h.grants u

theorem Unlinked.alive (U : Unlinked h h2 ch n p l1 l2 t t') (x : NodeId) :
    h2.alive x = h.alive x := by simp [Heap.alive, U.data]

theorem Unlinked.memTree (U : Unlinked h h2 ch n p l1 l2 t t') (x : NodeId) :
    h2.memTree x = h.memTree x := by simp [Heap.memTree, U.mem]

theorem Unlinked.lockedIn (U : Unlinked h h2 ch n p l1 l2 t t') (D : List NodeId) :
    h2.lockedIn D = h.lockedIn D := by
  have : h2.locked = h.locked := by funext x; simp [Heap.locked, U.mem]
  simp [Heap.lockedIn, this]

/-- Members of a subtree are in the tree of its top. -/
theorem TreeWF.desc_memTree (W : TreeWF h) (S : FShape h ch) {x : NodeId} (hd : Desc ch n x) :
    h.memTree x = h.memTree n := by
  induction hd with
  | refl => rfl
  | step _ hm ih => rw [W.child _ _ (S.alive_of_mem hm) (S.parent_of_mem hm), ih]

theorem Unlinked.ctx (U : Unlinked h h2 ch n p l1 l2 t t') (S : FShape h ch) (W : TreeWF h)
    (Q : RefWF h) (hT : SubtreeAt ch n T) (hr : h.root t = some r)
    (hR : SubtreeAt (upd ch p (l1 ++ l2)) r R)
    (g1 : (h.lockedIn T.nodes : Int) ≤ h.grants t) (g2 : 0 ≤ h2.grants t')
    (g3 : h2.grants t' + h.lockedIn T.nodes ≤ Lock.isizeMax) :
    MoveCtx h2 (upd ch p (l1 ++ l2)) n T t t' r R := by
  have hm : n ∈ ch p := by simp [U.split]
  have hnp := S.not_desc_parent hm
  have ha := S.alive_of_mem hm
  obtain ⟨hra, hrm, hrp⟩ := W.root t r hr
  have hnr : ¬ Desc ch n r := by
    intro hd
    cases hd with
    | refl => rw [S.parent_of_mem hm] at hrp; simp at hrp
    | step _ h1 => rw [S.parent_of_mem h1] at hrp; simp at hrp
  have hrn : r ≠ n := by rintro rfl; exact hnr (.refl r)
  have hRm : ∀ x ∈ R.nodes, h.memTree x = some t ∧ ¬ Desc ch n x ∧ h.alive x = true := by
    intro x hx
    have hd := (hR.mem_nodes_iff x).1 hx
    have h1 := desc_unlinked S U.split hd hnr
    refine ⟨?_, h1, ?_⟩
    · have : Desc ch r x := by
        clear hx h1
        induction hd with
        | refl => exact .refl r
        | @step a b _ hb ih =>
          refine .step ih ?_
          by_cases e : a = p
          · subst e; rw [upd_same] at hb; rw [U.split]
            simp at hb ⊢; rcases hb with h1 | h1 <;> simp [h1]
          · rwa [upd_ne _ _ e] at hb
      rw [W.desc_memTree S this, hrm]
    · have := U.shape.desc_alive (by rw [U.alive]; exact hra) hd
      rwa [U.alive] at this
  refine { shape := U.shape, sub := hT.upd hnp, alive := by rw [U.alive]; exact ha,
           memb := ?_, ne := U.ne, grantsPos := ?_, grantsPos' := g2, grantsMax := ?_,
           tbound := ?_, root := by rw [U.root t U.ne]; exact hr,
           ralive := by rw [U.alive]; exact hra, rpar := ?_, rsub := hR, rmemb := ?_,
           rroot := ?_, disj := ?_, salive := ?_, held := ?_ }
  · intro x hx
    rw [U.memTree, W.desc_memTree S ((hT.mem_nodes_iff x).1 hx), U.memb]
  · rw [U.lockedIn, U.grants t U.ne]; exact g1
  · rw [U.lockedIn]; exact g3
  · have := W.bound t (by simp [Heap.treeAlive, hr])
    exact Nat.lt_of_lt_of_le this U.nTree
  · rw [U.parent, if_neg hrn]; exact hrp
  · intro x hx; rw [U.memTree]; exact (hRm x hx).1
  · intro x hx u hu
    have hxu : h.root u = some x := by
      by_cases e : u = t'
      · subst e
        rcases U.root'' x hu with rfl | h1
        · exact absurd (.refl x) (hRm x hx).2.1
        · exact h1
      · rwa [U.root u e] at hu
    have := (W.root u x hxu).2.1
    rw [(hRm x hx).1] at this
    obtain rfl : t = u := by simpa using this
    rw [hr] at hxu
    exact ⟨rfl, by simpa using hxu.symm⟩
  · intro x hx hx'
    exact (hRm x hx).2.1 ((hT.mem_nodes_iff x).1 hx')
  · intro x u rc l hx
    rw [U.mem] at hx; rw [U.alive]; exact Q.alive _ _ _ _ hx
  · rcases Q.held t (by simp [Heap.treeAlive, hr]) with h1 | ⟨x, rc, l, hx⟩
    · exact .inl (by rw [U.treeRc t U.ne]; exact h1)
    · exact .inr ⟨x, rc, l, by rw [U.mem]; exact hx, by
        rw [U.nNode]; exact S.bound x (Q.alive _ _ _ _ hx)⟩

/-- Memberships agree again after the move; `n` is the root of `t'` or still to be inserted. -/
theorem Unlinked.treeWF (U : Unlinked h h2 ch n p l1 l2 t t') (S : FShape h ch) (W : TreeWF h)
    (hT : SubtreeAt ch n T) {m : Heap α} {E : NodeId → Prop}
    (mdata : m.data = h2.data) (mparent : m.parent = h2.parent) (mroot : m.root = h2.root)
    (mnTree : m.nTree = h2.nTree)
    (mmem : ∀ x, m.memTree x = if x ∈ T.nodes then some t' else h2.memTree x)
    (hE : ¬ E n → h2.root t' = some n) (hE' : h2.root t' ≠ some n ∨ ¬ E n) :
    TreeWFe m E := by
  have hm : n ∈ ch p := by simp [U.split]
  have hpar := S.parent_of_mem hm
  have ha := S.alive_of_mem hm
  have hin : ∀ x, x ∈ T.nodes ↔ Desc ch n x := hT.mem_nodes_iff
  have hal : ∀ x, m.alive x = h.alive x := by intro x; simp [Heap.alive, mdata, U.data]
  have hmt : ∀ x, m.memTree x = if x ∈ T.nodes then some t' else h.memTree x := by
    intro x; rw [mmem, U.memTree]
  have hroot : ∀ u r, h.root u = some r → m.root u = some r := by
    intro u r hr
    rw [mroot]
    by_cases e : u = t'
    · subst e; exact U.root' r hr
    · rw [U.root u e]; exact hr
  have hnT : n ∈ T.nodes := (hin n).2 (.refl n)
  constructor
  · intro x hx
    rw [hal] at hx
    rw [hmt]
    by_cases e : x ∈ T.nodes
    · exact ⟨t', by simp [e], by simp only [Heap.treeAlive, mroot]; exact U.alive'⟩
    · obtain ⟨u, h1, h2⟩ := W.live x hx
      refine ⟨u, by simp [e, h1], ?_⟩
      obtain ⟨y, hy⟩ := Option.isSome_iff_exists.1 h2
      simp [Heap.treeAlive, hroot u y hy]
  · intro u x hx
    have hx0 : (u = t' ∧ x = n) ∨ h.root u = some x := by
      rw [mroot] at hx
      by_cases e : u = t'
      · subst e
        rcases U.root'' x hx with h1 | h1
        · exact .inl ⟨rfl, h1⟩
        · exact .inr h1
      · rw [U.root u e] at hx; exact .inr hx
    rw [hal, hmt, mparent, U.parent]
    rcases hx0 with ⟨rfl, rfl⟩ | hx0
    · simp [hnT, ha]
    · obtain ⟨h1, h2, h3⟩ := W.root u x hx0
      have : ¬ Desc ch n x := by
        intro hd
        cases hd with
        | refl => rw [hpar] at h3; simp at h3
        | step _ h4 => rw [S.parent_of_mem h4] at h3; simp at h3
      have : x ∉ T.nodes := fun e => this ((hin x).1 e)
      simp [this, h1, h2, h3]
  · intro c q hc hq
    rw [hal] at hc
    rw [mparent, U.parent] at hq
    by_cases e : c = n
    · simp [e] at hq
    · simp only [e, if_false] at hq
      rw [hmt, hmt]
      have hcq := S.mem_of_parent hc hq
      have : c ∈ T.nodes ↔ q ∈ T.nodes := by
        rw [hin, hin]
        constructor
        · intro hd
          cases hd with
          | refl => exact absurd rfl e
          | step h3 h4 => rwa [S.parent_unique h4 hcq] at h3
        · intro hd; exact .step hd hcq
      by_cases e2 : q ∈ T.nodes
      · simp [this, e2]
      · simp [this, e2, W.child c q hc hq]
  · intro x u hEx hx hp hmx
    rw [hal] at hx
    rw [mparent, U.parent] at hp
    rw [hmt] at hmx
    by_cases e : x = n
    · subst e
      simp only [hnT, if_true, Option.some.injEq] at hmx
      subst hmx
      rw [mroot]; exact hE hEx
    · simp only [e, if_false] at hp
      have : x ∉ T.nodes := by
        intro h1
        cases (hin x).1 h1 with
        | refl => exact e rfl
        | step _ h4 => rw [S.parent_of_mem h4] at hp; simp at hp
      simp only [this, if_false] at hmx
      exact hroot u x (W.top x u hx hp hmx)
  · intro u hu
    rw [mnTree]
    by_cases e : u = t'
    · rw [e]; exact U.bound'
    · simp only [Heap.treeAlive, mroot, U.root u e] at hu
      exact Nat.lt_of_lt_of_le (W.bound u hu) U.nTree

/-- Reference counts after the move. -/
theorem Unlinked.refWF (U : Unlinked h h2 ch n p l1 l2 t t') (S : FShape h ch) (W : TreeWF h)
    (Q : RefWF h) (hT : SubtreeAt ch n T) {m : Heap α}
    (mdata : m.data = h2.data) (mroot : m.root = h2.root)
    (mrc : ∀ u, u ≠ t' → m.treeRc u = h2.treeRc u)
    (mmem : ∀ x, m.mem x = if x ∈ T.nodes then (h2.mem x).moveTo t' else h2.mem x)
    (hheld : 0 < m.treeRc t' ∨ ∃ x rc l, m.mem x = .strong t' rc l) :
    RefWFe m t := by
  have hal : ∀ x, m.alive x = h.alive x := by intro x; simp [Heap.alive, mdata, U.data]
  have hst : ∀ x u rc l, m.mem x = .strong u rc l → ∃ v, h.mem x = .strong v rc l := by
    intro x u rc l hx
    rw [mmem, U.mem] at hx
    by_cases e : x ∈ T.nodes
    · simp only [e, if_true] at hx
      cases hmx : h.mem x with
      | weak v => rw [hmx] at hx; simp [Membership.moveTo] at hx
      | strong v rc' l' =>
        rw [hmx] at hx
        simp only [Membership.moveTo, Membership.strong.injEq] at hx
        exact ⟨v, by rw [hx.2.1, hx.2.2]⟩
    · simp only [e, if_false] at hx; exact ⟨u, hx⟩
  constructor
  · intro x u rc l hx
    obtain ⟨v, hv⟩ := hst x u rc l hx
    rw [hal]; exact Q.alive _ _ _ _ hv
  · intro x u rc l hx
    obtain ⟨v, hv⟩ := hst x u rc l hx
    exact Q.pos _ _ _ _ hv
  · intro u hu hua
    by_cases e : u = t'
    · rw [e]; exact hheld
    · simp only [Heap.treeAlive, mroot, U.root u e] at hua
      rcases Q.held u hua with h1 | ⟨x, rc, l, hx⟩
      · exact .inl (by rw [mrc u e, U.treeRc u e]; exact h1)
      · refine .inr ⟨x, rc, l, ?_⟩
        rw [mmem, if_neg, U.mem]
        · exact hx
        · intro hxT
          have := W.desc_memTree S ((hT.mem_nodes_iff x).1 hxT)
          rw [U.memb] at this
          simp only [Heap.memTree, hx, Option.some.injEq] at this
          exact hu this

/-- The state `m` after the nodes `D` have moved, and the possible destruction of the old tree. -/
theorem rehomed_of {m : Heap α} {ch1 : NodeId → List NodeId} {D : List NodeId} {g : Int}
    {E : NodeId → Prop} (hne : t ≠ t') (hbd : ∀ x, h.alive x = true → x < h.nNode)
    (hsa : ∀ x u rc l, h.mem x = .strong u rc l → h.alive x = true) (hr : h.root t = some r)
    (hR : SubtreeAt ch1 r R) (hdisj : ∀ x ∈ R.nodes, x ∉ D)
    (mdata : m.data = h.data) (mmutB : m.mutB = h.mutB)
    (mroot : ∀ u, u ≠ t' → m.root u = h.root u) (mnNode : m.nNode = h.nNode)
    (mrc : ∀ u, u ≠ t' → m.treeRc u = h.treeRc u)
    (mmem : ∀ x, m.mem x = if x ∈ D then (h.mem x).moveTo t' else h.mem x)
    (mgr : ∀ u, m.grants u = if u = t' then g + h.lockedIn D
      else if u = t then h.grants t - h.lockedIn D else h.grants u)
    (F : FShape m ch1) (WE : TreeWFe m E) (hE : ∀ x, E x → m.memTree x ≠ some t) :
    Rehomed h (m.settle t R.nodes) ch1 (settledCh m t R.nodes ch1) D t t' g := by
  have hal : ∀ x, m.alive x = h.alive x := by intro x; simp [Heap.alive, mdata]
  have hmr : m.root t = some r := by rw [mroot t hne]; exact hr
  have hmt : ∀ x, m.memTree x = if x ∈ D then some t' else h.memTree x := by
    intro x
    simp only [Heap.memTree, mmem]
    by_cases e : x ∈ D
    · simp only [e, if_true]; cases h.mem x <;> rfl
    · simp only [e, if_false]
  have hin : ∀ x, h.alive x = true → (x ∈ R.nodes ↔ h.memTree x = some t ∧ x ∉ D) := by
    intro x hx
    rw [hR.mem_nodes_iff, WE.mem_iff F hmr hE (by rw [hal]; exact hx), hmt]
    by_cases e : x ∈ D
    · simp [e, hne.symm]
    · simp [e]
  have hstr : m.hasStrongMember t = true ↔ ∃ y rc l, y ∉ D ∧ h.mem y = .strong t rc l := by
    rw [hasStrongMember_iff]
    constructor
    · rintro ⟨y, hy, rc, l, hm⟩
      rw [mmem] at hm
      by_cases e : y ∈ D
      · simp only [e, if_true] at hm
        cases hy : h.mem y with
        | weak v => rw [hy] at hm; simp [Membership.moveTo] at hm
        | strong v a b =>
          rw [hy] at hm
          simp only [Membership.moveTo, Membership.strong.injEq] at hm
          exact absurd hm.1.symm hne
      · simp only [e, if_false] at hm; exact ⟨y, rc, l, e, hm⟩
    · rintro ⟨y, rc, l, e, hm⟩
      refine ⟨y, ?_, rc, l, by rw [mmem, if_neg e]; exact hm⟩
      rw [mnNode]; exact hbd y (hsa _ _ _ _ hm)
  have hcond : (m.treeAlive t && m.treeRc t == 0 && !m.hasStrongMember t) = true ↔
      LastHandlesLeave h D t := by
    simp only [Bool.and_eq_true, beq_iff_eq, Bool.not_eq_true']
    rw [mrc t hne]
    unfold LastHandlesLeave
    have : m.treeAlive t = true := by simp [Heap.treeAlive, hmr]
    simp only [this, true_and]
    refine and_congr_right (fun _ => ?_)
    rw [← Bool.not_eq_true, hstr]
    constructor
    · intro hh y rc l hy hm; exact hh ⟨y, rc, l, hy, hm⟩
    · rintro hh ⟨y, rc, l, hy, hm⟩; exact hh y rc l hy hm
  by_cases hc : LastHandlesLeave h D t
  · have hset : m.settle t R.nodes = m.dropped t R.nodes := by
      unfold Heap.settle; rw [if_pos (hcond.2 hc)]
    have hsch : settledCh m t R.nodes ch1 =
        without ch1 R.nodes := by
      unfold settledCh; rw [if_pos (hcond.2 hc)]
    have hRa : ∀ x ∈ R.nodes, h.alive x = true := by
      intro x hx
      rw [← hal]
      exact F.desc_alive (WE.root t r hmr).1 ((hR.mem_nodes_iff x).1 hx)
    have hab : ∀ x, ¬ Abandoned h D t x → x ∉ R.nodes := by
      intro x hx hxR
      obtain ⟨h1, h2⟩ := (hin x (hRa x hxR)).1 hxR
      exact hx ⟨hc, h1, h2⟩
    rw [hset, hsch]
    refine { freed := ?_, data := ?_, moved := ?_, others := ?_, children := ?_, grantsNew := ?_,
             grantsOld := fun hh => absurd hc hh, grantsOther := ?_, rootOld := ?_,
             rootKept := fun hh => absurd hc hh, rootOther := ?_, treeRc := ?_, nNode := ?_ }
    · intro x hx
      rw [dropped_alive]
      by_cases e : x ∈ R.nodes
      · simp [e]
      · simp only [e, if_false, hal]
        cases ha : h.alive x with
        | false => rfl
        | true => exact absurd ((hin x ha).2 ⟨hx.2.1, hx.2.2⟩) e
    · intro x hx
      have := hab x hx
      simp [Heap.dropped, Heap.wipe, Heap.setRoot, Heap.setGrants, this, mdata, mmutB]
    · intro x hx
      have : x ∉ R.nodes := fun e => hdisj x e hx
      rw [dropped_mem, if_neg this, mmem, if_pos hx]
    · intro x hx hx'
      rw [dropped_mem, if_neg (hab x hx'), mmem, if_neg hx]
    · intro x hx
      unfold without; rw [if_neg (hab x hx)]
    · have : (m.dropped t R.nodes).grants t' = m.grants t' := by
        simp [Heap.dropped, Heap.wipe, Heap.setRoot, Heap.setGrants, hne.symm]
      rw [this, mgr, if_pos rfl]
    · intro u hu hu'
      have : (m.dropped t R.nodes).grants u = m.grants u := by
        simp [Heap.dropped, Heap.wipe, Heap.setRoot, Heap.setGrants, hu]
      rw [this, mgr, if_neg hu', if_neg hu]
    · simp [dropped_root, hc]
    · intro u hu hu'
      rw [dropped_root, upd_ne _ _ hu, mroot u hu']
    · intro u hu
      have : (m.dropped t R.nodes).treeRc u = m.treeRc u := rfl
      rw [this, mrc u hu]
    · exact mnNode
  · have hset : m.settle t R.nodes = m := by
      unfold Heap.settle; rw [if_neg (fun e => hc (hcond.1 e))]
    have hsch : settledCh m t R.nodes ch1 = ch1 := by
      unfold settledCh; rw [if_neg (fun e => hc (hcond.1 e))]
    rw [hset, hsch]
    refine { freed := fun x hx => absurd hx.1 hc, data := ?_, moved := ?_, others := ?_,
             children := fun x _ => rfl, grantsNew := ?_,
             grantsOld := ?_, grantsOther := ?_, rootOld := ?_,
             rootKept := ?_, rootOther := ?_, treeRc := ?_, nNode := mnNode }
    · intro x _; simp [mdata, mmutB]
    · intro x hx; rw [mmem, if_pos hx]
    · intro x hx _; rw [mmem, if_neg hx]
    · rw [mgr, if_pos rfl]
    · intro _; rw [mgr, if_neg hne, if_pos rfl]
    · intro u hu hu'; rw [mgr, if_neg hu', if_neg hu]
    · simp [hmr, hc]
    · intro _; rw [hmr, hr]
    · intro u hu hu'; rw [mroot u hu']
    · intro u hu; rw [mrc u hu]

/-- The state after the move and the possible destruction of the old tree. -/
theorem Unlinked.rehomed (U : Unlinked h h2 ch n p l1 l2 t t') (S : FShape h ch) (W : TreeWF h)
    (Q : RefWF h) (hT : SubtreeAt ch n T) (hr : h.root t = some r)
    (hR : SubtreeAt (upd ch p (l1 ++ l2)) r R) {m : Heap α} {E : NodeId → Prop}
    (hdisj : ∀ x ∈ R.nodes, x ∉ T.nodes)
    (mdata : m.data = h2.data) (mmutB : m.mutB = h2.mutB) (mroot : m.root = h2.root)
    (mnNode : m.nNode = h2.nNode)
    (mrc : ∀ u, u ≠ t' → m.treeRc u = h2.treeRc u)
    (mmem : ∀ x, m.mem x = if x ∈ T.nodes then (h2.mem x).moveTo t' else h2.mem x)
    (mgr : ∀ u, m.grants u = if u = t' then h2.grants t' + h2.lockedIn T.nodes
      else if u = t then h2.grants t - h2.lockedIn T.nodes else h2.grants u)
    (F : FShape m (upd ch p (l1 ++ l2))) (WE : TreeWFe m E)
    (hE : ∀ x, E x → m.memTree x ≠ some t) :
    Rehomed h (m.settle t R.nodes) (upd ch p (l1 ++ l2))
      (settledCh m t R.nodes (upd ch p (l1 ++ l2))) T.nodes t t' (h2.grants t') := by
  refine rehomed_of U.ne S.bound Q.alive hr hR hdisj (mdata.trans U.data) (mmutB.trans U.mutB)
    ?_ (mnNode.trans U.nNode) ?_ ?_ ?_ F WE hE
  · intro u hu; rw [mroot, U.root u hu]
  · intro u hu; rw [mrc u hu, U.treeRc u hu]
  · intro x; rw [mmem, U.mem]
  · intro u
    rw [mgr, U.lockedIn]
    by_cases e : u = t'
    · simp [e]
    · by_cases e2 : u = t
      · subst e2; simp [e, U.grants u e]
      · simp [e, e2, U.grants u e]

end Dendron
