import Verif.Proofs.Replace

/-! Dropping an `Rc<TreeCore>`; turning an isolated node into a tree. -/

set_option linter.unusedSimpArgs false
set_option linter.unusedVariables false

set_option autoImplicit false

namespace Dendron
open RTree
variable {α : Type} {h h1 h2 h' : Heap α} {ch ch1 : NodeId → List NodeId} {n p r q : NodeId}
  {t t' : TreeId} {T R : RTree NodeId} {l1 l2 : List NodeId}

/-- Nothing holds the tree `t` any more. -/
def Loose (h : Heap α) (t : TreeId) : Prop :=
  h.treeRc t = 0 ∧ ∀ x rc l, h.mem x ≠ .strong t rc l

theorem loose_iff (hb : ∀ x u rc l, h.mem x = .strong u rc l → x < h.nNode)
    (hta : h.treeAlive t = true) :
    (h.treeAlive t && h.treeRc t == 0 && !h.hasStrongMember t) = true ↔ Loose h t := by
  simp only [Bool.and_eq_true, beq_iff_eq, Bool.not_eq_true', hta, true_and]
  unfold Loose
  refine and_congr_right (fun _ => ?_)
  rw [← Bool.not_eq_true, hasStrongMember_iff]
  constructor
  · intro hh x rc l hx; exact hh ⟨x, hb _ _ _ _ hx, rc, l, hx⟩
  · rintro hh ⟨x, _, rc, l, hx⟩; exact hh x rc l hx

/-- Destruction of a tree core in a consistent state: no recursion. -/
theorem dropTreeWith_wipe {k : Nat} {E : NodeId → Prop} {pins : List NodeId} (F : FShape h ch)
    (W : TreeWFe h E) (hsa : ∀ x u rc l, h.mem x = .strong u rc l → h.alive x = true)
    (hr : h.root t = some r) (hR : SubtreeAt ch r R) (hl : Loose h t) :
    Heap.dropTreeWith (k + 1) h pins t = .ok (((h.wipe R.nodes pins).setRoot t none).setGrants t 0) := by
  have hta : h.treeAlive t = true := by simp [Heap.treeAlive, hr]
  have hra := (W.root t r hr).1
  have hRm : ∀ x ∈ R.nodes, h.memTree x = some t := by
    intro x hx
    have hd := (hR.mem_nodes_iff x).1 hx
    clear hx
    induction hd with
    | refl => exact (W.root t r hr).2.1
    | @step a b _ hb ih =>
      rw [W.child b a (F.alive_of_mem hb) (F.parent_of_mem hb)]; exact ih
  have hns : ∀ x ∈ R.nodes, ∀ u rc l, h.mem x ≠ .strong u rc l := by
    intro x hx u rc l hm
    have := hRm x hx
    simp only [Heap.memTree, hm, Option.some.injEq] at this
    subst this
    exact hl.2 x rc l hm
  have hrr : ∀ x ∈ R.nodes, ∀ u, h.root u = some x → u = t := by
    intro x hx u hu
    have := (W.root u x hu).2.1
    rw [hRm x hx] at this
    simpa using this.symm
  have hrR : r ∈ R.nodes := (hR.mem_nodes_iff r).2 (.refl r)
  refine dropTreeWith_spec F.dropShape (W.bound t hta) hr hra (W.root t r hr).2.2 hR (hR.nodup F)
    (hR.size_le F hra) ?_ (hns r hrR) (fun u hu hur => hu (hrr r hrR u hur))
  intro x hx hxr
  refine ⟨hns x hx, fun u hu => ?_⟩
  have := hrr x hx u hu
  subst this
  rw [hr] at hu; exact hxr (by simpa using hu.symm)

/-- `Rc<TreeCore>::drop` in a consistent state. -/
theorem maybeDropTree_wipe {E : NodeId → Prop} {pins : List NodeId} (F : FShape h ch)
    (W : TreeWFe h E) (hsa : ∀ x u rc l, h.mem x = .strong u rc l → h.alive x = true)
    (hr : h.root t = some r) (hR : SubtreeAt ch r R) (hl : Loose h t) :
    h.maybeDropTree pins t = .ok (((h.wipe R.nodes pins).setRoot t none).setGrants t 0) := by
  have hta : h.treeAlive t = true := by simp [Heap.treeAlive, hr]
  unfold Heap.maybeDropTree
  rw [if_pos ((loose_iff (fun x u rc l hx => F.bound x (hsa _ _ _ _ hx)) hta).2 hl)]
  exact dropTreeWith_wipe F W hsa hr hR hl

theorem maybeDropTree_settle {E : NodeId → Prop} (F : FShape h ch)
    (W : TreeWFe h E) (hsa : ∀ x u rc l, h.mem x = .strong u rc l → h.alive x = true)
    (hr : h.root t = some r) (hR : SubtreeAt ch r R) :
    h.maybeDropTree [] t = .ok (h.settle t R.nodes) := by
  have hta : h.treeAlive t = true := by simp [Heap.treeAlive, hr]
  have hb := loose_iff (t := t) (fun x u rc l hx => F.bound x (hsa _ _ _ _ hx)) hta
  by_cases hl : Loose h t
  · rw [maybeDropTree_wipe F W hsa hr hR hl]
    unfold Heap.settle; rw [if_pos (hb.2 hl)]; rfl
  · unfold Heap.maybeDropTree Heap.settle
    rw [if_neg (fun e => hl (hb.1 e)), if_neg (fun e => hl (hb.1 e))]

/-- A node without parent and children is made a tree of its own, while the local variable
`tree_core` holds the old tree; then that variable is dropped. -/
theorem isolated_new_tree {rc lk : Nat} {P : Prop} (F : FShape h1 ch1) (N : NumOK h1 ch1)
    (B : P → BackOK h1 ch1) (hcn : ch1 n = []) (hpn : h1.parent n = none)
    (ha : h1.alive n = true) (WE : TreeWFe h1 (fun x => x = n))
    (hnr : ∀ u, h1.root u ≠ some n) (hm : h1.mem n = .strong t rc lk) (hr : h1.root t = some r)
    (g1 : (h1.lockedIn [n] : Int) ≤ h1.grants t) (Q : RefWF h)
    (e1 : h1.data = h.data) (e2 : h1.mutB = h.mutB) (e3 : h1.mem = h.mem)
    (e4 : h1.root = h.root) (e5 : h1.grants = h.grants) (e6 : h1.nNode = h.nNode)
    (e7 : h1.nTree = h.nTree)
    (e8 : ∀ u, h1.treeRc u = if u = t then h.treeRc t + 1 else h.treeRc u) :
    ∃ k h' ch', h1.createNewTree n = .ok k ∧ k.relTree [] t = .ok h' ∧ FShape h' ch' ∧
      NumOK h' ch' ∧ (P → BackOK h' ch') ∧ TreeWF h' ∧ RefWF h' ∧
      Rehomed h h' ch1 ch' [n] t h.nTree 0 ∧
      h'.root h.nTree = some n ∧ h'.treeRc h.nTree = 0 ∧ h'.nTree = h.nTree + 1 := by
  have hta : h1.treeAlive t = true := by simp [Heap.treeAlive, hr]
  have htb := WE.bound t hta
  rw [e7] at htb
  have hne : t ≠ h.nTree := Nat.ne_of_lt htb
  have fresh : h1.root h.nTree = none := by
    cases e : h1.root h.nTree with
    | none => rfl
    | some x =>
      have := WE.bound h.nTree (by simp [Heap.treeAlive, e])
      rw [e7] at this; exact absurd this (Nat.lt_irrefl _)
  obtain ⟨h2, hh2⟩ : ∃ h2, h2 = (h1.allocTree n).1 := ⟨_, rfl⟩
  have halloc : h1.allocTree n = (h2, h.nTree) := by
    subst hh2; simp [Heap.allocTree, e7]
  have kr : ∀ u, h2.root u = if u = h.nTree then some n else h1.root u := by
    intro u; subst hh2; simp [Heap.allocTree, upd_apply, e7]
  have krc : ∀ u, h2.treeRc u = if u = h.nTree then 1 else h1.treeRc u := by
    intro u; subst hh2; simp [Heap.allocTree, upd_apply, e7]
  have kg : ∀ u, h2.grants u = if u = h.nTree then 0 else h1.grants u := by
    intro u; subst hh2; simp [Heap.allocTree, upd_apply, e7]
  have knt : h2.nTree = h.nTree + 1 := by subst hh2; simp [Heap.allocTree, e7]
  have F2 : FShape h2 ch1 := by
    subst hh2; exact ⟨F.dead, F.first, F.nodup, F.mem, F.seg, F.rootNext, F.acyc, F.bound⟩
  have k1 : h2.data = h1.data := by subst hh2; rfl
  have k2 : h2.parent = h1.parent := by subst hh2; rfl
  have k3 : h2.mem = h1.mem := by subst hh2; rfl
  have k4 : h2.mutB = h1.mutB := by subst hh2; rfl
  have k5 : h2.nNode = h1.nNode := by subst hh2; rfl
  have k6 : BackOK h1 ch1 → BackOK h2 ch1 := by
    intro B; subst hh2; exact ⟨B.pseg, B.rootPrev⟩
  have k7 : NumOK h2 ch1 := by subst hh2; exact N
  have kal : ∀ x, h2.alive x = h1.alive x := by intro x; simp [Heap.alive, k1]
  have kmt : ∀ x, h2.memTree x = h1.memTree x := by intro x; simp [Heap.memTree, k3]
  have klk : ∀ D, h2.lockedIn D = h1.lockedIn D := by
    intro D
    have : h2.locked = h1.locked := by funext x; simp [Heap.locked, k3]
    simp [Heap.lockedIn, this]
  have hlk : ∀ D, h1.lockedIn D = h.lockedIn D := by
    intro D
    have : h1.locked = h.locked := by funext x; simp [Heap.locked, e3]
    simp [Heap.lockedIn, this]
  obtain ⟨R, hR⟩ := F.exists_subtree r
  have hT : SubtreeAt ch1 n (.node n []) := ⟨rfl, by simp [Hier, HierL, hcn]⟩
  have hTn : (RTree.node n ([] : List (RTree NodeId))).nodes = [n] := by simp [nodes, nodesL]
  obtain ⟨hra, hrm, hrp⟩ := WE.root t r hr
  have hrn : r ≠ n := by rintro rfl; exact hnr t hr
  have hRm : ∀ x ∈ R.nodes, h1.memTree x = some t := by
    intro x hx
    have hd := (hR.mem_nodes_iff x).1 hx
    clear hx
    induction hd with
    | refl => exact hrm
    | @step a b _ hb ih =>
      rw [WE.child b a (F.alive_of_mem hb) (F.parent_of_mem hb)]; exact ih
  have hnR : n ∉ R.nodes := by
    intro e
    cases (hR.mem_nodes_iff n).1 e with
    | refl => exact hrn rfl
    | step _ h3 => rw [F.parent_of_mem h3] at hpn; simp at hpn
  have hmt : h1.memTree n = some t := by simp [Heap.memTree, hm]
  have hsa : ∀ x u rc l, h1.mem x = .strong u rc l → h1.alive x = true := by
    intro x u rc l hx
    rw [e3] at hx
    have := Q.alive _ _ _ _ hx
    simpa [Heap.alive, e1] using this
  have C : MoveCtx h2 ch1 n (.node n []) t h.nTree r R := by
    refine { shape := F2, sub := hT, alive := by rw [kal]; exact ha,
             memb := ?_, ne := hne, grantsPos := ?_, grantsPos' := by simp [kg], grantsMax := ?_,
             tbound := by rw [knt]; exact Nat.lt_succ_of_lt htb, root := by simp [kr, hne, hr],
             ralive := by rw [kal]; exact hra, rpar := by rw [k2]; exact hrp, rsub := hR,
             rmemb := ?_, rroot := ?_, disj := ?_, salive := ?_, held := ?_ }
    · intro x hx; rw [hTn] at hx; simp at hx; subst hx; rw [kmt]; exact hmt
    · rw [hTn, klk, kg, if_neg hne]; exact g1
    · rw [hTn, klk, kg, if_pos rfl]
      have : h1.lockedIn [n] ≤ 1 := by rw [lockedIn_one]; split <;> omega
      have h3 : (1 : Int) ≤ Lock.isizeMax := by decide
      omega
    · intro x hx; rw [kmt]; exact hRm x hx
    · intro x hx u hu
      rw [kr] at hu
      by_cases e : u = h.nTree
      · simp only [e, if_true, Option.some.injEq] at hu
        subst hu; exact absurd hx hnR
      · simp only [e, if_false] at hu
        have := (WE.root u x hu).2.1
        rw [hRm x hx] at this
        obtain rfl : t = u := by simpa using this
        rw [hr] at hu
        exact ⟨rfl, by simpa using hu.symm⟩
    · intro x hx; rw [hTn]; simp; rintro rfl; exact hnR hx
    · intro x u rc l hx; rw [k3] at hx; rw [kal]; exact hsa _ _ _ _ hx
    · exact .inl (by rw [krc, if_neg hne, e8]; simp)
  obtain ⟨m, hmdef⟩ : ∃ m, m = (h2.relabel [n] t h.nTree).setTreeRc h.nTree 0 := ⟨_, rfl⟩
  have mmem : ∀ x, m.mem x = if x ∈ [n] then (h1.mem x).moveTo h.nTree else h1.mem x := by
    intro x; rw [← k3]; subst hmdef; rfl
  have mmt : ∀ x, m.memTree x = if x ∈ [n] then some h.nTree else h1.memTree x := by
    intro x; rw [← kmt]; subst hmdef; exact relabel_memTree (t := t)
  have mn : m.mem n = .strong h.nTree rc lk := by rw [mmem]; simp [hm, Membership.moveTo]
  have mrc : ∀ u, m.treeRc u = if u = h.nTree then 0 else h1.treeRc u := by
    intro u; subst hmdef
    simp only [Heap.setTreeRc, Heap.relabel, upd_apply, krc]
    by_cases e : u = h.nTree <;> simp [e]
  have mnn : m.nNode = h1.nNode := by subst hmdef; exact k5
  have hcr : h1.createNewTree n = .ok m := by
    have hset : (h2.relabel [n] t h.nTree).settle t R.nodes = h2.relabel [n] t h.nTree :=
      settle_held (.inl (by
        show 0 < h2.treeRc t
        rw [krc, if_neg hne, e8]; simp))
    simp only [Heap.createNewTree, halloc, C.setMemberships, hTn, hset, Heap.relTree]
    have : (h2.relabel [n] t h.nTree).treeRc h.nTree - 1 = 0 := by simp [Heap.relabel, krc]
    rw [this, ← hmdef, maybeDropTree_held]
    exact .inr ⟨n, rc, lk, mn, by rw [mnn]; exact F.bound n ha⟩
  obtain ⟨k, hk⟩ : ∃ k, k = m.setTreeRc t (m.treeRc t - 1) := ⟨_, rfl⟩
  have q1 : k.data = h1.data := by subst hk; subst hmdef; exact k1
  have q2 : k.parent = h1.parent := by subst hk; subst hmdef; exact k2
  have q3 : ∀ x, k.mem x = if x ∈ [n] then (h1.mem x).moveTo h.nTree else h1.mem x := by
    intro x; subst hk; exact mmem x
  have q4 : ∀ x, k.memTree x = if x ∈ [n] then some h.nTree else h1.memTree x := by
    intro x; subst hk; exact mmt x
  have q5 : ∀ u, k.root u = if u = h.nTree then some n else h1.root u := by
    intro u; rw [← kr]; subst hk; subst hmdef; rfl
  have q6 : ∀ u, k.treeRc u = if u = h.nTree then 0 else h.treeRc u := by
    intro u
    subst hk
    simp only [Heap.setTreeRc, upd_apply, mrc]
    by_cases e : u = t
    · subst e; simp [hne, e8]
    · simp [e, e8]
  have q7 : ∀ u, k.grants u = if u = h.nTree then 0 + (h.lockedIn [n] : Int)
      else if u = t then h.grants t - h.lockedIn [n] else h.grants u := by
    intro u
    have : k.grants u = (h2.relabel [n] t h.nTree).grants u := by subst hk; subst hmdef; rfl
    rw [this]
    simp only [Heap.relabel, klk, hlk, kg, e5]
    by_cases e : u = h.nTree
    · simp [e]
    · simp [e, hne]
  have q8 : k.nNode = h.nNode := by subst hk; rw [← e6]; exact mnn
  have q9 : k.nTree = h.nTree + 1 := by subst hk; subst hmdef; exact knt
  have q10 : k.mutB = h.mutB := by rw [← e2, ← k4]; subst hk; subst hmdef; rfl
  have qal : ∀ x, k.alive x = h1.alive x := by intro x; simp [Heap.alive, q1]
  have Fk : FShape k ch1 := by
    subst hk; subst hmdef
    exact ⟨F2.dead, F2.first, F2.nodup, F2.mem, F2.seg, F2.rootNext, F2.acyc, F2.bound⟩
  have hstr : ∀ x u rc l, k.mem x = .strong u rc l → ∃ v, h.mem x = .strong v rc l := by
    intro x u rc' l hx
    rw [q3, e3] at hx
    by_cases e : x ∈ [n]
    · simp only [e, if_true] at hx
      cases hmx : h.mem x with
      | weak v => rw [hmx] at hx; simp [Membership.moveTo] at hx
      | strong v a b =>
        rw [hmx] at hx
        simp only [Membership.moveTo, Membership.strong.injEq] at hx
        exact ⟨v, by rw [hx.2.1, hx.2.2]⟩
    · simp only [e, if_false] at hx; exact ⟨u, hx⟩
  have Wk : TreeWFe k (fun _ => False) := by
    have hnn : ∀ x, x ≠ n → x ∉ [n] := by intro x hx; simpa using hx
    constructor
    · intro x hx
      rw [qal] at hx
      rw [q4]
      by_cases e : x = n
      · exact ⟨h.nTree, by simp [e], by simp [Heap.treeAlive, q5]⟩
      · obtain ⟨u, hu1, hu2⟩ := WE.live x hx
        refine ⟨u, by simp [e, hu1], ?_⟩
        simp only [Heap.treeAlive, q5]
        split
        · rfl
        · exact hu2
    · intro u x hx
      rw [q5] at hx
      rw [qal, q4, q2]
      by_cases e : u = h.nTree
      · simp only [e, if_true, Option.some.injEq] at hx
        subst hx; simp [ha, hpn, e]
      · simp only [e, if_false] at hx
        have hxn : x ≠ n := by rintro rfl; exact hnr u hx
        obtain ⟨a1, a2, a3⟩ := WE.root u x hx
        simp [hxn, a1, a2, a3]
    · intro c q hc hq
      rw [qal] at hc
      rw [q2] at hq
      have hcq := F.mem_of_parent hc hq
      have h3 : c ≠ n := by rintro rfl; rw [hpn] at hq; simp at hq
      have h4 : q ≠ n := by rintro rfl; rw [hcn] at hcq; simp at hcq
      rw [q4, q4]
      simp [h3, h4, WE.child c q hc hq]
    · intro x u _ hx hp hmx
      rw [qal] at hx
      rw [q2] at hp
      rw [q4] at hmx
      rw [q5]
      by_cases e : x = n
      · subst e; simp only [List.mem_singleton, if_true, Option.some.injEq] at hmx; simp [hmx.symm]
      · simp only [List.mem_singleton, e, if_false] at hmx
        have := WE.top x u e hx hp hmx
        have hu : u ≠ h.nTree := by rintro rfl; rw [fresh] at this; simp at this
        simp [hu, this]
    · intro u hu
      rw [q9]
      by_cases e : u = h.nTree
      · rw [e]; exact Nat.lt_succ_self _
      · simp only [Heap.treeAlive, q5, e, if_false] at hu
        have := WE.bound u hu
        rw [e7] at this; exact Nat.lt_succ_of_lt this
  have Rk : RefWFe k t := by
    constructor
    · intro x u rc l hx
      obtain ⟨v, hv⟩ := hstr x u rc l hx
      rw [qal]
      have := Q.alive _ _ _ _ hv
      simpa [Heap.alive, e1] using this
    · intro x u rc l hx
      obtain ⟨v, hv⟩ := hstr x u rc l hx
      exact Q.pos _ _ _ _ hv
    · intro u hu hua
      by_cases e : u = h.nTree
      · subst e; exact .inr ⟨n, rc, lk, by rw [q3]; simp [hm, Membership.moveTo]⟩
      · simp only [Heap.treeAlive, q5, e, if_false, e4] at hua
        rcases Q.held u hua with h3 | ⟨x, a, b, hx⟩
        · exact .inl (by rw [q6, if_neg e]; exact h3)
        · refine .inr ⟨x, a, b, ?_⟩
          have : x ≠ n := by
            rintro rfl
            rw [← e3, hm] at hx
            simp at hx; exact hu hx.1.symm
          rw [q3, e3]; simp [this, hx]
  have kr' : k.root t = some r := by rw [q5, if_neg hne]; exact hr
  have hrel : m.relTree [] t = .ok (k.settle t R.nodes) := by
    simp only [Heap.relTree, ← hk]
    exact maybeDropTree_settle Fk Wk Rk.alive kr' hR
  obtain ⟨f1, f2, f3, f4, f5⟩ := settle_wf Fk Wk Rk kr' hR (by intro x hx; exact absurd hx id)
  refine ⟨m, _, _, hcr, hrel, f1, f2 ?_, fun hp => f3 ?_, f4.toTreeWF (fun _ => id), f5, ?_, ?_, ?_, ?_⟩
  · subst hk; subst hmdef; exact k7
  · have := k6 (B hp); subst hk; subst hmdef; exact ⟨this.pseg, this.rootPrev⟩
  · refine rehomed_of (E := fun _ => False) hne ?_ Q.alive (by rw [← e4]; exact hr) hR ?_ (q1.trans e1) q10
      ?_ q8 ?_ ?_ q7 Fk Wk (by intro x hx; exact absurd hx id)
    · intro x hx
      rw [← e6]; apply F.bound
      simpa [Heap.alive, e1] using hx
    · intro x hx; simp; rintro rfl; exact hnR hx
    · intro u hu; rw [q5, if_neg hu, e4]
    · intro u hu; rw [q6, if_neg hu]
    · intro x; rw [q3, e3]
  · unfold Heap.settle
    split
    · rw [dropped_root, upd_ne _ _ hne.symm, q5]; simp
    · rw [q5]; simp
  · rw [settle_treeRc, q6]; simp
  · have : (k.settle t R.nodes).nTree = k.nTree := by unfold Heap.settle; split <;> rfl
    rw [this, q9]

end Dendron
