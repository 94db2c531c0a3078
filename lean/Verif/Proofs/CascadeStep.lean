import Verif.Proofs.CascadeRun
import Verif.Proofs.DropLink
import Verif.Proofs.Rose

/-! Every drop of something, in the presence of destructors that drop things. -/

set_option linter.unusedSimpArgs false
set_option linter.unusedVariables false
set_option autoImplicit false

namespace Dendron
open RTree
variable {α : Type} {h h' k H H1 H' c c' : Heap α} {b b1 r r' r'' v : World α} {x y n m : NodeId} {t u : TreeId}
  {own : NodeId → List Asset} {V V2 : NodeId → Prop} {TV : TreeId → Prop} {ch : NodeId → List NodeId}
  {dt : Dtor α} {e : Nest} {N : Nat} {a : Asset} {rest : List Asset} {kd : Kind} {R : RTree NodeId}

theorem Ctx.patch {c1 : Heap α} (C : Ctx V TV H c) (n1 : H'.nNode = H.nNode) (n2 : H'.nTree = H.nTree)
    (n3 : c1.nNode = c.nNode) (n4 : c1.nTree = c.nTree) (hv : ∀ x, V x → H'.cell x = H.cell x)
    (ht : ∀ t, TV t → H'.tcell t = H.tcell t) (ho : ∀ x, ¬ V x → H'.cell x = c1.cell x)
    (hot : ∀ t, ¬ TV t → H'.tcell t = c1.tcell t) (al : ∀ x, c1.alive x = c.alive x)
    (tal : ∀ t, c1.treeAlive t = c.treeAlive t) : Ctx V TV H' c1 where
  nNode := by rw [n1, n3, C.nNode]
  nTree := by rw [n2, n4, C.nTree]
  out := ho
  outT := hot
  dead x hx := by rw [al]; exact C.dead x hx
  deadT t ht := by rw [tal]; exact C.deadT t ht
  weak x t rc l hx := by rw [cell_mem (hv x hx)]; exact C.weak x t rc l hx
  first x y hx := by rw [cell_first (hv x hx)]; exact C.first x y hx
  next x y hx := by rw [cell_next (hv x hx)]; exact C.next x y hx
  parent x y hx := by rw [cell_parent (hv x hx)]; exact C.parent x y hx
  root t y hx := by rw [tcell_root (ht t hx)]; exact C.root t y hx

theorem setGrants_tcell {g : Int} (e : h.tcell u = k.tcell u) : (h.setGrants t g).tcell u = (k.setGrants t g).tcell u := by
  rw [tcell_iff] at e ⊢
  simp only [Heap.setGrants, upd_apply]
  refine ⟨e.1, ?_, e.2.2⟩
  split
  · rfl
  · exact e.2.1

theorem setGrants_cell {g : Int} : (h.setGrants t g).cell x = h.cell x := rfl

theorem setTreeRc_tcell {g : Nat} (e : h.tcell u = k.tcell u) : (h.setTreeRc t g).tcell u = (k.setTreeRc t g).tcell u := by
  rw [tcell_iff] at e ⊢
  simp only [Heap.setTreeRc, upd_apply]
  refine ⟨e.1, e.2.1, ?_⟩
  split
  · rfl
  · exact e.2.2

theorem setGrants_tcell_ne {g : Int} (e : u ≠ t) : (h.setGrants t g).tcell u = h.tcell u := by
  simp [Heap.tcell, Heap.setGrants, e]

theorem setTreeRc_tcell_ne {g : Nat} (e : u ≠ t) : (h.setTreeRc t g).tcell u = h.tcell u := by
  simp [Heap.tcell, Heap.setTreeRc, e]

theorem Ctx.setMem (C : Ctx V TV H c) {v : Membership} (hn : ¬ V n) : Ctx V TV (H.setMem n v) (c.setMem n v) :=
  C.patch rfl rfl rfl rfl (fun x hx => setMem_cell_ne (fun e => hn (e ▸ hx))) (fun _ _ => rfl)
    (fun x hx => setMem_cell (C.out x hx)) (fun t ht => C.outT t ht) (fun _ => rfl) (fun _ => rfl)

theorem Ctx.setGrants (C : Ctx V TV H c) {g : Int} (hn : ¬ TV t) : Ctx V TV (H.setGrants t g) (c.setGrants t g) :=
  C.patch rfl rfl rfl rfl (fun _ _ => rfl) (fun u hu => setGrants_tcell_ne (fun e => hn (e ▸ hu)))
    (fun x hx => C.out x hx) (fun u hu => setGrants_tcell (C.outT u hu)) (fun _ => rfl) (fun _ => rfl)

theorem Ctx.setTreeRc (C : Ctx V TV H c) {g : Nat} (hn : ¬ TV t) : Ctx V TV (H.setTreeRc t g) (c.setTreeRc t g) :=
  C.patch rfl rfl rfl rfl (fun _ _ => rfl) (fun u hu => setTreeRc_tcell_ne (fun e => hn (e ▸ hu)))
    (fun x hx => C.out x hx) (fun u hu => setTreeRc_tcell (C.outT u hu)) (fun _ => rfl) (fun _ => rfl)

/-- Nobody died. -/
theorem Ran.keep (hs : b.StepW a.op b1 .unit) (hS : OwnsAll own b (a :: rest))
    (hc : ∀ a', b.count a' ≤ b1.count a' + (if a = a' then 1 else 0)) (C : Ctx V TV H' b1.heap)
    (hn : ∀ x, V x → H'.cell x = H.cell x) (ht : ∀ t, TV t → H'.tcell t = H.tcell t)
    (al : ∀ x, b1.heap.alive x = b.heap.alive x) (hr : Room b1.heap) (F : Fade b.heap b1.heap) :
    Ran own [a] rest V TV H b H' b1 where
  ctx := C
  node := hn
  tree := ht
  drops := .cons (l := []) hs (by simp) (by intro x; simp [al]) (by simpa using .nil _)
  stored := by
    have := hS.next (L0 := []) hc (by simp) (by simp) (fun x hx => by rw [← al]; exact hx)
    simpa using this
  room := hr
  fade := F

theorem Room.sub (hr : Room h) (ht : ∀ t, h'.treeAlive t = true → h.treeAlive t = true)
    (hg : ∀ t, h'.treeAlive t = true → h'.grants t = h.grants t) : Room h' := by
  intro t hta
  rw [hg t hta]; exact hr t (ht t hta)

/-! ### Trees -/

theorem count_dropTree (ht : 0 < b.trees t) (a' : Asset) : b.count a' ≤
    ({ b with heap := h, trees := upd b.trees t (b.trees t - 1) } : World α).count a' +
      (if Asset.tree t = a' then 1 else 0) := by
  cases a' with
  | node k n => exact Nat.le_add_right _ _
  | tree u =>
    simp only [World.count, upd_apply]
    by_cases e : u = t
    · subst e; simp; omega
    · simp [e]
  | token g u => exact Nat.le_add_right _ _

theorem count_takeTok {g : Bool} (ht : 0 < b.count (.token g t)) (a' : Asset) : b.count a' ≤
    (({ b with heap := h } : World α).takeTok g t).count a' + (if Asset.token g t = a' then 1 else 0) := by
  cases a' with
  | node k n => cases g <;> exact Nat.le_add_right _ _
  | tree u => cases g <;> exact Nat.le_add_right _ _
  | token g' u =>
    cases g <;> cases g' <;> simp only [World.count, World.takeTok, upd_apply] at ht ⊢
    · by_cases e : u = t
      · subst e; simp at ht ⊢; omega
      · simp [e]
    · simp
    · simp
    · by_cases e : u = t
      · subst e; simp at ht ⊢; omega
      · simp [e]

theorem count_take (ht : 0 < b.held kd n) (a' : Asset) : b.count a' ≤
    (({ b with heap := h } : World α).take kd n).count a' + (if Asset.node kd n = a' then 1 else 0) := by
  cases a' with
  | node k m =>
    simp only [World.count, World.take]
    by_cases e : k = kd ∧ m = n
    · obtain ⟨rfl, rfl⟩ := e; simp; omega
    · rw [if_neg e]; exact Nat.le_add_right _ _
  | tree u => exact Nat.le_add_right _ _
  | token g u => exact Nat.le_add_right _ _

/-- A call that drops something succeeds. -/
theorem Asset.run (hb : ReachW b) (hr : Room b.heap) (ha : 0 < b.count a) :
    ∃ b1, b.exec a.op = .ok (b1, .unit) ∧ b.StepW a.op b1 .unit := by
  obtain ⟨v, ch, W⟩ := hb.wide
  have hal : b.Allowed a.op := by
    cases a with
    | node k n => exact ha
    | tree t => exact ha
    | token g t => cases g <;> simpa [World.count, World.Allowed, Asset.op] using ha
  obtain ⟨b1, o, -, -, hx, -⟩ := W.step (op := a.op) hal (by cases a <;> trivial) (by cases a <;> exact fun _ h => h.elim)
    hr (by cases a <;> trivial)
  have : o = .unit := by
    cases a with
    | node k n =>
      simp only [Asset.op, World.exec, bind, Except.bind, pure, Except.pure] at hx
      split at hx
      · cases hx
      · cases hx; rfl
    | tree t =>
      simp only [Asset.op, World.exec, bind, Except.bind, pure, Except.pure] at hx
      split at hx
      · cases hx
      · cases hx; rfl
    | token g t =>
      simp only [Asset.op, World.exec, bind, Except.bind, pure, Except.pure] at hx
      split at hx
      · split at hx
        · cases hx
        · cases hx; rfl
      · cases hx; rfl
  subst this
  exact ⟨b1, hx, Asset.step ha hr hx⟩

theorem Ctx.tree_ok (hG : ∀ M, N = M + 1 → Good own dt M) (hb : ReachW b) (hr : Room b.heap)
    (C : Ctx V TV H b.heap) (hE : e.In V TV H) (hS : OwnsAll own b (.tree t :: rest)) (hf : Few N b.heap) :
    ∃ H' b', H.dropAssetC dt e (.tree t) = .ok H' ∧ Ran own [.tree t] rest V TV H b H' b' := by
  have ht : 0 < b.trees t := hS.pos
  obtain ⟨v, ch, W0⟩ := hb.wide
  have W := W0.fwd
  have S := W.sane
  have hta := W0.treesAlive t ht
  have hTV := C.tree_out hta
  have hc := fun h => count_dropTree (b := b) (h := h) ht
  obtain ⟨b1, hx, hs⟩ := Asset.run hb hr hS.pos
  simp only [Asset.op, World.exec, bind, Except.bind, pure, Except.pure] at hx
  split at hx
  · cases hx
  rename_i h1 hx1
  simp only [Except.ok.injEq, Prod.mk.injEq, and_true] at hx
  have hrcH : H.treeRc t = b.heap.treeRc t := (tcell_iff.1 (C.outT t hTV)).2.2
  by_cases hk : 1 < b.heap.treeRc t ∨ ∃ x rc l, b.heap.mem x = .strong t rc l
  · have C1 := C.setTreeRc (g := b.heap.treeRc t - 1) hTV
    have S1 : Sane (b.heap.setTreeRc t (b.heap.treeRc t - 1)) := ⟨S.first, S.next, S.parent, S.root, S.strong⟩
    have hcond : ¬ ((b.heap.setTreeRc t (b.heap.treeRc t - 1)).treeRc t = 0 ∧
        (b.heap.setTreeRc t (b.heap.treeRc t - 1)).hasStrongMember t = false) := by
      rintro ⟨h2, h3⟩
      rcases hk with h4 | ⟨x, rc, l, h4⟩
      · simp [Heap.setTreeRc] at h2; omega
      · have : (b.heap.setTreeRc t (b.heap.treeRc t - 1)).hasStrongMember t = true :=
          hasStrongMember_iff.2 ⟨x, W.bound x (W.refs.alive _ _ _ _ h4), rc, l, h4⟩
        rw [h3] at this; cases this
    have e1 : h1 = b.heap.setTreeRc t (b.heap.treeRc t - 1) := by
      unfold Heap.relTree Heap.maybeDropTree at hx1
      simp only at hx1
      rw [if_neg] at hx1
      · cases hx1; rfl
      · intro h2
        simp only [Bool.and_eq_true, beq_iff_eq, Bool.not_eq_true'] at h2
        exact hcond ⟨h2.1.2, h2.2⟩
    subst e1
    have e2 : H.dropAssetC dt e (.tree t) = .ok (H.setTreeRc t (b.heap.treeRc t - 1)) := by
      simp only [Heap.dropAssetC, Heap.relTreeC, Heap.maybeDropTreeC, hrcH]
      rw [if_neg]
      intro h2
      simp only [Bool.and_eq_true, beq_iff_eq, Bool.not_eq_true'] at h2
      refine hcond ⟨?_, ?_⟩
      · have := h2.1.2
        simp [Heap.setTreeRc] at this ⊢; exact this
      · rw [← C1.hasStrong S1]; exact h2.2
    refine ⟨_, b1, e2, ?_⟩
    subst hx
    refine Ran.keep hs hS (hc _) C1 (fun _ _ => rfl)
      (fun u hu => setTreeRc_tcell_ne (fun e => hTV (e ▸ hu))) (fun _ => rfl) hr ?_
    refine ⟨fun _ _ => rfl, fun u hu => setTreeRc_tcell_ne ?_, rfl, rfl⟩
    rintro rfl; rw [hta] at hu; cases hu
  · have hrc : b.heap.treeRc t = 1 := by
      have h2 : ¬ 1 < b.heap.treeRc t := fun h => hk (.inl h)
      have := W0.treeRc t
      omega
    have ho : ∀ x rc l, b.heap.mem x ≠ .strong t rc l := fun x rc l h => hk (.inr ⟨x, rc, l, h⟩)
    obtain ⟨z, R, hz, hR, hRn⟩ := W.tree_nodes hta
    obtain ⟨e1, -⟩ := relTree_last' W hrc ho hz hR
    rw [e1] at hx1
    simp only [Except.ok.injEq] at hx1
    subst hx1
    have D : Dying (H.setTreeRc t 0) (b.heap.setTreeRc t 0) b b1 ch t R.nodes V TV := by
      refine { ctx := C.setTreeRc hTV, shape := ?_, tree := ?_, live := hta, nodes := hRn,
               nodup := W.toFShape.nodes_nodup R hR.2, noStrong := ho, strongAlive := W.refs.alive,
               heap := by rw [← hx], alive := fun _ => rfl, treeAlive := fun _ => rfl, dead := fun _ _ => rfl,
               deadT := ?_, nNode := rfl, nTree := rfl }
      · exact ⟨W.dead, W.first, W.nodup, W.mem, W.seg, W.rootNext, W.acyc, W.bound⟩
      · exact ⟨W.tree.live, W.tree.root, W.tree.child, W.tree.top, W.tree.bound⟩
      · intro u hu
        refine setTreeRc_tcell_ne ?_
        rintro rfl; rw [hta] at hu; cases hu
    have hroom : Room b1.heap := by
      subst hx
      refine hr.sub (fun u => ?_) (fun u => ?_)
      · by_cases e : u = t
        · subst e; intro _; exact hta
        · rw [tcell_alive (dropped_tcell e), tcell_alive (setTreeRc_tcell_ne e)]; exact id
      · by_cases e : u = t
        · subst e; rw [dropped_deadT]; intro h; cases h
        · intro _
          exact (tcell_iff.1 ((dropped_tcell e).trans (setTreeRc_tcell_ne e))).2.1
    obtain ⟨M, rfl⟩ : ∃ M, N = M + 1 := by
      have := hf [z] (by simp) (by simpa using (W.tree.root t z hz).1)
      simp at this
      exact ⟨N - 1, by omega⟩
    have hc' : ∀ a', b.count a' ≤ b1.count a' + (if Asset.tree t = a' then 1 else 0) := by
      subst hx; exact hc _
    have Q := D.start (own := own) (N := M) hb hroom hs hS hc' hf
    have hd : ∀ x, V x → ¬ x ∈ R.nodes := by
      intro x hv hx
      have := ((hRn x).1 hx).1
      rw [C.dead x hv] at this; cases this
    have hdrop : (b.heap.setTreeRc t 0).dropTree [] t = .ok b1.heap := by
      have e2 := e1
      unfold Heap.relTree Heap.maybeDropTree at e2
      simp only [hrc, Nat.sub_self] at e2
      rw [if_pos] at e2
      · rw [e2, ← hx]
      · simp only [Bool.and_eq_true, beq_iff_eq, Bool.not_eq_true']
        refine ⟨⟨hta, by simp [Heap.setTreeRc]⟩, ?_⟩
        rw [Bool.eq_false_iff]
        intro h2
        obtain ⟨x, -, rc, l, h3⟩ := hasStrongMember_iff.1 h2
        exact ho x rc l h3
    have hDe : Deaths e TV t (H.setTreeRc t 0) := ⟨fun u hu => .inl (hE.dying u hu), fun u hu => hE.gone u hu⟩
    obtain ⟨H', r', e3, Q', T'⟩ := QI.dropTree (e := e) (pc := e.pins) (pu := []) (hG M rfl) D.ctx hd hTV
      (fun x hx => .inl (hE.busy x hx)) hDe Q
      ⟨fun x hx => ⟨fun h2 => absurd hx (hd x (hE.pins x h2)), fun h2 => (by cases h2)⟩,
        fun x hx => .inl (hE.pins x hx)⟩ hdrop
    refine ⟨H', r', ?_, D.finish hs (fun _ _ => rfl) (fun u hu => setTreeRc_tcell_ne (fun e => hTV (e ▸ hu))) Q' T'⟩
    simp only [Heap.dropAssetC, Heap.relTreeC, Heap.maybeDropTreeC, hrcH, hrc, Nat.sub_self]
    rw [if_pos, e3]
    simp only [Bool.and_eq_true, beq_iff_eq, Bool.not_eq_true']
    refine ⟨⟨?_, by simp [Heap.setTreeRc]⟩, ?_⟩
    · rw [tcell_alive (D.ctx.outT t hTV)]; exact hta
    · rw [Bool.eq_false_iff, D.ctx.hasStrong ⟨S.first, S.next, S.parent, S.root, S.strong⟩]
      intro h2
      obtain ⟨x, -, rc, l, h3⟩ := hasStrongMember_iff.1 h2
      exact ho x rc l h3

/-! ### Tokens -/

theorem unlock_le {g g' : Int} {gr : Bool} (e : World.unlockTree g gr = .ok g') :
    (0 < g ∧ g' = g - 1) ∨ (g < 0 ∧ g' = g + 1) := by
  cases gr with
  | true =>
    simp only [World.unlockTree, Lock.releaseGrant, if_true] at e
    split at e
    · cases e
    · cases e; left; omega
  | false =>
    simp only [World.unlockTree, Lock.releaseProhibition, Bool.false_eq_true, if_false] at e
    split at e
    · cases e
    · cases e; right; omega

theorem Room.toward {g : Int} (hr : Room h) (hg : h.treeAlive t = true → 
    (0 < h.grants t ∧ g = h.grants t - 1) ∨ (h.grants t < 0 ∧ g = h.grants t + 1)) : Room (h.setGrants t g) := by
  intro u hu
  replace hu : h.treeAlive u = true := hu
  have := hr u hu
  simp only [Heap.setGrants, upd_apply]
  split
  · rename_i e; subst e
    have := hg hu
    omega
  · exact this

theorem Ctx.token_ok {g : Bool} (hb : ReachW b) (hr : Room b.heap) (C : Ctx V TV H b.heap) (hE : e.In V TV H)
    (hS : OwnsAll own b (.token g t :: rest)) :
    ∃ H' b', H.dropAssetC dt e (.token g t) = .ok H' ∧ Ran own [.token g t] rest V TV H b H' b' := by
  have ht := hS.pos
  have hc := fun h => count_takeTok (b := b) (h := h) ht
  obtain ⟨b1, hx, hs⟩ := Asset.run hb hr hS.pos
  simp only [Asset.op, World.exec, bind, Except.bind, pure, Except.pure] at hx
  have hheap : ∀ (w : World α), (w.takeTok g t).heap = w.heap := by
    intro w; unfold World.takeTok; split <;> rfl
  by_cases hta : b.heap.treeAlive t = true
  · have hTV := C.tree_out hta
    rw [if_pos hta] at hx
    split at hx
    · cases hx
    rename_i g' hg
    simp only [Except.ok.injEq, Prod.mk.injEq, and_true] at hx
    refine ⟨H.setGrants t g', b1, ?_, ?_⟩
    · simp only [Heap.dropAssetC, Heap.dropTokC]
      rw [if_pos, (tcell_iff.1 (C.outT t hTV)).2.1, hg]
      have : t ∉ e.dying := fun h => hTV (hE.dying t h)
      simp [tcell_alive (C.outT t hTV), hta, this]
    · subst hx
      refine Ran.keep hs hS (hc _) (by rw [hheap]; exact C.setGrants hTV) (fun _ _ => rfl)
        (fun u hu => setGrants_tcell_ne (fun e => hTV (e ▸ hu))) (fun _ => by rw [hheap]; rfl) ?_ ?_
      · rw [hheap]; exact hr.toward fun _ => unlock_le hg
      · rw [hheap]
        refine ⟨fun _ _ => rfl, fun u hu => setGrants_tcell_ne ?_, rfl, rfl⟩
        rintro rfl; rw [hta] at hu; cases hu
  · rw [if_neg hta] at hx
    simp only [Except.ok.injEq, Prod.mk.injEq, and_true] at hx
    refine ⟨H, b1, ?_, ?_⟩
    · simp only [Heap.dropAssetC, Heap.dropTokC]
      rw [if_neg]
      simp only [Bool.and_eq_true, Bool.not_eq_true', not_and]
      intro h1 h2
      have hTV : ¬ TV t := fun h => by
        rcases hE.gone t h with h3 | h3
        · simp [h3] at h2
        · rw [h3] at h1; cases h1
      rw [tcell_alive (C.outT t hTV)] at h1
      exact hta h1
    · subst hx
      refine Ran.keep hs hS (hc b.heap) (by rw [hheap]; exact C) (fun _ _ => rfl)
        (fun u hu => rfl) (fun _ => by rw [hheap]) (by rw [hheap]; exact hr) (by rw [hheap]; exact .refl _)

/-! ### Handles -/

/-- A membership is replaced by another one of the same tree. -/
theorem FWF.reMem {m' : Membership} {g : Int} (W : FWF c ch) (hal : c.alive n = true)
    (hmt : (c.setMem n m').memTree n = c.memTree n) (hpos : ∀ t rc l, m' = .strong t rc l → 0 < rc ∧ l ≤ rc)
    (hheld : ∀ u, c.treeAlive u = true → 0 < c.treeRc u ∨ ∃ x rc l, (c.setMem n m').mem x = .strong u rc l) :
    FWF ((c.setMem n m').setGrants t g) ch := by
  have mt : ∀ x, ((c.setMem n m').setGrants t g).memTree x = c.memTree x := by
    intro x
    by_cases e : x = n
    · subst e; exact hmt
    · simp [Heap.memTree, Heap.setMem, Heap.setGrants, e]
  refine { toFShape := ⟨W.dead, W.first, W.nodup, W.mem, W.seg, W.rootNext, W.acyc, W.bound⟩, tree := ?_, refs := ?_ }
  · constructor
    · intro x hx; rw [mt]; exact W.tree.live x hx
    · intro u x hx; rw [mt]; exact W.tree.root u x hx
    · intro x p hx hp; rw [mt, mt]; exact W.tree.child x p hx hp
    · intro x u hx hp hm; rw [mt] at hm; exact W.tree.top x u hx hp hm
    · exact W.tree.bound
  · constructor
    · intro x u rc l hm
      by_cases e : x = n
      · subst e; exact hal
      · simp only [Heap.setMem, Heap.setGrants, upd_apply, e, if_false] at hm
        exact W.refs.alive _ _ _ _ hm
    · intro x u rc l hm
      by_cases e : x = n
      · subst e
        simp only [Heap.setMem, Heap.setGrants, upd_apply, if_true] at hm
        exact hpos _ _ _ hm
      · simp only [Heap.setMem, Heap.setGrants, upd_apply, e, if_false] at hm
        exact W.refs.pos _ _ _ _ hm
    · exact hheld

/-- The lock of the handle has been given back: `Hm` and `hm` are what remains to drop the link in. -/
structure Unlocked (H Hm hm : Heap α) (b : World α) (ch : NodeId → List NodeId) (n : NodeId) (t : TreeId)
    (rc l : Nat) (V : NodeId → Prop) (TV : TreeId → Prop) : Prop where
  wf : FWF hm ch
  ctx : Ctx V TV Hm hm
  mem : hm.mem n = .strong t rc l
  lt : l < rc
  node : ∀ x, V x → Hm.cell x = H.cell x
  tree : ∀ t, TV t → Hm.tcell t = H.tcell t
  alive : ∀ x, hm.alive x = b.heap.alive x
  treeAlive : ∀ u, hm.treeAlive u = b.heap.treeAlive u
  dead : ∀ x, b.heap.alive x = false → hm.cell x = b.heap.cell x
  deadT : ∀ u, b.heap.treeAlive u = false → hm.tcell u = b.heap.tcell u
  nNode : hm.nNode = b.heap.nNode
  nTree : hm.nTree = b.heap.nTree
  room : Room hm

theorem Unlocked.link_ok {Hm hm h2 : Heap α} {rc l : Nat} (U : Unlocked H Hm hm b ch n t rc l V TV)
    (hG : ∀ M, N = M + 1 → Good own dt M) (hb : ReachW b)
    (hE : e.In V TV H) (hS : OwnsAll own b (.node kd n :: rest)) (hf : Few N b.heap)
    (hs : b.StepW (.drop kd n) b1 .unit) (hx : ({ b with heap := h2 } : World α).take kd n = b1)
    (hd : hm.dropLink n = .ok h2) :
    ∃ H' b', Hm.dropLinkC dt e n = .ok H' ∧ Ran own [.node kd n] rest V TV H b H' b' := by
  have W := U.wf
  have C := U.ctx
  have S := W.sane
  have hal : hm.alive n = true := W.refs.alive _ _ _ _ U.mem
  have hVn := C.alive_out hal
  have hbusy : e.busy.contains n = false := by
    rw [Bool.eq_false_iff]
    intro h
    exact hVn (hE.busy n (List.contains_iff_mem.1 h))
  have hHmem : Hm.mem n = .strong t rc l := by rw [cell_mem (C.out n hVn)]; exact U.mem
  have hta : hm.treeAlive t = true := W.tree_alive hal (memTree_strong U.mem)
  have hTV := C.tree_out hta
  have hlt := U.lt
  have hc' : ∀ a', b.count a' ≤ b1.count a' + (if Asset.node kd n = a' then 1 else 0) := by
    subst hx; exact count_take hS.pos
  have hh : b1.heap = h2 := by subst hx; rfl
  by_cases hk : 1 < rc ∨ 0 < hm.treeRc t ∨ ∃ x rc' l', x ≠ n ∧ hm.mem x = .strong t rc' l'
  · -- the tree is kept
    have hmt : (hm.setMem n (hm.mem n).dec).memTree n = hm.memTree n := by
      simp only [Heap.memTree, Heap.setMem, upd_same, U.mem, Membership.dec]
      by_cases e : rc = 1 <;> simp [e]
    have W1 : FWF (hm.setMem n (hm.mem n).dec) ch := by
      have := W.reMem (t := t) (g := hm.grants t) (m' := (hm.mem n).dec) hal hmt (by
          intro u rc' l' e
          simp only [U.mem, Membership.dec] at e
          split at e
          · cases e
          · simp only [Membership.strong.injEq] at e; omega) (by
        intro u hu
        rcases W.refs.held u hu with h3 | ⟨x, rc', l', h3⟩
        · exact .inl h3
        · by_cases e : x = n
          · subst e
            rw [U.mem] at h3
            simp only [Membership.strong.injEq] at h3
            obtain ⟨rfl, -, -⟩ := h3
            rcases hk with h4 | h4 | ⟨y, rc'', l'', h4, h5⟩
            · exact .inr ⟨x, rc - 1, l, by simp [Heap.setMem, U.mem, Membership.dec]; omega⟩
            · exact .inl h4
            · exact .inr ⟨y, rc'', l'', by simp [Heap.setMem, h4, h5]⟩
          · exact .inr ⟨x, rc', l', by simp [Heap.setMem, e, h3]⟩)
      have e : ∀ (q : Heap α), q.setGrants t (q.grants t) = q := by
        intro q; cases q; simp only [Heap.setGrants]; congr 1; funext u; simp only [upd_apply]; split <;> simp [*]
      have e2 := e (hm.setMem n (hm.mem n).dec)
      rw [show (hm.setMem n (hm.mem n).dec).grants t = hm.grants t from rfl] at e2
      rw [e2] at this; exact this
    have C1 : Ctx V TV (Hm.setMem n (hm.mem n).dec) (hm.setMem n (hm.mem n).dec) := C.setMem hVn
    have href : (hm.setMem n (hm.mem n).dec).referenced n = true := referenced_of W1.toFShape W1.tree hal
    have hrefH : (Hm.setMem n (hm.mem n).dec).referenced n = true := by
      rw [C1.referenced W1.sane hVn]; exact href
    have hcond : ∀ pins, (hm.setMem n (hm.mem n).dec).maybeDropTree pins t = .ok (hm.setMem n (hm.mem n).dec) :=
      fun pins => W1.refs.maybeDropTree W1.bound pins t
    have hcondH : ∀ c' pins, (Hm.setMem n (hm.mem n).dec).maybeDropTreeC dt c' pins t = .ok (Hm.setMem n (hm.mem n).dec) := by
      intro c' pins
      unfold Heap.maybeDropTreeC
      rw [if_neg]
      simp only [Bool.and_eq_true, beq_iff_eq, Bool.not_eq_true']
      rintro ⟨⟨h3, h4⟩, h5⟩
      rw [C1.hasStrong W1.sane] at h5
      rcases W1.refs.held t hta with h6 | ⟨x, rc', l', h6⟩
      · rw [(tcell_iff.1 (C1.outT t hTV)).2.2] at h4; omega
      · have := hasStrongMember_iff.2 ⟨x, W1.bound x (W1.refs.alive _ _ _ _ h6), rc', l', h6⟩
        rw [h5] at this; cases this
    have hrel : ∀ (q : Heap α) f pins, q.referenced n = true → Heap.releaseC dt e (f + 1) pins n q = .ok q := by
      intro q f pins hq; simp [Heap.releaseC, hq]
    have e2 : h2 = hm.setMem n (hm.mem n).dec := by
      unfold Heap.dropLink Heap.decRef at hd
      simp only [U.mem, bind, Except.bind] at hd
      simp only [U.mem, Membership.dec] at hcond href ⊢
      by_cases e1 : rc = 1
      · have hl0 : l = 0 := by omega
        subst e1 hl0
        simp only [Nat.sub_self, if_true, ne_eq, not_true, if_false] at hd hcond href ⊢
        rw [hcond] at hd
        simp only [Heap.relFuel, release_referenced href] at hd
        cases hd; rfl
      · have e3 : rc - 1 ≠ 0 := by omega
        simp only [e3, e1, if_false] at hd hcond href ⊢
        simp only [Heap.relFuel, release_referenced href] at hd
        cases hd; rfl
    have e3 : Hm.dropLinkC dt e n = .ok (Hm.setMem n (hm.mem n).dec) := by
      unfold Heap.dropLinkC Heap.decRefC
      simp only [hHmem, bind, Except.bind, hbusy, Bool.false_eq_true, if_false]
      simp only [U.mem, Membership.dec] at hcondH hrefH ⊢
      by_cases e1 : rc = 1
      · have hl0 : l = 0 := by omega
        subst e1 hl0
        simp only [Nat.sub_self, if_true, ne_eq, not_true, if_false] at hcondH hrefH ⊢
        rw [hcondH]
        simp only [Heap.relFuel]
        exact hrel _ _ _ hrefH
      · have e3 : rc - 1 ≠ 0 := by omega
        simp only [e3, e1, if_false] at hrefH ⊢
        simp only [Heap.relFuel]
        exact hrel _ _ _ hrefH
    refine ⟨_, b1, e3, ?_⟩
    have hVx : ∀ x, V x → x ≠ n := fun x hx e => hVn (e ▸ hx)
    refine Ran.keep hs hS hc' (by rw [hh, e2]; exact C1)
      (fun x hx => (setMem_cell_ne (hVx x hx)).trans (U.node x hx)) (fun u hu => U.tree u hu)
      (fun x => by rw [hh, e2]; exact U.alive x) (by rw [hh, e2]; exact U.room) ?_
    rw [hh, e2]
    refine ⟨fun x hx1 => (setMem_cell_ne ?_).trans (U.dead x hx1), fun u hu => U.deadT u hu, U.nNode, U.nTree⟩
    rintro rfl; rw [← U.alive, hal] at hx1; cases hx1
  · -- the tree goes
    have hrc : rc = 1 := by
      have h2 : ¬ 1 < rc := fun h => hk (.inl h)
      omega
    have hl0 : l = 0 := by omega
    subst hrc hl0
    have htr : hm.treeRc t = 0 := by
      have h2 : ¬ 0 < hm.treeRc t := fun h => hk (.inr (.inl h))
      omega
    have ho : ∀ x rc l, x ≠ n → hm.mem x ≠ .strong t rc l := fun x rc l h1 h2 => hk (.inr (.inr ⟨x, rc, l, h1, h2⟩))
    obtain ⟨z, R, hz, hR, hRn⟩ := W.tree_nodes hta
    obtain ⟨⟨e1, -⟩, -⟩ := dropLink_last' W U.mem htr ho hz hR
    rw [e1] at hd
    simp only [Except.ok.injEq] at hd
    subst hd
    have hnR : n ∈ R.nodes := (hRn n).2 ⟨hal, memTree_strong U.mem⟩
    have hmt : ∀ x, (hm.setMem n (.weak (some t))).memTree x = hm.memTree x := by
      intro x
      by_cases e : x = n
      · subst e; simp [Heap.memTree, Heap.setMem, U.mem]
      · simp [Heap.memTree, Heap.setMem, e]
    have hdd : hm.dropped t R.nodes = (hm.setMem n (.weak (some t))).dropped t R.nodes := by
      simp only [Heap.dropped, Heap.wipe, Heap.setRoot, Heap.setGrants, Heap.setMem]
      congr 1
      funext x; by_cases e : x = n <;> simp [e, hnR, upd_apply]
    have noS : ∀ x rc l, (hm.setMem n (.weak (some t))).mem x ≠ .strong t rc l := by
      intro x rc l
      by_cases e : x = n
      · subst e; simp [Heap.setMem]
      · simp only [Heap.setMem, upd_apply, e, if_false]; exact ho x rc l e
    have D : Dying (Hm.setMem n (.weak (some t))) (hm.setMem n (.weak (some t))) b b1 ch t R.nodes V TV := by
      refine { ctx := C.setMem hVn, shape := ?_, tree := ?_, live := hta, nodes := fun x => by rw [hmt]; exact hRn x,
               nodup := W.toFShape.nodes_nodup R hR.2, noStrong := noS, strongAlive := ?_,
               heap := hh.trans hdd, alive := U.alive, treeAlive := U.treeAlive, dead := ?_,
               deadT := U.deadT, nNode := U.nNode, nTree := U.nTree }
      · exact ⟨W.dead, W.first, W.nodup, W.mem, W.seg, W.rootNext, W.acyc, W.bound⟩
      · constructor
        · intro x hx; rw [hmt]; exact W.tree.live x hx
        · intro u x hx; rw [hmt]; exact W.tree.root u x hx
        · intro x p hx hp; rw [hmt, hmt]; exact W.tree.child x p hx hp
        · intro x u hx hp hm; rw [hmt] at hm; exact W.tree.top x u hx hp hm
        · exact W.tree.bound
      · intro x u rc l hx
        by_cases e : x = n
        · subst e; exact hal
        · simp only [Heap.setMem, upd_apply, e, if_false] at hx; exact W.refs.alive _ _ _ _ hx
      · intro x hx1
        refine (setMem_cell_ne ?_).trans (U.dead x hx1)
        rintro rfl; rw [← U.alive, hal] at hx1; cases hx1
    have hroom : Room b1.heap := by
      rw [hh]
      refine U.room.sub (fun u => ?_) (fun u => ?_)
      · by_cases e : u = t
        · subst e; intro _; exact hta
        · rw [tcell_alive (dropped_tcell e)]; exact id
      · by_cases e : u = t
        · subst e; rw [dropped_deadT]; intro h; cases h
        · intro _; exact (tcell_iff.1 (dropped_tcell e)).2.1
    obtain ⟨M, rfl⟩ : ∃ M, N = M + 1 := by
      have := hf [n] (by simp) (by simpa using (U.alive n).symm.trans hal)
      simp at this
      exact ⟨N - 1, by omega⟩
    have Q := D.start (own := own) (N := M) (a := .node kd n) hb hroom hs hS hc' hf
    have hd : ∀ x, V x → ¬ x ∈ R.nodes := by
      intro x hv hx
      have := ((hRn x).1 hx).1
      rw [C.dead x hv] at this; cases this
    have hpins : Pins V (· ∈ R.nodes) e.pins [] :=
      ⟨fun x hx => ⟨fun h2 => absurd hx (hd x (hE.pins x h2)), fun h2 => (by cases h2)⟩,
        fun x hx => .inl (hE.pins x hx)⟩
    -- the run without destructors
    have e2 := e1
    unfold Heap.dropLink Heap.decRef at e2
    simp only [U.mem, bind, Except.bind, Nat.sub_self, if_true, ne_eq, not_true, if_false] at e2
    split at e2
    · cases e2
    rename_i h3 e3
    have hcl : ((hm.setMem n (.weak (some t))).treeAlive t && (hm.setMem n (.weak (some t))).treeRc t == 0 &&
        !(hm.setMem n (.weak (some t))).hasStrongMember t) = true := by
      simp only [Bool.and_eq_true, beq_iff_eq, Bool.not_eq_true']
      refine ⟨⟨hta, htr⟩, ?_⟩
      rw [Bool.eq_false_iff]
      intro h4
      obtain ⟨x, -, rc, l, h5⟩ := hasStrongMember_iff.1 h4
      exact noS x rc l h5
    have hclH : ((Hm.setMem n (.weak (some t))).treeAlive t && (Hm.setMem n (.weak (some t))).treeRc t == 0 &&
        !(Hm.setMem n (.weak (some t))).hasStrongMember t) = true := by
      rw [tcell_alive (D.ctx.outT t hTV), (tcell_iff.1 (D.ctx.outT t hTV)).2.2, D.ctx.hasStrong (t := t)]
      · exact hcl
      · exact ⟨S.first, S.next, S.parent, S.root, D.strongAlive⟩
    unfold Heap.maybeDropTree at e3
    rw [if_pos hcl] at e3
    have hDe : Deaths e TV t (Hm.setMem n (.weak (some t))) := by
      refine ⟨fun u hu => .inl (hE.dying u hu), fun u hu => ?_⟩
      rcases hE.gone u hu with h4 | h4
      · exact .inl h4
      · right
        show Hm.treeAlive u = false
        rw [tcell_alive (U.tree u hu)]; exact h4
    obtain ⟨H3, r3, f3, Q3, T3⟩ := QI.dropTree (e := { e with busy := n :: e.busy }) (pc := n :: e.pins) (pu := [n])
      (hG M rfl) D.ctx hd hTV (by
        intro x hx
        rcases List.mem_cons.1 hx with rfl | hx
        · exact .inr hnR
        · exact .inl (hE.busy x hx)) ⟨hDe.dying, hDe.gone⟩ Q (hpins.cons hnR) e3
    have hgone : h3.treeAlive t = false := by
      have := root_release e2
      have h5 : (hm.dropped t R.nodes).treeAlive t = false := dropped_deadT
      simpa [Heap.treeAlive, this] using h5
    have hb1 : hm.dropped t R.nodes = b1.heap := hh.symm
    rw [hb1] at e2
    obtain ⟨H4, r4, f4, Q4, T4⟩ := QI.release (e := e) (pc := e.pins) (pu := []) (hG M rfl) D.ctx hd hTV
      (fun x hx => .inl (hE.busy x hx)) hDe _ Q3 (.inr hgone) hnR hpins e2
    refine ⟨H4, r4, ?_, D.finish (a := .node kd n) hs
      (fun x hx => (setMem_cell_ne (fun (h6 : x = n) => hVn (h6 ▸ hx))).trans (U.node x hx)) (fun u hu => U.tree u hu)
      Q4 (T3.trans T4)⟩
    unfold Heap.dropLinkC Heap.decRefC
    simp only [hHmem, bind, Except.bind, hbusy, Bool.false_eq_true, if_false, Nat.sub_self, if_true, ne_eq, not_true]
    unfold Heap.maybeDropTreeC
    rw [if_pos hclH]
    simp only [f3]
    have : H3.relFuel = h3.relFuel := by simp [Heap.relFuel, Q3.nNode]
    rw [this]; exact f4

theorem Ctx.node_ok (hG : ∀ M, N = M + 1 → Good own dt M) (hb : ReachW b) (hr : Room b.heap)
    (C : Ctx V TV H b.heap) (hE : e.In V TV H) (hS : OwnsAll own b (.node kd n :: rest)) (hf : Few N b.heap) :
    ∃ H' b', H.dropAssetC dt e (.node kd n) = .ok H' ∧ Ran own [.node kd n] rest V TV H b H' b' := by
  have hk : 0 < b.held kd n := hS.pos
  obtain ⟨v, ch, W0⟩ := hb.wide
  have W := W0.fwd
  have hal := W0.held_alive hk
  have hVn := C.alive_out hal
  obtain ⟨b1, hx, hs⟩ := Asset.run hb hr hS.pos
  simp only [Asset.op, World.exec, bind, Except.bind, pure, Except.pure] at hx
  split at hx
  · cases hx
  rename_i h2 hd
  simp only [Except.ok.injEq, Prod.mk.injEq, and_true] at hx
  cases hm : b.heap.mem n with
  | weak o => rw [W0.weak n o hm kd] at hk; cases hk
  | strong t rc l =>
  obtain ⟨q1, q2⟩ := W0.strong _ _ _ _ hm
  have hta := W.tree_alive hal (memTree_strong hm)
  have hTV := C.tree_out hta
  have main : kd ≠ .plain → (do let h ← b.heap.decLock n; h.dropLink n : Except Fault (Heap α)) = .ok h2 →
      ∃ H' b', (do let h ← H.decLockC e n; h.dropLinkC dt e n : Except Fault (Heap α)) = .ok H' ∧
        Ran own [.node kd n] rest V TV H b H' b' := by
    intro hkp hd
    have hl : 0 < l := by cases kd <;> first | omega | exact absurd rfl hkp
    simp only [bind, Except.bind] at hd
    split at hd
    · cases hd
    rename_i h1 e1
    -- the form of the memory without the lock
    obtain ⟨g, hg, rfl, e2⟩ : ∃ g, (g = b.heap.grants t ∨ (0 < b.heap.grants t ∧ g = b.heap.grants t - 1) ∨
          (b.heap.grants t < 0 ∧ g = b.heap.grants t + 1)) ∧
        h1 = (b.heap.setMem n (.strong t rc (l - 1))).setGrants t g ∧
        H.decLockC e n = .ok ((H.setMem n (.strong t rc (l - 1))).setGrants t g) := by
      have hHm : H.mem n = .strong t rc l := by rw [cell_mem (C.out n hVn)]; exact hm
      have hHg : H.grants t = b.heap.grants t := (tcell_iff.1 (C.outT t hTV)).2.1
      have hnb : e.busy.contains n = false := by
        rw [Bool.eq_false_iff]
        intro h; exact hVn (hE.busy n (List.contains_iff_mem.1 h))
      have hl0 : l ≠ 0 := by omega
      unfold Heap.decLockC
      unfold Heap.decLock at e1 ⊢
      simp only [hm, hHm, hl0, if_false, hnb, Bool.false_eq_true] at e1 ⊢
      have i1 : (b.heap.setMem n (.strong t rc (l - 1))).grants t = b.heap.grants t := rfl
      have i2 : (H.setMem n (.strong t rc (l - 1))).grants t = b.heap.grants t := hHg
      simp only [i1, i2] at e1 ⊢
      split at e1
      · rename_i hl1
        simp only [hl1, if_true]
        split at e1
        · cases e1
        · rename_i g hg
          cases e1
          refine ⟨g, .inr ?_, by rw [hl1], rfl⟩
          unfold Lock.releaseAny at hg
          split at hg
          · cases hg; left; exact ⟨by assumption, rfl⟩
          · split at hg
            · cases hg
            · cases hg; right; exact ⟨by omega, rfl⟩
      · rename_i hl1
        simp only [hl1, if_false]
        cases e1
        have e : ∀ (q : Heap α), q.setGrants t (q.grants t) = q := by
          intro q; cases q; simp only [Heap.setGrants]; congr 1; funext u; simp only [upd_apply]; split <;> simp [*]
        refine ⟨b.heap.grants t, .inl rfl, ?_, ?_⟩
        · rw [← i1, e]
        · rw [← i2, e]
    have U : Unlocked H ((H.setMem n (.strong t rc (l - 1))).setGrants t g)
        ((b.heap.setMem n (.strong t rc (l - 1))).setGrants t g) b ch n t rc (l - 1) V TV := by
      have hVx : ∀ x, V x → x ≠ n := fun x h1 (h2 : x = n) => hVn (h2 ▸ h1)
      have hTx : ∀ u, TV u → u ≠ t := fun u h1 (h2 : u = t) => hTV (h2 ▸ h1)
      refine { wf := ?_, ctx := (C.setMem hVn).setGrants hTV, mem := by simp [Heap.setMem, Heap.setGrants],
               lt := by omega, node := fun x h1 => (setGrants_cell).trans (setMem_cell_ne (hVx x h1)),
               tree := fun u h1 => setGrants_tcell_ne (hTx u h1), alive := fun _ => rfl, treeAlive := fun _ => rfl,
               dead := ?_, deadT := ?_, nNode := rfl, nTree := rfl, room := ?_ }
      · refine W.reMem hal ?_ ?_ ?_
        · simp [Heap.memTree, Heap.setMem, hm]
        · intro u rc' l' h1
          simp only [Membership.strong.injEq] at h1; omega
        · intro u hu
          rcases W.refs.held u hu with h3 | ⟨x, rc', l', h3⟩
          · exact .inl h3
          · right
            by_cases h4 : x = n
            · subst h4
              rw [hm] at h3
              simp only [Membership.strong.injEq] at h3
              obtain ⟨rfl, -, -⟩ := h3
              exact ⟨x, rc, l - 1, by simp [Heap.setMem]⟩
            · exact ⟨x, rc', l', by simp [Heap.setMem, h4, h3]⟩
      · intro x h1
        refine setGrants_cell.trans (setMem_cell_ne ?_)
        rintro rfl; rw [hal] at h1; cases h1
      · intro u h1
        refine setGrants_tcell_ne ?_
        rintro rfl; rw [hta] at h1; cases h1
      · intro u hu
        have := hr u hu
        simp only [Heap.setGrants, upd_apply]
        split
        · rename_i h3; subst h3
          have h4 : (b.heap.setMem n (.strong u rc (l - 1))).grants u = b.heap.grants u := rfl
          rcases hg with h3 | h3 | h3 <;> omega
        · exact this
    obtain ⟨H', b', f1, f2⟩ := U.link_ok hG hb hE hS hf hs hx hd
    exact ⟨H', b', by simp only [e2, bind, Except.bind]; exact f1, f2⟩
  cases kd with
  | plain =>
    have U : Unlocked H H b.heap b ch n t rc l V TV :=
      ⟨W, C, hm, by omega, fun _ _ => rfl, fun _ _ => rfl, fun _ => rfl, fun _ => rfl, fun _ _ => rfl, fun _ _ => rfl,
        rfl, rfl, hr⟩
    exact U.link_ok hG hb hE hS hf hs hx hd
  | hot => exact main (by simp) hd
  | frozen => exact main (by simp) hd

/-! ### The knot -/

theorem asset_ok (hG : ∀ M, N = M + 1 → Good own dt M) : AssetOK own dt N := by
  intro V TV H b a rest e hb hr C hE hS hf
  cases a with
  | node k n => exact C.node_ok hG hb hr hE hS hf
  | tree t => exact C.tree_ok hG hb hr hE hS hf
  | token g t => exact C.token_ok hb hr hE hS

theorem Nest.In.mono (hE : e.In V TV H) (hT : ∀ t, TV t → H'.tcell t = H.tcell t) : e.In V TV H' :=
  ⟨hE.pins, hE.busy, hE.dying, fun t ht => (hE.gone t ht).imp id fun h => by rw [tcell_alive (hT t ht)]; exact h⟩

/-- Several things are dropped. -/
theorem AssetOK.all (A : AssetOK own dt N) : ∀ (P : List Asset) {V : NodeId → Prop} {TV : TreeId → Prop} {H : Heap α}
    {b : World α} {rest : List Asset} {e : Nest}, ReachW b → Room b.heap → Ctx V TV H b.heap → e.In V TV H →
    OwnsAll own b (P ++ rest) → Few N b.heap → ∃ H' b', H.dropAllC dt e P = .ok H' ∧ Ran own P rest V TV H b H' b'
  | [], V, TV, H, b, rest, e, hb, hr, C, hE, hS, hf =>
    ⟨H, b, rfl, C, fun _ _ => rfl, fun _ _ => rfl, .nil _, hS, hr, .refl _⟩
  | a :: P, V, TV, H, b, rest, e, hb, hr, C, hE, hS, hf => by
    obtain ⟨H1, b1, e1, R1⟩ := A V TV H b a (P ++ rest) e hb hr C hE hS hf
    obtain ⟨H2, b2, e2, R2⟩ := AssetOK.all A P (R1.drops.reach hb) R1.room R1.ctx (hE.mono R1.tree) R1.stored
      (hf.fade R1.fade)
    refine ⟨H2, b2, ?_, R2.ctx, fun x hx => (R2.node x hx).trans (R1.node x hx),
      fun t ht => (R2.tree t ht).trans (R1.tree t ht), ?_, R2.stored, R2.room, R1.fade.trans R2.fade⟩
    · simp only [Heap.dropAllC, e1]; exact e2
    · exact R1.drops.append R2.drops

theorem good_dtor (own : NodeId → List Asset) : ∀ f, Good own (Heap.dtor own (f + 1) : Dtor α) f
  | 0 => fun V TV H r x rest c h1 h2 h3 h4 h5 h6 =>
    (asset_ok (N := 0) (fun M h => by omega)).all (own x) h1 h2 h3 h4 h5 h6
  | f + 1 => fun V TV H r x rest c h1 h2 h3 h4 h5 h6 =>
    (asset_ok (N := f + 1) (fun M h => by
      obtain rfl : f = M := by omega
      exact good_dtor own f)).all (own x) h1 h2 h3 h4 h5 h6

theorem assets_ok (own : NodeId → List Asset) : ∀ f, AssetOK own (Heap.dtor own f : Dtor α) f
  | 0 => asset_ok (fun M h => by omega)
  | f + 1 => asset_ok (fun M h => by
    obtain rfl : f = M := by omega
    exact good_dtor own f)

theorem Ctx.init (h : Heap α) : Ctx (fun _ => False) (fun _ => False) h h :=
  ⟨rfl, rfl, fun _ _ => rfl, fun _ _ => rfl, fun _ h => h.elim, fun _ h => h.elim, fun _ _ _ _ h => h.elim,
    fun _ _ h => h.elim, fun _ _ h => h.elim, fun _ _ h => h.elim, fun _ _ h => h.elim⟩

theorem Few.of_reach (hb : ReachW b) : Few b.heap.nNode b.heap := by
  obtain ⟨v, ch, W⟩ := hb.wide
  intro L hd hl
  exact nodup_length_le _ L hd fun x hx => W.shape.bound x (hl x hx)

/-- Several things are dropped by the program. -/
theorem ReachW.dropAll_room {P : List Asset} {f : Nat} (hb : ReachW b) (hr : Room b.heap) (hS : OwnsAll own b P)
    (hf : b.heap.nNode ≤ f) :
    ∃ b', b.heap.dropAllC (Heap.dtor own f) Nest.start P = .ok b'.heap ∧ Drops own P b b' ∧ Room b'.heap := by
  obtain ⟨H', b', e1, R⟩ := (assets_ok (α := α) own f).all P hb hr (.init _)
    (e := Nest.start) ⟨fun _ h => (by cases h), fun _ h => (by cases h), fun _ h => (by cases h), fun _ h => h.elim⟩
    (rest := []) (by simpa using hS) (fun L hd hl => Nat.le_trans (Few.of_reach hb L hd hl) hf)
  have : H' = b'.heap := Heap.ext_cells (fun x => R.ctx.out x id) (fun t => R.ctx.outT t id) R.ctx.nNode R.ctx.nTree
  subst this
  exact ⟨b', e1, R.drops, R.room⟩

theorem ReachW.dropAll {P : List Asset} {f : Nat} (hb : ReachW b) (hr : Room b.heap) (hS : OwnsAll own b P)
    (hf : b.heap.nNode ≤ f) :
    ∃ b', b.heap.dropAllC (Heap.dtor own f) Nest.start P = .ok b'.heap ∧ Drops own P b b' := by
  obtain ⟨b', h1, h2, -⟩ := hb.dropAll_room hr hS hf
  exact ⟨b', h1, h2⟩

end Dendron
