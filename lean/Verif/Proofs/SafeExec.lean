import Verif.Proofs.SafeStep

/-! Every call of the API that returns keeps the ownership and lock invariant. -/

set_option linter.unusedSimpArgs false
set_option linter.unusedVariables false

set_option autoImplicit false

namespace Dendron
variable {α : Type} {h h' : Heap α} {w w' : World α} {n : NodeId} {t t' : TreeId} {k : Kind}

theorem Own.held_alive (I : Own w) (hk : 0 < w.held k n) : w.heap.alive n = true := by
  obtain ⟨_, _, _, _, ha, _⟩ := I.tree_of_held hk; exact ha

theorem Own.treeCore_alive (I : Own w) (e : w.heap.treeCore n = .ok t) : w.heap.treeAlive t = true := by
  unfold Heap.treeCore Heap.treeCoreOpt at e
  cases hm : w.heap.mem n with
  | strong u rc l =>
    simp only [hm, Except.ok.injEq] at e; subst e; exact (I.base.memb _ _ _ _ hm).2
  | weak o =>
    simp only [hm] at e
    split at e
    · rename_i u hu
      simp only [Except.ok.injEq] at e; subst e
      exact (Option.filter_eq_some_iff.1 hu).2
    · cases e

theorem give_take (w : World α) (h1 h2 : Heap α) (n : NodeId) :
    ({ (({ w with heap := h1 } : World α).give .plain n) with heap := h2 } : World α).take .plain n
      = { w with heap := h2 } := by
  simp only [World.give, World.take]
  congr 1
  funext k m
  by_cases e : k = .plain ∧ m = n <;> simp [e]

theorem Own.noheld (I : Own w) (hb : w.heap.nNode ≤ n) : w.held k n = 0 := by
  cases hm : w.heap.mem n with
  | weak o => exact I.weak _ _ hm k
  | strong t rc l =>
    have := I.base.bound n (I.base.memb _ _ _ _ hm).1
    exact absurd this (Nat.not_lt.2 hb)

/-- Allocation of a node with one handle. -/
theorem Own.alloc {d : α} (I : Own w) (hta : w.heap.treeAlive t = true) :
    Own (({ w with heap := ((w.heap.allocNode d (.weak (some t))).1.setMem w.heap.nNode (.strong t 1 0)) }).give
      .plain w.heap.nNode) := by
  have hal : ∀ x, ((w.heap.allocNode d (.weak (some t))).1.setMem w.heap.nNode (.strong t 1 0)).alive x =
      if x = w.heap.nNode then true else w.heap.alive x := by
    intro x
    simp only [Heap.allocNode, Heap.alive, Heap.setMem, upd_apply]; split <;> rfl
  have hal' : ∀ x, w.heap.alive x = true → ((w.heap.allocNode d (.weak (some t))).1.setMem w.heap.nNode (.strong t 1 0)).alive x = true := by
    intro x hx; rw [hal]; split
    · rfl
    · exact hx
  have hmem : ∀ x, ((w.heap.allocNode d (.weak (some t))).1.setMem w.heap.nNode (.strong t 1 0)).mem x =
      if x = w.heap.nNode then .strong t 1 0 else w.heap.mem x := by
    intro x
    simp only [Heap.allocNode, Heap.setMem, upd_apply]; split <;> rfl
  have B := I.base
  have hno : ∀ k, w.held k w.heap.nNode = 0 := fun k => I.noheld (Nat.le_refl _)
  constructor
  · constructor
    · intro m x e
      have e : upd w.heap.next w.heap.nNode none m = some x := e
      simp only [upd_apply] at e
      split at e
      · cases e
      · exact ⟨hal' _ (B.next _ _ e).1, hal' _ (B.next _ _ e).2⟩
    · intro m x e
      have e : upd w.heap.firstChild w.heap.nNode none m = some x := e
      simp only [upd_apply] at e
      split at e
      · cases e
      · exact ⟨hal' _ (B.first _ _ e).1, hal' _ (B.first _ _ e).2⟩
    · intro u x e; exact hal' _ (B.root u x e)
    · intro x hx
      show x < w.heap.nNode + 1
      simp only [give_heap, hal] at hx
      split at hx
      · rename_i ex; rw [ex]; exact Nat.lt_succ_self _
      · exact Nat.lt_succ_of_lt (B.bound x hx)
    · exact B.tbound
    · intro x u a b hx
      simp only [give_heap, hmem] at hx
      split at hx
      · simp only [Membership.strong.injEq] at hx
        rename_i ex
        refine ⟨by simp [hal, ex], ?_⟩
        rw [← hx.1]; exact hta
      · exact ⟨hal' _ (B.memb _ _ _ _ hx).1, (B.memb _ _ _ _ hx).2⟩
  · intro x u a b hx
    simp only [give_heap, hmem] at hx
    split at hx
    · rename_i ex
      simp only [Membership.strong.injEq] at hx
      subst ex
      simp [hno]; omega
    · rename_i ex
      simp [ex]
      exact I.strong _ _ _ _ hx
  · intro x o hx k
    simp only [give_heap, hmem] at hx
    split at hx
    · cases hx
    · rename_i ex; simp [ex]; exact I.weak _ _ hx k
  · exact I.treeRc
  · exact I.treesAlive
  · exact I.toks
  · exact I.tokX
  · intro u hu
    refine (I.locks u hu).congr rfl rfl rfl ?_ ?_
    · intro x h0 hx
      have ex : x ≠ w.heap.nNode := by rintro rfl; simp [hno] at h0
      simp only [give_heap, Heap.memTree, hmem, ex, if_false] at hx
      exact ⟨hx, by simp, by simp⟩
    · intro x h0 hx
      have ex : x ≠ w.heap.nNode := by rintro rfl; simp [hno] at h0
      refine ⟨?_, by simp, by simp⟩
      simp only [give_heap, Heap.memTree, hmem, ex, if_false]
      exact hx

theorem Own.newOrphan {d : α} {m : NodeId} (I : Own w) (e : w.heap.newOrphan d t = .ok (h', m)) :
    Own (({ w with heap := h' }).give .plain m) ∧ h'.alive m = true ∧
      (∀ x, w.heap.alive x = true → h'.alive x = true) ∧ (∀ u, h'.treeAlive u = w.heap.treeAlive u) := by
  unfold Heap.newOrphan at e
  simp only at e
  split at e
  · rename_i h2 hi
    simp only [Except.ok.injEq, Prod.mk.injEq] at e
    obtain ⟨rfl, rfl⟩ := e
    unfold Heap.incRef at hi
    have hm : (w.heap.allocNode d (.weak (some t))).1.mem (w.heap.allocNode d (.weak (some t))).2 =
        .weak (some t) := by simp [Heap.allocNode]
    rw [hm] at hi
    simp only at hi
    split at hi
    · rename_i u hu
      simp only [Option.some.injEq] at hi
      subst hi
      obtain ⟨hu1, hta⟩ := Option.filter_eq_some_iff.1 hu
      simp only [Option.some.injEq] at hu1; subst hu1
      refine ⟨I.alloc hta, ?_, ?_, fun _ => rfl⟩
      · simp [Heap.alive, Heap.allocNode, Heap.setMem]
      · intro x hx
        simp only [Heap.alive, Heap.allocNode, Heap.setMem, upd_apply]
        split
        · rfl
        · exact hx
    · cases hi
  · cases e

/-- What is known about the result of a creation. -/
def Own.CreatedOK (w : World α) (h' : Heap α) : Except HierarchyError NodeId → Prop
  | .ok m => Own (({ w with heap := h' }).give .plain m)
  | .error _ => Own { w with heap := h' }

theorem Own.createAndProcess {d : α} {r : Except HierarchyError NodeId}
    {process : Heap α → NodeId → Except Fault (Heap α × Except HierarchyError Unit)} (I : Own w)
    (hp : ∀ h1 m h2 r, Own (({ w with heap := h1 }).give .plain m) → h1.alive m = true →
      (∀ x, w.heap.alive x = true → h1.alive x = true) →
      (∀ u, h1.treeAlive u = w.heap.treeAlive u) → process h1 m = .ok (h2, r) →
      Own (({ w with heap := h2 }).give .plain m))
    (e : w.heap.createAndProcess d t process = .ok (h', r)) : Own.CreatedOK w h' r := by
  simp only [Heap.createAndProcess, bind, Except.bind, pure, Except.pure] at e
  split at e
  · cases e
  · rename_i v hv
    obtain ⟨h1, m⟩ := v
    obtain ⟨I1, ha1, hal, hta⟩ := I.newOrphan hv
    simp only at e
    split at e
    · cases e
    · rename_i v2 hv2
      obtain ⟨h2, r2⟩ := v2
      have I2 := hp h1 m h2 r2 I1 ha1 hal hta hv2
      simp only at e
      split at e
      · simp only [Except.ok.injEq, Prod.mk.injEq] at e
        obtain ⟨rfl, rfl⟩ := e
        exact I2
      · split at e
        · cases e
        · rename_i h3 hd
          simp only [Except.ok.injEq, Prod.mk.injEq] at e
          obtain ⟨rfl, rfl⟩ := e
          have := I2.dropLink (n := m) (by simp) hd
          rw [give_take w h2 h3 m] at this
          exact this

/-- A process that is only link surgery. -/
theorem Own.createRelink {d : α} {r : Except HierarchyError NodeId}
    {process : Heap α → NodeId → Except Fault (Heap α × Except HierarchyError Unit)} (I : Own w)
    (hp : ∀ h1 m h2 r, Base h1 → h1.alive m = true →
      (∀ x, w.heap.alive x = true → h1.alive x = true) → process h1 m = .ok (h2, r) →
      Relinks [] h1 h2)
    (e : w.heap.createAndProcess d t process = .ok (h', r)) : Own.CreatedOK w h' r := by
  refine I.createAndProcess ?_ e
  intro h1 m h2 r I1 ha hal _ ep
  exact I1.relinks (hp h1 m h2 r I1.base ha hal ep)

theorem Own.nodeCreate {d : α} {as : AdoptAs} {r : Except HierarchyError NodeId} (I : Own w)
    (hn : w.heap.alive n = true) (e : w.heap.nodeCreate n d as = .ok (h', r)) :
    Own.CreatedOK w h' r := by
  simp only [Heap.nodeCreate, bind, Except.bind] at e
  split at e
  · cases e
  · rename_i t ht
    cases as <;> simp only [Heap.tryCreateNodeAs, Heap.createFirst, Heap.createLast, Heap.createPrev,
      Heap.createNext, bind, Except.bind, pure, Except.pure] at e
    · split at e
      · cases e
      · rename_i v hv
        split at hv
        · cases hv
        · simp only [Except.ok.injEq, Prod.mk.injEq] at e
          obtain ⟨rfl, rfl⟩ := e
          refine I.createRelink ?_ (expectOk_ok hv)
          intro h1 m h2 r B ha hal ep
          exact (B.insertFirst ha (hal n hn) ep).mono (by simp)
    · split at e
      · cases e
      · rename_i v hv
        split at hv
        · cases hv
        · simp only [Except.ok.injEq, Prod.mk.injEq] at e
          obtain ⟨rfl, rfl⟩ := e
          refine I.createRelink ?_ (expectOk_ok hv)
          intro h1 m h2 r B ha hal ep
          exact (B.insertLast ha (hal n hn) ep).mono (by simp)
    · split at e
      · cases e
      · refine I.createRelink ?_ e
        intro h1 m h2 r B ha hal ep
        exact (B.insert (dest := .previousSiblingOf n) ha (hal n hn) ep).mono (by simp)
    · split at e
      · cases e
      · refine I.createRelink ?_ e
        intro h1 m h2 r B ha hal ep
        exact (B.insert (dest := .nextSiblingOf n) ha (hal n hn) ep).mono (by simp)

theorem Own.setRoot {x : NodeId} (I : Own w) (hx : w.heap.alive x = true)
    (hta : w.heap.treeAlive t = true) : Own { w with heap := w.heap.setRoot t (some x) } :=
  I.relinks (I.base.setRootR (P := []) hx hta)

theorem Own.createParent {d : α} {m : NodeId} (I : Own w) (hn : w.heap.alive n = true)
    (e : w.heap.createInterruptingParent n d = .ok (h', m)) :
    Own (({ w with heap := h' }).give .plain m) := by
  simp only [Heap.createInterruptingParent, bind, Except.bind] at e
  split at e
  · cases e
  · rename_i t ht
    have hta := I.treeCore_alive ht
    have key := I.createAndProcess (r := .ok m) (h' := h') ?_ (expectOk_ok e)
    · exact key
    · intro h1 m h2 r I1 ha hal htal ep
      unfold Heap.interruptParent at ep
      split at ep
      · rename_i p hp
        simp only [bind, Except.bind, pure, Except.pure] at ep
        split at ep
        · cases ep
        · rename_i g hg
          have hpa : h1.alive p = true := parentLink_alive hp
          have R1 : Relinks [p, n, m] h1 g := by
            split at hg
            · rename_i s hs
              split at hg
              · cases hg
              rename_i g1 hg1
              have R := I1.base.insertBetween ha (hal n hn) hg1
              exact R.trans (R.base.dropLocal hg) (by intro x hx; simp_all; grind)
            · split at hg
              · cases hg
              rename_i v hv
              simp only [Except.ok.injEq] at hg
              subst hg
              exact (I1.base.insertLast ha hpa (expectOk_ok hv)).mono (by intro x hx; simp_all; grind)
          split at ep
          · cases ep
          rename_i v hv
          split at ep
          · cases ep
          rename_i g2 hg2
          simp only [Except.ok.injEq, Prod.mk.injEq] at ep
          obtain ⟨rfl, _⟩ := ep
          have R2 := R1.base.moveSame (dest := .lastChildOf m) (R1.keep n (by simp) (hal n hn))
            (R1.keep m (by simp) ha) (expectOk_ok hv)
          have R3 : Relinks [] h1 v.1 := R1.trans R2 (by simp)
          exact I1.relinks (R3.trans (O := []) (R3.base.dropLocal hg2) (by simp))
      · simp only [bind, Except.bind, pure, Except.pure] at ep
        split at ep
        · cases ep
        rename_i g hg
        have R1 := I1.base.putRoot ha ((htal t).trans hta) hg
        split at ep
        · cases ep
        rename_i g2 hg2
        simp only [Except.ok.injEq, Prod.mk.injEq] at ep
        obtain ⟨rfl, _⟩ := ep
        have R2 := R1.setPrev (m := m) (v := some m)
        have R3 := R2.trans (R2.base.putFirst (R2.keep m (by simp) ha)
          (some_alive (R2.keep n (by simp) (hal n hn))) hg2) (fun x hx => ⟨hx, hx⟩)
        exact I1.relinks R3.setParent.numAdd

theorem Own.createChild {d : α} {m : NodeId} (I : Own w) (hn : w.heap.alive n = true)
    (e : w.heap.createInterruptingChild n d = .ok (h', m)) :
    Own (({ w with heap := h' }).give .plain m) := by
  simp only [Heap.createInterruptingChild, bind, Except.bind] at e
  split at e
  · cases e
  · rename_i t ht
    have key := I.createRelink (r := .ok m) (h' := h') ?_ (expectOk_ok e)
    · exact key
    · intro h1 m h2 r B ha hal ep
      exact (B.interruptChild (hal n hn) ha ep).mono (by simp)

/-! ### New trees, detaching, replacing, moving -/

theorem Own.fresh_tree (I : Own w) (hb : w.heap.nTree ≤ t) :
    w.trees t = 0 ∧ w.grantTok t = 0 ∧ w.prohTok t = 0 ∧ w.heap.treeAlive t = false ∧
      ∀ n rc l, w.heap.mem n ≠ .strong t rc l := by
  have hd : w.heap.treeAlive t = false := by
    cases hx : w.heap.treeAlive t with
    | false => rfl
    | true => exact absurd (I.base.tbound t hx) (Nat.not_lt.2 hb)
  have h1 : ¬ 0 < w.trees t := by
    intro h; rw [I.treesAlive t h] at hd; cases hd
  have h2 : ¬ 0 < w.grantTok t + w.prohTok t := fun h => absurd (I.toks t h) (Nat.not_lt.2 hb)
  refine ⟨by omega, by omega, by omega, hd, ?_⟩
  intro n rc l e
  rw [(I.base.memb _ _ _ _ e).2] at hd; cases hd

/-- A new tree core, held by a local variable. -/
theorem Own.allocTree (I : Own w) (hn : w.heap.alive n = true) :
    Own { w with heap := (w.heap.allocTree n).1, trees := upd w.trees w.heap.nTree 1 } := by
  obtain ⟨f1, f2, f3, f4, f5⟩ := I.fresh_tree (Nat.le_refl _)
  have htal : ∀ u, (w.heap.allocTree n).1.treeAlive u =
      if u = w.heap.nTree then true else w.heap.treeAlive u := by
    intro u
    simp only [Heap.treeAlive, Heap.allocTree, upd_apply]; split <;> rfl
  have htal' : ∀ u, w.heap.treeAlive u = true → (w.heap.allocTree n).1.treeAlive u = true := by
    intro u hu; rw [htal]; split
    · rfl
    · exact hu
  have B := I.base
  constructor
  · refine ⟨B.next, B.first, ?_, B.bound, ?_, ?_⟩
    · intro u x e
      simp only [Heap.allocTree, upd_apply] at e
      split at e
      · cases e; exact hn
      · exact B.root u x e
    · intro u hu
      show u < w.heap.nTree + 1
      simp only [htal] at hu
      split at hu
      · rename_i e; rw [e]; exact Nat.lt_succ_self _
      · exact Nat.lt_succ_of_lt (B.tbound u hu)
    · intro x u a b e
      exact ⟨(B.memb _ _ _ _ e).1, htal' _ (B.memb _ _ _ _ e).2⟩
  · exact I.strong
  · exact I.weak
  · intro u
    have := I.treeRc u
    simp only [Heap.allocTree, upd_apply]; split
    · rfl
    · exact this
  · intro u hu
    simp only [htal]
    simp only [upd_apply] at hu
    split
    · rfl
    · rename_i e; rw [if_neg e] at hu; exact I.treesAlive u hu
  · intro u hu; exact Nat.lt_succ_of_lt (I.toks u hu)
  · exact I.tokX
  · intro u hu
    simp only [htal] at hu
    split at hu
    · rename_i e
      subst e
      have hno : ∀ x, 0 < w.held .hot x + w.held .frozen x → w.heap.memTree x ≠ some w.heap.nTree := by
        intro x hx
        obtain ⟨v, rc, l, hm⟩ := I.locked_tree hx
        rw [memTree_strong hm]
        intro e
        simp only [Option.some.injEq] at e
        exact f5 x rc l (e ▸ hm)
      refine ⟨[], List.nodup_nil, ?_, .inl ⟨f3, ?_, ?_⟩, ?_⟩
      · intro x
        simp only [List.not_mem_nil, false_iff]
        rintro ⟨h1, h2⟩
        exact hno x h2 h1
      · intro x hx
        have hx : w.heap.memTree x = some w.heap.nTree := hx
        by_cases h0 : 0 < w.held .hot x + w.held .frozen x
        · exact absurd hx (hno x h0)
        · show w.held .frozen x = 0
          omega
      · simp [Heap.allocTree, f2]
      · simp [Heap.allocTree, Lock.isizeMin, Lock.isizeMax]
    · rename_i e
      refine (I.locks u hu).congr ?_ rfl rfl (fun x _ hx => ⟨hx, Iff.rfl, Iff.rfl⟩)
        (fun x _ hx => ⟨hx, Iff.rfl, Iff.rfl⟩)
      simp [Heap.allocTree, e]

theorem upd_back {f : Nat → Nat} {t : Nat} {a b : Nat} (hf : f t = b) :
    upd (upd f t a) t b = f := by
  funext x
  simp only [upd_apply]
  split
  · rename_i e; rw [e, hf]
  · rfl

/-- `create_new_tree` and the same steps in `try_replace_with_children`. -/
theorem Own.newTree {h2 : Heap α} (I : Own w) (hn : w.heap.alive n = true)
    (e : (w.heap.allocTree n).1.setMemberships n w.heap.nTree = .ok (some h2))
    (e2 : h2.relTree [] w.heap.nTree = .ok h') : Own { w with heap := h' } := by
  have I1 := I.allocTree hn
  have f1 := (I.fresh_tree (Nat.le_refl _)).1
  have I2 := Own.setMembLoop (w := { w with trees := upd w.trees w.heap.nTree 1 }) (t := w.heap.nTree) I1 (by simp) e
  have I3 := I2.relTree (t := w.heap.nTree) (by simp) e2
  simp only [upd_same, Nat.sub_self] at I3
  rw [upd_back f1] at I3
  exact I3

theorem Own.createNewTree (I : Own w) (hn : w.heap.alive n = true)
    (e : w.heap.createNewTree n = .ok h') : Own { w with heap := h' } := by
  unfold Heap.createNewTree at e
  simp only at e
  split at e
  · cases e
  · cases e
  · rename_i h2 h2e
    exact I.newTree hn h2e e

theorem Own.detach (I : Own w) (hn : w.heap.alive n = true)
    (e : w.heap.detachSubtree n = .ok h') : Own { w with heap := h' } := by
  unfold Heap.detachSubtree at e
  split at e
  · simp only [Except.ok.injEq] at e; subst e; exact I
  · simp only [bind, Except.bind] at e
    split at e
    · cases e
    · rename_i v hv
      obtain ⟨g, b⟩ := v
      have R := I.base.newByUnlink hn hv
      exact (I.relinks R).createNewTree (R.keep n (by simp) hn) e

theorem Own.replaceTail (I : Own w) (hn : w.heap.alive n = true)
    (e : w.heap.replaceTail n = .ok h') : Own { w with heap := h' } := by
  simp only [Heap.replaceTail, bind, Except.bind] at e
  split at e
  · cases e
  rename_i g1 hg1
  have R1 : Relinks [n] w.heap g1 :=
    (I.base.setParent.putFirst (h := w.heap.setParent n none) hn (by simp) hg1).after
      ⟨rfl, rfl, rfl, rfl, rfl, rfl, rfl, rfl⟩
  split at e
  · cases e
  rename_i g2 hg2
  have R2 := R1.setPrev (m := n) (v := some n)
  have R : Relinks [n] w.heap (g2.setNum n 0) :=
    (R2.trans (R2.base.putNext (R2.keep n (by simp) hn) (by simp) hg2) (fun x hx => ⟨hx, hx⟩)).setNum
  split at e
  · cases e
  · cases e
  · rename_i h2 h2e
    exact (I.relinks R).newTree (R.keep n (by simp) hn) h2e e

theorem Own.replace {r : Except HierarchyError Unit} (I : Own w) (hn : w.heap.alive n = true)
    (e : w.heap.replaceWithChildren n = .ok (h', r)) : Own { w with heap := h' } := by
  simp only [Heap.replaceWithChildren, bind, Except.bind, pure, Except.pure] at e
  split at e
  · cases e
  · rename_i t ht
    have I1 := I.acqTree (I.treeCore_alive ht)
    have hn1 : (w.heap.acqTree t).alive n = true := hn
    have htr : 0 < upd w.trees t (w.trees t + 1) t := by simp
    have back : ∀ {g : Heap α}, Own { w with heap := g, trees := upd w.trees t (w.trees t + 1) } →
        g.relTree [] t = .ok h' → Own { w with heap := h' } := by
      intro g Ig eg
      have := Ig.relTree htr eg
      simp only [upd_same, Nat.add_sub_cancel] at this
      rwa [upd_back rfl] at this
    split at e
    · rename_i p hp
      split at e
      · cases e
      · rename_i g1 hg1
        have R1 := I1.base.replaceNonRoot (parentLink_alive hp)
          (fun x hx => (I1.base.first _ _ hx).2) hg1
        have I2 := I1.relinks R1
        split at e
        · cases e
        · rename_i g2 hg2
          have I3 := I2.replaceTail (R1.keep n (by simp) hn1) hg2
          split at e
          · cases e
          · rename_i g3 hg3
            simp only [Except.ok.injEq, Prod.mk.injEq] at e
            obtain ⟨rfl, _⟩ := e
            exact back I3 hg3
    · split at e
      · split at e
        · cases e
        · rename_i g3 hg3
          simp only [Except.ok.injEq, Prod.mk.injEq] at e
          obtain ⟨rfl, _⟩ := e
          exact back I1 hg3
      · split at e
        · split at e
          · cases e
          · rename_i c hc
            have hca : (w.heap.acqTree t).alive c = true := (I1.base.first _ _ hc).2
            have R1 : Relinks [n] (w.heap.acqTree t) ((w.heap.acqTree t).setParent c none) :=
              (Relinks.refl I1.base).setParent
            split at e
            · cases e
            · rename_i g0 hg0
              have R2 := R1.trans (R1.base.putRoot (t := t) hca (I.treeCore_alive ht) hg0)
                (fun x hx => ⟨hx, hx⟩)
              have I3 := I1.relinks R2
              split at e
              · cases e
              rename_i g2 hg2
              have I4 := I3.replaceTail (n := n) (R2.keep n (by simp) hn1) hg2
              split at e
              · cases e
              · rename_i g3 hg3
                simp only [Except.ok.injEq, Prod.mk.injEq] at e
                obtain ⟨rfl, _⟩ := e
                exact back I4 hg3
        · split at e
          · cases e
          · rename_i g3 hg3
            simp only [Except.ok.injEq, Prod.mk.injEq] at e
            obtain ⟨rfl, _⟩ := e
            exact back I1 hg3

end Dendron
