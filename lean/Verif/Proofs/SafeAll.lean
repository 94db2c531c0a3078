import Verif.Proofs.SafeExec

/-! Every call of the API that returns keeps the ownership and lock invariant: moves, creation of trees,
handles got by navigation, and all calls together. -/

set_option linter.unusedSimpArgs false
set_option linter.unusedVariables false

set_option autoImplicit false

namespace Dendron
variable {α : Type} {h h' : Heap α} {w w' : World α} {n : NodeId} {t t' : TreeId} {k : Kind}

theorem Own.move {r : Except HierarchyError Unit} {dest : InsertAs NodeId} {k k' : Kind} (I : Own w)
    (hn : 0 < w.held k n) (ha : 0 < w.held k' dest.anchor)
    (e : w.heap.detachInsert n dest = .ok (h', r)) : Own { w with heap := h' } := by
  unfold Heap.detachInsert at e
  split at e
  · exact I.relinks (I.base.moveSame (I.held_alive hn) (I.held_alive ha) e)
  · simp only [bind, Except.bind, pure, Except.pure] at e
    split at e
    · cases e
    · rename_i t ht
      have I1 := I.acqTree (I.treeCore_alive ht)
      have htr : 0 < upd w.trees t (w.trees t + 1) t := by simp
      split at e
      · cases e
      · rename_i v hv
        obtain ⟨g, r'⟩ := v
        simp only [Heap.moveOther, bind, Except.bind] at hv
        split at e
        · cases e
        · rename_i g2 hg2
          simp only [Except.ok.injEq, Prod.mk.injEq] at e
          obtain ⟨rfl, rfl⟩ := e
          have I2 : Own { w with heap := g, trees := upd w.trees t (w.trees t + 1) } := by
            split at hv
            · cases hv
            · rename_i v1 hv1
              obtain ⟨g1, b⟩ := v1
              have R1 := I1.base.newByUnlink (I1.held_alive (k := k) hn) hv1
              have I3 := I1.relinks R1
              split at hv
              · cases hv
              · rename_i v2 hv2
                split at hv
                · cases hv
                · rename_i g3
                  have I4 := Own.setMembLoop
                    (w := { w with trees := upd w.trees t (w.trees t + 1) }) (t := t) I3 htr hv2
                  exact I4.relinks (I4.base.insert (I4.held_alive (k := k) hn)
                    (I4.held_alive (k := k') ha) hv)
          have := I2.relTree htr hg2
          simp only [upd_same, Nat.add_sub_cancel] at this
          rwa [upd_back rfl] at this

theorem Own.init : Own (World.init : World α) := by
  constructor
  · constructor <;> intros <;> simp_all [World.init, Heap.empty, Heap.alive, Heap.treeAlive]
  · intro n t rc l e; simp [World.init, Heap.empty] at e
  · intro n o _ k; rfl
  · intro t; rfl
  · intro t ht; simp [World.init] at ht
  · intro t ht; simp [World.init] at ht
  · intro t; simp [World.init]
  · intro t ht; simp [World.init, Heap.empty, Heap.treeAlive] at ht

/-- A node without links, of no tree, is allocated. -/
theorem Own.allocWeak {d : α} (I : Own w) :
    Own { w with heap := (w.heap.allocNode d (.weak none)).1 } := by
  have hal : ∀ x, (w.heap.allocNode d (.weak none)).1.alive x =
      if x = w.heap.nNode then true else w.heap.alive x := by
    intro x
    simp only [Heap.allocNode, Heap.alive, upd_apply]; split <;> rfl
  have hal' : ∀ x, w.heap.alive x = true → (w.heap.allocNode d (.weak none)).1.alive x = true := by
    intro x hx; rw [hal]; split
    · rfl
    · exact hx
  have hmem : ∀ x, (w.heap.allocNode d (.weak none)).1.mem x =
      if x = w.heap.nNode then .weak none else w.heap.mem x := by
    intro x
    simp only [Heap.allocNode, upd_apply]
  have B := I.base
  have hno : ∀ k, w.held k w.heap.nNode = 0 := fun k => I.noheld (Nat.le_refl _)
  constructor
  · constructor
    · intro m x e
      have e : upd w.heap.next w.heap.nNode none m = some x := e
      simp only [upd_apply] at e
      split at e
      · cases e
      · exact ⟨hal' _ (B.next _ _ e).1, hal' _ (B.next _ _ e).2⟩
    · intro m x e
      have e : upd w.heap.firstChild w.heap.nNode none m = some x := e
      simp only [upd_apply] at e
      split at e
      · cases e
      · exact ⟨hal' _ (B.first _ _ e).1, hal' _ (B.first _ _ e).2⟩
    · intro u x e; exact hal' _ (B.root u x e)
    · intro x hx
      show x < w.heap.nNode + 1
      simp only [hal] at hx
      split at hx
      · rename_i ex; rw [ex]; exact Nat.lt_succ_self _
      · exact Nat.lt_succ_of_lt (B.bound x hx)
    · exact B.tbound
    · intro x u a b hx
      simp only [hmem] at hx
      split at hx
      · cases hx
      · exact ⟨hal' _ (B.memb _ _ _ _ hx).1, (B.memb _ _ _ _ hx).2⟩
  · intro x u a b hx
    simp only [hmem] at hx
    split at hx
    · cases hx
    · exact I.strong _ _ _ _ hx
  · intro x o hx k
    simp only [hmem] at hx
    split at hx
    · rename_i ex; rw [ex]; exact hno k
    · exact I.weak _ _ hx k
  · exact I.treeRc
  · exact I.treesAlive
  · exact I.toks
  · exact I.tokX
  · intro u hu
    refine (I.locks u hu).congr rfl rfl rfl ?_ ?_
    · intro x h0 hx
      have ex : x ≠ w.heap.nNode := by
        rintro rfl
        simp only [hno] at h0
        exact absurd h0 (by decide)
      simp only [Heap.memTree, hmem, ex, if_false] at hx
      exact ⟨hx, Iff.rfl, Iff.rfl⟩
    · intro x h0 hx
      have ex : x ≠ w.heap.nNode := by
        rintro rfl
        simp only [hno] at h0
        exact absurd h0 (by decide)
      refine ⟨?_, Iff.rfl, Iff.rfl⟩
      simp only [Heap.memTree, hmem, ex, if_false]
      exact hx

theorem Own.decTree {a b : Nat} (I : Own w) (ht : 0 < w.trees t) (ha : w.heap.treeRc t - 1 = a)
    (hb : w.trees t - 1 = b) :
    Own { w with heap := w.heap.setTreeRc t a, trees := upd w.trees t b } := by
  subst ha hb
  refine { base := I.base.setTreeRc, strong := I.strong, weak := I.weak, treeRc := ?_,
           treesAlive := ?_, toks := I.toks, tokX := I.tokX, locks := ?_ }
  · intro u
    have := I.treeRc u
    by_cases e : u = t
    · subst e; simp [Heap.setTreeRc]; omega
    · simp [Heap.setTreeRc, e]; omega
  · intro u hu
    show w.heap.treeAlive u = true
    by_cases e : u = t
    · rw [e]; exact I.treesAlive t ht
    · exact I.treesAlive u (by simpa [e] using hu)
  · intro u hu
    exact (I.locks u hu).congr rfl rfl rfl (fun x _ hx => ⟨hx, Iff.rfl, Iff.rfl⟩)
      (fun x _ hx => ⟨hx, Iff.rfl, Iff.rfl⟩)

theorem Own.newTreeRoot {d : α} (I : Own w) :
    Own (({ w with heap := (w.heap.newTreeRoot d).1 }).give .plain (w.heap.newTreeRoot d).2) := by
  have I1 := I.allocWeak (d := d)
  have I2 := I1.allocTree (n := w.heap.nNode) (by simp [Heap.alive, Heap.allocNode])
  obtain ⟨f1, -⟩ := I.fresh_tree (Nat.le_refl _)
  have hno : ∀ k, w.held k w.heap.nNode = 0 := fun k => I.noheld (Nat.le_refl _)
  -- the node becomes a member first
  have I2' : Own { w with
      heap := ((w.heap.allocNode d (.weak none)).1.allocTree w.heap.nNode).1.setMem w.heap.nNode
        (.weak (some w.heap.nTree)),
      trees := upd w.trees w.heap.nTree 1 } := by
    refine I2.frees ?_ ?_
    · refine I2.base.setMem ?_
      intro u a b e; cases e
    · refine ⟨?_, fun _ _ => rfl, fun _ => .inl ⟨rfl, rfl⟩, rfl, rfl, rfl⟩
      intro x u a b
      by_cases ex : x = w.heap.nNode
      · subst ex; simp [Heap.setMem, Heap.allocTree, Heap.allocNode]
      · simp [Heap.setMem, Heap.allocTree, Heap.allocNode, ex]
  obtain ⟨I3, -, -⟩ := I2'.givePlain (n := w.heap.nNode)
    (by simp [Heap.alive, Heap.allocNode, Heap.allocTree, Heap.setMem])
    (h' := ((((w.heap.allocNode d (.weak none)).1.allocTree w.heap.nNode).1.setMem w.heap.nNode
        (.weak (some w.heap.nTree)))).setMem w.heap.nNode (.strong w.heap.nTree 1 0))
    (by
      simp [Heap.withNodeCore, Heap.incRef, Heap.setMem, Heap.allocTree, Heap.allocNode,
        Heap.treeAlive, Option.filter])
  have I4 := I3.decTree (t := w.heap.nTree) (a := 1 - 1) (b := 1 - 1) (by simp [World.give])
    (by simp [Heap.setMem, Heap.allocTree, Heap.allocNode]) (by simp [World.give])
  have e : (({ w with heap := (w.heap.newTreeRoot d).1 } : World α).give .plain (w.heap.newTreeRoot d).2)
      = ({ (({ w with
        heap := ((((w.heap.allocNode d (.weak none)).1.allocTree w.heap.nNode).1.setMem w.heap.nNode
        (.weak (some w.heap.nTree)))).setMem w.heap.nNode (.strong w.heap.nTree 1 0)
        trees := upd w.trees w.heap.nTree 1 } : World α).give .plain w.heap.nNode) with
          heap := (((((w.heap.allocNode d (.weak none)).1.allocTree w.heap.nNode).1.setMem w.heap.nNode
            (.weak (some w.heap.nTree)))).setMem w.heap.nNode (.strong w.heap.nTree 1 0)).setTreeRc
              w.heap.nTree (1 - 1)
          trees := upd (upd w.trees w.heap.nTree 1) w.heap.nTree (1 - 1) } : World α) := by
    have e1 : upd (upd w.trees w.heap.nTree 1) w.heap.nTree (1 - 1) = w.trees := by
      rw [show (1 - 1 : Nat) = 0 from rfl]; exact upd_back f1
    rw [e1]
    simp only [World.give, Heap.newTreeRoot, Heap.setMem, Heap.allocNode, Heap.allocTree, Heap.setTreeRc]
    congr 1
    congr 1
    funext x
    by_cases ex : x = w.heap.nNode <;> simp [ex]
  rw [e]
  exact I4

theorem Base.navTo {q : Nav} {m : NodeId} (B : Base h) (hn : h.alive n = true)
    (e : h.navTo n q = .ok (some m)) : h.alive m = true := by
  cases q with
  | root =>
    simp only [Heap.navTo, Heap.nodeRoot, bind, Except.bind] at e
    split at e
    · cases e
    · rename_i t ht
      simp only [Except.map] at e
      split at e
      · cases e
      · rename_i v hv
        simp only [Except.ok.injEq, Option.some.injEq] at e
        subst e
        unfold Heap.rootLink at hv
        split at hv
        · rename_i r hr
          simp only [Except.ok.injEq] at hv; subst hv
          exact B.root _ _ hr
        · cases hv
  | parent => simp only [Heap.navTo, Except.ok.injEq] at e; exact parentLink_alive e
  | prevSibling => exact prevLink_alive e
  | nextSibling => simp only [Heap.navTo, Except.ok.injEq] at e; exact (B.next _ _ e).2
  | firstChild => simp only [Heap.navTo, Except.ok.injEq] at e; exact (B.first _ _ e).2
  | lastChild => exact Base.lastChildLink_alive e
  | firstSibling =>
    simp only [Heap.navTo, Heap.firstSibling] at e
    split at e
    · split at e
      · rename_i f hf
        simp only [Except.map, Except.ok.injEq, Option.some.injEq] at e
        subst e; exact (B.first _ _ hf).2
      · cases e
    · simp only [Except.map, Except.ok.injEq, Option.some.injEq] at e
      subst e; exact hn
  | lastSibling =>
    simp only [Heap.navTo, Heap.lastSibling] at e
    split at e
    · simp only [bind, Except.bind] at e
      split at e
      · cases e
      · rename_i v hv
        split at e
        · rename_i l
          simp only [Except.map, pure, Except.pure, Except.ok.injEq, Option.some.injEq] at e
          subst e; exact Base.lastChildLink_alive hv
        · cases e
    · simp only [Except.map, Except.ok.injEq, Option.some.injEq] at e
      subst e; exact hn

/-- Wrapping a living node as a handle of any kind, after the plain handle exists. -/
theorem Own.lockPlain {w0 : World α} {h1 : Heap α} (I : Own (({ w0 with heap := h }).give .plain n))
    (e : h.acqLock n k = .ok (some h1)) : Own (({ w0 with heap := h1 }).give k n) := by
  have hp : 0 < (({ w0 with heap := h } : World α).give .plain n).held .plain n := by simp
  obtain ⟨t, rc, l, hm, ha, hta⟩ := I.tree_of_held hp
  have hgt : ∀ k', ((({ (({ w0 with heap := h } : World α).give .plain n) with heap := h1 } : World α).take .plain n).give k' n)
      = ({ w0 with heap := h1 } : World α).give k' n := by
    intro k'; rw [give_take]
  cases k with
  | plain =>
    simp only [Heap.acqLock, Except.ok.injEq, Option.some.injEq] at e; subst e; exact I
  | hot =>
    rcases I.bundleHot hp hm with ⟨_, e'⟩ | ⟨_, _, e'⟩ | ⟨_, h2, e', I'⟩
    · have e : h.acquireEditGrant n = .ok (some h1) := e
      simp only [give_heap] at e'; rw [e] at e'; cases e'
    · have e : h.acquireEditGrant n = .ok (some h1) := e
      simp only [give_heap] at e'; rw [e] at e'; cases e'
    · have e : h.acquireEditGrant n = .ok (some h1) := e
      simp only [give_heap] at e'; rw [e] at e'
      simp only [Except.ok.injEq, Option.some.injEq] at e'; subst e'
      rw [hgt] at I'; exact I'
  | frozen =>
    rcases I.bundleFrozen hp hm with ⟨_, e'⟩ | ⟨_, _, e'⟩ | ⟨_, h2, e', I'⟩
    · have e : h.acquireEditProhibition n = .ok (some h1) := e
      simp only [give_heap] at e'; rw [e] at e'; cases e'
    · have e : h.acquireEditProhibition n = .ok (some h1) := e
      simp only [give_heap] at e'; rw [e] at e'; cases e'
    · have e : h.acquireEditProhibition n = .ok (some h1) := e
      simp only [give_heap] at e'; rw [e] at e'
      simp only [Except.ok.injEq, Option.some.injEq] at e'; subst e'
      rw [hgt] at I'; exact I'

theorem expectLock_ok {r : Except Fault (Option (Heap α))} (e : Heap.expectLock r = .ok h') :
    r = .ok (some h') := by
  unfold Heap.expectLock at e
  split at e
  · cases e
  · cases e
  · simp only [Except.ok.injEq] at e; subst e; rfl

theorem Own.wrap (I : Own w) (ha : w.heap.alive n = true) (e : w.heap.wrap n k = .ok h') :
    Own (({ w with heap := h' }).give k n) := by
  simp only [Heap.wrap, bind, Except.bind] at e
  split at e
  · cases e
  · rename_i h1 h1e
    exact (I.givePlain ha h1e).1.lockPlain (expectLock_ok e)

theorem Own.created {w0 : World α} {r : Res} (I : Own (w0.give .plain n))
    (e : w0.created k n = .ok (w', r)) : Own w' := by
  simp only [World.created, bind, Except.bind, pure, Except.pure] at e
  split at e
  · cases e
  · rename_i h1 h1e
    simp only [Except.ok.injEq, Prod.mk.injEq] at e
    obtain ⟨rfl, -⟩ := e
    exact Own.lockPlain (w0 := w0) (h := w0.heap) I (expectLock_ok h1e)

theorem Own.bundle {h1 : Heap α} (I : Own w) (hk : k ≠ .plain) (hp : 0 < w.held .plain n)
    (e : w.heap.acqLock n k = .ok (some h1)) :
    Own ((({ w with heap := h1 }).take .plain n).give k n) := by
  obtain ⟨t, rc, l, hm, ha, hta⟩ := I.tree_of_held hp
  cases k with
  | plain => exact absurd rfl hk
  | hot =>
    rcases I.bundleHot hp hm with ⟨_, e'⟩ | ⟨_, _, e'⟩ | ⟨_, h2, e', I'⟩
    all_goals simp only [Heap.acqLock] at e; rw [e] at e'
    · cases e'
    · cases e'
    · simp only [Except.ok.injEq, Option.some.injEq] at e'; subst e'; exact I'
  | frozen =>
    rcases I.bundleFrozen hp hm with ⟨_, e'⟩ | ⟨_, _, e'⟩ | ⟨_, h2, e', I'⟩
    all_goals simp only [Heap.acqLock] at e; rw [e] at e'
    · cases e'
    · cases e'
    · simp only [Except.ok.injEq, Option.some.injEq] at e'; subst e'; exact I'

theorem Own.acquire {r : Res} {b : Bool} (I : Own w) (hta : w.heap.treeAlive t = true)
    (e : w.execAcquire b t = .ok (w', r)) : Own w' := by
  rcases I.acquireTok hta b with ⟨e', -⟩ | ⟨⟨m, e'⟩, -⟩ | ⟨-, h', e', I'⟩
  all_goals rw [e] at e'
  · simp only [Except.ok.injEq, Prod.mk.injEq] at e'; rw [e'.1]; exact I
  · cases e'
  · simp only [Except.ok.injEq, Prod.mk.injEq] at e'; rw [e'.1]; exact I'

theorem Own.hasAuth {a : Auth} (I : Own w) (ha : w.HasAuth n a) : ∃ k, 0 < w.held k n := by
  cases a with
  | token t => exact ⟨.plain, ha.1⟩
  | hot => exact ⟨.hot, ha⟩

theorem Own.setData {d : α} (I : Own w) (hn : w.heap.alive n = true) : Own { w with heap := w.heap.setData n d } := by
  refine { base := ?_, strong := I.strong, weak := I.weak, treeRc := I.treeRc,
           treesAlive := I.treesAlive, toks := I.toks, tokX := I.tokX, locks := ?_ }
  · have B := I.base
    have hal : ∀ x, w.heap.alive x = true → (w.heap.setData n d).alive x = true := by
      intro x hx
      simp only [Heap.alive, Heap.setData, upd_apply] at *
      split <;> simp_all
    have hal' : ∀ x, (w.heap.setData n d).alive x = true → w.heap.alive x = true := by
      intro x hx
      by_cases ex : x = n
      · rw [ex]; exact hn
      · simpa [Heap.alive, Heap.setData, ex] using hx
    exact ⟨fun m x e => ⟨hal _ (B.next m x e).1, hal _ (B.next m x e).2⟩,
      fun m x e => ⟨hal _ (B.first m x e).1, hal _ (B.first m x e).2⟩,
      fun u x e => hal _ (B.root u x e), fun x hx => B.bound x (hal' x hx), B.tbound,
      fun x u a b e => ⟨hal _ (B.memb _ _ _ _ e).1, (B.memb _ _ _ _ e).2⟩⟩
  · intro u hu
    exact (I.locks u hu).congr rfl rfl rfl (fun x _ hx => ⟨hx, Iff.rfl, Iff.rfl⟩)
      (fun x _ hx => ⟨hx, Iff.rfl, Iff.rfl⟩)

theorem Own.takeDead {b : Bool} (I : Own w) (hd : w.heap.treeAlive t = false)
    (hk : if b then 0 < w.grantTok t else 0 < w.prohTok t) :
    Own (w.takeTok b t) ∧ Own (w.giveTok b t) := by
  have hx := I.tokX t
  have hb : t < w.heap.nTree := I.toks t (by cases b <;> simp at hk <;> omega)
  have e1 : upd w.prohTok t (w.prohTok t) = w.prohTok := by
    funext x; by_cases e : x = t <;> simp [e, upd]
  have e2 : upd w.grantTok t (w.grantTok t) = w.grantTok := by
    funext x; by_cases e : x = t <;> simp [e, upd]
  cases b with
  | true =>
    simp only [if_true] at hk
    refine ⟨I.deadToks hd hb ?_ ?_, I.deadToks hd hb ?_ ?_⟩
    · exact .inr (by omega)
    · intro u hu; simp [hu]
    · exact .inr (by omega)
    · intro u hu; simp [hu]
  | false =>
    simp only [Bool.false_eq_true, if_false] at hk
    refine ⟨I.deadToks hd hb ?_ ?_, I.deadToks hd hb ?_ ?_⟩
    · exact .inl (by omega)
    · intro u hu; simp [hu]
    · exact .inl (by omega)
    · intro u hu; simp [hu]

/-- Every call that returns keeps the invariant. -/
theorem Own.exec {op : Op α} {r : Res} (I : Own w) (hal : w.Allowed op)
    (e : w.exec op = .ok (w', r)) : Own w' := by
  cases op with
  | newTree hot d => exact Own.created I.newTreeRoot e
  | clone k n =>
    obtain ⟨h1, e1, I1⟩ := I.cloneHandle hal
    simp only [World.exec, e1, bind, Except.bind, pure, Except.pure, Except.ok.injEq, Prod.mk.injEq] at e
    rw [← e.1]; exact I1
  | drop k n =>
    simp only [World.exec, bind, Except.bind, pure, Except.pure] at e
    split at e
    · cases e
    · rename_i h1 h1e
      simp only [Except.ok.injEq, Prod.mk.injEq] at e
      rw [← e.1]; exact I.dropHandle hal h1e
  | nav k q n =>
    simp only [World.exec, bind, Except.bind, pure, Except.pure] at e
    split at e
    · cases e
    · rename_i v hv
      split at e
      · simp only [Except.ok.injEq, Prod.mk.injEq] at e
        rw [← e.1]; exact I
      · split at e
        · cases e
        · rename_i h1 h1e
          simp only [Except.ok.injEq, Prod.mk.injEq] at e
          rw [← e.1]
          exact I.wrap (I.base.navTo (I.held_alive hal) hv) h1e
  | upgrade n =>
    simp only [World.exec, bind, Except.bind, pure, Except.pure] at e
    split at e
    · simp only [Except.ok.injEq, Prod.mk.injEq] at e
      rw [← e.1]; exact I
    · rename_i m hm
      split at e
      · cases e
      · rename_i h1 h1e
        simp only [Except.ok.injEq, Prod.mk.injEq] at e
        rw [← e.1]
        exact I.wrap (Option.filter_eq_some_iff.1 hm).2 h1e
  | plainOf k n =>
    obtain ⟨h1, e1, I1⟩ := I.clonePlain hal.2
    simp only [World.exec, e1, bind, Except.bind, pure, Except.pure, Except.ok.injEq, Prod.mk.injEq] at e
    rw [← e.1]; exact I1
  | bundle k n =>
    simp only [World.exec, bind, Except.bind, pure, Except.pure] at e
    split at e
    · cases e
    · rename_i v hv
      split at e
      · simp only [Except.ok.injEq, Prod.mk.injEq] at e
        rw [← e.1]; exact I.bundle hal.1 hal.2 hv
      · split at e
        · cases e
        · rename_i h1 h1e
          simp only [Except.ok.injEq, Prod.mk.injEq] at e
          rw [← e.1]; exact I.dropLink hal.2 h1e
  | bundleWith k n t =>
    simp only [World.exec, bind, Except.bind, pure, Except.pure] at e
    split at e
    · split at e
      · cases e
      · rename_i h1 h1e
        simp only [Except.ok.injEq, Prod.mk.injEq] at e
        rw [← e.1]
        refine I.bundle ?_ hal.1 (expectLock_ok h1e)
        rcases hal.2 with ⟨a, _⟩ | ⟨a, _⟩ <;> rw [a] <;> decide
    · cases e
  | treeOf k n =>
    simp only [World.exec, bind, Except.bind, pure, Except.pure] at e
    split at e
    · cases e
    · rename_i t ht
      simp only [Except.ok.injEq, Prod.mk.injEq] at e
      rw [← e.1]; exact I.acqTree (I.treeCore_alive ht)
  | cloneTree t =>
    simp only [World.exec, Except.ok.injEq, Prod.mk.injEq] at e
    rw [← e.1]; exact I.acqTree (I.treesAlive t hal)
  | dropTree t =>
    simp only [World.exec, bind, Except.bind, pure, Except.pure] at e
    split at e
    · cases e
    · rename_i h1 h1e
      simp only [Except.ok.injEq, Prod.mk.injEq] at e
      rw [← e.1]; exact I.relTree hal h1e
  | treeRoot t =>
    simp only [World.exec, bind, Except.bind, pure, Except.pure] at e
    split at e
    · cases e
    · rename_i m hm
      split at e
      · cases e
      · rename_i h1 h1e
        simp only [Except.ok.injEq, Prod.mk.injEq] at e
        rw [← e.1]
        refine I.wrap ?_ h1e
        unfold Heap.rootLink at hm
        split at hm
        · rename_i hr
          simp only [Except.ok.injEq] at hm; subst hm
          exact I.base.root _ _ hr
        · cases hm
  | upgradeTree t =>
    simp only [World.exec] at e
    split at e
    · rename_i hta
      simp only [Except.ok.injEq, Prod.mk.injEq] at e
      rw [← e.1]; exact I.acqTree hta
    · simp only [Except.ok.injEq, Prod.mk.injEq] at e
      rw [← e.1]; exact I
  | acquire grant t => exact I.acquire (I.treesAlive t hal) e
  | cloneTok grant t =>
    simp only [World.exec] at e
    split at e
    · rename_i hta; exact I.acquire hta e
    · rename_i hta
      simp only [Except.ok.injEq, Prod.mk.injEq] at e
      rw [← e.1]; exact (I.takeDead (by simpa using hta) hal).2
  | dropTok grant t =>
    simp only [World.exec] at e
    split at e
    · rename_i hta
      obtain ⟨g, hg, I1⟩ := I.releaseTok hta hal
      simp only [hg, bind, Except.bind, pure, Except.pure, Except.ok.injEq, Prod.mk.injEq] at e
      rw [← e.1]; exact I1
    · rename_i hta
      simp only [Except.ok.injEq, Prod.mk.injEq] at e
      rw [← e.1]; exact (I.takeDead (by simpa using hta) hal).1
  | extract grant n =>
    simp only [World.exec, bind, Except.bind, pure, Except.pure] at e
    split at e
    · cases e
    · rename_i t ht
      split at e
      · cases e
      · rename_i v hv
        obtain ⟨w1, r1⟩ := v
        have I1 := I.acquire (I.treeCore_alive ht) hv
        split at e
        · cases e
        · simp only [Except.ok.injEq, Prod.mk.injEq] at e
          rw [← e.1]; exact I1
  | create a n d as =>
    obtain ⟨k, hk⟩ := I.hasAuth hal
    simp only [World.exec, bind, Except.bind, pure, Except.pure] at e
    split at e
    · cases e
    · split at e
      · cases e
      · rename_i v hv
        obtain ⟨h1, r1⟩ := v
        have C := I.nodeCreate (I.held_alive hk) hv
        simp only at e
        cases r1 with
        | error er =>
          simp only [Except.ok.injEq, Prod.mk.injEq] at e
          rw [← e.1]; exact C
        | ok m => exact Own.created C e
  | createParent a n d =>
    obtain ⟨k, hk⟩ := I.hasAuth hal
    simp only [World.exec, bind, Except.bind, pure, Except.pure] at e
    split at e
    · cases e
    · split at e
      · cases e
      · rename_i v hv
        obtain ⟨h1, m⟩ := v
        exact Own.created (I.createParent (I.held_alive hk) hv) e
  | createChild a n d =>
    obtain ⟨k, hk⟩ := I.hasAuth hal
    simp only [World.exec, bind, Except.bind, pure, Except.pure] at e
    split at e
    · cases e
    · split at e
      · cases e
      · rename_i v hv
        obtain ⟨h1, m⟩ := v
        exact Own.created (I.createChild (I.held_alive hk) hv) e
  | detach a n =>
    obtain ⟨k, hk⟩ := I.hasAuth hal
    simp only [World.exec, bind, Except.bind, pure, Except.pure] at e
    split at e
    · cases e
    · split at e
      · cases e
      · rename_i h1 hv
        simp only [Except.ok.injEq, Prod.mk.injEq] at e
        rw [← e.1]; exact I.detach (I.held_alive hk) hv
  | replace a n =>
    obtain ⟨k, hk⟩ := I.hasAuth hal
    simp only [World.exec, bind, Except.bind, pure, Except.pure] at e
    split at e
    · cases e
    · split at e
      · cases e
      · rename_i v hv
        obtain ⟨h1, r1⟩ := v
        have C := I.replace (I.held_alive hk) hv
        simp only at e
        cases r1 <;> simp only [Except.ok.injEq, Prod.mk.injEq] at e <;> rw [← e.1] <;> exact C
  | move a n dest =>
    obtain ⟨k, hk⟩ := I.hasAuth hal.1
    simp only [World.exec, bind, Except.bind, pure, Except.pure] at e
    split at e
    · cases e
    · split at e
      · cases e
      · rename_i v hv
        obtain ⟨h1, r1⟩ := v
        have C := I.move hk hal.2 hv
        simp only at e
        cases r1 <;> simp only [Except.ok.injEq, Prod.mk.injEq] at e <;> rw [← e.1] <;> exact C
  | write n d =>
    obtain ⟨k, hk⟩ := hal
    simp only [World.exec] at e
    split at e
    · simp only [Except.ok.injEq, Prod.mk.injEq] at e; rw [← e.1]; exact I
    · simp only [Except.ok.injEq, Prod.mk.injEq] at e; rw [← e.1]; exact I.setData (I.held_alive hk)
  | borrowMut n keep =>
    simp only [World.exec] at e
    split at e
    · simp only [Except.ok.injEq, Prod.mk.injEq] at e; rw [← e.1]; exact I
    · simp only [Except.ok.injEq, Prod.mk.injEq] at e
      rw [← e.1]
      exact ⟨⟨I.base.next, I.base.first, I.base.root, I.base.bound, I.base.tbound, I.base.memb⟩,
        I.strong, I.weak, I.treeRc, I.treesAlive, I.toks, I.tokX,
        fun u hu => (I.locks u hu).congr rfl rfl rfl (fun x _ hx => ⟨hx, Iff.rfl, Iff.rfl⟩)
          (fun x _ hx => ⟨hx, Iff.rfl, Iff.rfl⟩)⟩

theorem ReachAny.own (R : ReachAny w) : Own w := by
  induction R with
  | init => exact Own.init
  | step _ s ih => exact ih.exec s.allowed s.run

end Dendron
