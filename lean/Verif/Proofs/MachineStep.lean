import Verif.Proofs.Machine
import Verif.Proofs.WorldStepEdit

/-! Every call is a step of the abstract machine: states with right pointers. -/

set_option linter.unusedSimpArgs false
set_option linter.unusedVariables false

set_option autoImplicit false

namespace Dendron
variable {α : Type} {h h' h2 : Heap α} {w w' v : World α} {a b : Forest α} {ch ch' ch1 : NodeId → List NodeId}
  {n m r p q : NodeId} {t t' : TreeId} {k : Kind} {op : Op α} {au : Auth} {l1 l2 m1 m2 : List NodeId}

/-- The abstract state of a memory with the hierarchy `ch`. -/
def World.view (w : World α) (ch : NodeId → List NodeId) : Forest α where
  data := w.heap.data
  borrowed n := w.heap.alive n && w.heap.mutB n
  children := ch
  tree n := if w.heap.alive n then w.heap.memTree n else none
  root := w.heap.root
  newNode := w.heap.nNode
  newTree := w.heap.nTree
  held := w.held
  trees := w.trees
  grantTok := w.grantTok
  prohTok := w.prohTok

theorem FShape.view (S : FShape w.heap ch) : Shows w (w.view ch) :=
  ⟨S, rfl, fun _ => rfl, fun _ => rfl, rfl, rfl, rfl, rfl, rfl, rfl, rfl⟩

theorem Inv.view (I : Inv w ch) : Shows w (w.view ch) := I.wf.toFShape.view

theorem Shows.eq_view (S : Shows w a) (F : FShape w.heap ch) : a = w.view ch := by
  have e : a.children = ch := S.children.unique F
  obtain ⟨e1, e2, e3, e4, e5, e6, e7, e8, e9, e10, e11⟩ := S
  cases a
  simp only at *
  subst e e2 e5 e6 e7 e8 e9 e10 e11
  have e3 := funext e3
  have e4 := funext e4
  subst e3 e4
  rfl

/-- The call is a step of the abstract machine. -/
def Plays (w : World α) (ch : NodeId → List NodeId) (op : Op α) : Prop :=
  ∃ w1 r w' D a', w.exec op = .ok (w1, r) ∧ SimW D w1 w' ∧ Shows w' a' ∧ (w.view ch).Step op r a'

theorem Plays.mk {r : Res} {a' : Forest α} (e : w.exec op = .ok (w', r)) (S : Shows w' a')
    (st : (w.view ch).Step op r a') : Plays w ch op :=
  ⟨w', r, w', fun _ => False, a', e, SimW.refl _, S, st⟩

theorem Plays.of {r : Res} {a' : Forest α} (_ : Inv w' ch') (e : w.exec op = .ok (w', r)) (S : Shows w' a')
    (st : (w.view ch).Step op r a') : Plays w ch op := .mk e S st

/-- Only handles change. -/
theorem Inv.shows_still (I : Inv w ch) (s : Still w.heap w'.heap) (hc : b.children = ch)
    (hd : b.data = w.heap.data) (hb : b.borrowed = (w.view ch).borrowed) (ht : b.tree = (w.view ch).tree)
    (hr : b.root = w.heap.root) (hn : b.newNode = w.heap.nNode) (hnt : b.newTree = w.heap.nTree)
    (h1 : b.held = w'.held) (h2 : b.trees = w'.trees)
    (h3 : b.grantTok = w'.grantTok) (h4 : b.prohTok = w'.prohTok) : Shows w' b :=
  I.view.still s hc hd hb ht hr hn hnt h1 h2 h3 h4

/-- A new node. -/
theorem Inv.shows_created {d : α} {k : Kind} {R : TreeId → Option NodeId} {N : TreeId} (I : Inv w ch)
    (hdata : h'.data = upd w.heap.data w.heap.nNode (some d))
    (hmut : h'.mutB = upd w.heap.mutB w.heap.nNode false)
    (hmem : h'.mem = upd w.heap.mem w.heap.nNode (.strong t 1 0))
    (hroot : h'.root = R) (hnn : h'.nNode = w.heap.nNode + 1) (hnt : h'.nTree = N)
    (F : FShape h2 ch') (s : Still h' h2) :
    Shows (({ w with heap := h2 }).give k w.heap.nNode)
      { data := upd w.heap.data w.heap.nNode (some d)
        borrowed := upd (w.view ch).borrowed w.heap.nNode false
        children := ch'
        tree := upd (w.view ch).tree w.heap.nNode (some t)
        root := R
        newNode := w.heap.nNode + 1
        newTree := N
        held := (w.give k w.heap.nNode).held
        trees := w.trees
        grantTok := w.grantTok
        prohTok := w.prohTok } := by
  have hal : ∀ x, h2.alive x = upd w.heap.alive w.heap.nNode true x := by
    intro x
    rw [s.alive]
    simp only [Heap.alive, hdata, upd_apply]
    split <;> rfl
  have hmt : ∀ x, h2.memTree x = upd w.heap.memTree w.heap.nNode (some t) x := by
    intro x
    rw [s.memTree]
    simp only [Heap.memTree, hmem, upd_apply]
    by_cases e : x = w.heap.nNode <;> simp [e]
  refine ⟨F, ?_, ?_, ?_, ?_, ?_, ?_, rfl, rfl, rfl, rfl⟩
  · show _ = h2.data
    rw [s.data, hdata]
  · intro x
    show upd _ _ _ x = (h2.alive x && h2.mutB x)
    rw [hal, s.mutB, hmut]
    simp only [upd_apply, World.view]
    split <;> rfl
  · intro x
    show upd _ _ _ x = if h2.alive x then h2.memTree x else none
    rw [hal, hmt]
    simp only [upd_apply, World.view]
    split <;> simp
  · show R = h2.root
    rw [s.root, hroot]
  · show _ = h2.nNode
    rw [s.nNode, hnn]
  · show N = h2.nTree
    rw [s.nTree, hnt]

/-- Nodes change their tree. -/
theorem Inv.shows_rehomed {r0 : Option NodeId} {D : List NodeId} {g : Int} (I : Inv w ch)
    (I' : Inv { w with heap := h' } ch')
    (R : Rehomed (w.heap.setRoot t r0) h' ch1 ch' D t t' g) (hne : t ≠ t')
    (hDm : ∀ x ∈ D, w.heap.alive x = true) (hc : b.children = ch1) (hd : b.data = w.heap.data)
    (hb : b.borrowed = (w.view ch).borrowed)
    (ht : ∀ x, b.tree x = if x ∈ D then some t' else (w.view ch).tree x)
    (hr' : b.root t' = h'.root t') (hr : b.root t = r0) (hro : ∀ u, u ≠ t → u ≠ t' → b.root u = w.heap.root u)
    (hn : b.newNode = w.heap.nNode) (hnt : b.newTree = h'.nTree)
    (h1 : b.held = w.held) (h2 : b.trees = w.trees) (h3 : b.grantTok = w.grantTok)
    (h4 : b.prohTok = w.prohTok) : Shows { w with heap := h' } b.sweep := by
  have hab : ∀ x, h'.alive x = true → ¬ Abandoned (w.heap.setRoot t r0) D t x := by
    intro x ha hc; rw [R.freed x hc] at ha; cases ha
  have hal : ∀ x, ¬ Abandoned (w.heap.setRoot t r0) D t x → h'.alive x = w.heap.alive x := by
    intro x hx; simp only [Heap.alive, (R.data x hx).1]; rfl
  have hmt : ∀ x, ¬ Abandoned (w.heap.setRoot t r0) D t x →
      h'.memTree x = if x ∈ D then some t' else w.heap.memTree x := by
    intro x hx
    split
    · rename_i hxD
      have := R.moved x hxD
      simp only [Heap.memTree, this]
      cases (w.heap.setRoot t r0).mem x <;> rfl
    · rename_i hxD
      have := R.others x hxD hx
      simp only [Heap.memTree, this]; rfl
  refine I'.shows_sweep h1 h2 h3 h4 (by rw [hn]; exact R.nNode.symm) hnt ?_ ?_ ?_
  · intro x ha
    replace ha : h'.alive x = true := ha
    have hna := hab x ha
    have ha0 : w.heap.alive x = true := by rw [← hal x hna]; exact ha
    refine ⟨by rw [hd]; exact (R.data x hna).1.symm, ?_, ?_, ?_⟩
    · rw [hb]
      show (w.heap.alive x && w.heap.mutB x) = h'.mutB x
      rw [ha0, (R.data x hna).2]; rfl
    · rw [hc, R.children x hna]
    · show b.tree x = h'.memTree x
      rw [ht, hmt x hna]
      simp only [World.view, ha0, if_true]
  · intro x u hx hu
    replace hx : h'.alive x = false := hx
    show h'.treeAlive u = false
    by_cases hA : Abandoned (w.heap.setRoot t r0) D t x
    · rw [ht, if_neg hA.2.2] at hu
      have : w.heap.memTree x = some u := (I.view.tree_some hu).2
      have e : w.heap.memTree x = some t := hA.2.1
      rw [e] at this
      obtain rfl : t = u := by simpa using this
      simp [Heap.treeAlive, R.rootOld.2 hA.1]
    · have hd0 : w.heap.alive x = false := by rw [← hal x hA]; exact hx
      rw [ht] at hu
      split at hu
      · rename_i hxD
        rw [hDm x hxD] at hd0; cases hd0
      · simp [World.view, hd0] at hu
  · intro u hu
    replace hu : h'.treeAlive u = true := hu
    show b.root u = h'.root u
    by_cases e1 : u = t'
    · subst e1; exact hr'
    · by_cases e2 : u = t
      · subst e2
        rw [hr, R.rootKept ?_]
        · simp [Heap.setRoot]
        · intro hl
          simp [Heap.treeAlive, R.rootOld.2 hl] at hu
      · rw [hro u e2 e1, R.rootOther u e2 e1]
        simp [Heap.setRoot, e2]

theorem Inv.play_newTree {hot : Bool} {d : α} (I : Inv w ch) : Plays w ch (.newTree hot d) := by
  obtain ⟨h', e, I1, K, hm, hg⟩ := I.newTreePlain (d := d)
  obtain ⟨h0, e0, W, hdata, hmtn, hroot, hmem, hgr, hrc, hnn, hnt, -, hmut⟩ :=
    newTreeRoot_wf I.wf d I.wf.tree.fresh_tree
  obtain rfl : h0 = h' := by
    rw [e] at e0; exact (congrArg Prod.fst e0).symm
  obtain ⟨h2, e2, I2, S2⟩ := I1.created (k := if hot then .hot else .plain) hm
    (by cases hot <;> simp [Lockable, hg, Lock.isizeMax])
  refine .mk ?_ (I.shows_created hdata hmut hmem hroot hnn hnt I2.wf.toFShape S2) (.newTree hot d)
  simp only [World.exec, e]
  exact e2

theorem Inv.play_clone (I : Inv w ch) (ha : 0 < w.held k n) : Plays w ch (.clone k n) := by
  obtain ⟨h', e, I', S⟩ := I.cloneHandle ha
  exact .of I' (by simp [World.exec, e, bind, Except.bind, pure, Except.pure] <;> rfl)
    (I.shows_still (b := (w.view ch).give k n) S rfl rfl rfl rfl rfl rfl rfl rfl rfl rfl rfl) (.clone k n)

theorem Inv.play_drop (I : Inv w ch) (ha : 0 < w.held k n) : Plays w ch (.drop k n) := by
  obtain ⟨h', ch', e, I', K⟩ := I.dropHandle ha
  exact .of I' (by simp [World.exec, e, bind, Except.bind, pure, Except.pure] <;> rfl)
    (I.shows_drop (b := (w.view ch).take k n) I.view I' K (((Keep.refl w.heap).dropHandle _ e).nNode)
      (sameNt_dropHandle _ e) rfl rfl rfl rfl rfl rfl rfl rfl rfl rfl rfl) (.drop k n)

theorem Inv.finds {o : Option NodeId} {q : Nav} (I : Inv w ch) (ha : w.heap.alive n = true)
    (e : w.heap.navTo n q = .ok o) : (w.view ch).Finds n o q := by
  have C := I.wf.coherent
  have hcase : (∀ p, n ∉ ch p) ∨ ∃ p l1 l2, ch p = l1 ++ n :: l2 := by
    by_cases e : ∃ p, n ∈ ch p
    · obtain ⟨p, hp⟩ := e
      obtain ⟨l1, l2, e⟩ := List.append_of_mem hp
      exact .inr ⟨p, l1, l2, e⟩
    · exact .inl (fun p hp => e ⟨p, hp⟩)
  have ok : ∀ {x y : Option NodeId}, (.ok x : Except Fault (Option NodeId)) = .ok y → y = x := by
    intro x y e; cases e; rfl
  cases q with
  | root =>
    obtain ⟨u, r, h1, h2, h3, h4, h5, h6⟩ := I.wf.trees.root n ha
    have e1 := (I.wf.tree.treeCore_iff ha).1 h1
    have := ok ((show w.heap.navTo n .root = .ok (some r) by simp [Heap.navTo, h3, Except.map]).symm.trans e)
    refine ⟨u, ?_, ?_⟩
    · show (if w.heap.alive n then _ else _) = _
      rw [ha]; exact e1
    · rw [this]
      exact (I.wf.tree.top r u h4 (I.wf.toFShape.parent_none h4 h5) ((I.wf.tree.treeCore_iff h4).1 h6)).symm
  | parent =>
    have := ok e
    rcases hcase with hc | ⟨p, l1, l2, hc⟩
    · refine .inr ⟨hc, ?_⟩
      rw [this]
      cases ep : w.heap.parentLink n with
      | none => rfl
      | some p => exact absurd ((C.parent p n ha).1 ep) (hc p)
    · have hm : n ∈ ch p := by simp [hc]
      exact .inl ⟨p, hm, by rw [this]; exact (C.parent p n ha).2 hm⟩
  | prevSibling =>
    rcases hcase with hc | ⟨p, l1, l2, hc⟩
    · exact .inr ⟨hc, ok ((C.top n ha hc).2.1.symm.trans e)⟩
    · exact .inl ⟨p, l1, l2, hc, ok ((C.prev p l1 n l2 hc).symm.trans e)⟩
  | nextSibling =>
    have := ok e
    rcases hcase with hc | ⟨p, l1, l2, hc⟩
    · exact .inr ⟨hc, by rw [this]; exact (C.top n ha hc).1⟩
    · exact .inl ⟨p, l1, l2, hc, by rw [this]; exact C.next p l1 n l2 hc⟩
  | firstSibling =>
    rcases hcase with hc | ⟨p, l1, l2, hc⟩
    · exact .inr ⟨hc, ok ((show w.heap.navTo n .firstSibling = .ok (some n) by
        simp [Heap.navTo, (C.top n ha hc).2.2.2.2.2.2.1, Except.map]).symm.trans e)⟩
    · have hm : n ∈ ch p := by simp [hc]
      obtain ⟨f, h1, h2⟩ := C.firstSib p n hm
      exact .inl ⟨p, hm, (ok ((show w.heap.navTo n .firstSibling = .ok (some f) by
        simp [Heap.navTo, h2, Except.map]).symm.trans e)).trans h1.symm⟩
  | lastSibling =>
    rcases hcase with hc | ⟨p, l1, l2, hc⟩
    · exact .inr ⟨hc, ok ((show w.heap.navTo n .lastSibling = .ok (some n) by
        simp [Heap.navTo, (C.top n ha hc).2.2.2.2.2.2.2.1, Except.map]).symm.trans e)⟩
    · have hm : n ∈ ch p := by simp [hc]
      obtain ⟨f, h1, h2⟩ := C.lastSib p n hm
      exact .inl ⟨p, hm, (ok ((show w.heap.navTo n .lastSibling = .ok (some f) by
        simp [Heap.navTo, h2, Except.map]).symm.trans e)).trans h1.symm⟩
  | firstChild => exact (ok e).trans (C.firstChild n ha)
  | lastChild => exact ok ((C.lastChild n ha).symm.trans e)

theorem Inv.play_nav {q : Nav} (I : Inv w ch) (ha : 0 < w.held k n) (hr : Room w.heap) :
    Plays w ch (.nav k q n) := by
  obtain ⟨o, e, hm⟩ := I.wf.navTo (I.held_alive ha) q
  have hF := I.finds (I.held_alive ha) e
  cases o with
  | none =>
    exact .mk (by simp [World.exec, e, bind, Except.bind, pure, Except.pure] <;> rfl) I.view (.navNone hF)
  | some m =>
    obtain ⟨h1, h2⟩ := hm m rfl
    obtain ⟨t, ht, -⟩ := I.wf.tree.live n (I.held_alive ha)
    obtain ⟨h', e', I', S⟩ := I.wrap (k := k) h1 (h2.trans ht) (hr.lockable I ha ht)
    exact .of I' (by simp [World.exec, e, e', bind, Except.bind, pure, Except.pure] <;> rfl)
      (I.shows_still (b := (w.view ch).give k m) S rfl rfl rfl rfl rfl rfl rfl rfl rfl rfl rfl) (.navSome hF)

theorem Inv.play_upgrade (I : Inv w ch) : Plays w ch (.upgrade n) := by
  cases ha : w.heap.alive n with
  | false =>
    refine .mk (by simp [World.exec, Heap.upgrade, ha, Option.filter] <;> rfl) I.view (.upgradeDead ?_)
    simp [Heap.alive] at ha; exact ha
  | true =>
    obtain ⟨t, ht, -⟩ := I.wf.tree.live n ha
    obtain ⟨h', e', I', S⟩ := I.wrap (k := .plain) ha ht trivial
    exact .of I' (by
      simp [World.exec, Heap.upgrade, ha, Option.filter, e', bind, Except.bind, pure, Except.pure] <;> rfl) (I.shows_still (b := (w.view ch).give .plain n) S rfl rfl rfl rfl rfl rfl rfl rfl rfl rfl rfl)
      (.upgrade (I.view.alive.1 ha))

theorem Inv.play_plainOf (I : Inv w ch) (ha : 0 < w.held k n) : Plays w ch (.plainOf k n) := by
  obtain ⟨h', e, I', S⟩ := I.clonePlain ha
  exact .of I' (by simp [World.exec, e, bind, Except.bind, pure, Except.pure] <;> rfl)
    (I.shows_still (b := (w.view ch).give .plain n) S rfl rfl rfl rfl rfl rfl rfl rfl rfl rfl rfl) (.plainOf k n)

theorem Inv.play_bundle (I : Inv w ch) (hk : k ≠ .plain) (ha : 0 < w.held .plain n)
    (hr : Room w.heap) : Plays w ch (.bundle k n) := by
  obtain ⟨t, rc, l, hm, hal, hta⟩ := I.tree_of_held ha
  have ht : (w.view ch).tree n = some t := by rw [I.view.tree_of hal]; exact memTree_strong hm
  obtain ⟨r1, r2⟩ := hr t hta
  have deny : ∀ c, k.lock = some c → (w.view ch).Refused t c → w.heap.acqLock n k = .ok none →
      Plays w ch (.bundle k n) := by
    intro c hc hR e
    obtain ⟨h', ch', e', I', K⟩ := I.dropPlain ha
    exact .of I' (by simp [World.exec, e, e', bind, Except.bind, pure, Except.pure] <;> rfl)
      (I.shows_drop (b := (w.view ch).take .plain n) I.view I' K (((Keep.refl w.heap).dropLink _ e').nNode)
        (sameNt_dropLink _ e') rfl rfl rfl rfl rfl rfl rfl rfl rfl rfl rfl) (.bundleRefused ht hc hR)
  have okc : ∀ c, k.lock = some c → ¬ (w.view ch).Refused t c → (∃ h', w.heap.acqLock n k = .ok (some h') ∧
      Inv ((({ w with heap := h' }).take .plain n).give k n) ch ∧ Still w.heap h') →
      Plays w ch (.bundle k n) := by
    rintro c hc hR ⟨h', e', I', K⟩
    exact .of I' (by simp [World.exec, e', bind, Except.bind, pure, Except.pure] <;> rfl)
      (I.shows_still (b := ((w.view ch).take .plain n).give k n) K rfl rfl rfl rfl rfl rfl rfl rfl rfl rfl rfl)
      (.bundle ht hc hR)
  cases k with
  | plain => simp at hk
  | hot =>
    rcases I.bundleHot ha hm with h1 | h1 | h1
    · exact deny true rfl ((I.view.refused I hta true).2 h1.1) h1.2
    · have := h1.1; simp only [Lock.isizeMax] at this; omega
    · refine okc true rfl (fun hR => ?_) h1.2
      have := (I.view.refused I hta true).1 hR
      simp only [if_true] at this
      have := h1.1
      omega
  | frozen =>
    rcases I.bundleFrozen ha hm with h1 | h1 | h1
    · exact deny false rfl ((I.view.refused I hta false).2 h1.1) h1.2
    · have := h1.1; simp only [Lock.isizeMin] at this; omega
    · refine okc false rfl (fun hR => ?_) h1.2
      have h2 := (I.view.refused I hta false).1 hR
      have h3 := h1.1
      simp only [Bool.false_eq_true, if_false] at h2
      omega

theorem Inv.play_bundleWith (I : Inv w ch) (ha : 0 < w.held .plain n)
    (hk : k = .hot ∧ 0 < w.grantTok t ∨ k = .frozen ∧ 0 < w.prohTok t)
    (hr : Room w.heap) (hf : w.heap.memTree n = some t) : Plays w ch (.bundleWith k n t) := by
  have hta := I.wf.tree_alive (I.held_alive ha) hf
  obtain ⟨r1, r2⟩ := hr t hta
  have hl : Lockable w.heap t k := by
    rcases hk with ⟨rfl, h1⟩ | ⟨rfl, h1⟩
    · have := I.grantTok_grants h1 hta
      simp only [Lockable, Lock.isizeMax]; omega
    · have := I.prohTok_grants h1 hta
      simp only [Lockable, Lock.isizeMin]; omega
  obtain ⟨h', e', I', K⟩ := I.lockPlain ha hf hl
  have hb : w.heap.belongsTo n t = true := by simp [Heap.belongsTo, hf]
  exact .of I' (by
    simp [World.exec, hb, e', bind, Except.bind, pure, Except.pure, Heap.expectLock] <;> rfl)
    (I.shows_still (b := ((w.view ch).take .plain n).give k n) K rfl rfl rfl rfl rfl rfl rfl rfl rfl rfl rfl)
    (.bundleWith (by rw [I.view.tree_of (I.held_alive ha)]; exact hf))

theorem Inv.play_treeOf (I : Inv w ch) (ha : 0 < w.held k n) : Plays w ch (.treeOf k n) := by
  obtain ⟨t, ht, hta⟩ := I.wf.tree.live n (I.held_alive ha)
  have e := I.wf.tree.treeCore (I.held_alive ha) ht
  obtain ⟨I', S⟩ := I.acqTree hta
  exact .of I' (by simp [World.exec, Heap.nodeTree, e, bind, Except.bind, pure, Except.pure] <;> rfl)
    (I.shows_still (b := (w.view ch).giveTree t) S rfl rfl rfl rfl rfl rfl rfl rfl rfl rfl rfl)
    (.treeOf (by rw [I.view.tree_of (I.held_alive ha)]; exact ht))

theorem Inv.play_cloneTree (I : Inv w ch) (ha : 0 < w.trees t) : Plays w ch (.cloneTree t) := by
  obtain ⟨I', S⟩ := I.acqTree (I.treesAlive t ha)
  exact .of I' rfl (I.shows_still (b := (w.view ch).giveTree t) S rfl rfl rfl rfl rfl rfl rfl rfl rfl rfl rfl)
    (.cloneTree t)

theorem Inv.play_dropTree (I : Inv w ch) (ha : 0 < w.trees t) : Plays w ch (.dropTree t) := by
  obtain ⟨h', ch', e, I', K⟩ := I.relTree ha
  exact .of I' (by simp [World.exec, e, bind, Except.bind, pure, Except.pure] <;> rfl)
    (I.shows_drop (b := (w.view ch).takeTree t) I.view I' K (((Keep.refl w.heap).relTree _ e).nNode)
      (sameNt_relTree _ e) rfl rfl rfl rfl rfl rfl rfl rfl rfl rfl rfl) (.dropTree t)

theorem Inv.play_treeRoot (I : Inv w ch) (ha : 0 < w.trees t) : Plays w ch (.treeRoot t) := by
  have hta := I.treesAlive t ha
  cases hr : w.heap.root t with
  | none => simp [Heap.treeAlive, hr] at hta
  | some r =>
    obtain ⟨h1, h2, h3⟩ := I.wf.tree.root t r hr
    obtain ⟨h', e', I', S⟩ := I.wrap (k := .plain) h1 h2 trivial
    exact .of I' (by
      simp [World.exec, Heap.rootLink, hr, e', bind, Except.bind, pure, Except.pure] <;> rfl)
      (I.shows_still (b := (w.view ch).give .plain r) S rfl rfl rfl rfl rfl rfl rfl rfl rfl rfl rfl)
      (.treeRoot hr)

theorem Inv.play_upgradeTree (I : Inv w ch) : Plays w ch (.upgradeTree t) := by
  cases ha : w.heap.treeAlive t with
  | false =>
    refine .mk (by simp [World.exec, ha] <;> rfl) I.view (.upgradeTreeDead ?_)
    simp [Heap.treeAlive] at ha; exact ha
  | true =>
    obtain ⟨I', S⟩ := I.acqTree ha
    refine .of I' (by simp [World.exec, ha] <;> rfl)
      (I.shows_still (b := (w.view ch).giveTree t) S rfl rfl rfl rfl rfl rfl rfl rfl rfl rfl rfl)
      (.upgradeTree ?_)
    intro hn
    have : w.heap.root t = none := hn
    simp [Heap.treeAlive, this] at ha

/-- Acquiring a token. -/
theorem Inv.play_acq {c : Bool} (I : Inv w ch) (hta : w.heap.treeAlive t = true) (hr : Room w.heap) :
    (w.execAcquire c t = .ok (w, .denied) ∧ (w.view ch).Refused t c) ∨
    ∃ w', w.execAcquire c t = .ok (w', .unit) ∧ Shows w' ((w.view ch).giveTok c t) ∧ ¬ (w.view ch).Refused t c := by
  obtain ⟨r1, r2⟩ := hr t hta
  rcases I.acquireTok hta c with h1 | h1 | h1
  · exact .inl ⟨h1.1, (I.view.refused I hta c).2 h1.2⟩
  · have := h1.2
    cases c <;> simp [Lock.isizeMin, Lock.isizeMax] at this <;> omega
  · obtain ⟨hg, h', e, I', S⟩ := h1
    refine .inr ⟨_, e, ?_, fun hR => ?_⟩
    · cases c <;>
        exact I.shows_still (b := (w.view ch).giveTok _ t) S rfl rfl rfl rfl rfl rfl rfl rfl rfl rfl rfl
    · have h2 := (I.view.refused I hta c).1 hR
      cases c <;> simp at h2 hg <;> omega

theorem Inv.play_acquire {c : Bool} (I : Inv w ch) (ha : 0 < w.trees t) (hr : Room w.heap) :
    Plays w ch (.acquire c t) := by
  rcases I.play_acq (c := c) (I.treesAlive t ha) hr with ⟨e, hR⟩ | ⟨w', e, S, hR⟩
  · exact .mk e I.view (.acquireRefused hR)
  · exact .mk e S (.acquire hR)

theorem Inv.play_cloneTok {c : Bool} (I : Inv w ch)
    (hk : if c then 0 < w.grantTok t else 0 < w.prohTok t) (hr : Room w.heap) :
    Plays w ch (.cloneTok c t) := by
  cases hta : w.heap.treeAlive t with
  | true =>
    rcases I.play_acq (c := c) hta hr with ⟨e, hR⟩ | ⟨w', e, S, hR⟩
    · exfalso
      have h2 := (I.view.refused I hta c).1 hR
      cases c with
      | true => have h3 := I.grantTok_grants (by simpa using hk) hta; simp at h2; omega
      | false => have h3 := I.prohTok_grants (by simpa using hk) hta; simp at h2; omega
    · exact .mk (by simp [World.exec, e, hta] <;> rfl) S (.cloneTok c t)
  | false =>
    refine .mk (w' := w.giveTok c t) (r := .unit) (by simp [World.exec, hta]) ?_ (.cloneTok c t)
    cases c <;>
      exact I.shows_still (b := (w.view ch).giveTok _ t) (Still.refl _) rfl rfl rfl rfl rfl rfl rfl rfl rfl rfl rfl

theorem Inv.play_dropTok {c : Bool} (I : Inv w ch)
    (hk : if c then 0 < w.grantTok t else 0 < w.prohTok t) : Plays w ch (.dropTok c t) := by
  cases hta : w.heap.treeAlive t with
  | true =>
    obtain ⟨g, e, I', S⟩ := I.releaseTok hta hk
    refine .mk (w' := ({ w with heap := w.heap.setGrants t g }).takeTok c t) (r := .unit)
      (by simp [World.exec, e, hta, bind, Except.bind, pure, Except.pure]) ?_ (.dropTok c t)
    cases c <;>
      exact I.shows_still (b := (w.view ch).takeTok _ t) S rfl rfl rfl rfl rfl rfl rfl rfl rfl rfl rfl
  | false =>
    refine .mk (w' := w.takeTok c t) (r := .unit) (by simp [World.exec, hta]) ?_ (.dropTok c t)
    cases c <;>
      exact I.shows_still (b := (w.view ch).takeTok _ t) (Still.refl _) rfl rfl rfl rfl rfl rfl rfl rfl rfl rfl rfl

theorem Inv.play_extract {c : Bool} (I : Inv w ch)
    (hk : if c then 0 < w.held .hot n else 0 < w.held .frozen n) (hr : Room w.heap) :
    Plays w ch (.extract c n) := by
  have ha : w.heap.alive n = true := by
    cases c <;> simp at hk <;> exact I.held_alive hk
  obtain ⟨t, ht, hta⟩ := I.wf.tree.live n ha
  have e := I.wf.tree.treeCore ha ht
  rcases I.play_acq (c := c) hta hr with ⟨e1, hR⟩ | ⟨w', e1, S, hR⟩
  · exfalso
    have h2 := (I.view.refused I hta c).1 hR
    cases c with
    | true => have h3 := I.hot_grants (n := n) (by simpa using hk) ht; simp at h2; omega
    | false => have h3 := I.frozen_grants (n := n) (by simpa using hk) ht; simp at h2; omega
  · refine .mk (w' := w') (r := .unit) ?_ S (.extract (by rw [I.view.tree_of ha]; exact ht))
    simp only [World.exec, Heap.nodeTree, e, bind, Except.bind, e1, pure, Except.pure]

theorem Inv.play_write {d : α} (I : Inv w ch) (ha : w.Holds n) : Plays w ch (.write n d) := by
  obtain ⟨k, ha⟩ := ha
  have hal := I.held_alive ha
  have hbn : (w.view ch).borrowed n = w.heap.mutB n := by simp [World.view, hal]
  cases hb : w.heap.mutB n with
  | true =>
    exact .mk (by simp [World.exec, hb] <;> rfl) I.view (.writeBorrowed (by rw [hbn, hb]))
  | false =>
    have hal' : ∀ x, (w.heap.setData n d).alive x = w.heap.alive x := by
      intro x
      by_cases e : x = n
      · subst e; rw [hal]; simp [Heap.alive, Heap.setData]
      · simp [Heap.alive, Heap.setData, e]
    refine .mk (w' := { w with heap := w.heap.setData n d }) (r := .unit) (by simp [World.exec, hb]) ?_
      (.write (by rw [hbn, hb]))
    have F := I.wf.toFShape
    refine ⟨⟨fun p hp => F.dead p ((hal' p).symm.trans hp), fun p hp => F.first p ((hal' p).symm.trans hp), F.nodup,
      fun p c => by rw [show (w.view ch).children p = ch p from rfl, F.mem, hal']; rfl, F.seg,
      fun p hp => F.rootNext p ((hal' p).symm.trans hp), F.acyc, fun p hp => F.bound p ((hal' p).symm.trans hp)⟩,
      rfl, ?_, ?_, rfl, rfl, rfl, rfl, rfl, rfl, rfl⟩
    · intro x
      show (w.heap.alive x && w.heap.mutB x) = ((w.heap.setData n d).alive x && w.heap.mutB x)
      rw [hal']
    · intro x
      show (if w.heap.alive x then _ else _) = if (w.heap.setData n d).alive x then _ else _
      rw [hal']; rfl

theorem Inv.play_borrowMut {c : Bool} (I : Inv w ch) (ha : w.Holds n) : Plays w ch (.borrowMut n c) := by
  obtain ⟨k, ha⟩ := ha
  have hal := I.held_alive ha
  have hbn : (w.view ch).borrowed n = w.heap.mutB n := by simp [World.view, hal]
  have main : Shows ({ w with heap := { w.heap with mutB := upd w.heap.mutB n c } } : World α)
      { w.view ch with borrowed := upd (w.view ch).borrowed n c } := by
    have F := I.wf.toFShape
    refine ⟨⟨F.dead, F.first, F.nodup, F.mem, F.seg, F.rootNext, F.acyc, F.bound⟩,
      rfl, ?_, fun _ => rfl, rfl, rfl, rfl, rfl, rfl, rfl, rfl⟩
    intro x
    show upd _ n c x = (w.heap.alive x && upd w.heap.mutB n c x)
    simp only [upd_apply, World.view]
    split
    · rename_i e; subst e; rw [hal]; rfl
    · rfl
  cases c with
  | true =>
    cases hb : w.heap.mutB n with
    | true => exact .mk (by simp [World.exec, hb] <;> rfl) I.view (.borrowBorrowed (by rw [hbn, hb]))
    | false => exact .mk (by simp [World.exec, hb] <;> rfl) main (.borrow (by rw [hbn, hb]))
  | false => exact .mk (by simp [World.exec] <;> rfl) main .borrowEnd

end Dendron
