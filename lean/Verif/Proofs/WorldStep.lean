import Verif.Proofs.WorldEdit
import Verif.Proofs.SimWorld
import Verif.Spec.Wide

/-! Every call keeps the invariant: calls that do not edit the hierarchy. -/

set_option linter.unusedSimpArgs false
set_option linter.unusedVariables false

set_option autoImplicit false

namespace Dendron
variable {α : Type} {h h' : Heap α} {w w' : World α} {ch ch' : NodeId → List NodeId} {n m r : NodeId}
  {t t' : TreeId} {k : Kind} {op : Op α}

theorem Keeps.mono {U U' : TreeId → Prop} {X X' : NodeId → Prop} (K : Keeps h h' ch ch' U X)
    (hU : ∀ t, U t → U' t) (hX : ∀ n, X n → X' n) : Keeps h h' ch ch' U' X' where
  stay n t a b c := K.stay n t a b (fun e => c (hU t e))
  noJoin n t a b c := K.noJoin n t a b (fun e => c (hU t e))
  died := K.died
  data n a b c := K.data n a b (fun e => c (hX n e))
  mutB n a b c := K.mutB n a b (fun e => c (hX n e))
  nodes := K.nodes
  trees := K.trees
  fresh := K.fresh
  freshTree := K.freshTree

/-- First siblings remain first siblings, unless the call depends on the end of their list. -/
def HeadsKept (h h' : Heap α) (ch ch' : NodeId → List NodeId) (op : Op α) : Prop :=
  ∀ q x, (ch q).head? = some x → h'.alive x = true →
    (∀ p, UsesLast ch op p → (ch p).head? ≠ some x) →
    ∃ q', (ch' q').head? = some x ∧ (q' = q ∨ h.nNode ≤ q')

/-- The pointers `D` that may be stale after the call. -/
def StaleOK (h' : Heap α) (ch ch' : NodeId → List NodeId) (op : Op α) (D : NodeId → Prop) : Prop :=
  ∀ x, D x → x < h'.nNode ∧ ∃ q, DropsLast ch op q ∧ (ch q).head? = some x ∧
    (h'.alive x = true → (ch' q).head? = some x)

/-- The call succeeds and keeps the invariant, up to stale pointers. -/
def StepOK (w : World α) (ch : NodeId → List NodeId) (op : Op α) : Prop :=
  ∃ w1 r w' ch' D, w.exec op = .ok (w1, r) ∧ SimW D w1 w' ∧ Inv w' ch' ∧
    Keeps w.heap w'.heap ch ch' (Edits w.heap op) (Writes op) ∧ HeadsKept w.heap w'.heap ch ch' op ∧
    StaleOK w'.heap ch ch' op D

theorem StepOK.mk {r : Res} (e : w.exec op = .ok (w', r)) (I : Inv w' ch')
    (K : Keeps w.heap w'.heap ch ch' (Edits w.heap op) (Writes op))
    (H : HeadsKept w.heap w'.heap ch ch' op) : StepOK w ch op :=
  ⟨w', r, w', ch', fun _ => False, e, SimW.refl _, I, K, H, fun x hx => hx.elim⟩

theorem HeadsKept.same : HeadsKept h h' ch ch op := fun q x hx _ _ => ⟨q, hx, .inl rfl⟩

theorem StepOK.of_still {r : Res} (e : w.exec op = .ok (w', r)) (I : Inv w' ch)
    (S : Still w.heap w'.heap) : StepOK w ch op :=
  .mk e I (S.keeps ch _ _) HeadsKept.same

/-- In a tree that is not edited, a node keeps its parent and its place. -/
theorem Keeps.parent_stays {U : TreeId → Prop} {X : NodeId → Prop} {x p : NodeId} (K : Keeps h h' ch ch' U X)
    (W : WF h ch) (W' : WF h' ch') (hx : x ∈ ch p) (hu : ∀ t, h.memTree x = some t → ¬ U t)
    (ha : h'.alive x = true) : ch' p = ch p := by
  have hxa := W.alive_of_mem hx
  have hpa := W.alive_parent hx
  obtain ⟨t, ht, hta⟩ := W.tree.live x hxa
  have hpt : h.memTree p = some t := by
    rw [← W.tree.child x p hxa (W.parent_of_mem hx)]; exact ht
  have hta' : h'.treeAlive t = true := W'.tree_alive ha (K.stay x t hxa ht (hu t ht) ha).1
  have hpa' : h'.alive p = true := by
    cases e : h'.alive p with
    | true => rfl
    | false => rw [K.died p t hpa e hpt] at hta'; cases hta'
  exact (K.stay p t hpa hpt (hu t ht) hpa').2

theorem StepOK.of_keeps {r : Res} (J : Inv w ch) (e : w.exec op = .ok (w', r)) (I : Inv w' ch')
    (S : Keeps w.heap w'.heap ch ch' NoTree NoNode) : StepOK w ch op :=
  .mk e I (S.mono (fun _ e => e.elim) (fun _ e => e.elim)) fun q x hx ha _ =>
    ⟨q, by rw [S.parent_stays J.wf I.wf (List.mem_of_head? hx) (fun _ _ e => e.elim) ha]; exact hx, .inl rfl⟩

/-- A hot handle means there are edit grants. -/
theorem Inv.hot_grants (I : Inv w ch) (hk : 0 < w.held .hot n) (ht : w.heap.memTree n = some t) :
    0 < w.heap.grants t := by
  obtain ⟨L, hL, hmem, hmode, -⟩ := I.locks t (I.wf.tree_alive (I.held_alive hk) ht)
  have hin : 0 < L.length := List.length_pos_of_mem ((hmem n).2 ⟨ht, by omega⟩)
  rcases hmode with ⟨a, b, c⟩ | ⟨a, b, c⟩
  · omega
  · have := b n ht; omega

/-- A frozen handle means there are edit prohibitions. -/
theorem Inv.frozen_grants (I : Inv w ch) (hk : 0 < w.held .frozen n)
    (ht : w.heap.memTree n = some t) : w.heap.grants t < 0 := by
  obtain ⟨L, hL, hmem, hmode, -⟩ := I.locks t (I.wf.tree_alive (I.held_alive hk) ht)
  have hin : 0 < L.length := List.length_pos_of_mem ((hmem n).2 ⟨ht, by omega⟩)
  rcases hmode with ⟨a, b, c⟩ | ⟨a, b, c⟩
  · have := b n ht; omega
  · omega

theorem Inv.grantTok_grants (I : Inv w ch) (hk : 0 < w.grantTok t)
    (hta : w.heap.treeAlive t = true) : 0 < w.heap.grants t := by
  obtain ⟨L, hL, hmem, hmode, -⟩ := I.locks t hta
  rcases hmode with ⟨a, b, c⟩ | ⟨a, b, c⟩ <;> omega

theorem Inv.prohTok_grants (I : Inv w ch) (hk : 0 < w.prohTok t)
    (hta : w.heap.treeAlive t = true) : w.heap.grants t < 0 := by
  obtain ⟨L, hL, hmem, hmode, -⟩ := I.locks t hta
  rcases hmode with ⟨a, b, c⟩ | ⟨a, b, c⟩ <;> omega

theorem Inv.auth_grants {a : Auth} (I : Inv w ch) (ha : w.HasAuth n a)
    (hf : TokenFits w.heap n a) (ht : w.heap.memTree n = some t) : 0 < w.heap.grants t := by
  cases a with
  | hot => exact I.hot_grants ha ht
  | token u =>
    obtain ⟨h1, h2⟩ := ha
    have e : w.heap.memTree n = some u := hf
    rw [e] at ht
    obtain rfl : u = t := by simpa using ht
    exact I.grantTok_grants h2 (I.wf.tree_alive (I.held_alive h1) e)

theorem World.HasAuth.holds {a : Auth} (ha : w.HasAuth n a) : 0 < w.held a.kind n := by
  cases a with
  | hot => exact ha
  | token t => exact ha.1

/-- The lock counter allows another lock of kind `k`. -/
def Lockable (h : Heap α) (t : TreeId) : Kind → Prop
  | .plain => True
  | .hot => 0 ≤ h.grants t ∧ h.grants t < Lock.isizeMax
  | .frozen => h.grants t ≤ 0 ∧ Lock.isizeMin < h.grants t

theorem take_give (w : World α) (h' : Heap α) (k k' : Kind) (n : NodeId) :
    ((({ (({ w with heap := h }).give k n) with heap := h' }).take k n).give k' n)
      = ({ w with heap := h' }).give k' n := by
  simp only [World.give, World.take]
  congr 1
  funext k'' m
  by_cases e : k'' = k ∧ m = n <;> simp [e]

/-- Turning a plain handle into one of kind `k`. -/
theorem Inv.lockPlain (I : Inv w ch) (hp : 0 < w.held .plain n) (ht : w.heap.memTree n = some t)
    (hl : Lockable w.heap t k) :
    ∃ h', w.heap.acqLock n k = .ok (some h') ∧
      Inv ((({ w with heap := h' }).take .plain n).give k n) ch ∧ Still w.heap h' := by
  obtain ⟨u, rc, l, hm, -, -⟩ := I.tree_of_held hp
  obtain rfl : u = t := by rw [memTree_strong hm] at ht; simpa using ht
  cases k with
  | plain =>
    refine ⟨w.heap, rfl, ?_, Still.refl _⟩
    have : (({ w with heap := w.heap } : World α).take .plain n).give .plain n = w := by
      simp only [World.give, World.take]
      have e : (fun k' m => if k' = Kind.plain ∧ m = n then
          (if k' = Kind.plain ∧ m = n then w.held k' m - 1 else w.held k' m) + 1 else
          if k' = Kind.plain ∧ m = n then w.held k' m - 1 else w.held k' m) = w.held := by
        funext k' m
        by_cases e : k' = .plain ∧ m = n
        · simp only [e, and_self, if_true]; omega
        · simp [e]
      rw [e]
    rw [this]; exact I
  | hot =>
    obtain ⟨l1, l2⟩ := hl
    rcases I.bundleHot hp hm with h1 | h1 | h1
    · have := h1.1; omega
    · have := h1.1; omega
    · exact h1.2
  | frozen =>
    obtain ⟨l1, l2⟩ := hl
    rcases I.bundleFrozen hp hm with h1 | h1 | h1
    · have := h1.1; omega
    · have := h1.1; omega
    · exact h1.2

/-- Wrapping a living node into a handle of kind `k`. -/
theorem Inv.wrap (I : Inv w ch) (ha : w.heap.alive n = true) (ht : w.heap.memTree n = some t)
    (hl : Lockable w.heap t k) :
    ∃ h', w.heap.wrap n k = .ok h' ∧ Inv (({ w with heap := h' }).give k n) ch ∧
      Still w.heap h' := by
  obtain ⟨h1, e1, I1, S1⟩ := I.givePlain ha
  have hg : ∀ u, h1.grants u = w.heap.grants u := by
    intro u
    unfold Heap.withNodeCore Heap.incRef at e1
    cases hm : w.heap.mem n with
    | strong u rc l => simp [hm] at e1; subst e1; rfl
    | weak o =>
      simp only [hm] at e1
      cases hf : o.filter w.heap.treeAlive with
      | none => simp [hf] at e1
      | some u => simp [hf] at e1; subst e1; rfl
  have hl1 : Lockable h1 t k := by
    cases k <;> simp only [Lockable, hg] at hl ⊢ <;> exact hl
  obtain ⟨h2, e2, I2, S2⟩ := I1.lockPlain (n := n) (by simp) ((S1.memTree n).trans ht) hl1
  refine ⟨h2, ?_, ?_, S1.trans S2⟩
  · simp only [give_heap] at e2
    simp [Heap.wrap, e1, bind, Except.bind, e2, Heap.expectLock]
  · have := take_give (h := h1) w h2 .plain k n
    rw [this] at I2
    exact I2

theorem Room.lockable (hr : Room w.heap) (I : Inv w ch) (hk : 0 < w.held k n)
    (ht : w.heap.memTree n = some t) : Lockable w.heap t k := by
  have := hr t (I.wf.tree_alive (I.held_alive hk) ht)
  cases k with
  | plain => trivial
  | hot =>
    have := I.hot_grants hk ht
    simp only [Lockable, Lock.isizeMax]; omega
  | frozen =>
    have := I.frozen_grants hk ht
    simp only [Lockable, Lock.isizeMin]; omega

/-- Navigation leads to a living node of the same tree. -/
theorem WF.navTo (W : WF h ch) (ha : h.alive n = true) (q : Nav) :
    ∃ o, h.navTo n q = .ok o ∧
      ∀ m, o = some m → h.alive m = true ∧ h.memTree m = h.memTree n := by
  have C := W.coherent
  have T := W.tree
  obtain ⟨t, ht, hta⟩ := W.tree.live n ha
  have hchild : ∀ p c, c ∈ ch p → h.alive c = true ∧ h.memTree c = h.memTree p := fun p c hc =>
    ⟨W.alive_of_mem hc, T.child c p (W.alive_of_mem hc) (W.parent_of_mem hc)⟩
  have hsib : ∀ p m, n ∈ ch p → m ∈ ch p → h.alive m = true ∧ h.memTree m = h.memTree n := by
    intro p m h1 h2
    exact ⟨(hchild p m h2).1, (hchild p m h2).2.trans (hchild p n h1).2.symm⟩
  have hcase : (∀ p, n ∉ ch p) ∨ ∃ p l1 l2, ch p = l1 ++ n :: l2 := by
    by_cases e : ∃ p, n ∈ ch p
    · obtain ⟨p, hp⟩ := e
      obtain ⟨l1, l2, e⟩ := List.append_of_mem hp
      exact .inr ⟨p, l1, l2, e⟩
    · exact .inl (fun p hp => e ⟨p, hp⟩)
  cases q with
  | root =>
    obtain ⟨u, r, h1, h2, h3, h4, h5, h6⟩ := W.trees.root n ha
    have e1 := (T.treeCore_iff ha).1 h1
    have e2 := (T.treeCore_iff h4).1 h6
    refine ⟨some r, by simp [Heap.navTo, h3, Except.map], ?_⟩
    rintro m ⟨⟩
    exact ⟨h4, e2.trans e1.symm⟩
  | parent =>
    refine ⟨_, rfl, ?_⟩
    intro m hm
    have := (C.parent m n ha).1 hm
    exact ⟨(C.alive m n this).1, (hchild m n this).2.symm⟩
  | prevSibling =>
    rcases hcase with hc | ⟨p, l1, l2, hc⟩
    · exact ⟨none, (C.top n ha hc).2.1, by simp⟩
    · refine ⟨_, C.prev p l1 n l2 hc, ?_⟩
      intro m hm
      have : m ∈ l1 := List.mem_of_getLast? hm
      exact hsib p m (by simp [hc]) (by simp [hc, this])
  | nextSibling =>
    refine ⟨_, rfl, ?_⟩
    intro m hm
    rcases hcase with hc | ⟨p, l1, l2, hc⟩
    · rw [(C.top n ha hc).1] at hm; simp at hm
    · rw [C.next p l1 n l2 hc] at hm
      have : m ∈ l2 := List.mem_of_mem_head? hm
      exact hsib p m (by simp [hc]) (by simp [hc, this])
  | firstSibling =>
    rcases hcase with hc | ⟨p, l1, l2, hc⟩
    · refine ⟨some n, by simp [Heap.navTo, (C.top n ha hc).2.2.2.2.2.2.1, Except.map], ?_⟩
      rintro m ⟨⟩; exact ⟨ha, rfl⟩
    · obtain ⟨f, h1, h2⟩ := C.firstSib p n (by simp [hc])
      refine ⟨some f, by simp [Heap.navTo, h2, Except.map], ?_⟩
      rintro m ⟨⟩
      exact hsib p f (by simp [hc]) (List.mem_of_mem_head? h1)
  | lastSibling =>
    rcases hcase with hc | ⟨p, l1, l2, hc⟩
    · refine ⟨some n, by simp [Heap.navTo, (C.top n ha hc).2.2.2.2.2.2.2.1, Except.map], ?_⟩
      rintro m ⟨⟩; exact ⟨ha, rfl⟩
    · obtain ⟨f, h1, h2⟩ := C.lastSib p n (by simp [hc])
      refine ⟨some f, by simp [Heap.navTo, h2, Except.map], ?_⟩
      rintro m ⟨⟩
      exact hsib p f (by simp [hc]) (List.mem_of_getLast? h1)
  | firstChild =>
    refine ⟨_, rfl, ?_⟩
    intro m hm
    rw [C.firstChild n ha] at hm
    exact hchild n m (List.mem_of_mem_head? hm)
  | lastChild =>
    refine ⟨_, C.lastChild n ha, ?_⟩
    intro m hm
    exact hchild n m (List.mem_of_getLast? hm)


/-- A new tree with a plain handle to its root. -/
theorem Inv.newTreePlain {d : α} (I : Inv w ch) :
    ∃ h', w.heap.newTreeRoot d = (h', w.heap.nNode) ∧
      Inv (({ w with heap := h' }).give .plain w.heap.nNode) ch ∧
      Keeps w.heap h' ch ch NoTree NoNode ∧ h'.memTree w.heap.nNode = some w.heap.nTree ∧
      h'.grants w.heap.nTree = 0 := by
  obtain ⟨h', e, W, hdata, hmtn, hroot, hmem, hgr, hrc, hnn, hnt, -, hmut⟩ :=
    newTreeRoot_wf I.wf d I.wf.tree.fresh_tree
  have hfresh : w.heap.alive w.heap.nNode = false := I.wf.toFShape.fresh_not_alive
  have hz : ∀ k, w.held k w.heap.nNode = 0 := fun k => I.held_dead hfresh
  obtain ⟨z1, z2, z3⟩ := I.fresh_tok (t := w.heap.nTree) (Nat.le_refl _)
  have hal : ∀ x, x ≠ w.heap.nNode → h'.alive x = w.heap.alive x := by
    intro x hx; simp [Heap.alive, hdata, hx]
  have hmt : ∀ x, x ≠ w.heap.nNode → h'.memTree x = w.heap.memTree x := by
    intro x hx; simp [Heap.memTree, hmem, hx]
  have hta : ∀ u, u ≠ w.heap.nTree → h'.treeAlive u = w.heap.treeAlive u := by
    intro u hu; simp [Heap.treeAlive, hroot, hu]
  have ne_of_alive : ∀ x, w.heap.alive x = true → x ≠ w.heap.nNode := by
    rintro x hx rfl; rw [hfresh] at hx; cases hx
  have hnot : ∀ x, w.heap.alive x = true → w.heap.memTree x ≠ some w.heap.nTree := by
    intro x hx hm
    have := I.wf.tree_alive hx hm
    rw [I.wf.tree.fresh_tree] at this; cases this
  refine ⟨h', e, ?_, ?_, hmtn, by simp [hgr]⟩
  · constructor
    · exact W
    · intro x u rc l hx
      simp only [give_heap, hmem, upd_apply] at hx
      split at hx
      · rename_i e; subst e
        simp at hx
        simp [hz]; omega
      · rename_i e; simp only [give_held, e, and_false, if_false]; exact I.strong _ _ _ _ hx
    · intro x o hx k
      simp only [give_heap, hmem, upd_apply] at hx
      split at hx
      · cases hx
      · rename_i e; simp only [give_held, e, and_false, if_false]; exact I.weak _ _ hx k
    · intro u
      simp only [give_heap, give_trees, hrc, upd_apply]
      split
      · rename_i e; rw [e, z3]
      · exact I.treeRc u
    · intro u hu
      have hne : u ≠ w.heap.nTree := by
        rintro rfl; simp only [give_trees] at hu; omega
      simp only [give_heap, hta u hne]; exact I.treesAlive u hu
    · intro u hu; simp only [give_heap, hnt]; exact Nat.lt_succ_of_lt (I.toks u hu)
    · intro u hu
      by_cases hne : u = w.heap.nTree
      · subst hne
        refine ⟨[], List.nodup_nil, ?_, .inl ⟨z2, ?_, ?_⟩, ?_⟩
        · intro x
          simp only [List.not_mem_nil, false_iff, not_and, Nat.not_lt, give_heap]
          intro hx
          by_cases hxn : x = w.heap.nNode
          · subst hxn; simp [hz]
          · rw [hmt x hxn] at hx
            have hd : w.heap.alive x = false := by
              cases ha : w.heap.alive x with
              | false => rfl
              | true => exact absurd hx (hnot x ha)
            simp [I.held_dead hd]
        · intro x hx
          by_cases hxn : x = w.heap.nNode
          · subst hxn; simp [hz]
          · simp only [give_heap] at hx
            rw [hmt x hxn] at hx
            have hd : w.heap.alive x = false := by
              cases ha : w.heap.alive x with
              | false => rfl
              | true => exact absurd hx (hnot x ha)
            simp [I.held_dead hd]
        · simp [hgr, z1]
        · simp [hgr, Lock.isizeMin, Lock.isizeMax]
      · simp only [give_heap, hta u hne] at hu
        refine (I.locks u hu).congr (by simp [hgr, hne]) rfl rfl ?_ ?_
        · intro x h0 hx
          have hxn : x ≠ w.heap.nNode := by
            rintro rfl; simp [hz] at h0
          simp only [give_heap] at hx
          rw [hmt x hxn] at hx
          exact ⟨hx, by simp, by simp⟩
        · intro x h0 hx
          have hxn : x ≠ w.heap.nNode := by
            rintro rfl; simp [hz] at h0
          simp only [give_heap]
          exact ⟨by rw [hmt x hxn]; exact hx, by simp, by simp⟩
  · constructor
    · intro x u ha hm hu _
      exact ⟨by rw [hmt x (ne_of_alive x ha)]; exact hm, rfl⟩
    · intro x u ha hm hu hlt
      have hxn : x ≠ w.heap.nNode := by
        rintro rfl; rw [hmtn] at hm
        have : w.heap.nTree = u := by simpa using hm
        rw [this] at hlt; exact Nat.lt_irrefl _ hlt
      exact ⟨by rw [← hal x hxn]; exact ha, by rw [← hmt x hxn]; exact hm⟩
    · intro x u ha hd _; rw [hal x (ne_of_alive x ha), ha] at hd; cases hd
    · intro x ha _ _; rw [hdata, upd_ne _ _ (ne_of_alive x ha)]
    · intro x ha _ _; rw [hmut, upd_ne _ _ (ne_of_alive x ha)]
    · rw [hnn]; exact Nat.le_succ _
    · rw [hnt]; exact Nat.le_succ _
    · intro x hb hd; rw [hal x (Nat.ne_of_lt hb)]; exact hd
    · intro u hb hd; rw [hta u (Nat.ne_of_lt hb)]; exact hd

/-- Wrapping of a newly created node. -/
theorem Inv.created {w0 : World α} (I : Inv (({ w0 with heap := h' }).give .plain n) ch)
    (ht : h'.memTree n = some t) (hl : Lockable h' t k) :
    ∃ h'', ({ w0 with heap := h' } : World α).created k n
        = .ok (({ w0 with heap := h'' }).give k n, .node (some n)) ∧
      Inv (({ w0 with heap := h'' }).give k n) ch ∧ Still h' h'' := by
  obtain ⟨h2, e2, I2, S2⟩ := I.lockPlain (n := n) (k := k) (by simp) ht hl
  rw [take_give] at I2
  refine ⟨h2, ?_, I2, S2⟩
  simp only [give_heap] at e2
  simp [World.created, e2, bind, Except.bind, Heap.expectLock, pure, Except.pure]

theorem Inv.step_newTree {hot : Bool} {d : α} (I : Inv w ch) : StepOK w ch (.newTree hot d) := by
  obtain ⟨h', e, I1, K, hm, hg⟩ := I.newTreePlain (d := d)
  obtain ⟨h2, e2, I2, S2⟩ := I1.created (k := if hot then .hot else .plain) hm
    (by cases hot <;> simp [Lockable, hg, Lock.isizeMax])
  refine .of_keeps (ch' := ch) I (w' := ({ w with heap := h2 }).give (if hot then .hot else .plain) w.heap.nNode)
    (r := .node (some w.heap.nNode)) ?_ I2 (K.still S2)
  simp only [World.exec, e]
  exact e2

theorem Inv.step_clone (I : Inv w ch) (ha : 0 < w.held k n) : StepOK w ch (.clone k n) := by
  obtain ⟨h', e, I', S⟩ := I.cloneHandle ha
  exact .of_still (by simp [World.exec, e, bind, Except.bind, pure, Except.pure]; rfl) I' S

theorem Inv.step_drop (I : Inv w ch) (ha : 0 < w.held k n) : StepOK w ch (.drop k n) := by
  obtain ⟨h', ch', e, I', S⟩ := I.dropHandle ha
  exact .of_keeps I (by simp [World.exec, e, bind, Except.bind, pure, Except.pure]; rfl) I' S

theorem Inv.step_nav {q : Nav} (I : Inv w ch) (ha : 0 < w.held k n) (hr : Room w.heap) :
    StepOK w ch (.nav k q n) := by
  obtain ⟨o, e, hm⟩ := I.wf.navTo (I.held_alive ha) q
  cases o with
  | none =>
    exact .of_still (by simp [World.exec, e, bind, Except.bind, pure, Except.pure]; rfl) I
      (Still.refl _)
  | some m =>
    obtain ⟨h1, h2⟩ := hm m rfl
    obtain ⟨t, ht, -⟩ := I.wf.tree.live n (I.held_alive ha)
    obtain ⟨h', e', I', S⟩ := I.wrap (k := k) h1 (h2.trans ht) (hr.lockable I ha ht)
    exact .of_still (by simp [World.exec, e, e', bind, Except.bind, pure, Except.pure]; rfl) I' S

theorem Inv.step_upgrade (I : Inv w ch) : StepOK w ch (.upgrade n) := by
  cases ha : w.heap.alive n with
  | false =>
    exact .of_still (by simp [World.exec, Heap.upgrade, ha, Option.filter]; rfl) I
      (Still.refl _)
  | true =>
    obtain ⟨t, ht, -⟩ := I.wf.tree.live n ha
    obtain ⟨h', e', I', S⟩ := I.wrap (k := .plain) ha ht trivial
    exact .of_still (by
      simp [World.exec, Heap.upgrade, ha, Option.filter, e', bind, Except.bind, pure, Except.pure]
      rfl) I' S

theorem Inv.step_plainOf (I : Inv w ch) (ha : 0 < w.held k n) : StepOK w ch (.plainOf k n) := by
  obtain ⟨h', e, I', S⟩ := I.clonePlain ha
  exact .of_still (by simp [World.exec, e, bind, Except.bind, pure, Except.pure]; rfl) I' S

theorem Inv.step_bundle (I : Inv w ch) (hk : k ≠ .plain) (ha : 0 < w.held .plain n)
    (hr : Room w.heap) : StepOK w ch (.bundle k n) := by
  obtain ⟨t, rc, l, hm, hal, hta⟩ := I.tree_of_held ha
  obtain ⟨r1, r2⟩ := hr t hta
  have deny : w.heap.acqLock n k = .ok none → StepOK w ch (.bundle k n) := by
    intro e
    obtain ⟨h', ch', e', I', K⟩ := I.dropPlain ha
    exact .of_keeps I (by simp [World.exec, e, e', bind, Except.bind, pure, Except.pure]; rfl) I' K
  have okc : (∃ h', w.heap.acqLock n k = .ok (some h') ∧
      Inv ((({ w with heap := h' }).take .plain n).give k n) ch ∧ Still w.heap h') →
      StepOK w ch (.bundle k n) := by
    rintro ⟨h', e', I', K⟩
    exact .of_still (by simp [World.exec, e', bind, Except.bind, pure, Except.pure]; rfl) I' K
  cases k with
  | plain => simp at hk
  | hot =>
    rcases I.bundleHot ha hm with h1 | h1 | h1
    · exact deny h1.2
    · have := h1.1; simp only [Lock.isizeMax] at this; omega
    · exact okc h1.2
  | frozen =>
    rcases I.bundleFrozen ha hm with h1 | h1 | h1
    · exact deny h1.2
    · have := h1.1; simp only [Lock.isizeMin] at this; omega
    · exact okc h1.2

theorem Inv.step_bundleWith (I : Inv w ch) (ha : 0 < w.held .plain n)
    (hk : k = .hot ∧ 0 < w.grantTok t ∨ k = .frozen ∧ 0 < w.prohTok t)
    (hr : Room w.heap) (hf : w.heap.memTree n = some t) : StepOK w ch (.bundleWith k n t) := by
  have hta := I.wf.tree_alive (I.held_alive ha) hf
  obtain ⟨r1, r2⟩ := hr t hta
  have hl : Lockable w.heap t k := by
    rcases hk with ⟨rfl, h1⟩ | ⟨rfl, h1⟩
    · have := I.grantTok_grants h1 hta
      simp only [Lockable, Lock.isizeMax]; omega
    · have := I.prohTok_grants h1 hta
      simp only [Lockable, Lock.isizeMin]; omega
  obtain ⟨h', e', I', K⟩ := I.lockPlain ha hf hl
  have hb : w.heap.belongsTo n t = true := by simp [Heap.belongsTo, hf]
  exact .of_still (by
    simp [World.exec, hb, e', bind, Except.bind, pure, Except.pure, Heap.expectLock]; rfl) I' K

theorem Inv.step_treeOf (I : Inv w ch) (ha : 0 < w.held k n) : StepOK w ch (.treeOf k n) := by
  obtain ⟨t, ht, hta⟩ := I.wf.tree.live n (I.held_alive ha)
  have e := I.wf.tree.treeCore (I.held_alive ha) ht
  obtain ⟨I', S⟩ := I.acqTree hta
  exact .of_still (by simp [World.exec, Heap.nodeTree, e, bind, Except.bind, pure, Except.pure]; rfl) I' S

theorem Inv.step_cloneTree (I : Inv w ch) (ha : 0 < w.trees t) : StepOK w ch (.cloneTree t) := by
  obtain ⟨I', S⟩ := I.acqTree (I.treesAlive t ha)
  exact .of_still rfl I' S

theorem Inv.step_dropTree (I : Inv w ch) (ha : 0 < w.trees t) : StepOK w ch (.dropTree t) := by
  obtain ⟨h', ch', e, I', S⟩ := I.relTree ha
  exact .of_keeps I (by simp [World.exec, e, bind, Except.bind, pure, Except.pure]; rfl) I' S

theorem Inv.step_treeRoot (I : Inv w ch) (ha : 0 < w.trees t) : StepOK w ch (.treeRoot t) := by
  have hta := I.treesAlive t ha
  cases hr : w.heap.root t with
  | none => simp [Heap.treeAlive, hr] at hta
  | some r =>
    obtain ⟨h1, h2, h3⟩ := I.wf.tree.root t r hr
    obtain ⟨h', e', I', S⟩ := I.wrap (k := .plain) h1 h2 trivial
    exact .of_still (by
      simp [World.exec, Heap.rootLink, hr, e', bind, Except.bind, pure, Except.pure]; rfl) I' S

theorem Inv.step_upgradeTree (I : Inv w ch) : StepOK w ch (.upgradeTree t) := by
  cases ha : w.heap.treeAlive t with
  | false => exact .of_still (by simp [World.exec, ha]; rfl) I (Still.refl _)
  | true =>
    obtain ⟨I', S⟩ := I.acqTree ha
    exact .of_still (by simp [World.exec, ha]; rfl) I' S

/-- Acquiring a token never fails otherwise than by denial. -/
theorem Inv.acquireTok' {b : Bool} (I : Inv w ch) (hta : w.heap.treeAlive t = true)
    (hr : Room w.heap) : ∃ w' r, w.execAcquire b t = .ok (w', r) ∧ Inv w' ch ∧
      Still w.heap w'.heap ∧
      (r = .denied → if b then w.heap.grants t < 0 else 0 < w.heap.grants t) := by
  obtain ⟨r1, r2⟩ := hr t hta
  rcases I.acquireTok hta b with h1 | h1 | h1
  · exact ⟨w, _, h1.1, I, Still.refl _, fun _ => h1.2⟩
  · have := h1.2
    cases b <;> simp [Lock.isizeMin, Lock.isizeMax] at this <;> omega
  · obtain ⟨-, h', e, I', S⟩ := h1
    exact ⟨_, _, e, I', by cases b <;> exact S, by simp⟩

theorem Inv.step_acquire {b : Bool} (I : Inv w ch) (ha : 0 < w.trees t) (hr : Room w.heap) :
    StepOK w ch (.acquire b t) := by
  obtain ⟨w', r, e, I', S, -⟩ := I.acquireTok' (b := b) (I.treesAlive t ha) hr
  exact .of_still (by simp [World.exec, e]; rfl) I' S

theorem Inv.step_cloneTok {b : Bool} (I : Inv w ch)
    (hk : if b then 0 < w.grantTok t else 0 < w.prohTok t) (hr : Room w.heap) :
    StepOK w ch (.cloneTok b t) := by
  cases hta : w.heap.treeAlive t with
  | true =>
    obtain ⟨w', r, e, I', S, -⟩ := I.acquireTok' (b := b) hta hr
    exact .of_still (by simp [World.exec, e, hta]; rfl) I' S
  | false =>
    have hb : t < w.heap.nTree := I.toks t (by cases b <;> simp at hk <;> omega)
    refine .of_still (w' := w.giveTok b t) (r := .unit) (by simp [World.exec, hta]) ?_ ?_
    · cases b with
      | true => exact I.deadToks hta hb (fun u hu => ⟨by simp [hu], rfl⟩)
      | false => exact I.deadToks hta hb (fun u hu => ⟨rfl, by simp [hu]⟩)
    · cases b <;> exact Still.refl _

theorem Inv.step_dropTok {b : Bool} (I : Inv w ch)
    (hk : if b then 0 < w.grantTok t else 0 < w.prohTok t) : StepOK w ch (.dropTok b t) := by
  cases hta : w.heap.treeAlive t with
  | true =>
    obtain ⟨g, e, I', S⟩ := I.releaseTok hta hk
    refine .of_still (w' := ({ w with heap := w.heap.setGrants t g }).takeTok b t) (r := .unit)
      (by simp [World.exec, e, hta, bind, Except.bind, pure, Except.pure]) I' ?_
    cases b <;> exact S
  | false =>
    have hb : t < w.heap.nTree := I.toks t (by cases b <;> simp at hk <;> omega)
    refine .of_still (w' := w.takeTok b t) (r := .unit) (by simp [World.exec, hta]) ?_ ?_
    · cases b with
      | true => exact I.deadToks hta hb (fun u hu => ⟨by simp [hu], rfl⟩)
      | false => exact I.deadToks hta hb (fun u hu => ⟨rfl, by simp [hu]⟩)
    · cases b <;> exact Still.refl _

theorem Inv.step_extract {b : Bool} (I : Inv w ch)
    (hk : if b then 0 < w.held .hot n else 0 < w.held .frozen n) (hr : Room w.heap) :
    StepOK w ch (.extract b n) := by
  have ha : w.heap.alive n = true := by
    cases b <;> simp at hk <;> exact I.held_alive hk
  obtain ⟨t, ht, hta⟩ := I.wf.tree.live n ha
  have e := I.wf.tree.treeCore ha ht
  obtain ⟨w', r, e', I', S, hd⟩ := I.acquireTok' (b := b) hta hr
  have hnd : r ≠ .denied := by
    intro hr'
    have := hd hr'
    cases b with
    | true => have h2 := I.hot_grants (n := n) (by simpa using hk) ht; simp at this; omega
    | false => have h2 := I.frozen_grants (n := n) (by simpa using hk) ht; simp at this; omega
  refine .of_still (w' := w') (r := r) ?_ I' S
  simp only [World.exec, Heap.nodeTree, e, bind, Except.bind, e']
  cases r <;> first | rfl | exact absurd rfl hnd

theorem Inv.step_write {d : α} (I : Inv w ch) (ha : w.Holds n) : StepOK w ch (.write n d) := by
  obtain ⟨k, ha⟩ := ha
  have hal := I.held_alive ha
  cases hb : w.heap.mutB n with
  | true => exact .of_still (by simp [World.exec, hb]; rfl) I (Still.refl _)
  | false =>
    have hal' : ∀ x, (w.heap.setData n d).alive x = w.heap.alive x := by
      intro x
      by_cases e : x = n
      · subst e; rw [hal]; simp [Heap.alive, Heap.setData]
      · simp [Heap.alive, Heap.setData, e]
    refine .mk (w' := { w with heap := w.heap.setData n d }) (r := .unit) (ch' := ch) (by simp [World.exec, hb]) ?_ ?_ HeadsKept.same
    · have W := I.wf
      refine { wf := ?_, strong := I.strong, weak := I.weak, treeRc := I.treeRc,
               treesAlive := I.treesAlive, toks := I.toks, locks := ?_ }
      · refine { dead := ?_, first := ?_, nodup := W.nodup, mem := ?_, seg := W.seg, rootNext := ?_,
                 acyc := W.acyc, bound := ?_, num := ?_, back := ?_, tree := ?_, refs := ?_ }
        · intro p hp; exact W.dead p ((hal' p).symm.trans hp)
        · intro p hp; exact W.first p ((hal' p).symm.trans hp)
        · intro p c; rw [W.mem, hal']; rfl
        · intro p hp; exact W.rootNext p ((hal' p).symm.trans hp)
        · intro p hp; exact W.bound p ((hal' p).symm.trans hp)
        · intro p hp; exact W.num p ((hal' p).symm.trans hp)
        · exact ⟨W.back.pseg, fun c hc => W.back.rootPrev c ((hal' c).symm.trans hc)⟩
        · exact ⟨fun x hx => W.tree.live x ((hal' x).symm.trans hx),
            fun u r hr => by have := W.tree.root u r hr; rw [hal']; exact this,
            fun c p hc => W.tree.child c p ((hal' c).symm.trans hc),
            fun x u hx => W.tree.top x u ((hal' x).symm.trans hx), W.tree.bound⟩
        · exact ⟨fun x u rc l hx => by rw [hal']; exact W.refs.alive x u rc l hx, W.refs.pos, W.refs.held⟩
      · exact I.locks
    · exact ⟨fun _ _ _ hm _ _ => ⟨hm, rfl⟩, fun x _ hx hm _ _ => ⟨(hal' x).symm.trans hx, hm⟩,
        fun x _ hx hd _ => (by rw [hal', hx] at hd; cases hd),
        fun x _ _ hx => (by simp only [Writes] at hx; simp [Heap.setData, hx]),
        fun x _ _ _ => rfl,
        Nat.le_refl _, Nat.le_refl _, fun x _ hd => (hal' x).trans hd, fun _ _ hd => hd⟩

theorem Inv.step_borrowMut {b : Bool} (I : Inv w ch) : StepOK w ch (.borrowMut n b) := by
  by_cases hb : (b && w.heap.mutB n) = true
  · exact .of_still (by simp [World.exec, hb]; rfl) I (Still.refl _)
  · refine .mk (w' := { w with heap := { w.heap with mutB := upd w.heap.mutB n b } }) (r := .unit) (ch' := ch)
      (by simp only [World.exec, hb]; rfl) ?_ ?_ HeadsKept.same
    · have W := I.wf
      refine { wf := ?_, strong := I.strong, weak := I.weak, treeRc := I.treeRc,
               treesAlive := I.treesAlive, toks := I.toks, locks := I.locks }
      exact { dead := W.dead, first := W.first, nodup := W.nodup, mem := W.mem, seg := W.seg,
              rootNext := W.rootNext, acyc := W.acyc, bound := W.bound, num := W.num,
              back := ⟨W.back.pseg, W.back.rootPrev⟩,
              tree := ⟨W.tree.live, W.tree.root, W.tree.child, W.tree.top, W.tree.bound⟩,
              refs := ⟨W.refs.alive, W.refs.pos, W.refs.held⟩ }
    · exact ⟨fun _ _ _ hm _ _ => ⟨hm, rfl⟩, fun x _ hx hm _ _ => ⟨hx, hm⟩,
        fun x _ hx hd _ => (by
          have : w.heap.alive x = false := hd
          rw [hx] at this; cases this),
        fun x _ _ _ => rfl,
        fun x _ _ hx => (by simp only [Writes] at hx; simp [hx]),
        Nat.le_refl _, Nat.le_refl _, fun x _ hd => hd, fun _ _ hd => hd⟩

end Dendron
