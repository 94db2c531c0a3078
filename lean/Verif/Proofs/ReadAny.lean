import Verif.Proofs.ReadAll
import Verif.Proofs.KeptTree
import Verif.Spec.Reads

/-! Calls that are no edits, in any history: either they change nothing but counts, or something the
program held is gone for good. -/

set_option linter.unusedSimpArgs false
set_option linter.unusedVariables false

set_option autoImplicit false

namespace Dendron
variable {α : Type} {h h' h'' : Heap α} {w w' : World α} {n m : NodeId} {t : TreeId} {k : Kind}
  {op : Op α} {r : Res}

/-- Nothing is created, and what is still there belongs to the same tree and has the same data. -/
structure RF (h h' : Heap α) : Prop where
  nNode : h'.nNode = h.nNode
  nTree : h'.nTree = h.nTree
  node : ∀ n, h'.alive n = true → h'.data n = h.data n ∧ h'.memTree n = h.memTree n
  tree : ∀ t, h'.treeAlive t = true → h.treeAlive t = true

theorem RF.refl (h : Heap α) : RF h h := ⟨rfl, rfl, fun _ _ => ⟨rfl, rfl⟩, fun _ e => e⟩

theorem RF.alive (F : RF h h') (ha : h'.alive n = true) : h.alive n = true := by
  have := (F.node n ha).1
  unfold Heap.alive at *; rw [← this]; exact ha

theorem RF.trans (F : RF h h') (G : RF h' h'') : RF h h'' :=
  ⟨G.nNode.trans F.nNode, G.nTree.trans F.nTree,
    fun n ha => ⟨(G.node n ha).1.trans (F.node n (G.alive ha)).1, (G.node n ha).2.trans (F.node n (G.alive ha)).2⟩,
    fun t ht => F.tree t (G.tree t ht)⟩

theorem Touch.rf (T : Touch h h') : RF h h' :=
  ⟨T.still.nNode, T.still.nTree, fun n _ => ⟨by rw [T.still.data], T.still.memTree n⟩,
    fun t ht => by rw [← T.still.treeAlive]; exact ht⟩

theorem RF.kill (h : Heap α) (n : NodeId) : RF h (h.kill n) := by
  refine ⟨rfl, rfl, fun m ha => ?_, fun _ e => e⟩
  have hne : m ≠ n := by
    rintro rfl; simp [Heap.alive, Heap.kill] at ha
  exact ⟨by simp [Heap.kill, hne], by simp [Heap.memTree, Heap.kill, hne]⟩

theorem release_rf : ∀ {f : Nat} {pins : List NodeId} {n : NodeId} {h h' : Heap α},
    h.release f pins n = .ok h' → RF h h'
  | 0, _, _, _, _, e => by cases e
  | f + 1, pins, n, h, h', e => by
    unfold Heap.release at e
    split at e
    · cases e; exact .refl h
    · simp only at e
      have step : ∀ {o : Option NodeId} {g g' : Heap α},
          (match o with | some c => g.release f pins c | none => Except.ok g) = .ok g' → RF g g' := by
        intro o g g' e
        cases o with
        | none => cases e; exact .refl g
        | some c => exact release_rf e
      split at e
      · cases e
      · rename_i e1
        exact (RF.kill h n).trans ((step e1).trans (step e))

/-- A node that is released and is not referenced is gone. -/
theorem release_gone {f : Nat} {pins : List NodeId} (hp : n ∉ pins) (hr : h.referenced n = false)
    (e : h.release f pins n = .ok h') : h'.alive n = false := by
  cases f with
  | zero => cases e
  | succ f =>
    unfold Heap.release at e
    cases ha : h.alive n with
    | false =>
      simp only [ha, Bool.not_false, Bool.true_or, if_true, Except.ok.injEq] at e
      subst e; exact ha
    | true =>
      have hc : pins.contains n = false := by simpa using hp
      simp only [ha, hr, hc, Bool.not_true, Bool.or_self, Bool.false_eq_true, if_false] at e
      have step : ∀ {o : Option NodeId} {g g' : Heap α},
          (match o with | some c => g.release f pins c | none => Except.ok g) = .ok g' → RF g g' := by
        intro o g g' e
        cases o with
        | none => cases e; exact .refl g
        | some c => exact release_rf e
      split at e
      · cases e
      · rename_i e1
        have F := (step e1).trans (step e)
        cases hh : h'.alive n with
        | false => rfl
        | true => have := F.alive hh; simp [Heap.alive, Heap.kill] at this

theorem dropStep_rf {k : Nat} {pins : List NodeId} (e : h.dropStep k pins n = .ok h') : RF h h' := by
  unfold Heap.dropStep at e
  split at e
  · simp only [bind, Except.bind] at e
    split at e
    · cases e
    rename_i p _ _ g1 e1
    split at e
    · cases e
    rename_i g2 e2
    refine RF.trans ?_ ((release_rf e2).trans (release_rf e))
    have h0 : RF h ((h.setNext n none).setFirst p (h.next n)) := ⟨rfl, rfl, fun _ _ => ⟨rfl, rfl⟩, fun _ e => e⟩
    split at e1
    · exact h0.trans (release_rf e1)
    · cases e1; exact h0
  · exact release_rf e

theorem dropLoop_rf {k : Nat} : ∀ {f : Nat} {pins : List NodeId} {ev : Option (DftEvent NodeId)}
    {h h' : Heap α}, h.dropLoop k f pins ev = .ok h' → RF h h'
  | f, _, none, h, _, e => by cases f <;> (cases e; exact .refl h)
  | 0, _, some _, _, _, e => by cases e
  | f + 1, pins, some ev, h, h', e => by
    unfold Heap.dropLoop at e
    simp only at e
    split at e
    · split at e
      · cases e
      · rename_i e1
        exact (release_rf e1).trans (dropLoop_rf e)
    · split at e
      · cases e
      · rename_i e1
        exact (dropStep_rf e1).trans (dropLoop_rf e)

theorem dropTreeWith_rf {k : Nat} {pins : List NodeId} (e : h.dropTreeWith k pins t = .ok h') :
    RF h h' ∧ h'.treeAlive t = false := by
  unfold Heap.dropTreeWith at e
  split at e
  · rename_i hr
    cases e; exact ⟨.refl h, by simp [Heap.treeAlive, hr]⟩
  · split at e
    · cases e
    · rename_i h1 e1
      simp only at e
      have F1 := dropLoop_rf e1
      have F2 : RF h1 ((h1.setRoot t none).setGrants t 0) := by
        refine ⟨rfl, rfl, fun _ _ => ⟨rfl, rfl⟩, fun u hu => ?_⟩
        simp only [Heap.treeAlive, Heap.setRoot, Heap.setGrants, upd_apply] at hu ⊢
        split at hu
        · cases hu
        · exact hu
      have F3 := release_rf e
      refine ⟨(F1.trans F2).trans F3, ?_⟩
      cases hh : h'.treeAlive t with
      | false => rfl
      | true => have := F3.tree t hh; simp [Heap.treeAlive, Heap.setRoot, Heap.setGrants] at this

/-- Releasing one owner of a tree: nothing happens, or the tree is gone. -/
theorem maybeDropTree_rf {pins : List NodeId} (e : h.maybeDropTree pins t = .ok h') :
    h' = h ∨ (RF h h' ∧ h.treeAlive t = true ∧ h'.treeAlive t = false) := by
  unfold Heap.maybeDropTree at e
  split at e
  · rename_i hc
    simp only [Bool.and_eq_true] at hc
    obtain ⟨F, hd⟩ := dropTreeWith_rf e
    exact .inr ⟨F, hc.1.1, hd⟩
  · cases e; exact .inl rfl

/-- Only a handle keeps node `n` alive. -/
def Bare (h : Heap α) (n : NodeId) : Prop :=
  h.alive n = true ∧ (∀ t, h.root t ≠ some n) ∧
    ∀ m, h.alive m = true → h.firstChild m ≠ some n ∧ h.next m ≠ some n

/-- A tree is gone, or a node only a handle kept alive. -/
def Gone (h h' : Heap α) : Prop :=
  (∃ t, h.treeAlive t = true ∧ h'.treeAlive t = false) ∨ ∃ n, Bare h n ∧ h'.alive n = false

theorem Gone.before (T : Touch h h') (G : Gone h' h'') : Gone h h'' := by
  have ha : ∀ x, h.alive x = h'.alive x := fun x => by unfold Heap.alive; rw [T.still.data]
  rcases G with ⟨t, h1, h2⟩ | ⟨n, ⟨h1, h2, h3⟩, h4⟩
  · exact .inl ⟨t, by rw [← T.still.treeAlive]; exact h1, h2⟩
  · refine .inr ⟨n, ⟨by rw [ha]; exact h1, fun t => by rw [← T.still.root]; exact h2 t, fun m hm => ?_⟩, h4⟩
    rw [← T.still.firstChild, ← T.still.next]
    exact h3 m (by rw [← ha]; exact hm)

theorem Gone.after (G : Gone h h') (F : RF h' h'') : Gone h h'' := by
  rcases G with ⟨t, h1, h2⟩ | ⟨n, h1, h2⟩
  · refine .inl ⟨t, h1, ?_⟩
    cases e : h''.treeAlive t with
    | false => rfl
    | true => have := F.tree t e; rw [h2] at this; cases this
  · refine .inr ⟨n, h1, ?_⟩
    cases e : h''.alive n with
    | false => rfl
    | true => have := F.alive e; rw [h2] at this; cases this

/-- What a call that edits nothing does. -/
def Restful (h h' : Heap α) : Prop := Touch h h' ∨ (RF h h' ∧ Gone h h')

theorem Restful.rf (Q : Restful h h') : RF h h' := by
  rcases Q with T | ⟨F, -⟩
  · exact T.rf
  · exact F

theorem Restful.trans (Q : Restful h h') (Q' : Restful h' h'') : Restful h h'' := by
  rcases Q with T | ⟨F, G⟩
  · rcases Q' with T' | ⟨F', G'⟩
    · exact .inl (T.trans T')
    · exact .inr ⟨T.rf.trans F', G'.before T⟩
  · exact .inr ⟨F.trans Q'.rf, G.after Q'.rf⟩

theorem Own.up (I : Own w) : Up w.heap := fun n t rc l hm => (I.base.memb _ _ _ _ hm).2

theorem Own.treeCoreOpt (I : Own w) : w.heap.treeCoreOpt n = (w.heap.memTree n).filter w.heap.treeAlive := by
  unfold Heap.treeCoreOpt Heap.memTree
  cases hm : w.heap.mem n with
  | weak o => rfl
  | strong t rc l => simp [Option.filter, I.up _ _ _ _ hm]

theorem Still.treeCore (S : Still w.heap w'.heap) (I : Own w) (I' : Own w') :
    w'.heap.treeCore n = w.heap.treeCore n := by
  have : w'.heap.treeCoreOpt n = w.heap.treeCoreOpt n := by
    rw [I.treeCoreOpt, I'.treeCoreOpt, S.memTree]
    congr 1
    funext t
    exact S.treeAlive t
  unfold Heap.treeCore
  rw [this]

theorem Still.nodeTree' (S : Still w.heap w'.heap) (I : Own w) (I' : Own w') :
    w'.heap.nodeTree n = w.heap.nodeTree n := S.treeCore I I'

theorem Still.upgrade (S : Still h h') (o : Option NodeId) : h'.upgrade o = h.upgrade o := by
  unfold Heap.upgrade
  congr 1
  funext x
  exact S.alive x

theorem Still.navTo (S : Still w.heap w'.heap) (I : Own w) (I' : Own w') (q : Nav) :
    w'.heap.navTo n q = w.heap.navTo n q := by
  have p : ∀ x, w'.heap.prevCycLink x = w.heap.prevCycLink x := fun x => by
    simp only [Heap.prevCycLink, S.upgrade, S.prevCyc]
  cases q <;> simp only [Heap.navTo, Heap.nodeRoot, S.treeCore I I', Heap.rootLink, S.root, Heap.parentLink,
    S.parent, S.upgrade, Heap.prevLink, p, S.next, Heap.nextLink, Heap.firstSibling, Heap.firstChildLink,
    S.firstChild, Heap.lastSibling, Heap.lastChildLink]

theorem bare_of_unreferenced (B : Base h) (ha : h.alive n = true) (hr : h.referenced n = false) : Bare h n := by
  have key : ¬ h.referenced n = true := by simp [hr]
  rw [referenced_iff] at key
  refine ⟨ha, fun t e => key (.inr (.inl ⟨t, B.tbound t (by simp [Heap.treeAlive, e]), e⟩)), fun m hm => ?_⟩
  exact ⟨fun e => key (.inr (.inr ⟨m, B.bound m hm, hm, .inl e⟩)),
    fun e => key (.inr (.inr ⟨m, B.bound m hm, hm, .inr e⟩))⟩

theorem Own.dropPlain_calm (I : Own w) (hk : 0 < w.held .plain n) (e : w.heap.dropLink n = .ok h') :
    Restful w.heap h' := by
  obtain ⟨t, rc, l, hm, ha, hta⟩ := I.tree_of_held hk
  have u := I.up
  simp only [Heap.dropLink, Heap.decRef, hm, bind, Except.bind] at e
  split at e
  · cases e
  · rename_i h1 e1
    split at e1
    · split at e1
      · cases e1
      · have T : Touch w.heap (w.heap.setMem n (.weak (some t))) := by
          refine ⟨still_setMem (by simp [Heap.memTree, Heap.setMem, hm]), fun _ _ => rfl, ?_⟩
          intro x v a b hx
          simp only [Heap.setMem, upd_apply] at hx
          split at hx
          · cases hx
          · exact u _ _ _ _ hx
        rcases maybeDropTree_rf e1 with rfl | ⟨F, d1, d2⟩
        · cases hr : (w.heap.setMem n (.weak (some t))).referenced n with
          | true =>
            rw [show (w.heap.setMem n (.weak (some t))).relFuel = (w.heap.nNode + 1) + 1 from rfl,
              release_referenced hr] at e
            cases e; exact .inl T
          | false =>
            refine .inr ⟨T.rf.trans (release_rf e), .inr ⟨n, ?_, release_gone (by simp) hr e⟩⟩
            have key : ¬ (w.heap.setMem n (.weak (some t))).referenced n = true := by simp [hr]
            rw [referenced_iff] at key
            refine ⟨ha, fun s es => key (.inr (.inl ⟨s, I.base.tbound s (by simp [Heap.treeAlive, es]), es⟩)), fun m hm => ?_⟩
            exact ⟨fun e => key (.inr (.inr ⟨m, I.base.bound m hm, hm, .inl e⟩)),
              fun e => key (.inr (.inr ⟨m, I.base.bound m hm, hm, .inr e⟩))⟩
        · have G : Gone w.heap h1 := .inl ⟨t, hta, d2⟩
          exact .inr ⟨(T.rf.trans F).trans (release_rf e), G.after (release_rf e)⟩
    · cases e1
      have T : Touch w.heap (w.heap.setMem n (.strong t (rc - 1) l)) := touch_setMem u (memTree_strong hm) hta
      rw [show (w.heap.setMem n (.strong t (rc - 1) l)).relFuel = (w.heap.nNode + 1) + 1 from rfl,
        release_referenced (referenced_iff.2 (.inl ⟨t, rc - 1, l, by simp [Heap.setMem]⟩))] at e
      cases e; exact .inl T

theorem Own.dropHandle_calm (I : Own w) (hk : 0 < w.held k n) (e : w.heap.dropHandle n k = .ok h') :
    Restful w.heap h' := by
  have main : k ≠ .plain → (do let h ← w.heap.decLock n; h.dropLink n : Except Fault (Heap α)) = .ok h' →
      Restful w.heap h' := by
    intro hkp e
    obtain ⟨h1, e1, I1⟩ := I.unbundle hk hkp
    simp only [e1, bind, Except.bind] at e
    exact Restful.trans (.inl (touch_decLock I.up e1)) (I1.dropPlain_calm (n := n) (by simp) e)
  cases k with
  | plain => exact I.dropPlain_calm hk e
  | hot => exact main (by decide) e
  | frozen => exact main (by decide) e

theorem Own.relTree_calm (I : Own w) (ht : 0 < w.trees t) (e : w.heap.relTree [] t = .ok h') :
    Restful w.heap h' := by
  simp only [Heap.relTree] at e
  have T := touch_setTreeRc (t := t) (g := w.heap.treeRc t - 1) I.up
  rcases maybeDropTree_rf e with rfl | ⟨F, d1, d2⟩
  · exact .inl T
  · exact .inr ⟨T.rf.trans F, .inl ⟨t, d1, d2⟩⟩

theorem Own.read_calm (I : Own w) (ha : w.Allowed op) (hop : op.isRead)
    (e : w.exec op = .ok (w', r)) : Restful w.heap w'.heap := by
  have u := I.up
  cases op with
  | newTree hot d => exact absurd hop id
  | create | createParent | createChild | detach | replace | move | write | borrowMut => exact absurd hop id
  | clone k n =>
    simp only [World.exec, bind, Except.bind, pure, Except.pure] at e
    split at e
    · cases e
    · rename_i g hg
      simp only [Except.ok.injEq, Prod.mk.injEq] at e
      obtain ⟨rfl, -⟩ := e
      exact .inl (touch_cloneHandle u hg)
  | drop k n =>
    simp only [World.exec, bind, Except.bind, pure, Except.pure] at e
    split at e
    · cases e
    · rename_i g hg
      simp only [Except.ok.injEq, Prod.mk.injEq] at e
      obtain ⟨rfl, -⟩ := e
      exact I.dropHandle_calm ha hg
  | nav k q n =>
    simp only [World.exec, bind, Except.bind, pure, Except.pure] at e
    split at e
    · cases e
    · split at e
      · simp only [Except.ok.injEq, Prod.mk.injEq] at e
        obtain ⟨rfl, -⟩ := e
        exact .inl (.refl u)
      · split at e
        · cases e
        · rename_i g hg
          simp only [Except.ok.injEq, Prod.mk.injEq] at e
          obtain ⟨rfl, -⟩ := e
          exact .inl (touch_wrap u hg)
  | upgrade n =>
    simp only [World.exec, bind, Except.bind, pure, Except.pure] at e
    split at e
    · simp only [Except.ok.injEq, Prod.mk.injEq] at e
      obtain ⟨rfl, -⟩ := e
      exact .inl (.refl u)
    · split at e
      · cases e
      · rename_i g hg
        simp only [Except.ok.injEq, Prod.mk.injEq] at e
        obtain ⟨rfl, -⟩ := e
        exact .inl (touch_wrap u hg)
  | plainOf k n =>
    simp only [World.exec, bind, Except.bind, pure, Except.pure] at e
    split at e
    · cases e
    · rename_i g hg
      simp only [Except.ok.injEq, Prod.mk.injEq] at e
      obtain ⟨rfl, -⟩ := e
      exact .inl (touch_cloneLink u hg)
  | bundle k n =>
    simp only [World.exec, bind, Except.bind, pure, Except.pure] at e
    split at e
    · cases e
    · split at e
      · rename_i g hg
        simp only [Except.ok.injEq, Prod.mk.injEq] at e
        obtain ⟨rfl, -⟩ := e
        exact .inl (touch_acqLock u hg)
      · split at e
        · cases e
        · rename_i g hg
          simp only [Except.ok.injEq, Prod.mk.injEq] at e
          obtain ⟨rfl, -⟩ := e
          exact I.dropPlain_calm ha.2 hg
  | bundleWith k n t =>
    simp only [World.exec, bind, Except.bind, pure, Except.pure] at e
    split at e
    · split at e
      · cases e
      · rename_i g hg
        simp only [Except.ok.injEq, Prod.mk.injEq] at e
        obtain ⟨rfl, -⟩ := e
        exact .inl (touch_acqLock u (expectLock_ok hg))
    · cases e
  | treeOf k n =>
    simp only [World.exec, bind, Except.bind, pure, Except.pure] at e
    split at e
    · cases e
    · simp only [Except.ok.injEq, Prod.mk.injEq] at e
      obtain ⟨rfl, -⟩ := e
      exact .inl (touch_setTreeRc u)
  | cloneTree t =>
    simp only [World.exec, Except.ok.injEq, Prod.mk.injEq] at e
    obtain ⟨rfl, -⟩ := e
    exact .inl (touch_setTreeRc u)
  | dropTree t =>
    simp only [World.exec, bind, Except.bind, pure, Except.pure] at e
    split at e
    · cases e
    · rename_i g hg
      simp only [Except.ok.injEq, Prod.mk.injEq] at e
      obtain ⟨rfl, -⟩ := e
      exact I.relTree_calm ha hg
  | treeRoot t =>
    simp only [World.exec, bind, Except.bind, pure, Except.pure] at e
    split at e
    · cases e
    · split at e
      · cases e
      · rename_i g hg
        simp only [Except.ok.injEq, Prod.mk.injEq] at e
        obtain ⟨rfl, -⟩ := e
        exact .inl (touch_wrap u hg)
  | upgradeTree t =>
    simp only [World.exec] at e
    split at e
    · simp only [Except.ok.injEq, Prod.mk.injEq] at e
      obtain ⟨rfl, -⟩ := e
      exact .inl (touch_setTreeRc u)
    · simp only [Except.ok.injEq, Prod.mk.injEq] at e
      obtain ⟨rfl, -⟩ := e
      exact .inl (.refl u)
  | acquire b t => exact .inl (touch_acquire u (I.treesAlive t ha) e)
  | cloneTok b t =>
    simp only [World.exec] at e
    split at e
    · rename_i hta; exact .inl (touch_acquire u hta e)
    · simp only [Except.ok.injEq, Prod.mk.injEq] at e
      obtain ⟨rfl, -⟩ := e
      cases b <;> exact .inl (.refl u)
  | dropTok b t =>
    simp only [World.exec] at e
    split at e
    · rename_i hta
      simp only [bind, Except.bind, pure, Except.pure] at e
      split at e
      · cases e
      · simp only [Except.ok.injEq, Prod.mk.injEq] at e
        obtain ⟨rfl, -⟩ := e
        have T := touch_setGrants (g := ‹Int›) u hta
        cases b <;> exact .inl T
    · simp only [Except.ok.injEq, Prod.mk.injEq] at e
      obtain ⟨rfl, -⟩ := e
      cases b <;> exact .inl (.refl u)
  | extract b n =>
    simp only [World.exec, bind, Except.bind, pure, Except.pure] at e
    split at e
    · cases e
    · rename_i t ht
      split at e
      · cases e
      · split at e
        · cases e
        · rename_i hd x hx
          simp only [Except.ok.injEq] at e
          subst e
          have hk : ∃ k, 0 < w.held k n := by
            simp only [World.Allowed] at ha
            cases b <;> exact ⟨_, ha⟩
          obtain ⟨k, hk⟩ := hk
          obtain ⟨v, rc, l, hm, -, hv⟩ := I.tree_of_held hk
          have : v = t := by
            simp only [Heap.nodeTree, Heap.treeCore, Heap.treeCoreOpt, hm] at ht
            simpa using ht
          subst this
          exact .inl (touch_acquire u hv hd)

/-- The counts are determined by what the program holds. -/
theorem Own.heap_eq (I : Own w) (I' : Own w')
    (T : Touch w.heap w'.heap) (e1 : w'.held = w.held) (e2 : w'.trees = w.trees)
    (e3 : w'.grantTok = w.grantTok) (e4 : w'.prohTok = w.prohTok) : w' = w := by
  have hmem : w'.heap.mem = w.heap.mem := by
    funext x
    have ht := T.still.memTree x
    have h1 : ∀ k, w'.held k x = w.held k x := fun k => by rw [e1]
    cases hm : w.heap.mem x with
    | weak o =>
      have hz := I.weak _ _ hm
      cases hm' : w'.heap.mem x with
      | weak o' => simp only [Heap.memTree, hm, hm'] at ht; rw [ht]
      | strong t' rc' l' =>
        have h2 := I'.strong _ _ _ _ hm'
        rw [h1, h1, h1, hz, hz, hz] at h2
        omega
    | strong t rc l =>
      have h2 := I.strong _ _ _ _ hm
      cases hm' : w'.heap.mem x with
      | weak o' =>
        have hz := I'.weak _ _ hm'
        have a := hz .plain
        have b := hz .hot
        have c := hz .frozen
        rw [h1] at a b c
        omega
      | strong t' rc' l' =>
        have h2' := I'.strong _ _ _ _ hm'
        rw [h1, h1, h1] at h2'
        have : t' = t := by simpa [Heap.memTree, hm, hm'] using ht
        rw [this, h2.1, h2.2.1, h2'.1, h2'.2.1]
  have hrc : w'.heap.treeRc = w.heap.treeRc := by
    funext t; rw [I.treeRc, I'.treeRc, e2]
  have hgr : w'.heap.grants = w.heap.grants := by
    funext t
    cases hta : w.heap.treeAlive t with
    | false => exact T.grants t hta
    | true =>
      obtain ⟨L, hL, hmL, hmode, -⟩ := I.locks t hta
      obtain ⟨L', hL', hmL', hmode', -⟩ := I'.locks t ((T.still.treeAlive t).trans hta)
      have hlen : L.length = L'.length := by
        refine (List.Perm.length_eq ?_)
        rw [List.perm_ext_iff_of_nodup hL hL']
        intro x
        rw [hmL, hmL', T.still.memTree, e1]
      have key : ∀ x ∈ L, w.heap.memTree x = some t ∧ 0 < w.held .hot x + w.held .frozen x := fun x hx => (hmL x).1 hx
      rcases hmode with ⟨a, b, c⟩ | ⟨a, b, c⟩ <;> rcases hmode' with ⟨a', b', c'⟩ | ⟨a', b', c'⟩
      · rw [c, c', e3, hlen]
      · have hz : L.length = 0 := by
          by_cases h0 : 0 < L.length
          · obtain ⟨x, hx⟩ := List.exists_mem_of_length_pos h0
            obtain ⟨k1, k2⟩ := key x hx
            have i1 := b x k1
            have i2 := b' x ((T.still.memTree x).trans k1)
            rw [e1] at i2
            omega
          · omega
        rw [c, c', e4, ← hlen, hz, a]
        rw [e3] at a'; rw [a']; rfl
      · have hz : L.length = 0 := by
          by_cases h0 : 0 < L.length
          · obtain ⟨x, hx⟩ := List.exists_mem_of_length_pos h0
            obtain ⟨k1, k2⟩ := key x hx
            have i1 := b x k1
            have i2 := b' x ((T.still.memTree x).trans k1)
            rw [e1] at i2
            omega
          · omega
        rw [c, c', e3, ← hlen, hz, a]
        rw [e4] at a'; rw [a']; rfl
      · rw [c, c', e4, hlen]
  obtain ⟨hp, hd, tr, gt, pt⟩ := w
  obtain ⟨hp', hd', tr', gt', pt'⟩ := w'
  simp only at e1 e2 e3 e4
  subst e1 e2 e3 e4
  congr 1
  obtain ⟨a1, a2, a3, a4, a5, a6, a7, a8, a9, a10, a11⟩ := T.still
  cases hp; cases hp'
  simp only at hmem hrc hgr a1 a2 a3 a4 a5 a6 a7 a8 a9 a10 a11
  subst hmem hrc hgr a1 a2 a3 a4 a5 a6 a7 a9 a10 a11
  rfl

theorem ReadsAny.restful (R : ReachAny w) (rd : ReadsAny w w') : ReachAny w' ∧ Restful w.heap w'.heap := by
  induction rd with
  | refl => exact ⟨R, .inl (.refl R.own.up)⟩
  | step _ hop s ih => exact ⟨.step ih.1 s, ih.2.trans (ih.1.own.read_calm s.allowed hop s.run)⟩

/-- What the program held and holds again is still there. -/
theorem ReachAny.not_gone (R : ReachAny w) (R' : ReachAny w') (F : RF w.heap w'.heap)
    (e1 : ∀ k n, w.held k n ≤ w'.held k n) (e2 : ∀ t, w.trees t ≤ w'.trees t) : ¬ Gone w.heap w'.heap := by
  have I := R.own
  have I' := R'.own
  have hs : ∀ {x t rc l}, w.heap.mem x = .strong t rc l → ∃ k, 0 < w.held k x := by
    intro x t rc l hm
    have := I.strong _ _ _ _ hm
    have : 0 < w.held .plain x ∨ 0 < w.held .hot x ∨ 0 < w.held .frozen x := by omega
    rcases this with h | h | h <;> exact ⟨_, h⟩
  rintro (⟨t, h1, h2⟩ | ⟨n, ⟨h1, h2, h3⟩, h4⟩)
  · have : w'.heap.treeAlive t = true := by
      rcases R.treeKept t h1 with h3 | ⟨n, rc, l, hm⟩
      · refine I'.treesAlive t ?_
        rw [I.treeRc] at h3; have := e2 t; omega
      · obtain ⟨k, hk⟩ := hs hm
        obtain ⟨v, rc', l', hm', ha', hv⟩ := I'.tree_of_held (k := k) (n := n) (Nat.lt_of_lt_of_le hk (e1 k n))
        have := (F.node n ha').2
        rw [memTree_strong hm, memTree_strong hm'] at this
        cases this; exact hv
    rw [h2] at this; cases this
  · rcases referenced_iff.1 ((R.kept.ref n h1).resolve_left (by simp)) with ⟨t, rc, l, hm⟩ | ⟨t, -, hr⟩ | ⟨m, -, hm, h5⟩
    · obtain ⟨k, hk⟩ := hs hm
      obtain ⟨v, rc', l', hm', ha', hv⟩ := I'.tree_of_held (k := k) (n := n) (Nat.lt_of_lt_of_le hk (e1 k n))
      rw [h4] at ha'; cases ha'
    · exact h2 t hr
    · rcases h5 with h5 | h5
      · exact (h3 m hm).1 h5
      · exact (h3 m hm).2 h5

theorem ReadsAny.eq (R : ReachAny w) (rd : ReadsAny w w') (e1 : w'.held = w.held) (e2 : w'.trees = w.trees)
    (e3 : w'.grantTok = w.grantTok) (e4 : w'.prohTok = w.prohTok) : w' = w := by
  obtain ⟨R', Q⟩ := rd.restful R
  rcases Q with T | ⟨F, G⟩
  · exact R.own.heap_eq R'.own T e1 e2 e3 e4
  · exact absurd G (R.not_gone R' F (fun _ _ => by rw [e1]; exact Nat.le_refl _) (fun _ => by rw [e2]; exact Nat.le_refl _))

/-- Dropping a handle of a node that has other owners, in a tree that has other owners. -/
theorem Own.dropLink_ok (I : Own w) (hk : 0 < w.held .plain n)
    (hr : ∀ t l, w.heap.mem n = .strong t 1 l →
      (0 < w.trees t ∨ ∃ x k, x ≠ n ∧ 0 < w.held k x ∧ w.heap.memTree x = some t) ∧
      ((∃ t, w.heap.root t = some n) ∨ ∃ m, w.heap.alive m = true ∧ (w.heap.firstChild m = some n ∨ w.heap.next m = some n))) :
    ∃ h', w.heap.dropLink n = .ok h' := by
  obtain ⟨t, rc, l, hm, ha, hta⟩ := I.tree_of_held hk
  obtain ⟨i1, i2, i3⟩ := I.strong _ _ _ _ hm
  by_cases h1 : rc = 1
  · subst h1
    obtain ⟨o, rf⟩ := hr t l hm
    have hl : l = 0 := by omega
    subst hl
    have hd : (w.heap.setMem n (.weak (some t))).maybeDropTree [n] t = .ok (w.heap.setMem n (.weak (some t))) := by
      apply maybeDropTree_held
      rcases o with o | ⟨x, k, hx, hk, hxt⟩
      · left; show 0 < w.heap.treeRc t; rw [I.treeRc]; exact o
      · obtain ⟨v, rc', l', hm', ha', -⟩ := I.tree_of_held hk
        rw [memTree_strong hm'] at hxt
        cases hxt
        exact .inr ⟨x, rc', l', by simp [Heap.setMem, hx, hm'], I.base.bound x ha'⟩
    refine ⟨w.heap.setMem n (.weak (some t)), ?_⟩
    simp only [Heap.dropLink, Heap.decRef, hm, bind, Except.bind, Nat.sub_self, if_true, ne_eq, not_true_eq_false, if_false, hd]
    rw [show (w.heap.setMem n (.weak (some t))).relFuel = (w.heap.nNode + 1) + 1 from rfl, release_referenced]
    refine referenced_iff.2 (.inr ?_)
    rcases rf with ⟨s, hs⟩ | ⟨m, hm, h5⟩
    · exact .inl ⟨s, I.base.tbound s (by simp [Heap.treeAlive, hs]), hs⟩
    · exact .inr ⟨m, I.base.bound m hm, hm, h5⟩
  · refine ⟨w.heap.setMem n (.strong t (rc - 1) l), ?_⟩
    have : ¬ rc - 1 = 0 := by omega
    simp only [Heap.dropLink, Heap.decRef, hm, bind, Except.bind, if_neg this]
    rw [show (w.heap.setMem n (.strong t (rc - 1) l)).relFuel = (w.heap.nNode + 1) + 1 from rfl,
      release_referenced (referenced_iff.2 (.inl ⟨t, rc - 1, l, by simp [Heap.setMem]⟩))]

/-- A handle more than in a reachable state can be dropped. -/
theorem ReachAny.dropLink_ok (R : ReachAny w) (I : Own w') (T : Touch w.heap w'.heap) (hk : 0 < w'.held .plain n)
    (h1 : ∀ k x, x ≠ n → w'.held k x = w.held k x)
    (h2 : w'.held .plain n + w'.held .hot n + w'.held .frozen n =
      w.held .plain n + w.held .hot n + w.held .frozen n + 1)
    (h3 : w'.trees = w.trees) : ∃ h', w'.heap.dropLink n = .ok h' := by
  refine I.dropLink_ok hk fun t l hm => ?_
  have J := R.own
  have i1 := I.strong _ _ _ _ hm
  have hz : ∀ k, w.held k n = 0 := by intro k; cases k <;> omega
  have hta : w.heap.treeAlive t = true := by
    rw [← T.still.treeAlive]; exact (I.base.memb _ _ _ _ hm).2
  have ha : w.heap.alive n = true := T.rf.alive (I.base.memb _ _ _ _ hm).1
  have hs : ∀ {x t rc l}, w.heap.mem x = .strong t rc l → ∃ k, 0 < w.held k x := by
    intro x t rc l hm
    have := J.strong _ _ _ _ hm
    have : 0 < w.held .plain x ∨ 0 < w.held .hot x ∨ 0 < w.held .frozen x := by omega
    rcases this with h | h | h <;> exact ⟨_, h⟩
  have al : ∀ x, w'.heap.alive x = w.heap.alive x := fun x => by unfold Heap.alive; rw [T.still.data]
  constructor
  · rcases R.treeKept t hta with h | ⟨x, rc, l, hx⟩
    · left; rw [J.treeRc] at h; rw [h3]; omega
    · obtain ⟨k, hk'⟩ := hs hx
      have hxn : x ≠ n := by rintro rfl; rw [hz] at hk'; exact absurd hk' (by decide)
      refine .inr ⟨x, k, hxn, by rw [h1 k x hxn]; exact hk', ?_⟩
      rw [T.still.memTree, memTree_strong hx]
  · rcases referenced_iff.1 ((R.kept.ref n ha).resolve_left (by simp)) with ⟨t, rc, l, hx⟩ | ⟨s, -, hr⟩ | ⟨m, -, hm, h5⟩
    · obtain ⟨k, hk⟩ := hs hx
      rw [hz] at hk; exact absurd hk (by decide)
    · exact .inl ⟨s, by rw [T.still.root]; exact hr⟩
    · exact .inr ⟨m, by rw [al]; exact hm, by rw [T.still.firstChild, T.still.next]; exact h5⟩

/-- A handle that was just got can be dropped again, and then everything is as before. -/
theorem ReachAny.drop_again (R : ReachAny w) (hop : op.isRead) (c : w.Call op w' r)
    (e1 : ∀ k' x, w'.held k' x = w.held k' x + if k' = k ∧ x = n then 1 else 0)
    (e2 : w'.trees = w.trees) (e3 : w'.grantTok = w.grantTok) (e4 : w'.prohTok = w.prohTok) :
    w'.exec (.drop k n) = .ok (w, .unit) := by
  have R' : ReachAny w' := .step R c
  have I' := R'.own
  have hk : 0 < w'.held k n := by rw [e1]; simp
  have T : Touch w.heap w'.heap := by
    rcases R.own.read_calm c.allowed hop c.run with T | ⟨F, G⟩
    · exact T
    · exact absurd G (R.not_gone R' F (fun k' x => by rw [e1]; exact Nat.le_add_right _ _)
        (fun _ => by rw [e2]; exact Nat.le_refl _))
  have hd : ∃ h', w'.heap.dropHandle n k = .ok h' := by
    have main : k ≠ .plain → ∃ h', (do let h ← w'.heap.decLock n; h.dropLink n : Except Fault (Heap α)) = .ok h' := by
      intro hkp
      obtain ⟨h1, d1, I1⟩ := I'.unbundle hk hkp
      simp only [d1, bind, Except.bind]
      refine R.dropLink_ok I1 (T.trans (touch_decLock I'.up d1)) (by simp) ?_ ?_ e2
      · intro k' x hx
        simp only [World.give, World.take, hx, and_false, if_false, e1]
        rfl
      · have a := e1 .plain n
        have b := e1 .hot n
        have c := e1 .frozen n
        cases k with
        | plain => exact absurd rfl hkp
        | hot =>
          simp only [World.give, World.take] at *
          simp at a b c ⊢
          omega
        | frozen =>
          simp only [World.give, World.take] at *
          simp at a b c ⊢
          omega
    cases k with
    | plain =>
      refine R.dropLink_ok I' T hk (fun k' x hx => by rw [e1]; simp [hx]) ?_ e2
      have a := e1 .plain n
      have b := e1 .hot n
      have c := e1 .frozen n
      simp at a b c
      omega
    | hot => exact main (by decide)
    | frozen => exact main (by decide)
  obtain ⟨h', hd⟩ := hd
  have ex : w'.exec (.drop k n) = .ok (({ w' with heap := h' }).take k n, .unit) := by
    simp only [World.exec, hd, bind, Except.bind, pure, Except.pure]
  have rd : ReadsAny w (({ w' with heap := h' }).take k n) :=
    .step (.step (.refl w) hop c) (op := .drop k n) trivial ⟨hk, ex⟩
  have := rd.eq R (by
    funext k' x
    simp only [World.take, e1]
    split <;> simp_all) e2 e3 e4
  rw [ex, this]

end Dendron
