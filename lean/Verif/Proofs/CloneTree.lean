import Verif.Proofs.Clone

/-! Calls that only change plain handles and `Tree` values. -/

set_option linter.unusedSimpArgs false
set_option linter.unusedVariables false

set_option autoImplicit false

namespace Dendron
open RTree
variable {α : Type} {w w' w0 : World α} {ch ch' ch0 : NodeId → List NodeId}
  {r c x n : NodeId} {T : TreeId}

/-- A state that differs from `w` in handles and `Tree` values only, and not in locks. -/
structure Calm (w w' : World α) (ch : NodeId → List NodeId) : Prop where
  inv : Inv w' ch
  reach : Reach w'
  room : Room w'.heap
  still : Still w.heap w'.heap
  hot : ∀ x, w'.held .hot x = w.held .hot x
  frozen : ∀ x, w'.held .frozen x = w.held .frozen x
  grantTok : w'.grantTok = w.grantTok
  prohTok : w'.prohTok = w.prohTok

theorem Calm.refl (I : Inv w ch) (hr : Reach w) (hroom : Room w.heap) : Calm w w ch :=
  ⟨I, hr, hroom, .refl _, fun _ => rfl, fun _ => rfl, rfl, rfl⟩

theorem Calm.step {op : Op α} {res : Res} (C : Calm w0 w ch) (I' : Inv w' ch)
    (S : Still w.heap w'.heap) (e : w.exec op = .ok (w', res)) (al : w.Allowed op)
    (sf : ∀ ch, FShape w.heap ch → SafeCall w.heap ch op)
    (h1 : ∀ x, w'.held .hot x = w.held .hot x) (h2 : ∀ x, w'.held .frozen x = w.held .frozen x)
    (h3 : w'.grantTok = w.grantTok) (h4 : w'.prohTok = w.prohTok) : Calm w0 w' ch where
  inv := I'
  reach := .step C.reach ⟨al, sf, C.room, e⟩
  room t ht := by
    have ht0 : w.heap.treeAlive t = true := by rw [← S.treeAlive]; exact ht
    rw [C.inv.grants_same I' ht0 ht (by rw [h3]) (by rw [h4])]
    · exact C.room t ht0
    · intro x _ hx; exact ⟨by rw [S.memTree]; exact hx, h1 x, h2 x⟩
    · intro x _ hx; rw [S.memTree] at hx; exact ⟨hx, h1 x, h2 x⟩
  still := C.still.trans S
  hot x := (h1 x).trans (C.hot x)
  frozen x := (h2 x).trans (C.frozen x)
  grantTok := h3.trans C.grantTok
  prohTok := h4.trans C.prohTok

/-- `Tree::root`. -/
theorem Calm.treeRoot (C : Calm w0 w ch) (hT : 0 < w.trees T) (hr : w.heap.rootLink T = .ok r) :
    ∃ w', w.exec (.treeRoot T) = .ok (w', .node (some r)) ∧ Calm w0 w' ch ∧ w'.trees = w.trees ∧
      w'.heap.memTree r = some T ∧ w'.heap.alive r = true ∧ w'.held = (w.give .plain r).held := by
  have I := C.inv
  have hta := I.treesAlive T hT
  have hroot : w.heap.root T = some r := by
    unfold Heap.rootLink at hr
    cases h : w.heap.root T with
    | none => rw [h] at hr; simp at hr
    | some x => rw [h] at hr; simpa using hr
  obtain ⟨h1, h2, -⟩ := I.wf.tree.root T r hroot
  obtain ⟨h', e, I', S⟩ := I.wrap (k := .plain) h1 h2 (by simp [Lockable])
  have ex : w.exec (.treeRoot T) = .ok (({ w with heap := h' }).give .plain r, .node (some r)) := by
    simp only [World.exec, bind, Except.bind, hr, e]; rfl
  exact ⟨_, ex, C.step I' S ex hT (fun _ _ => trivial) (fun x => by simp) (fun x => by simp) rfl rfl,
    rfl, by simp [S.memTree, h2], by simp [S.alive, h1], rfl⟩

/-- `Node::tree`. -/
theorem Calm.treeOf (C : Calm w0 w ch) (hk : 0 < w.held .plain c) (hT : w.heap.memTree c = some T) :
    ∃ w', w.exec (.treeOf .plain c) = .ok (w', .tree (some T)) ∧ Calm w0 w' ch ∧
      w'.trees = upd w.trees T (w.trees T + 1) ∧ w'.held = w.held := by
  have I := C.inv
  have ha := I.held_alive hk
  have hta := I.wf.tree_alive ha hT
  obtain ⟨I', S⟩ := I.acqTree hta
  have hn : w.heap.nodeTree c = .ok T := (I.wf.tree.treeCore_iff ha).2 hT
  have ex : w.exec (.treeOf .plain c) = .ok
      ({ w with heap := w.heap.acqTree T, trees := upd w.trees T (w.trees T + 1) }, .tree (some T)) := by
    simp only [World.exec, bind, Except.bind, hn]; rfl
  exact ⟨_, ex, C.step I' S ex hk (fun _ _ => trivial) (fun x => rfl) (fun x => rfl) rfl rfl, rfl, rfl⟩

/-- Dropping a plain handle to a node of a tree for which there is a `Tree`. -/
theorem Calm.dropPlain (C : Calm w0 w ch) (hk : 0 < w.held .plain c)
    (hT : w.heap.memTree c = some T) (ht : 0 < w.trees T) :
    ∃ w', w.exec (.drop .plain c) = .ok (w', .unit) ∧ Calm w0 w' ch ∧ w'.trees = w.trees ∧
      w'.held = (w.take .plain c).held := by
  have I := C.inv
  obtain ⟨u, rc, l, hm, ha, hta⟩ := I.tree_of_held hk
  obtain rfl : u = T := by rw [memTree_strong hm] at hT; simpa using hT
  obtain ⟨h', e, I', S⟩ := I.dropPlain_keep hk hm (.inr (.inl (by rw [I.treeRc]; exact ht)))
  have ex : w.exec (.drop .plain c) = .ok (({ w with heap := h' }).take .plain c, .unit) := by
    simp only [World.exec, Heap.dropHandle, bind, Except.bind, e]; rfl
  exact ⟨_, ex, C.step I' S ex hk (fun _ _ => trivial) (fun x => by simp) (fun x => by simp) rfl rfl,
    rfl, rfl⟩

/-- Locks are as before when everything else is. -/
theorem Undone.room (U : Undone w w' ch ch') (I : Inv w ch) (I' : Inv w' ch') (hroom : Room w.heap) :
    Room w'.heap := by
  have mem : ∀ x, w.heap.alive x = true → w'.heap.memTree x = w.heap.memTree x := by
    intro x hx
    obtain ⟨t, ht, -⟩ := I.wf.tree.live x hx
    rw [ht]
    refine (I'.wf.tree.treeCore_iff (U.old.alive x hx)).1 ?_
    rw [show w'.heap.treeCore x = w.heap.treeCore x from U.old.tree x hx]
    exact (I.wf.tree.treeCore_iff hx).2 ht
  intro t ht
  have hheld : w.TreeHeld t := by
    rcases I'.treeHeld_iff.2 ht with h | ⟨k, x, h1, h2⟩
    · exact .inl (by rw [← U.old.trees]; exact h)
    · rw [U.held] at h1
      exact .inr ⟨k, x, h1, by rw [← U.old.tree x (I.held_alive h1)]; exact h2⟩
  have ht0 := I.treeHeld_iff.1 hheld
  rw [I.grants_same I' ht0 ht (by rw [U.old.grantTok]) (by rw [U.old.prohTok])]
  · exact hroom t ht0
  · intro x hx hm; exact ⟨by rw [mem x hx]; exact hm, U.held _ x, U.held _ x⟩
  · intro x hx hm
    have := U.nothingNew x hx
    exact ⟨by rw [← mem x this]; exact hm, U.held _ x, U.held _ x⟩

end Dendron
