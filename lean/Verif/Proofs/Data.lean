import Verif.Proofs.DataFrame
import Verif.Proofs.SafeAll
import Verif.Props.Move
import Verif.Spec.Data

/-! The value of a node is the one stored last. -/

set_option autoImplicit false

namespace Dendron
variable {α : Type} {h h' : Heap α} {w w' : World α} {n x : NodeId} {t : TreeId} {k : Kind} {op : Op α} {r : Res}

theorem release_fresh {f : Nat} {pins : List NodeId} (hp : pins.contains n = false)
    (hr : h.referenced n = false) (e : h.release (f + 1) pins n = .ok h') : h'.data n = none := by
  unfold Heap.release at e
  split at e
  · rename_i hc
    rw [hp, hr] at hc
    cases e
    cases hd : h.data n with
    | none => rfl
    | some d => simp [Heap.alive, hd] at hc
  · simp only at e
    have K0 : Keep (h.kill n) (h.kill n) := .refl _
    have step : ∀ {o : Option NodeId} {g : Heap α}, Keep (h.kill n) g →
        Kp (h.kill n) id (match o with | some c => g.release f pins c | none => .ok g) := by
      intro o g Kg
      cases o with
      | none => exact Kp.ok Kg
      | some c => exact Kg.release
    split at e
    · cases e
    · rename_i e2
      rcases (step (step K0 _ e2) _ e).data n with ⟨a, -⟩ | ⟨a, -⟩
      · exact a.trans (upd_same _ _ _)
      · exact a

/-- The node of a failed creation is freed again. -/
theorem Own.failed_fresh {d : α} {m : NodeId} {h1 h2 : Heap α} (I : Own w) (hk : 0 < w.held k n)
    (ht : w.heap.treeCore n = .ok t) (e1 : w.heap.newOrphan d t = .ok (h1, m))
    (e2 : h1.dropLink m = .ok h2) : h2.data w.heap.nNode = none := by
  have I1 := (I.newOrphan e1).1
  obtain ⟨t1, rc1, l1, hm1, ha1, hta1⟩ := I.tree_of_held hk
  have hnl : n < w.heap.nNode := I.base.bound n ha1
  have ht1 : t1 = t := by
    simpa [Heap.treeCore, Heap.treeCoreOpt, hm1] using ht
  subst ht1
  unfold Heap.newOrphan at e1
  simp only at e1
  split at e1
  · rename_i g hi
    cases e1
    unfold Heap.incRef at hi
    have hm : (w.heap.allocNode d (.weak (some t1))).1.mem (w.heap.allocNode d (.weak (some t1))).2 =
        .weak (some t1) := by simp [Heap.allocNode]
    rw [hm] at hi
    simp only at hi
    split at hi
    · rename_i u hu
      simp only [Option.some.injEq] at hi
      obtain ⟨hu1, hta⟩ := Option.filter_eq_some_iff.1 hu
      simp only [Option.some.injEq] at hu1; subst hu1
      subst hi
      have hm2 : ((w.heap.allocNode d (.weak (some t1))).1.setMem w.heap.nNode (.strong t1 1 0)).mem w.heap.nNode =
          .strong t1 1 0 := upd_same _ _ _
      simp only [Heap.dropLink, Heap.decRef, bind, Except.bind] at e2
      rw [show (w.heap.allocNode d (.weak (some t1))).2 = w.heap.nNode from rfl] at e2
      rw [hm2] at e2
      simp only [Nat.sub_self, if_true, ne_eq, not_true_eq_false, if_false] at e2
      have hne : n ≠ w.heap.nNode := Nat.ne_of_lt hnl
      rw [maybeDropTree_held (by
        right
        refine ⟨n, rc1, l1, ?_, ?_⟩
        · simp [Heap.setMem, Heap.allocNode, hne, hm1]
        · exact Nat.lt_succ_of_lt hnl)] at e2
      simp only at e2
      refine release_fresh (n := w.heap.nNode) rfl ?_ e2
      rw [← Bool.not_eq_true, referenced_iff]
      rintro (⟨u, rc, l, h3⟩ | ⟨u, -, h3⟩ | ⟨y, -, h3, h4⟩)
      · simp [Heap.setMem] at h3
      · have := I.base.root u _ h3
        exact Nat.lt_irrefl _ (I.base.bound _ this)
      · by_cases hy : y = w.heap.nNode
        · subst hy
          rcases h4 with h4 | h4 <;> simp [Heap.setMem, Heap.allocNode] at h4
        · rcases h4 with h4 | h4 <;> simp only [Heap.setMem, Heap.allocNode, upd_ne _ _ hy] at h4
          · exact Nat.lt_irrefl _ (I.base.bound _ (I.base.first _ _ h4).2)
          · exact Nat.lt_irrefl _ (I.base.bound _ (I.base.next _ _ h4).2)
    · cases hi
  · cases e1

theorem Own.create_failed {d : α} {as : AdoptAs} {er : HierarchyError} (I : Own w) (hk : 0 < w.held k n)
    (e : w.heap.nodeCreate n d as = .ok (h', .error er)) : h'.data w.heap.nNode = none := by
  have key : ∀ {t : TreeId} {dest : InsertAs NodeId}, w.heap.treeCore n = .ok t →
      w.heap.createAndProcess d t (fun h m => h.insert [] m true dest) = .ok (h', .error er) →
      h'.data w.heap.nNode = none := by
    intro t dest ht e
    simp only [Heap.createAndProcess, bind, Except.bind, pure, Except.pure] at e
    split at e
    · cases e
    rename_i v hv
    obtain ⟨h1, m⟩ := v
    simp only at e
    split at e
    · cases e
    rename_i v2 hv2
    obtain ⟨h2, r2⟩ := v2
    simp only at e
    split at e
    · cases e
    · obtain ⟨-, rfl, -⟩ := insert_error hv2
      split at e
      · cases e
      · rename_i h3 e3
        cases e
        exact I.failed_fresh hk ht hv e3
  simp only [Heap.nodeCreate, bind, Except.bind] at e
  split at e
  · cases e
  rename_i t ht
  cases as <;> simp only [Heap.tryCreateNodeAs, Heap.createFirst, Heap.createLast, Heap.createPrev,
    Heap.createNext, bind, Except.bind, pure, Except.pure] at e
  · split at e <;> cases e
  · split at e <;> cases e
  · split at e
    · cases e
    exact key ht e
  · split at e
    · cases e
    exact key ht e

/-! ### One call -/

theorem created_made {d : α} {h0 h1 : Heap α} {w0 : World α} (M : Made h0 d h1) (hn : n = h0.nNode)
    (e : World.created ({ w0 with heap := h1 } : World α) k n = .ok (w', r)) :
    Made h0 d w'.heap ∧ r = .node (some h0.nNode) := by
  subst hn
  simp only [World.created, bind, Except.bind, pure, Except.pure] at e
  split at e
  · cases e
  · rename_i h2 e2
    cases e
    exact ⟨M.keep (Kp.expectLock (Keep.refl h1).acqLock _ e2), rfl⟩

/-- The data of the node a call creates. -/
def madeBy : Op α → Option α
  | .newTree _ d | .create _ _ d _ | .createParent _ _ d | .createChild _ _ d => some d
  | _ => none

theorem exec_made {d : α} (I : Own w) (hal : w.Allowed op) (hm : madeBy op = some d)
    (e : w.exec op = .ok (w', r)) :
    Made w.heap d w'.heap ∧ (r = .node (some w.heap.nNode) ∨
      (∃ er, r = .err er) ∧ w'.heap.data w.heap.nNode = none) := by
  cases op <;> simp only [madeBy, Option.some.injEq, reduceCtorEq] at hm
  case newTree hot d' =>
    subst hm
    obtain ⟨a, b⟩ := created_made made_newTreeRoot rfl e
    exact ⟨a, .inl b⟩
  case create a n d' as =>
    subst hm
    obtain ⟨k, hk⟩ := I.hasAuth hal
    simp only [World.exec, bind, Except.bind, pure, Except.pure] at e
    split at e
    · cases e
    split at e
    · cases e
    rename_i v hv
    obtain ⟨h1, r1⟩ := v
    obtain ⟨M, hM⟩ := made_create hv
    simp only at e
    cases r1 with
    | error er =>
      cases e
      exact ⟨M, .inr ⟨⟨er, rfl⟩, I.create_failed hk hv⟩⟩
    | ok m =>
      obtain ⟨a, b⟩ := created_made M (hM m rfl) e
      exact ⟨a, .inl b⟩
  case createParent a n d' =>
    subst hm
    simp only [World.exec, bind, Except.bind, pure, Except.pure] at e
    split at e
    · cases e
    split at e
    · cases e
    rename_i v hv
    obtain ⟨h1, m⟩ := v
    obtain ⟨M, hM⟩ := made_parent hv
    obtain ⟨a, b⟩ := created_made M hM e
    exact ⟨a, .inl b⟩
  case createChild a n d' =>
    subst hm
    simp only [World.exec, bind, Except.bind, pure, Except.pure] at e
    split at e
    · cases e
    split at e
    · cases e
    rename_i v hv
    obtain ⟨h1, m⟩ := v
    obtain ⟨M, hM⟩ := made_child hv
    obtain ⟨a, b⟩ := created_made M hM e
    exact ⟨a, .inl b⟩

theorem acquire_keep {b : Bool} {h0 : Heap α} (K : Keep h0 w.heap) (e : w.execAcquire b t = .ok (w', r)) : Keep h0 w'.heap := by
  unfold World.execAcquire at e
  split at e
  · cases e
  · cases e; exact K
  · cases e
    cases b <;> exact K.setGrants

theorem exec_keep (hm : madeBy op = none) (hw : ∀ n, ¬ Writes op n) (e : w.exec op = .ok (w', r)) :
    Keep w.heap w'.heap := by
  have K := Keep.refl w.heap
  cases op with
  | newTree hot d => simp [madeBy] at hm
  | create a n d as => simp [madeBy] at hm
  | createParent a n d => simp [madeBy] at hm
  | createChild a n d => simp [madeBy] at hm
  | write n d => exact absurd rfl (hw n)
  | borrowMut n b => exact absurd rfl (hw n)
  | clone k n =>
    simp only [World.exec, bind, Except.bind, pure, Except.pure] at e
    split at e
    · cases e
    · rename_i h1 h1e; cases e; exact K.cloneHandle _ h1e
  | drop k n =>
    simp only [World.exec, bind, Except.bind, pure, Except.pure] at e
    split at e
    · cases e
    · rename_i h1 h1e; cases e; exact K.dropHandle _ h1e
  | nav k q n =>
    simp only [World.exec, bind, Except.bind, pure, Except.pure] at e
    split at e
    · cases e
    · split at e
      · cases e; exact K
      · split at e
        · cases e
        · rename_i h1 h1e; cases e; exact K.wrap _ h1e
  | upgrade n =>
    simp only [World.exec, bind, Except.bind, pure, Except.pure] at e
    split at e
    · cases e; exact K
    · split at e
      · cases e
      · rename_i h1 h1e; cases e; exact K.wrap _ h1e
  | plainOf k n =>
    simp only [World.exec, bind, Except.bind, pure, Except.pure] at e
    split at e
    · cases e
    · rename_i h1 h1e; cases e; exact K.cloneLink _ h1e
  | bundle k n =>
    simp only [World.exec, bind, Except.bind, pure, Except.pure] at e
    split at e
    · cases e
    · rename_i v hv
      split at e
      · cases e; exact K.acqLock _ hv
      · split at e
        · cases e
        · rename_i h1 h1e; cases e; exact K.dropLink _ h1e
  | bundleWith k n t =>
    simp only [World.exec, bind, Except.bind, pure, Except.pure] at e
    split at e
    · split at e
      · cases e
      · rename_i h1 h1e; cases e; exact Kp.expectLock K.acqLock _ h1e
    · cases e
  | treeOf k n =>
    simp only [World.exec, bind, Except.bind, pure, Except.pure] at e
    split at e
    · cases e
    · cases e; exact K.acqTree
  | cloneTree t => cases e; exact K.acqTree
  | dropTree t =>
    simp only [World.exec, bind, Except.bind, pure, Except.pure] at e
    split at e
    · cases e
    · rename_i h1 h1e; cases e; exact K.relTree _ h1e
  | treeRoot t =>
    simp only [World.exec, bind, Except.bind, pure, Except.pure] at e
    split at e
    · cases e
    · split at e
      · cases e
      · rename_i h1 h1e; cases e; exact K.wrap _ h1e
  | upgradeTree t =>
    simp only [World.exec] at e
    split at e <;> cases e
    · exact K.acqTree
    · exact K
  | acquire grant t => exact acquire_keep K e
  | cloneTok grant t =>
    simp only [World.exec] at e
    split at e
    · exact acquire_keep K e
    · cases e; cases grant <;> exact K
  | dropTok grant t =>
    simp only [World.exec, bind, Except.bind, pure, Except.pure] at e
    split at e
    · split at e
      · cases e
      · cases e; cases grant <;> exact K.setGrants
    · cases e; cases grant <;> exact K
  | extract grant n =>
    simp only [World.exec, bind, Except.bind, pure, Except.pure] at e
    split at e
    · cases e
    · split at e
      · cases e
      · rename_i v hv
        split at e
        · cases e
        · cases e; exact acquire_keep K hv
  | detach a n =>
    simp only [World.exec, bind, Except.bind, pure, Except.pure] at e
    split at e
    · cases e
    split at e
    · cases e
    · rename_i h1 h1e; cases e; exact K.detachSubtree _ h1e
  | replace a n =>
    simp only [World.exec, bind, Except.bind, pure, Except.pure] at e
    split at e
    · cases e
    split at e
    · cases e
    · rename_i v hv
      obtain ⟨h1, r1⟩ := v
      simp only at e
      cases r1 <;> cases e <;> exact K.replace _ hv
  | move a n dest =>
    simp only [World.exec, bind, Except.bind, pure, Except.pure] at e
    split at e
    · cases e
    split at e
    · cases e
    · rename_i v hv
      obtain ⟨h1, r1⟩ := v
      simp only at e
      cases r1 <;> cases e <;> exact K.detachInsert _ hv

end Dendron
