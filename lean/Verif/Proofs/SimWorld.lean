import Verif.Proofs.SimEdit
import Verif.Spec.Shape

/-! Calls in two program states that differ only in previous-sibling pointers that are not read. -/

set_option linter.unusedSimpArgs false
set_option linter.unusedVariables false

set_option autoImplicit false

namespace Dendron
variable {α : Type} {D : NodeId → Prop} {h k : Heap α} {w v : World α} {n p : NodeId} {t : TreeId}

/-- The program states differ only in the previous-sibling pointers of `D`. -/
structure SimW (D : NodeId → Prop) (w v : World α) : Prop where
  heap : Sim D w.heap v.heap
  held : v.held = w.held
  trees : v.trees = w.trees
  grantTok : v.grantTok = w.grantTok
  prohTok : v.prohTok = w.prohTok

/-- Related results of a call. -/
def SimR (D : NodeId → Prop) (a b : World α × Res) : Prop := SimW D a.1 b.1 ∧ a.2 = b.2

theorem SimW.refl (w : World α) : SimW D w w := ⟨Sim.refl _, rfl, rfl, rfl, rfl⟩

theorem SimW.symm (s : SimW D w v) : SimW D v w :=
  ⟨s.heap.symm, s.held.symm, s.trees.symm, s.grantTok.symm, s.prohTok.symm⟩

theorem SimW.trans {u : World α} (s : SimW D w v) (s' : SimW D v u) : SimW D w u :=
  ⟨s.heap.trans s'.heap, s'.held.trans s.held, s'.trees.trans s.trees,
    s'.grantTok.trans s.grantTok, s'.prohTok.trans s.prohTok⟩

theorem SimW.mono {D' : NodeId → Prop} (s : SimW D w v) (hd : ∀ x, D x → D' x) : SimW D' w v :=
  ⟨s.heap.mono hd, s.held, s.trees, s.grantTok, s.prohTok⟩

theorem SimW.withHeap (s : SimW D w v) (hs : Sim D h k) :
    SimW D { w with heap := h } { v with heap := k } := ⟨hs, s.held, s.trees, s.grantTok, s.prohTok⟩

theorem SimW.give (s : SimW D w v) (q : Kind) (n : NodeId) : SimW D (w.give q n) (v.give q n) := by
  refine ⟨s.heap, ?_, s.trees, s.grantTok, s.prohTok⟩
  simp only [World.give, s.held]

theorem SimW.take (s : SimW D w v) (q : Kind) (n : NodeId) : SimW D (w.take q n) (v.take q n) := by
  refine ⟨s.heap, ?_, s.trees, s.grantTok, s.prohTok⟩
  simp only [World.take, s.held]

theorem SimW.giveTok (s : SimW D w v) (b : Bool) (t : TreeId) : SimW D (w.giveTok b t) (v.giveTok b t) := by
  cases b
  · exact ⟨s.heap, s.held, s.trees, s.grantTok, by simp only [World.giveTok, s.prohTok]; rfl⟩
  · exact ⟨s.heap, s.held, s.trees, by simp only [World.giveTok, s.grantTok]; rfl, s.prohTok⟩

theorem SimW.takeTok (s : SimW D w v) (b : Bool) (t : TreeId) : SimW D (w.takeTok b t) (v.takeTok b t) := by
  cases b
  · exact ⟨s.heap, s.held, s.trees, s.grantTok, by simp only [World.takeTok, s.prohTok]; rfl⟩
  · exact ⟨s.heap, s.held, s.trees, by simp only [World.takeTok, s.grantTok]; rfl, s.prohTok⟩

theorem SimW.tree (s : SimW D w v) (hs : Sim D h k) (f : Nat → Nat) (t : TreeId) :
    SimW D { w with heap := h, trees := upd w.trees t (f (w.trees t)) }
      { v with heap := k, trees := upd v.trees t (f (v.trees t)) } :=
  ⟨hs, s.held, by simp only [s.trees], s.grantTok, s.prohTok⟩

/-- The previous-sibling pointers the call reads are not in `D`. -/
def OpReads (D : NodeId → Prop) (h : Heap α) : Op α → Prop
  | .nav _ .prevSibling n => ¬ D n
  | .nav _ .lastSibling n => ∀ p, h.parentLink n = some p → FirstNot D h p
  | .nav _ .lastChild n => FirstNot D h n
  | .create _ n d as => ∀ t h1 m, h.newOrphan d t = .ok (h1, m) → InsReads D h1 (as.at n)
  | .createParent _ n d => ∀ t h1 m, h.newOrphan d t = .ok (h1, m) →
      (∀ p, h1.parentLink n = some p → ¬ D n ∧
        match h1.nextLink n with
        | some x => ¬ D x
        | none => FirstNot D h1 p) ∧ h1.firstChild m = none ∧ n ≠ m ∧ h1.parentLink n ≠ some m
  | .detach _ n => h.isRoot n = false → ¬ D n
  | .replace _ n => ∀ p, h.parentLink n = some p → ¬ D n ∧ FirstNot D h n ∧
      (h.prevLink n = .ok none → FirstNot D h p)
  | .move _ n dest => (h.isRoot n = false → ¬ D n) ∧
      (h.belongsToSameTree n dest.anchor = true → h.isRoot n = false → ∀ h1 b,
        h.newByUnlinkL n = .ok (h1, b) → InsReads D h1 dest) ∧
      (h.belongsToSameTree n dest.anchor = false → ∀ t h1 h2 b, h.treeCore dest.anchor = .ok t →
        (h.acqTree t).newByUnlinkL n = .ok (h1, b) → h1.setMemberships n t = .ok (some h2) →
        InsReads D h2 dest)
  | _ => True

/-- No node is freed before the end of the call. -/
def OpEq (h : Heap α) : Op α → Prop
  | .create _ n d as => h.nodeCreate n d as = h.nodeCreateL n d as
  | .createParent _ n d => h.createInterruptingParent n d = h.createInterruptingParentL n d
  | .createChild _ n d => h.createInterruptingChild n d = h.createInterruptingChildL n d
  | .detach _ n => h.detachSubtree n = h.detachSubtreeL n
  | .replace _ n => h.replaceWithChildren n = h.replaceWithChildrenL n
  | .move _ n dest => h.detachInsert n dest = h.detachInsertL n dest
  | _ => True

theorem SimW.checkAuth (s : SimW D w v) (a : Auth) (n : NodeId) : v.checkAuth a n = w.checkAuth a n := by
  unfold World.checkAuth; rw [s.heap.belongsTo]

theorem SimW.created (s : SimW D w v) (q : Kind) (n : NodeId) :
    Rel (SimR D) (w.created q n) (v.created q n) :=
  (Sim.expectLock (s.heap.acqLock n q)).bind fun _ _ _ s1 => .ok ⟨(s.withHeap s1).give q n, rfl⟩

theorem SimW.execAcquire (s : SimW D w v) (b : Bool) (t : TreeId) :
    Rel (SimR D) (w.execAcquire b t) (v.execAcquire b t) := by
  unfold World.execAcquire
  rw [s.heap.grants]
  cases World.lockTree (w.heap.grants t) b with
  | error e => exact .error e
  | ok o => cases o with
    | none => exact .ok ⟨s, rfl⟩
    | some g => exact .ok ⟨(s.withHeap (s.heap.setGrants t g)).giveTok b t, rfl⟩

theorem SimW.navTo (s : Sim D h k) {q : Nav} {kd : Kind} (hr : OpReads D h (.nav kd q n)) :
    k.navTo n q = h.navTo n q := by
  cases q with
  | root => simp only [Heap.navTo, s.nodeRoot]
  | parent => simp only [Heap.navTo, s.parentLink]
  | prevSibling => simp only [Heap.navTo]; exact s.prevLink hr
  | nextSibling => simp only [Heap.navTo, s.nextLink]
  | firstSibling => simp only [Heap.navTo, s.firstSibling]
  | lastSibling => simp only [Heap.navTo]; rw [s.lastSibling hr]
  | firstChild => simp only [Heap.navTo, s.firstChildLink]
  | lastChild => simp only [Heap.navTo]; exact s.lastChildLink hr

/-- The call does the same in both states. -/
theorem SimW.exec (s : SimW D w v) {op : Op α} (hr : OpReads D w.heap op)
    (hw : OpEq w.heap op) (hv : OpEq v.heap op) :
    Rel (SimR D) (w.exec op) (v.exec op) := by
  cases op with
  | newTree hot d =>
    obtain ⟨s1, e1⟩ := s.heap.newTreeRoot d
    simp only [World.exec]
    rw [← e1]
    exact (s.withHeap s1).created _ _
  | clone q n => exact (s.heap.cloneHandle n q).bind fun _ _ _ s1 => .ok ⟨(s.withHeap s1).give q n, rfl⟩
  | drop q n => exact (s.heap.dropHandle n q).bind fun _ _ _ s1 => .ok ⟨(s.withHeap s1).take q n, rfl⟩
  | nav kd q n =>
    simp only [World.exec]
    rw [SimW.navTo s.heap hr]
    refine Rel.bindEq fun o _ => ?_
    cases o with
    | none => exact .ok ⟨s, rfl⟩
    | some m => exact (s.heap.wrap m kd).bind fun _ _ _ s1 => .ok ⟨(s.withHeap s1).give kd m, rfl⟩
  | upgrade n =>
    simp only [World.exec]
    rw [s.heap.upgrade]
    cases w.heap.upgrade (some n) with
    | none => exact .ok ⟨s, rfl⟩
    | some m => exact (s.heap.wrap m .plain).bind fun _ _ _ s1 => .ok ⟨(s.withHeap s1).give .plain m, rfl⟩
  | plainOf q n => exact (s.heap.cloneLink n).bind fun _ _ _ s1 => .ok ⟨(s.withHeap s1).give .plain n, rfl⟩
  | bundle q n =>
    refine (s.heap.acqLock n q).bind fun a b _ s1 => ?_
    cases s1 with
    | none => exact (s.heap.dropLink n).bind fun _ _ _ s1 => .ok ⟨(s.withHeap s1).take .plain n, rfl⟩
    | some s1 => exact .ok ⟨((s.withHeap s1).take .plain n).give q n, rfl⟩
  | bundleWith q n t =>
    simp only [World.exec]
    rw [s.heap.belongsTo]
    split
    · exact (Sim.expectLock (s.heap.acqLock n q)).bind fun _ _ _ s1 =>
        .ok ⟨((s.withHeap s1).take .plain n).give q n, rfl⟩
    · exact .error _
  | treeOf q n =>
    simp only [World.exec]
    rw [s.heap.nodeTree]
    exact Rel.bindEq fun t _ => .ok ⟨s.tree (s.heap.acqTree t) (· + 1) t, rfl⟩
  | cloneTree t => exact .ok ⟨s.tree (s.heap.acqTree t) (· + 1) t, rfl⟩
  | dropTree t =>
    exact (s.heap.relTree [] t).bind fun _ _ _ s1 => .ok ⟨s.tree s1 (· - 1) t, rfl⟩
  | treeRoot t =>
    simp only [World.exec]
    rw [s.heap.rootLink]
    exact Rel.bindEq fun r _ => (s.heap.wrap r .plain).bind fun _ _ _ s1 =>
      .ok ⟨(s.withHeap s1).give .plain r, rfl⟩
  | upgradeTree t =>
    simp only [World.exec]
    rw [s.heap.treeAlive]
    split
    · exact .ok ⟨s.tree (s.heap.acqTree t) (· + 1) t, rfl⟩
    · exact .ok ⟨s, rfl⟩
  | acquire b t => exact s.execAcquire b t
  | cloneTok b t =>
    simp only [World.exec]
    rw [s.heap.treeAlive]
    split
    · exact s.execAcquire b t
    · exact .ok ⟨s.giveTok b t, rfl⟩
  | dropTok b t =>
    simp only [World.exec]
    rw [s.heap.treeAlive, s.heap.grants]
    split
    · exact Rel.bindEq fun g _ => .ok ⟨(s.withHeap (s.heap.setGrants t g)).takeTok b t, rfl⟩
    · exact .ok ⟨s.takeTok b t, rfl⟩
  | extract b n =>
    simp only [World.exec]
    rw [s.heap.nodeTree]
    refine Rel.bindEq fun t _ => (s.execAcquire b t).bind fun x y _ s1 => ?_
    obtain ⟨w1, r⟩ := x
    obtain ⟨v1, r'⟩ := y
    obtain ⟨s1, e1⟩ := s1
    simp only at s1 e1
    subst e1
    cases r with
    | denied => exact .error _
    | _ => exact .ok ⟨s1, rfl⟩
  | create a n d as =>
    simp only [World.exec]
    rw [show _ = _ from hw, show _ = _ from hv]
    simp only [Heap.nodeCreateL]
    rw [s.checkAuth, s.heap.treeCore]
    refine Rel.bindEq fun _ _ => Rel.bind (P := SimP D) ?_ fun x y _ s1 => ?_
    · refine Rel.bindEq fun t _ => s.heap.tryCreateNodeAsL fun h1 m e => ?_
      have := hr t h1 m e
      cases as <;> exact this
    · obtain ⟨h1, r⟩ := x
      obtain ⟨k1, r'⟩ := y
      obtain ⟨s1, e1⟩ := s1
      simp only at s1 e1
      subst e1
      cases r with
      | error e => exact .ok ⟨s.withHeap s1, rfl⟩
      | ok m => exact (s.withHeap s1).created _ _
  | createParent a n d =>
    simp only [World.exec]
    rw [s.checkAuth, show _ = _ from hw, show _ = _ from hv]
    refine Rel.bindEq fun _ _ => (s.heap.createInterruptingParentL hr).bind fun x y _ s1 => ?_
    obtain ⟨h1, r⟩ := x
    obtain ⟨k1, r'⟩ := y
    obtain ⟨s1, e1⟩ := s1
    simp only at s1 e1
    subst e1
    exact (s.withHeap s1).created _ _
  | createChild a n d =>
    simp only [World.exec]
    rw [s.checkAuth, show _ = _ from hw, show _ = _ from hv]
    refine Rel.bindEq fun _ _ => (s.heap.createInterruptingChildL n d).bind fun x y _ s1 => ?_
    obtain ⟨h1, r⟩ := x
    obtain ⟨k1, r'⟩ := y
    obtain ⟨s1, e1⟩ := s1
    simp only at s1 e1
    subst e1
    exact (s.withHeap s1).created _ _
  | detach a n =>
    simp only [World.exec]
    rw [s.checkAuth, show _ = _ from hw, show _ = _ from hv]
    exact Rel.bindEq fun _ _ => (s.heap.detachSubtreeL hr).bind fun x y _ s1 =>
      .ok ⟨s.withHeap s1, rfl⟩
  | replace a n =>
    simp only [World.exec]
    rw [s.checkAuth, show _ = _ from hw, show _ = _ from hv]
    refine Rel.bindEq fun _ _ => (s.heap.replaceWithChildrenL hr).bind fun x y _ s1 => ?_
    obtain ⟨h1, r⟩ := x
    obtain ⟨k1, r'⟩ := y
    obtain ⟨s1, e1⟩ := s1
    simp only at s1 e1
    subst e1
    cases r with
    | error e => exact .ok ⟨s.withHeap s1, rfl⟩
    | ok m => exact .ok ⟨s.withHeap s1, rfl⟩
  | move a n dest =>
    simp only [World.exec]
    rw [s.checkAuth, show _ = _ from hw, show _ = _ from hv]
    refine Rel.bindEq fun _ _ => (s.heap.detachInsertL hr.1 hr.2.1 hr.2.2).bind fun x y _ s1 => ?_
    obtain ⟨h1, r⟩ := x
    obtain ⟨k1, r'⟩ := y
    obtain ⟨s1, e1⟩ := s1
    simp only at s1 e1
    subst e1
    cases r with
    | error e => exact .ok ⟨s.withHeap s1, rfl⟩
    | ok m => exact .ok ⟨s.withHeap s1, rfl⟩
  | write n d =>
    simp only [World.exec]
    rw [s.heap.mutB]
    split
    · exact .ok ⟨s, rfl⟩
    · exact .ok ⟨s.withHeap (s.heap.setData n d), rfl⟩
  | borrowMut n b =>
    simp only [World.exec]
    rw [s.heap.mutB]
    split
    · exact .ok ⟨s, rfl⟩
    · refine .ok ⟨s.withHeap ?_, rfl⟩
      obtain ⟨pv, e, ag⟩ := s.heap
      exact ⟨pv, by rw [e]; rfl, ag⟩

end Dendron
