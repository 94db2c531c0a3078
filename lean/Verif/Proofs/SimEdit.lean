import Verif.Proofs.Sim

/-! Edits in two memories that differ only in previous-sibling pointers that are not read. -/

set_option linter.unusedSimpArgs false
set_option linter.unusedVariables false

set_option autoImplicit false

namespace Dendron
variable {α β γ : Type} {D : NodeId → Prop} {h k : Heap α} {n p : NodeId} {t : TreeId}

theorem Sim.setMembLoop (s : Sim D h k) (f : Nat) (n : NodeId) (t : TreeId)
    (ev : Option (DftEvent NodeId)) :
    Rel (SimO D) (Heap.setMembLoop f n t ev h) (Heap.setMembLoop f n t ev k) := by
  induction f generalizing h k ev with
  | zero => cases ev with
    | none => exact .ok (.some s)
    | some e => exact .error _
  | succ f ih =>
    cases ev with
    | none => exact .ok (.some s)
    | some e =>
      unfold Heap.setMembLoop
      rw [s.evNext]
      split
      · exact .ok (.some s)
      · cases e with
        | opn m =>
          simp only
          generalize (n :: match h.evNext (.opn m) with | some e => [e.value] | none => []) = held
          have := s.setTreeCore (m :: held) m t
          generalize Heap.setTreeCore _ _ _ _ = a at this ⊢
          generalize Heap.setTreeCore _ _ _ _ = b at this ⊢
          cases this with
          | error e => exact .error e
          | ok o => cases o with
            | none => exact .ok .none
            | some s1 =>
              simp only
              rw [s1.relFuel]
              rename_i h1 k1
              have := s1.release held h1.relFuel m
              generalize Heap.release _ _ _ _ = a at this ⊢
              generalize Heap.release _ _ _ _ = b at this ⊢
              cases this with
              | error e => exact .error e
              | ok s2 => exact ih s2 _
        | cls m =>
          simp only
          generalize (n :: match h.evNext (.cls m) with | some e => [e.value] | none => []) = held
          rw [s.relFuel]
          have := s.release held h.relFuel m
          generalize Heap.release _ _ _ _ = a at this ⊢
          generalize Heap.release _ _ _ _ = b at this ⊢
          cases this with
          | error e => exact .error e
          | ok s2 => exact ih s2 _

theorem Sim.setMemberships (s : Sim D h k) (n : NodeId) (t : TreeId) :
    Rel (SimO D) (h.setMemberships n t) (k.setMemberships n t) := by
  unfold Heap.setMemberships
  rw [s.nNode]; exact s.setMembLoop _ _ _ _

theorem Sim.createNewTree (s : Sim D h k) (n : NodeId) :
    Rel (Sim D) (h.createNewTree n) (k.createNewTree n) := by
  obtain ⟨s1, e1⟩ := s.allocTree n
  unfold Heap.createNewTree
  generalize h.allocTree n = a at s1 e1 ⊢
  generalize k.allocTree n = b at s1 e1 ⊢
  obtain ⟨h1, t⟩ := a
  obtain ⟨k1, t'⟩ := b
  simp only at s1 e1 ⊢
  subst e1
  have := s1.setMemberships n t
  generalize Heap.setMemberships _ _ _ = a at this ⊢
  generalize Heap.setMemberships _ _ _ = b at this ⊢
  cases this with
  | error e => exact .error e
  | ok o => cases o with
    | none => exact .error _
    | some s2 => exact s2.relTree _ _

/-- The pointer of the unlinked node itself must be right. -/
theorem Sim.newByUnlinkL (s : Sim D h k) (hn : h.isRoot n = false → ¬ D n) :
    Rel (SimP D) (h.newByUnlinkL n) (k.newByUnlinkL n) := by
  unfold Heap.newByUnlinkL
  rw [s.isRoot]
  split
  · exact .ok ⟨s, rfl⟩
  · rename_i hr
    have hd := hn (by simpa using hr)
    rw [s.parentLink, s.prevLink hd, s.prevCycLink hd, s.nextLink, s.isFirstSibling hd]
    refine Rel.bindEq fun prev _ => ?_
    refine Rel.bindEq fun prevC _ => ?_
    refine Rel.bind (P := Sim D) ?_ fun a b _ s1 => ?_
    · cases h.parentLink n with
      | none => exact .ok s
      | some p =>
        refine Rel.bindEq fun first _ => ?_
        have go : ∀ {x y : Heap α}, Sim D x y → Rel (Sim D)
            (if x.numCh p = 0 then .error (.panic "parent should have a child") else x.numSub p 1)
            (if y.numCh p = 0 then .error (.panic "parent should have a child") else y.numSub p 1) := by
          intro x y s1
          rw [s1.numCh]
          split
          · exact .error _
          · exact s1.numSub _ _
        cases first with
        | true => exact go (s.setFirst _ _)
        | false => exact go s
    · refine .ok ⟨Sim.setNext (Sim.setPrev (Sim.setParent ?_ _ _) _ _) _ _, rfl⟩
      cases prev with
      | none => cases h.nextLink n with
        | none => exact s1
        | some z => exact s1.setPrev _ _
      | some x => cases h.nextLink n with
        | none => exact s1.setNext _ _
        | some z => exact (s1.setNext _ _).setPrev _ _

theorem Sim.isAncestorLoop (s : Sim D h k) (n : NodeId) (f : Nat) (o : Option NodeId) :
    k.isAncestorLoop n f o = h.isAncestorLoop n f o := by
  induction f generalizing o with
  | zero => cases o <;> rfl
  | succ f ih =>
    cases o with
    | none => rfl
    | some a => unfold Heap.isAncestorLoop; rw [s.parentLink, ih]

theorem Sim.loopCheck (s : Sim D h k) (n : NodeId) (b : Bool) (p : NodeId) :
    k.loopCheck n b p = h.loopCheck n b p := by
  unfold Heap.loopCheck Heap.isAncestorOf; rw [s.nNode, s.isAncestorLoop]

theorem Sim.insertFirstL (s : Sim D h k) (hp : FirstNot D h p) (n : NodeId) (b : Bool) :
    Rel (SimP D) (h.insertFirstL n b p) (k.insertFirstL n b p) := by
  unfold Heap.insertFirstL
  rw [s.loopCheck, s.firstLastChildLink hp]
  refine Rel.bindEq fun c _ => ?_
  cases c with
  | true => exact .ok ⟨s, rfl⟩
  | false =>
    refine Rel.bindEq fun fl _ => ?_
    cases fl with
    | none => exact .ok ⟨(((s.setPrev _ _).setParent _ _).setFirst _ _).numAdd _ _, rfl⟩
    | some x =>
      exact .ok ⟨((((s.setPrev _ _).connectAdjacent _ _).setParent _ _).setFirst _ _).numAdd _ _, rfl⟩

theorem Sim.insertLastL (s : Sim D h k) (hp : FirstNot D h p) (n : NodeId) (b : Bool) :
    Rel (SimP D) (h.insertLastL n b p) (k.insertLastL n b p) := by
  unfold Heap.insertLastL
  rw [s.loopCheck, s.firstLastChildLink hp]
  refine Rel.bindEq fun c _ => ?_
  cases c with
  | true => exact .ok ⟨s, rfl⟩
  | false =>
    refine Rel.bindEq fun fl _ => ?_
    cases fl with
    | none => exact .ok ⟨(((s.setPrev _ _).setFirst _ _).setParent _ _).numAdd _ _, rfl⟩
    | some x => exact .ok ⟨(((s.setPrev _ _).connectAdjacent _ _).setParent _ _).numAdd _ _, rfl⟩

theorem Sim.insertBetweenL {a b : NodeId} (s : Sim D h k) (hb : ¬ D b) (n p : NodeId) :
    Rel (Sim D) (h.insertBetweenL n p a b) (k.insertBetweenL n p a b) := by
  unfold Heap.insertBetweenL
  have e : k.betweenChecks p a b = h.betweenChecks p a b := by
    unfold Heap.betweenChecks; rw [s.parentLink, s.nextLink, s.prevLink hb]
  rw [e]
  refine Rel.bindEq fun _ _ => ?_
  have s1 := s.setParent n (some p)
  simp only
  rw [s1.next]
  have s2 := (s1.setNext a (some n)).setNext n ((h.setParent n (some p)).next a)
  rw [s2.prevCyc hb]
  exact .ok (((s2.setPrev _ _).setPrev _ _).numAdd _ _)

/-- The pointers an insertion reads are not in `D`. -/
def InsReads (D : NodeId → Prop) (h : Heap α) : InsertAs NodeId → Prop
  | .firstChildOf p | .lastChildOf p => FirstNot D h p
  | .previousSiblingOf a => ¬ D a ∧
      ∀ p, h.parentLink a = some p → h.prevLink a = .ok none → FirstNot D h p
  | .nextSiblingOf a => ∀ p, h.parentLink a = some p →
      match h.nextLink a with
      | some s => ¬ D s
      | none => FirstNot D h p

theorem Sim.insertL (s : Sim D h k) {dest : InsertAs NodeId} (hd : InsReads D h dest) (n : NodeId)
    (b : Bool) : Rel (SimP D) (h.insertL n b dest) (k.insertL n b dest) := by
  cases dest with
  | firstChildOf p => exact s.insertFirstL hd n b
  | lastChildOf p => exact s.insertLastL hd n b
  | previousSiblingOf a =>
    unfold Heap.insertL
    rw [s.parentLink]
    simp only
    cases e : h.parentLink a with
    | none => exact .ok ⟨s, rfl⟩
    | some p =>
      simp only
      rw [s.prevLink hd.1]
      refine Rel.bindEq fun o ho => ?_
      cases o with
      | none => exact s.insertFirstL (hd.2 p e ho) n b
      | some x => exact (s.insertBetweenL hd.1 n p).bind fun _ _ _ s1 => .ok ⟨s1, rfl⟩
  | nextSiblingOf a =>
    unfold Heap.insertL
    rw [s.parentLink, s.nextLink]
    simp only
    cases e : h.parentLink a with
    | none => exact .ok ⟨s, rfl⟩
    | some p =>
      simp only
      have := hd p e
      cases e' : h.nextLink a with
      | none => rw [e'] at this; exact s.insertLastL this n b
      | some x => rw [e'] at this; exact (s.insertBetweenL this n p).bind fun _ _ _ s1 => .ok ⟨s1, rfl⟩

theorem Sim.detachSubtreeL (s : Sim D h k) (hn : h.isRoot n = false → ¬ D n) :
    Rel (Sim D) (h.detachSubtreeL n) (k.detachSubtreeL n) := by
  unfold Heap.detachSubtreeL
  rw [s.isRoot]
  split
  · exact .ok s
  · refine (s.newByUnlinkL hn).bind fun a b _ s1 => ?_
    exact s1.1.createNewTree n

theorem Sim.moveSameL {dest : InsertAs NodeId} (s : Sim D h k) (hn : h.isRoot n = false → ¬ D n)
    (hd : h.isRoot n = false → ∀ h1 b, h.newByUnlinkL n = .ok (h1, b) → InsReads D h1 dest) :
    Rel (SimP D) (h.moveSameL n dest) (k.moveSameL n dest) := by
  unfold Heap.moveSameL
  rw [s.isRoot]
  split
  · exact .ok ⟨s, rfl⟩
  · rename_i hr
    refine (s.newByUnlinkL hn).bind fun a b e s1 => ?_
    obtain ⟨h1, c⟩ := a
    obtain ⟨k1, c'⟩ := b
    obtain ⟨s1, e1⟩ := s1
    simp only at s1 e1 ⊢
    subst e1
    exact s1.insertL (hd (by simpa using hr) _ _ e) n _

/-- What remains of `moveOtherL` after the unlinking. -/
def Heap.moveRest (h : Heap α) (n : NodeId) (b : Bool) (dest : InsertAs NodeId) (t : TreeId) :
    Except Fault (Heap α × Except HierarchyError Unit) := do
  match ← h.setMemberships n t with
  | none => .error (.panic "brand-new tree hierarchy can be locked by any types of lock")
  | some h => h.insertL n b dest

theorem Sim.moveRest {dest : InsertAs NodeId} {b : Bool} (s : Sim D h k)
    (hd : ∀ h1, h.setMemberships n t = .ok (some h1) → InsReads D h1 dest) :
    Rel (SimP D) (h.moveRest n b dest t) (k.moveRest n b dest t) := by
  unfold Heap.moveRest
  refine (s.setMemberships n t).bind fun a c e s1 => ?_
  cases s1 with
  | none => exact .error _
  | some s1 => exact s1.insertL (hd _ e) n b

theorem Sim.detachInsertL {dest : InsertAs NodeId} (s : Sim D h k) (hn : h.isRoot n = false → ¬ D n)
    (hd : h.belongsToSameTree n dest.anchor = true → h.isRoot n = false → ∀ h1 b,
      h.newByUnlinkL n = .ok (h1, b) → InsReads D h1 dest)
    (hd' : h.belongsToSameTree n dest.anchor = false → ∀ t h1 h2 b, h.treeCore dest.anchor = .ok t →
      (h.acqTree t).newByUnlinkL n = .ok (h1, b) → h1.setMemberships n t = .ok (some h2) →
      InsReads D h2 dest) :
    Rel (SimP D) (h.detachInsertL n dest) (k.detachInsertL n dest) := by
  unfold Heap.detachInsertL
  rw [s.belongsToSameTree, s.treeCore]
  split
  · rename_i hb
    exact s.moveSameL hn (hd hb)
  · rename_i hb
    refine Rel.bindEq fun t ht => ?_
    have s1 := s.acqTree t
    refine Rel.bind (P := SimP D) ?_ fun a b _ s2 => ?_
    · unfold Heap.moveOtherL
      refine Rel.bind (s1.newByUnlinkL hn) fun a b e s2 => ?_
      obtain ⟨h1, c⟩ := a
      obtain ⟨k1, c'⟩ := b
      obtain ⟨s2, e2⟩ := s2
      simp only at s2 e2 ⊢
      subst e2
      exact s2.moveRest (t := t) (fun h2 e' => hd' (by simpa using hb) t h1 h2 c ht e e')
    · obtain ⟨h1, c⟩ := a
      obtain ⟨k1, c'⟩ := b
      obtain ⟨s2, e2⟩ := s2
      simp only at s2 e2 ⊢
      subst e2
      exact (s2.relTree _ _).bind fun _ _ _ s3 => .ok ⟨s3, rfl⟩

theorem Sim.createAndProcess {P : Heap α → NodeId → Except Fault (Heap α × Except HierarchyError Unit)}
    (s : Sim D h k) (d : α) (t : TreeId)
    (hP : ∀ h1 k1 m, h.newOrphan d t = .ok (h1, m) → Sim D h1 k1 → Rel (SimP D) (P h1 m) (P k1 m)) :
    Rel (SimP D) (h.createAndProcess d t P) (k.createAndProcess d t P) := by
  unfold Heap.createAndProcess
  refine (s.newOrphan d t).bind fun a b e s1 => ?_
  obtain ⟨h1, m⟩ := a
  obtain ⟨k1, m'⟩ := b
  obtain ⟨s1, e1⟩ := s1
  simp only at s1 e1 ⊢
  subst e1
  refine (hP h1 k1 m e s1).bind fun a b e2 s2 => ?_
  obtain ⟨h2, r⟩ := a
  obtain ⟨k2, r'⟩ := b
  obtain ⟨s2, e2⟩ := s2
  simp only at s2 e2 ⊢
  subst e2
  cases r with
  | ok _ => exact .ok ⟨s2, rfl⟩
  | error x => exact (s2.dropLink m).bind fun _ _ _ s3 => .ok ⟨s3, rfl⟩

theorem Sim.expectOk {a b : Except Fault (Heap α × Except HierarchyError β)} (r : Rel (SimP D) a b)
    (msg : String) : Rel (SimP D) (Heap.expectOk a msg) (Heap.expectOk b msg) := by
  cases r with
  | error e => exact .error e
  | @ok a b s =>
    obtain ⟨h1, r⟩ := a
    obtain ⟨k1, r'⟩ := b
    obtain ⟨s1, e1⟩ := s
    simp only at s1 e1
    subst e1
    cases r with
    | ok x => exact .ok ⟨s1, rfl⟩
    | error e => exact .error _

theorem Sim.checkBelongs (s : Sim D h k) (n : NodeId) (t : TreeId) :
    k.checkBelongs n t = h.checkBelongs n t := by
  unfold Heap.checkBelongs; rw [s.belongsTo]

theorem Sim.tryCreateNodeAsL {d : α} {as : AdoptAs} (s : Sim D h k)
    (hd : ∀ h1 m, h.newOrphan d t = .ok (h1, m) → InsReads D h1
      (match as with
        | .firstChild => .firstChildOf n | .lastChild => .lastChildOf n
        | .previousSibling => .previousSiblingOf n | .nextSibling => .nextSiblingOf n)) :
    Rel (SimP D) (h.tryCreateNodeAsL n t d as) (k.tryCreateNodeAsL n t d as) := by
  cases as with
  | firstChild =>
    refine Rel.bind (P := SimP D) ?_ fun a b _ s1 => .ok ⟨s1.1, by rw [s1.2]⟩
    unfold Heap.createFirstL
    rw [s.checkBelongs]
    refine Rel.bindEq fun _ _ => ?_
    exact Sim.expectOk (s.createAndProcess d t fun h1 k1 m e s1 => s1.insertFirstL (hd h1 m e) m true) _
  | lastChild =>
    refine Rel.bind (P := SimP D) ?_ fun a b _ s1 => .ok ⟨s1.1, by rw [s1.2]⟩
    unfold Heap.createLastL
    rw [s.checkBelongs]
    refine Rel.bindEq fun _ _ => ?_
    exact Sim.expectOk (s.createAndProcess d t fun h1 k1 m e s1 => s1.insertLastL (hd h1 m e) m true) _
  | previousSibling =>
    show Rel _ (h.createPrevL n t d) (k.createPrevL n t d)
    unfold Heap.createPrevL
    rw [s.checkBelongs]
    refine Rel.bindEq fun _ _ => ?_
    exact s.createAndProcess d t fun h1 k1 m e s1 => s1.insertL (hd h1 m e) m true
  | nextSibling =>
    show Rel _ (h.createNextL n t d) (k.createNextL n t d)
    unfold Heap.createNextL
    rw [s.checkBelongs]
    refine Rel.bindEq fun _ _ => ?_
    exact s.createAndProcess d t fun h1 k1 m e s1 => s1.insertL (hd h1 m e) m true

theorem Sim.reparentLoopL (s : Sim D h k) (f : Nat) (o : Option NodeId) (p : NodeId) :
    Rel (Sim D) (Heap.reparentLoopL f o p h) (Heap.reparentLoopL f o p k) := by
  induction f generalizing h k o with
  | zero => cases o with
    | none => exact .ok s
    | some e => exact .error _
  | succ f ih =>
    cases o with
    | none => exact .ok s
    | some e =>
      unfold Heap.reparentLoopL
      rw [s.nextLink]
      exact ih (s.setParent _ _) _

theorem Sim.interruptChildL (s : Sim D h k) (n m : NodeId) :
    Rel (SimP D) (h.interruptChildL n m) (k.interruptChildL n m) := by
  unfold Heap.interruptChildL
  rw [s.firstChildLink]
  simp only
  have s1 := ((s.setFirst n (some m)).setParent m (some n)).setFirst m (h.firstChildLink n)
  rw [s1.nNode]
  refine (s1.reparentLoopL _ _ _).bind fun a b _ s2 => ?_
  rw [s2.numCh]
  exact .ok ⟨(s2.setNum _ _).setNum _ _, rfl⟩

theorem Sim.createInterruptingChildL (s : Sim D h k) (n : NodeId) (d : α) :
    Rel (SimP D) (h.createInterruptingChildL n d) (k.createInterruptingChildL n d) := by
  unfold Heap.createInterruptingChildL
  rw [s.treeCore]
  refine Rel.bindEq fun t _ => ?_
  exact Sim.expectOk (s.createAndProcess d t fun h1 k1 m e s1 => s1.interruptChildL n m) _

/-- Unlinking a node does not touch the first child of other nodes than its parent. -/
theorem newByUnlink_firstChild {h1 : Heap α} {b : Bool} {x : NodeId} (e : h.newByUnlinkL n = .ok (h1, b))
    (hx : h.parentLink n ≠ some x) : h1.firstChild x = h.firstChild x := by
  unfold Heap.newByUnlinkL at e
  split at e
  · simp only [Except.ok.injEq, Prod.mk.injEq] at e; rw [← e.1]
  · simp only [bind, Except.bind] at e
    split at e
    · cases e
    · rename_i prev _
      split at e
      · cases e
      · rename_i pc _
        split at e
        · cases e
        · rename_i y hy
          have key : y.firstChild x = h.firstChild x := by
            split at hy
            · rename_i p hp
              rw [hp] at hx
              have hne : x ≠ p := by rintro rfl; exact hx rfl
              split at hy
              · cases hy
              · rename_i v _
                have go : ∀ z : Heap α, z.firstChild x = h.firstChild x →
                    (if z.numCh p = 0 then Except.error (Fault.panic "parent should have a child")
                      else z.numSub p 1) = .ok y → y.firstChild x = h.firstChild x := by
                  intro z hz hy
                  split at hy
                  · cases hy
                  · unfold Heap.numSub at hy
                    split at hy
                    · cases hy
                    · simp only [Except.ok.injEq] at hy
                      rw [← hy]; exact hz
                cases v with
                | true => exact go (h.setFirst p (h.nextLink n)) (by simp [Heap.setFirst, hne]) hy
                | false => exact go h rfl hy
            · simp only [Except.ok.injEq] at hy; rw [← hy]
          simp only [pure, Except.pure, Except.ok.injEq, Prod.mk.injEq] at e
          rw [← e.1, ← key]
          cases prev <;> cases h.nextLink n <;> rfl

theorem parentLink_congr {h1 : Heap α} (hd : h1.data = h.data) (hp : h1.parent n = h.parent n) :
    h1.parentLink n = h.parentLink n := by
  simp [Heap.parentLink, Heap.upgrade, hp, show h1.alive = h.alive by funext x; simp [Heap.alive, hd]]

theorem insertBetween_firstChild {h1 : Heap α} {m a b x : NodeId} (e : h.insertBetweenL m p a b = .ok h1) :
    h1.firstChild x = h.firstChild x ∧ (n ≠ m → h1.parentLink n = h.parentLink n) := by
  unfold Heap.insertBetweenL at e
  simp only [bind, Except.bind] at e
  split at e
  · cases e
  · simp only [pure, Except.pure, Except.ok.injEq] at e
    subst e
    refine ⟨rfl, fun hn => parentLink_congr rfl ?_⟩
    simp [Heap.numAdd, Heap.setNum, Heap.setPrev, Heap.setNext, Heap.setParent, hn]

theorem insertLast_firstChild {h1 : Heap α} {m x : NodeId} {b : Bool} {r : Except HierarchyError Unit}
    (e : h.insertLastL m b p = .ok (h1, r)) (hx : x ≠ p) :
    h1.firstChild x = h.firstChild x ∧ (n ≠ m → h1.parentLink n = h.parentLink n) := by
  unfold Heap.insertLastL at e
  simp only [bind, Except.bind] at e
  split at e
  · cases e
  · split at e
    · simp only [pure, Except.pure, Except.ok.injEq, Prod.mk.injEq] at e
      rw [← e.1]; exact ⟨rfl, fun _ => rfl⟩
    · split at e
      · cases e
      · rename_i fl _
        simp only [pure, Except.pure, Except.ok.injEq, Prod.mk.injEq] at e
        rw [← e.1]
        cases fl with
        | none =>
          refine ⟨?_, fun hn => parentLink_congr rfl ?_⟩
          · simp [Heap.numAdd, Heap.setNum, Heap.setPrev, Heap.setParent, Heap.setFirst, hx]
          · simp [Heap.numAdd, Heap.setNum, Heap.setPrev, Heap.setParent, Heap.setFirst, hn]
        | some fl =>
          refine ⟨rfl, fun hn => parentLink_congr rfl ?_⟩
          simp [Heap.numAdd, Heap.setNum, Heap.setPrev, Heap.setNext, Heap.setParent,
            Heap.connectAdjacent, hn]

theorem Sim.interruptParentL {m : NodeId} (s : Sim D h k) (hr : ∀ p, h.parentLink n = some p → ¬ D n ∧
      match h.nextLink n with
      | some x => ¬ D x
      | none => FirstNot D h p) (hm : h.firstChild m = none) (hmn : n ≠ m)
      (hmp : h.parentLink n ≠ some m) :
    Rel (SimP D) (h.interruptParentL n t m) (k.interruptParentL n t m) := by
  unfold Heap.interruptParentL
  rw [s.parentLink, s.nextLink]
  cases e : h.parentLink n with
  | none => exact .ok ⟨((((s.setRoot _ _).setPrev _ _).setFirst _ _).setParent _ _).numAdd _ _, rfl⟩
  | some p =>
    obtain ⟨h1, h2⟩ := hr p e
    have hpm : m ≠ p := by rintro rfl; exact hmp e
    simp only
    have next : ∀ {a b : Heap α}, a.firstChild m = none → a.parentLink n = h.parentLink n → Sim D a b →
        Rel (SimP D) (do

          let (h, _) ← Heap.expectOk (a.moveSameL n (.lastChildOf m))
            "the new node is neither ancestor nor descendant of `this`"
          return (h, (Except.ok () : Except HierarchyError Unit))) (do
          let (h, _) ← Heap.expectOk (b.moveSameL n (.lastChildOf m))
            "the new node is neither ancestor nor descendant of `this`"
          return (h, (Except.ok () : Except HierarchyError Unit))) := by
      intro a b ha hp s1
      refine Rel.bind (Sim.expectOk (s1.moveSameL (fun _ => h1) ?_) _) fun x y _ s2 => .ok ⟨s2.1, rfl⟩
      intro _ a1 c e1 f hf
      rw [newByUnlink_firstChild e1 (by rw [hp]; exact hmp), ha] at hf
      cases hf
    cases e' : h.nextLink n with
    | some x =>
      rw [e'] at h2
      simp only
      refine (s.insertBetweenL h2 m p).bind fun a b ea s1 => ?_
      obtain ⟨f1, f2⟩ := insertBetween_firstChild (n := n) (x := m) ea
      exact next (f1.trans hm) (f2 hmn) s1
    | none =>
      rw [e'] at h2
      simp only
      have r := s.insertLastL h2 m true
      have key := fun h1 r (e : h.insertLastL m true p = .ok (h1, r)) =>
        insertLast_firstChild (n := n) e hpm
      generalize h.insertLastL m true p = a at r key ⊢
      generalize k.insertLastL m true p = b at r key ⊢
      cases r with
      | error e => exact .error e
      | @ok a b s1 =>
        obtain ⟨h1, r⟩ := a
        obtain ⟨k1, r'⟩ := b
        obtain ⟨s1, e1⟩ := s1
        simp only at s1 e1
        subst e1
        obtain ⟨f1, f2⟩ := key h1 r rfl
        cases r with
        | ok _ => exact next (f1.trans hm) (f2 hmn) s1
        | error _ => exact .error _

theorem Sim.createInterruptingParentL {d : α} (s : Sim D h k)
    (hr : ∀ t h1 m, h.newOrphan d t = .ok (h1, m) → (∀ p, h1.parentLink n = some p → ¬ D n ∧
        match h1.nextLink n with
        | some x => ¬ D x
        | none => FirstNot D h1 p) ∧ h1.firstChild m = none ∧ n ≠ m ∧ h1.parentLink n ≠ some m) :
    Rel (SimP D) (h.createInterruptingParentL n d) (k.createInterruptingParentL n d) := by
  unfold Heap.createInterruptingParentL
  rw [s.treeCore]
  refine Rel.bindEq fun t _ => ?_
  refine Sim.expectOk (s.createAndProcess d t fun h1 k1 m e s1 => ?_) _
  obtain ⟨r1, r2, r3, r4⟩ := hr t h1 m e
  exact s1.interruptParentL r1 r2 r3 r4

/-- The new node is linked to nothing. -/
theorem newOrphan_facts {h1 : Heap α} {m : NodeId} {d : α} (e : h.newOrphan d t = .ok (h1, m)) :
    m = h.nNode ∧ h1.data = upd h.data m (some d) ∧ h1.parent = upd h.parent m none ∧
      h1.firstChild = upd h.firstChild m none ∧ h1.next = upd h.next m none ∧
      h1.prevCyc = upd h.prevCyc m (some m) := by
  unfold Heap.newOrphan Heap.incRef at e
  simp only [Heap.allocNode, upd_same] at e
  cases ho : (some t).filter h.treeAlive with
  | none =>
    have : (some t).filter (Heap.treeAlive (α := α) { h with
      data := upd h.data h.nNode (some d)
      mutB := upd h.mutB h.nNode false
      parent := upd h.parent h.nNode none
      firstChild := upd h.firstChild h.nNode none
      next := upd h.next h.nNode none
      prevCyc := upd h.prevCyc h.nNode (some h.nNode)
      numCh := upd h.numCh h.nNode 0
      mem := upd h.mem h.nNode (.weak (some t))
      nNode := h.nNode + 1 }) = none := ho
    rw [this] at e
    simp at e
  | some u =>
    have : (some t).filter (Heap.treeAlive (α := α) { h with
      data := upd h.data h.nNode (some d)
      mutB := upd h.mutB h.nNode false
      parent := upd h.parent h.nNode none
      firstChild := upd h.firstChild h.nNode none
      next := upd h.next h.nNode none
      prevCyc := upd h.prevCyc h.nNode (some h.nNode)
      numCh := upd h.numCh h.nNode 0
      mem := upd h.mem h.nNode (.weak (some t))
      nNode := h.nNode + 1 }) = some u := ho
    rw [this] at e
    simp only [Except.ok.injEq, Prod.mk.injEq] at e
    obtain ⟨rfl, rfl⟩ := e
    exact ⟨rfl, rfl, rfl, rfl, rfl, rfl⟩

theorem reparentLoop_eq {f : Nat} {o : Option NodeId} {p : NodeId} {h1 : Heap α}
    (e : Heap.reparentLoopL f o p h = .ok h1) : h1 = { h with parent := h1.parent } := by
  induction f generalizing h o with
  | zero => cases o with
    | none => unfold Heap.reparentLoopL at e; simp only [Except.ok.injEq] at e; rw [← e]
    | some c => unfold Heap.reparentLoopL at e; cases e
  | succ f ih =>
    cases o with
    | none => unfold Heap.reparentLoopL at e; simp only [Except.ok.injEq] at e; rw [← e]
    | some c =>
      unfold Heap.reparentLoopL at e
      have := ih (h := h.setParent c (some p)) e
      exact this

theorem Sim.replaceRelinkSomeL {f : NodeId} {prev next : Option NodeId} (s : Sim D h k) (hf : ¬ D f)
    (hp : prev = none → FirstNot D h p) :
    Rel (Sim D) (h.replaceRelinkSomeL p f prev next) (k.replaceRelinkSomeL p f prev next) := by
  unfold Heap.replaceRelinkSomeL
  rw [s.prevCycLink hf]
  refine Rel.bindEq fun last _ => ?_
  cases prev with
  | some a => cases next with
    | some b => exact .ok ((s.connectAdjacent _ _).connectAdjacent _ _)
    | none =>
      simp only
      rw [(s.connectAdjacent a f).firstChildLink]
      cases (h.connectAdjacent a f).firstChildLink p with
      | none => exact .error _
      | some c => exact .ok ((s.connectAdjacent _ _).setPrev _ _)
  | none => cases next with
    | some b =>
      simp only
      have s1 := s.connectAdjacent last b
      rw [s1.lastChildLinkWeak (p := p) (hp rfl)]
      cases (h.connectAdjacent last b).lastChildLinkWeak p with
      | none => exact .error _
      | some c => exact .ok ((s1.setPrev _ _).setFirst _ _)
    | none => exact .ok (s.setFirst _ _)

theorem Sim.replaceRelinkNoneL {prev next : Option NodeId} (s : Sim D h k)
    (hp : prev = none → FirstNot D h p) :
    Rel (Sim D) (h.replaceRelinkNoneL p prev next) (k.replaceRelinkNoneL p prev next) := by
  unfold Heap.replaceRelinkNoneL
  cases prev with
  | some a => cases next with
    | some b => exact .ok (s.connectAdjacent _ _)
    | none => exact .ok (s.setNext _ _)
  | none => cases next with
    | some b =>
      simp only
      rw [s.lastChildLinkWeak (p := p) (hp rfl)]
      cases h.lastChildLinkWeak p with
      | none => exact .error _
      | some c => exact .ok ((s.setPrev _ _).setFirst _ _)
    | none => exact .ok (s.setFirst _ _)

theorem Sim.replaceNonRootL {first : Option NodeId} (s : Sim D h k) (hn : ¬ D n)
    (hk : ∀ f, first = some f → ¬ D f) (hp : h.prevLink n = .ok none → FirstNot D h p) :
    Rel (Sim D) (h.replaceNonRootL n p first) (k.replaceNonRootL n p first) := by
  unfold Heap.replaceNonRootL
  rw [s.nNode]
  refine (s.reparentLoopL _ _ _).bind fun a b ea s1 => ?_
  have ea := reparentLoop_eq ea
  have e1 : a.prevLink n = h.prevLink n := by rw [ea]; rfl
  have e2 : FirstNot D h p → FirstNot D a p := by rw [ea]; exact id
  rw [s1.prevLink hn, e1]
  refine Rel.bindEq fun prev hprev => ?_
  rw [s1.nextLink]
  have hp' : prev = none → FirstNot D a p := by
    rintro rfl; exact e2 (hp hprev)
  refine Rel.bind (P := Sim D) ?_ fun x y _ s2 => ?_
  · cases first with
    | none => exact s1.replaceRelinkNoneL hp'
    | some f => exact s1.replaceRelinkSomeL (hk f rfl) hp'
  · rw [s2.numCh]
    split
    · exact .error _
    · refine (s2.numSub _ _).bind fun c d _ s3 => ?_
      rw [s3.numCh]; exact .ok (s3.numAdd _ _)

theorem Sim.replaceTailL (s : Sim D h k) (n : NodeId) : Rel (Sim D) (h.replaceTailL n) (k.replaceTailL n) := by
  have s0 := (((((s.setParent n none).setFirst n none).setPrev n (some n)).setNext n none).setNum n 0)
  show Rel _ (Heap.createNewTree _ n) (Heap.createNewTree _ n)
  exact s0.createNewTree n

theorem Sim.replaceWithChildrenL (s : Sim D h k) (hr : ∀ p, h.parentLink n = some p → ¬ D n ∧ FirstNot D h n ∧
      (h.prevLink n = .ok none → FirstNot D h p)) :
    Rel (SimP D) (h.replaceWithChildrenL n) (k.replaceWithChildrenL n) := by
  unfold Heap.replaceWithChildrenL
  rw [s.treeCore]
  refine Rel.bindEq fun t _ => ?_
  have s1 := s.acqTree t
  simp only
  rw [s1.firstChildLink, s1.parentLink, s1.numCh]
  have e0 : (h.acqTree t).parentLink n = h.parentLink n := rfl
  rw [e0]
  cases e : h.parentLink n with
  | some p =>
    obtain ⟨r1, r2, r3⟩ := hr p e
    refine (s1.replaceNonRootL (n := n) (p := p) r1 (fun f hf => r2 f hf) r3).bind fun a b _ s2 => ?_
    refine (s2.replaceTailL n).bind fun a b _ s3 => ?_
    exact (s3.relTree _ _).bind fun _ _ _ s4 => .ok ⟨s4, rfl⟩
  | none =>
    simp only
    split
    · exact (s1.relTree _ _).bind fun _ _ _ s4 => .ok ⟨s4, rfl⟩
    · split
      · cases (h.acqTree t).firstChildLink n with
        | none => exact .error _
        | some c =>
          refine (((s1.setParent c none).setRoot t (some c)).replaceTailL n).bind fun a b _ s3 => ?_
          exact (s3.relTree _ _).bind fun _ _ _ s4 => .ok ⟨s4, rfl⟩
      · exact (s1.relTree _ _).bind fun _ _ _ s4 => .ok ⟨s4, rfl⟩

end Dendron
