import Verif.Model.World
import Verif.Proofs.Loose

/-!
Two memories that differ only in the cyclic previous-sibling pointers of some nodes `D`: every
function that does not read these pointers does the same in both.
-/

set_option linter.unusedSimpArgs false
set_option linter.unusedVariables false

set_option autoImplicit false

namespace Dendron
variable {α β γ : Type} {D : NodeId → Prop} {h k : Heap α} {pv : NodeId → Option NodeId}
  {n p : NodeId} {t : TreeId}

/-- The memory with other previous-sibling pointers. -/
def Heap.fix (h : Heap α) (pv : NodeId → Option NodeId) : Heap α := { h with prevCyc := pv }

/-- The memories differ only in the previous-sibling pointers of `D`. -/
def Sim (D : NodeId → Prop) (h k : Heap α) : Prop :=
  ∃ pv, k = h.fix pv ∧ ∀ x, ¬ D x → pv x = h.prevCyc x

/-- Both calls fail in the same way, or both succeed with related results. -/
inductive Rel (P : β → γ → Prop) : Except Fault β → Except Fault γ → Prop
  | ok {a : β} {b : γ} : P a b → Rel P (.ok a) (.ok b)
  | error (e : Fault) : Rel P (.error e) (.error e)

theorem Rel.bind {β' γ' : Type} {P : β → γ → Prop} {Q : β' → γ' → Prop} {a : Except Fault β}
    {b : Except Fault γ} {f : β → Except Fault β'} {g : γ → Except Fault γ'} (r : Rel P a b)
    (hf : ∀ x y, a = .ok x → P x y → Rel Q (f x) (g y)) : Rel Q (a >>= f) (b >>= g) := by
  cases r with
  | ok hp => exact hf _ _ rfl hp
  | error e => exact .error e

theorem Rel.bindEq {β' γ' : Type} {Q : β' → γ' → Prop} {a : Except Fault β}
    {f : β → Except Fault β'} {g : β → Except Fault γ'}
    (hf : ∀ x, a = .ok x → Rel Q (f x) (g x)) : Rel Q (a >>= f) (a >>= g) := by
  cases a with
  | ok x => exact hf x rfl
  | error e => exact .error e

theorem Rel.mono {P Q : β → γ → Prop} {a : Except Fault β} {b : Except Fault γ} (r : Rel P a b)
    (hf : ∀ x y, a = .ok x → P x y → Q x y) : Rel Q a b := by
  cases r with
  | ok hp => exact .ok (hf _ _ rfl hp)
  | error e => exact .error e

theorem Rel.of_eq {a b : Except Fault β} (e : a = b) : Rel Eq a b := by
  subst e; cases a with
  | ok a => exact .ok rfl
  | error e => exact .error e

theorem Sim.refl (h : Heap α) : Sim D h h := ⟨h.prevCyc, rfl, fun _ _ => rfl⟩

theorem Sim.fix (h : Heap α) (ag : ∀ x, ¬ D x → pv x = h.prevCyc x) : Sim D h (h.fix pv) :=
  ⟨pv, rfl, ag⟩

theorem Sim.symm (s : Sim D h k) : Sim D k h := by
  obtain ⟨pv, rfl, ag⟩ := s
  exact ⟨h.prevCyc, rfl, fun x hx => (ag x hx).symm⟩

theorem Sim.trans {l : Heap α} (s : Sim D h k) (s' : Sim D k l) : Sim D h l := by
  obtain ⟨pv, rfl, ag⟩ := s
  obtain ⟨pv', rfl, ag'⟩ := s'
  exact ⟨pv', rfl, fun x hx => (ag' x hx).trans (ag x hx)⟩

theorem Sim.mono {D' : NodeId → Prop} (s : Sim D h k) (hd : ∀ x, D x → D' x) : Sim D' h k := by
  obtain ⟨pv, rfl, ag⟩ := s
  exact ⟨pv, rfl, fun x hx => ag x (fun e => hx (hd x e))⟩

/-- Results: a memory and a value. -/
def SimP (D : NodeId → Prop) (a b : Heap α × β) : Prop := Sim D a.1 b.1 ∧ a.2 = b.2

/-- Results: possibly a memory. -/
inductive SimO (D : NodeId → Prop) : Option (Heap α) → Option (Heap α) → Prop
  | none : SimO D none none
  | some {h k : Heap α} : Sim D h k → SimO D (some h) (some k)

/-! ### Stores -/

theorem Sim.setParent (s : Sim D h k) (n : NodeId) (v : Option NodeId) :
    Sim D (h.setParent n v) (k.setParent n v) := by
  obtain ⟨pv, rfl, ag⟩ := s; exact ⟨pv, rfl, ag⟩
theorem Sim.setNext (s : Sim D h k) (n : NodeId) (v : Option NodeId) :
    Sim D (h.setNext n v) (k.setNext n v) := by
  obtain ⟨pv, rfl, ag⟩ := s; exact ⟨pv, rfl, ag⟩
theorem Sim.setFirst (s : Sim D h k) (n : NodeId) (v : Option NodeId) :
    Sim D (h.setFirst n v) (k.setFirst n v) := by
  obtain ⟨pv, rfl, ag⟩ := s; exact ⟨pv, rfl, ag⟩
theorem Sim.setNum (s : Sim D h k) (n : NodeId) (v : Nat) : Sim D (h.setNum n v) (k.setNum n v) := by
  obtain ⟨pv, rfl, ag⟩ := s; exact ⟨pv, rfl, ag⟩
theorem Sim.numAdd (s : Sim D h k) (n : NodeId) (v : Nat) : Sim D (h.numAdd n v) (k.numAdd n v) := by
  obtain ⟨pv, rfl, ag⟩ := s; exact ⟨pv, rfl, ag⟩
theorem Sim.setMem (s : Sim D h k) (n : NodeId) (v : Membership) :
    Sim D (h.setMem n v) (k.setMem n v) := by
  obtain ⟨pv, rfl, ag⟩ := s; exact ⟨pv, rfl, ag⟩
theorem Sim.setRoot (s : Sim D h k) (t : TreeId) (v : Option NodeId) :
    Sim D (h.setRoot t v) (k.setRoot t v) := by
  obtain ⟨pv, rfl, ag⟩ := s; exact ⟨pv, rfl, ag⟩
theorem Sim.setGrants (s : Sim D h k) (t : TreeId) (v : Int) :
    Sim D (h.setGrants t v) (k.setGrants t v) := by
  obtain ⟨pv, rfl, ag⟩ := s; exact ⟨pv, rfl, ag⟩
theorem Sim.setTreeRc (s : Sim D h k) (t : TreeId) (v : Nat) :
    Sim D (h.setTreeRc t v) (k.setTreeRc t v) := by
  obtain ⟨pv, rfl, ag⟩ := s; exact ⟨pv, rfl, ag⟩
theorem Sim.setData (s : Sim D h k) (n : NodeId) (v : α) :
    Sim D (h.setData n v) (k.setData n v) := by
  obtain ⟨pv, rfl, ag⟩ := s; exact ⟨pv, rfl, ag⟩

theorem Sim.setPrev (s : Sim D h k) (n : NodeId) (v : Option NodeId) :
    Sim D (h.setPrev n v) (k.setPrev n v) := by
  obtain ⟨pv, rfl, ag⟩ := s
  refine ⟨upd pv n v, rfl, fun x hx => ?_⟩
  simp only [Heap.setPrev, upd_apply, ag x hx]

theorem Sim.kill (s : Sim D h k) (n : NodeId) : Sim D (h.kill n) (k.kill n) := by
  obtain ⟨pv, rfl, ag⟩ := s
  refine ⟨upd pv n none, rfl, fun x hx => ?_⟩
  simp only [Heap.kill, upd_apply, ag x hx]

theorem Sim.connectAdjacent (s : Sim D h k) (a b : NodeId) :
    Sim D (h.connectAdjacent a b) (k.connectAdjacent a b) := (s.setPrev _ _).setNext _ _

theorem Sim.acqTree (s : Sim D h k) (t : TreeId) : Sim D (h.acqTree t) (k.acqTree t) := by
  obtain ⟨pv, rfl, ag⟩ := s; exact ⟨pv, rfl, ag⟩

theorem Sim.allocTree (s : Sim D h k) (r : NodeId) : SimP D (h.allocTree r) (k.allocTree r) := by
  obtain ⟨pv, rfl, ag⟩ := s; exact ⟨⟨pv, rfl, ag⟩, rfl⟩

theorem Sim.allocNode (s : Sim D h k) (d : α) (m : Membership) :
    SimP D (h.allocNode d m) (k.allocNode d m) := by
  obtain ⟨pv, rfl, ag⟩ := s
  refine ⟨⟨upd pv h.nNode (some h.nNode), rfl, fun x hx => ?_⟩, rfl⟩
  simp only [Heap.allocNode, upd_apply, ag x hx]

theorem Sim.newTreeRoot (s : Sim D h k) (d : α) : SimP D (h.newTreeRoot d) (k.newTreeRoot d) := by
  have s1 := s.allocNode d (.weak none)
  have s2 := s1.1.allocTree (h.allocNode d (.weak none)).2
  obtain ⟨pv, rfl, ag⟩ := s
  exact ⟨(s2.1.setTreeRc _ _).setMem _ _, rfl⟩

theorem Sim.numSub (s : Sim D h k) (n : NodeId) (v : Nat) :
    Rel (Sim D) (h.numSub n v) (k.numSub n v) := by
  have s' := s.setNum n (h.numCh n - v)
  obtain ⟨pv, rfl, ag⟩ := s
  unfold Heap.numSub
  show Rel _ (if h.numCh n < v then _ else _) (if h.numCh n < v then _ else _)
  split
  · exact .error _
  · exact .ok s'

/-! ### Loads -/

theorem Sim.data (s : Sim D h k) : k.data = h.data := by obtain ⟨pv, rfl, ag⟩ := s; rfl
theorem Sim.mutB (s : Sim D h k) : k.mutB = h.mutB := by obtain ⟨pv, rfl, ag⟩ := s; rfl
theorem Sim.parent (s : Sim D h k) : k.parent = h.parent := by obtain ⟨pv, rfl, ag⟩ := s; rfl
theorem Sim.firstChild (s : Sim D h k) : k.firstChild = h.firstChild := by obtain ⟨pv, rfl, ag⟩ := s; rfl
theorem Sim.next (s : Sim D h k) : k.next = h.next := by obtain ⟨pv, rfl, ag⟩ := s; rfl
theorem Sim.numCh (s : Sim D h k) : k.numCh = h.numCh := by obtain ⟨pv, rfl, ag⟩ := s; rfl
theorem Sim.mem (s : Sim D h k) : k.mem = h.mem := by obtain ⟨pv, rfl, ag⟩ := s; rfl
theorem Sim.root (s : Sim D h k) : k.root = h.root := by obtain ⟨pv, rfl, ag⟩ := s; rfl
theorem Sim.grants (s : Sim D h k) : k.grants = h.grants := by obtain ⟨pv, rfl, ag⟩ := s; rfl
theorem Sim.treeRc (s : Sim D h k) : k.treeRc = h.treeRc := by obtain ⟨pv, rfl, ag⟩ := s; rfl
theorem Sim.nNode (s : Sim D h k) : k.nNode = h.nNode := by obtain ⟨pv, rfl, ag⟩ := s; rfl
theorem Sim.nTree (s : Sim D h k) : k.nTree = h.nTree := by obtain ⟨pv, rfl, ag⟩ := s; rfl
theorem Sim.alive (s : Sim D h k) : k.alive = h.alive := by obtain ⟨pv, rfl, ag⟩ := s; rfl
theorem Sim.treeAlive (s : Sim D h k) : k.treeAlive = h.treeAlive := by
  obtain ⟨pv, rfl, ag⟩ := s; rfl
theorem Sim.parentLink (s : Sim D h k) : k.parentLink = h.parentLink := by
  obtain ⟨pv, rfl, ag⟩ := s; rfl
theorem Sim.isRoot (s : Sim D h k) : k.isRoot = h.isRoot := by obtain ⟨pv, rfl, ag⟩ := s; rfl
theorem Sim.nextLink (s : Sim D h k) : k.nextLink = h.nextLink := by obtain ⟨pv, rfl, ag⟩ := s; rfl
theorem Sim.firstChildLink (s : Sim D h k) : k.firstChildLink = h.firstChildLink := by
  obtain ⟨pv, rfl, ag⟩ := s; rfl
theorem Sim.isLastSibling (s : Sim D h k) : k.isLastSibling = h.isLastSibling := by
  obtain ⟨pv, rfl, ag⟩ := s; rfl
theorem Sim.memTree (s : Sim D h k) : k.memTree = h.memTree := by obtain ⟨pv, rfl, ag⟩ := s; rfl
theorem Sim.treeCore (s : Sim D h k) : k.treeCore = h.treeCore := by obtain ⟨pv, rfl, ag⟩ := s; rfl
theorem Sim.referenced (s : Sim D h k) : k.referenced = h.referenced := by
  obtain ⟨pv, rfl, ag⟩ := s; rfl
theorem Sim.evNext (s : Sim D h k) : k.evNext = h.evNext := by obtain ⟨pv, rfl, ag⟩ := s; rfl
theorem Sim.hasStrongMember (s : Sim D h k) : k.hasStrongMember = h.hasStrongMember := by
  obtain ⟨pv, rfl, ag⟩ := s; rfl
theorem Sim.belongsTo (s : Sim D h k) : k.belongsTo = h.belongsTo := by
  obtain ⟨pv, rfl, ag⟩ := s; rfl
theorem Sim.belongsToSameTree (s : Sim D h k) : k.belongsToSameTree = h.belongsToSameTree := by
  obtain ⟨pv, rfl, ag⟩ := s; rfl
theorem Sim.rootLink (s : Sim D h k) : k.rootLink = h.rootLink := by obtain ⟨pv, rfl, ag⟩ := s; rfl
theorem Sim.nodeRoot (s : Sim D h k) : k.nodeRoot = h.nodeRoot := by obtain ⟨pv, rfl, ag⟩ := s; rfl
theorem Sim.nodeTree (s : Sim D h k) : k.nodeTree = h.nodeTree := by obtain ⟨pv, rfl, ag⟩ := s; rfl
theorem Sim.firstSibling (s : Sim D h k) : k.firstSibling = h.firstSibling := by
  obtain ⟨pv, rfl, ag⟩ := s; rfl
theorem Sim.upgrade (s : Sim D h k) : k.upgrade = h.upgrade := by obtain ⟨pv, rfl, ag⟩ := s; rfl

theorem Sim.prevCyc (s : Sim D h k) (hn : ¬ D n) : k.prevCyc n = h.prevCyc n := by
  obtain ⟨pv, rfl, ag⟩ := s; exact ag n hn

theorem Sim.prevCycLink (s : Sim D h k) (hn : ¬ D n) : k.prevCycLink n = h.prevCycLink n := by
  unfold Heap.prevCycLink; rw [s.upgrade, s.prevCyc hn]

theorem Sim.prevLink (s : Sim D h k) (hn : ¬ D n) : k.prevLink n = h.prevLink n := by
  unfold Heap.prevLink; rw [s.prevCycLink hn, s.next]

theorem Sim.isFirstSibling (s : Sim D h k) (hn : ¬ D n) : k.isFirstSibling n = h.isFirstSibling n := by
  unfold Heap.isFirstSibling; rw [s.prevCycLink hn, s.isLastSibling]

/-- The first child of `p`, if any, is not one of `D`. -/
def FirstNot (D : NodeId → Prop) (h : Heap α) (p : NodeId) : Prop :=
  ∀ f, h.firstChild p = some f → ¬ D f

theorem Sim.lastChildLink (s : Sim D h k) (hp : FirstNot D h p) :
    k.lastChildLink p = h.lastChildLink p := by
  unfold Heap.lastChildLink
  rw [s.firstChildLink]
  cases e : h.firstChildLink p with
  | none => rfl
  | some f => simp only; rw [s.prevCycLink (hp f e)]

theorem Sim.lastChildLinkWeak (s : Sim D h k) (hp : FirstNot D h p) :
    k.lastChildLinkWeak p = h.lastChildLinkWeak p := by
  unfold Heap.lastChildLinkWeak
  rw [s.firstChildLink]
  cases e : h.firstChildLink p with
  | none => rfl
  | some f => simp only [Option.map_some]; rw [s.prevCyc (hp f e)]

theorem Sim.firstLastChildLink (s : Sim D h k) (hp : FirstNot D h p) :
    k.firstLastChildLink p = h.firstLastChildLink p := by
  unfold Heap.firstLastChildLink
  rw [s.firstChildLink]
  cases e : h.firstChildLink p with
  | none => rfl
  | some f => simp only; rw [s.prevCycLink (hp f e)]

theorem Sim.lastSibling (s : Sim D h k) (hp : ∀ p, h.parentLink n = some p → FirstNot D h p) :
    k.lastSibling n = h.lastSibling n := by
  unfold Heap.lastSibling
  rw [s.parentLink]
  cases e : h.parentLink n with
  | none => rfl
  | some p => simp only; rw [s.lastChildLink (hp p e)]

/-! ### Memberships, locks, destruction -/

theorem Sim.release (s : Sim D h k) (pins : List NodeId) (f : Nat) (n : NodeId) :
    Rel (Sim D) (Heap.release f pins n h) (Heap.release f pins n k) := by
  induction f generalizing h k n with
  | zero => exact .error _
  | succ f ih =>
    unfold Heap.release
    rw [s.alive, s.referenced, s.firstChild, s.next]
    split
    · exact .ok s
    · have s1 := s.kill n
      have fin : ∀ {a b : Except Fault (Heap α)}, Rel (Sim D) a b → Rel (Sim D)
          (match a with
            | .error e => .error e
            | .ok h2 => match h.next n with | some c => Heap.release f pins c h2 | none => .ok h2)
          (match b with
            | .error e => .error e
            | .ok h2 => match h.next n with | some c => Heap.release f pins c h2 | none => .ok h2) := by
        intro a b r
        cases r with
        | error e => exact .error e
        | ok s2 =>
          simp only
          cases h.next n with
          | none => exact .ok s2
          | some c => exact ih s2 c
      refine fin ?_
      cases h.firstChild n with
      | none => exact .ok s1
      | some c => exact ih s1 c

theorem Sim.relFuel (s : Sim D h k) : k.relFuel = h.relFuel := by
  unfold Heap.relFuel; rw [s.nNode]

theorem Sim.dropStep (s : Sim D h k) (f : Nat) (pins : List NodeId) (v : NodeId) :
    Rel (Sim D) (h.dropStep f pins v) (k.dropStep f pins v) := by
  unfold Heap.dropStep
  rw [s.parentLink, s.next]
  cases h.parentLink v with
  | none => exact s.release _ _ _
  | some p =>
    simp only
    rw [s.firstChild]
    have s1 : Sim D ((h.setNext v none).setFirst p (h.next v)) ((k.setNext v none).setFirst p (h.next v)) :=
      (s.setNext _ _).setFirst _ _
    refine Rel.bind (P := Sim D) ?_ fun x y _ s2 =>
      Rel.bind (s2.release _ _ _) fun x y _ s3 => s3.release _ _ _
    cases h.firstChild p with
    | none => exact .ok s1
    | some c => exact s1.release _ _ _

theorem Sim.dropLoop (s : Sim D h k) (c : Nat) (f : Nat) (pins : List NodeId) (ev : Option (DftEvent NodeId)) :
    Rel (Sim D) (Heap.dropLoop c f pins ev h) (Heap.dropLoop c f pins ev k) := by
  induction f generalizing h k ev with
  | zero => cases ev with
    | none => exact .ok s
    | some e => exact .error _
  | succ f ih =>
    cases ev with
    | none => exact .ok s
    | some e =>
      unfold Heap.dropLoop
      rw [s.evNext]
      cases e with
      | opn n =>
        simp only
        have := s.release (match h.evNext (.opn n) with | some e => e.value :: pins | none => pins) c n
        generalize Heap.release c _ n h = a at this ⊢
        generalize Heap.release c _ n k = b at this ⊢
        cases this with
        | error e => exact .error e
        | ok s1 => exact ih s1 _
      | cls v =>
        simp only
        have := s.dropStep c (match h.evNext (.cls v) with | some e => e.value :: pins | none => pins) v
        generalize h.dropStep _ _ _ = a at this ⊢
        generalize k.dropStep _ _ _ = b at this ⊢
        cases this with
        | error e => exact .error e
        | ok s1 => exact ih s1 _

theorem Sim.dropTree (s : Sim D h k) (pins : List NodeId) (t : TreeId) :
    Rel (Sim D) (h.dropTree pins t) (k.dropTree pins t) := by
  unfold Heap.dropTree Heap.dropTreeWith Heap.dropFuel
  rw [s.root, s.relFuel, s.nNode]
  cases h.root t with
  | none => exact .ok s
  | some r =>
    simp only
    have := s.dropLoop h.relFuel (2 * h.nNode + 2) pins (some (.opn r))
    generalize Heap.dropLoop _ _ _ _ h = a at this ⊢
    generalize Heap.dropLoop _ _ _ _ k = b at this ⊢
    cases this with
    | error e => exact .error e
    | ok s1 => exact ((s1.setRoot _ _).setGrants _ _).release _ _ _

theorem Sim.maybeDropTree (s : Sim D h k) (pins : List NodeId) (t : TreeId) :
    Rel (Sim D) (h.maybeDropTree pins t) (k.maybeDropTree pins t) := by
  unfold Heap.maybeDropTree
  rw [s.treeAlive, s.treeRc, s.hasStrongMember]
  split
  · exact s.dropTree _ _
  · exact .ok s

theorem Sim.relTree (s : Sim D h k) (pins : List NodeId) (t : TreeId) :
    Rel (Sim D) (h.relTree pins t) (k.relTree pins t) := by
  unfold Heap.relTree
  rw [s.treeRc]
  exact (s.setTreeRc _ _).maybeDropTree _ _

theorem Sim.incRef (s : Sim D h k) (n : NodeId) : SimO D (h.incRef n) (k.incRef n) := by
  unfold Heap.incRef
  rw [s.mem, s.treeAlive]
  cases h.mem n with
  | weak o =>
    simp only
    cases o.filter h.treeAlive with
    | none => exact .none
    | some t => exact .some (s.setMem _ _)
  | strong t rc l => exact .some (s.setMem _ _)

theorem Sim.withNodeCore (s : Sim D h k) (n : NodeId) :
    Rel (Sim D) (h.withNodeCore n) (k.withNodeCore n) := by
  unfold Heap.withNodeCore
  have := s.incRef n
  generalize h.incRef n = a at this ⊢
  generalize k.incRef n = b at this ⊢
  cases this with
  | none => exact .error _
  | some s => exact .ok s

theorem Sim.cloneLink (s : Sim D h k) (n : NodeId) : Rel (Sim D) (h.cloneLink n) (k.cloneLink n) := by
  unfold Heap.cloneLink
  rw [s.mem]
  cases h.mem n with
  | weak o => exact .error _
  | strong t rc l => exact .ok (s.setMem _ _)

theorem Sim.decRef (s : Sim D h k) (n : NodeId) : Rel (Sim D) (h.decRef n) (k.decRef n) := by
  unfold Heap.decRef
  rw [s.mem]
  cases h.mem n with
  | weak o => exact .error _
  | strong t rc l =>
    simp only
    split
    · split
      · exact .error _
      · exact (s.setMem _ _).maybeDropTree _ _
    · exact .ok (s.setMem _ _)

theorem Sim.dropLink (s : Sim D h k) (n : NodeId) : Rel (Sim D) (h.dropLink n) (k.dropLink n) := by
  refine (s.decRef n).bind fun a b _ s1 => ?_
  rw [s1.relFuel]; exact s1.release _ _ _

theorem Sim.transferLock (s : Sim D h k) (a b : TreeId) :
    Rel (SimO D) (h.transferLock a b) (k.transferLock a b) := by
  unfold Heap.transferLock
  rw [s.grants]
  split
  · cases Lock.acquireGrant (h.grants b) with
    | error e => exact .error e
    | ok o => cases o with
      | none => exact .ok .none
      | some g =>
        simp only
        rw [(s.setGrants b g).grants]
        exact .ok (.some ((s.setGrants _ _).setGrants _ _))
  · split
    · exact .ok (.some s)
    · cases Lock.acquireProhibition (h.grants b) with
      | error e => exact .error e
      | ok o => cases o with
        | none => exact .ok .none
        | some g =>
          simp only
          rw [(s.setGrants b g).grants]
          exact .ok (.some ((s.setGrants _ _).setGrants _ _))

theorem Sim.setTreeCore (s : Sim D h k) (pins : List NodeId) (n : NodeId) (t : TreeId) :
    Rel (SimO D) (h.setTreeCore pins n t) (k.setTreeCore pins n t) := by
  unfold Heap.setTreeCore
  rw [s.mem]
  cases h.mem n with
  | weak o => exact .ok (.some (s.setMem _ _))
  | strong t0 rc l =>
    simp only
    have h1 : Rel (SimO D) (if l ≠ 0 then h.transferLock t0 t else .ok (some h))
        (if l ≠ 0 then k.transferLock t0 t else .ok (some k)) := by
      split
      · exact s.transferLock _ _
      · exact .ok (.some s)
    generalize (if l ≠ 0 then h.transferLock t0 t else .ok (some h)) = a at h1 ⊢
    generalize (if l ≠ 0 then k.transferLock t0 t else .ok (some k)) = b at h1 ⊢
    cases h1 with
    | error e => exact .error e
    | ok o => cases o with
      | none => exact .ok .none
      | some s1 =>
        simp only
        have := (s1.setMem n (.strong t rc l)).maybeDropTree pins t0
        generalize Heap.maybeDropTree _ _ _ = a at this ⊢
        generalize Heap.maybeDropTree _ _ _ = b at this ⊢
        cases this with
        | error e => exact .error e
        | ok s2 => exact .ok (.some s2)

theorem Sim.decLock (s : Sim D h k) (n : NodeId) : Rel (Sim D) (h.decLock n) (k.decLock n) := by
  unfold Heap.decLock
  rw [s.mem]
  cases h.mem n with
  | weak o => exact .error _
  | strong t rc l =>
    simp only
    split
    · exact .error _
    · rw [(s.setMem n (.strong t rc (l - 1))).grants]
      split
      · cases Lock.releaseAny ((h.setMem n (.strong t rc (l - 1))).grants t) with
        | error e => exact .error e
        | ok g => exact .ok ((s.setMem _ _).setGrants _ _)
      · exact .ok (s.setMem _ _)

theorem Sim.incLockNonzero (s : Sim D h k) (n : NodeId) :
    Rel (Sim D) (h.incLockNonzero n) (k.incLockNonzero n) := by
  unfold Heap.incLockNonzero
  rw [s.mem]
  cases h.mem n with
  | weak o => exact .error _
  | strong t rc l =>
    simp only
    split
    · exact .error _
    · exact .ok (s.setMem _ _)

theorem Sim.acquireEditProhibition (s : Sim D h k) (n : NodeId) :
    Rel (SimO D) (h.acquireEditProhibition n) (k.acquireEditProhibition n) := by
  unfold Heap.acquireEditProhibition
  rw [s.mem, s.grants]
  cases h.mem n with
  | weak o => exact .error _
  | strong t rc l =>
    simp only
    split
    · exact .ok .none
    · split
      · exact .ok (.some (s.setMem _ _))
      · cases Lock.acquireProhibition (h.grants t) with
        | error e => exact .error e
        | ok o => cases o with
          | none => exact .ok .none
          | some g => exact .ok (.some ((s.setGrants _ _).setMem _ _))

theorem Sim.acquireEditGrant (s : Sim D h k) (n : NodeId) :
    Rel (SimO D) (h.acquireEditGrant n) (k.acquireEditGrant n) := by
  unfold Heap.acquireEditGrant
  rw [s.mem, s.grants]
  cases h.mem n with
  | weak o => exact .error _
  | strong t rc l =>
    simp only
    split
    · exact .ok .none
    · split
      · exact .ok (.some (s.setMem _ _))
      · cases Lock.acquireGrant (h.grants t) with
        | error e => exact .error e
        | ok o => cases o with
          | none => exact .ok .none
          | some g => exact .ok (.some ((s.setGrants _ _).setMem _ _))

theorem Sim.acqLock (s : Sim D h k) (n : NodeId) (q : Kind) :
    Rel (SimO D) (h.acqLock n q) (k.acqLock n q) := by
  cases q with
  | plain => exact .ok (.some s)
  | hot => exact s.acquireEditGrant n
  | frozen => exact s.acquireEditProhibition n

theorem Sim.expectLock {a b : Except Fault (Option (Heap α))} (r : Rel (SimO D) a b) :
    Rel (Sim D) (Heap.expectLock a) (Heap.expectLock b) := by
  cases r with
  | error e => exact .error e
  | ok o => cases o with
    | none => exact .error _
    | some s => exact .ok s

theorem Sim.wrap (s : Sim D h k) (n : NodeId) (q : Kind) : Rel (Sim D) (h.wrap n q) (k.wrap n q) :=
  (s.withNodeCore n).bind fun _ _ _ s1 => Sim.expectLock (s1.acqLock n q)

theorem Sim.cloneHandle (s : Sim D h k) (n : NodeId) (q : Kind) :
    Rel (Sim D) (h.cloneHandle n q) (k.cloneHandle n q) := by
  cases q with
  | plain => exact s.cloneLink n
  | hot => exact (s.incLockNonzero n).bind fun _ _ _ s1 => s1.cloneLink n
  | frozen => exact (s.incLockNonzero n).bind fun _ _ _ s1 => s1.cloneLink n

theorem Sim.dropHandle (s : Sim D h k) (n : NodeId) (q : Kind) :
    Rel (Sim D) (h.dropHandle n q) (k.dropHandle n q) := by
  cases q with
  | plain => exact s.dropLink n
  | hot => exact (s.decLock n).bind fun _ _ _ s1 => s1.dropLink n
  | frozen => exact (s.decLock n).bind fun _ _ _ s1 => s1.dropLink n

theorem Sim.newOrphan (s : Sim D h k) (d : α) (t : TreeId) :
    Rel (SimP D) (h.newOrphan d t) (k.newOrphan d t) := by
  have s1 := s.allocNode d (.weak (some t))
  have s2 := s1.1.incRef h.nNode
  obtain ⟨pv, rfl, ag⟩ := s
  show Rel _ (match (h.allocNode d (.weak (some t))).1.incRef h.nNode with
    | some h2 => .ok (h2, h.nNode) | none => .error _)
    (match ((h.fix pv).allocNode d (.weak (some t))).1.incRef h.nNode with
    | some h2 => .ok (h2, h.nNode) | none => .error _)
  generalize Heap.incRef _ _ = a at s2 ⊢
  generalize Heap.incRef _ _ = b at s2 ⊢
  cases s2 with
  | none => exact .error _
  | some s => exact .ok ⟨s, rfl⟩

end Dendron
