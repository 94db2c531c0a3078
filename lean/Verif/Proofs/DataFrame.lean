import Verif.Model.World

/-! No call changes the data of a node, or whether it is mutably borrowed, except by writing; proved for
every memory, without any invariant. -/

set_option autoImplicit false

namespace Dendron
variable {α β γ : Type} {h0 h h' : Heap α} {n p : NodeId} {t : TreeId}

/-- Every node of `h0` has its data and borrow state in `h`, or has been freed. -/
structure Keep (h0 h : Heap α) : Prop where
  nNode : h.nNode = h0.nNode
  data : ∀ x, (h.data x = h0.data x ∧ h.mutB x = h0.mutB x) ∨
    (h.data x = none ∧ h.mutB x = false)

theorem Keep.refl (h : Heap α) : Keep h h := ⟨rfl, fun _ => .inl ⟨rfl, rfl⟩⟩

theorem Keep.trans {h'' : Heap α} (a : Keep h h') (b : Keep h' h'') : Keep h h'' where
  nNode := b.nNode.trans a.nNode
  data x := by
    rcases b.data x with ⟨e1, e2⟩ | e
    · rcases a.data x with ⟨e3, e4⟩ | ⟨e3, e4⟩
      · exact .inl ⟨e1.trans e3, e2.trans e4⟩
      · exact .inr ⟨e1.trans e3, e2.trans e4⟩
    · exact .inr e

theorem Keep.of_eq (K : Keep h0 h) (e1 : h'.data = h.data) (e2 : h'.mutB = h.mutB)
    (e3 : h'.nNode = h.nNode) : Keep h0 h' :=
  ⟨e3.trans K.nNode, fun x => by rw [e1, e2]; exact K.data x⟩

theorem Keep.setNext {m : NodeId} {v : Option NodeId} (K : Keep h0 h) : Keep h0 (h.setNext m v) := K.of_eq rfl rfl rfl
theorem Keep.setFirst {m : NodeId} {v : Option NodeId} (K : Keep h0 h) : Keep h0 (h.setFirst m v) := K.of_eq rfl rfl rfl
theorem Keep.setParent {m : NodeId} {v : Option NodeId} (K : Keep h0 h) : Keep h0 (h.setParent m v) := K.of_eq rfl rfl rfl
theorem Keep.setPrev {m : NodeId} {v : Option NodeId} (K : Keep h0 h) : Keep h0 (h.setPrev m v) := K.of_eq rfl rfl rfl
theorem Keep.setNum {m : NodeId} {v : Nat} (K : Keep h0 h) : Keep h0 (h.setNum m v) := K.of_eq rfl rfl rfl
theorem Keep.numAdd {m : NodeId} {v : Nat} (K : Keep h0 h) : Keep h0 (h.numAdd m v) := K.of_eq rfl rfl rfl
theorem Keep.setMem {m : NodeId} {v : Membership} (K : Keep h0 h) : Keep h0 (h.setMem m v) := K.of_eq rfl rfl rfl
theorem Keep.setRoot {v : Option NodeId} (K : Keep h0 h) : Keep h0 (h.setRoot t v) := K.of_eq rfl rfl rfl
theorem Keep.setGrants {v : Int} (K : Keep h0 h) : Keep h0 (h.setGrants t v) := K.of_eq rfl rfl rfl
theorem Keep.setTreeRc {v : Nat} (K : Keep h0 h) : Keep h0 (h.setTreeRc t v) := K.of_eq rfl rfl rfl
theorem Keep.acqTree (K : Keep h0 h) : Keep h0 (h.acqTree t) := K.of_eq rfl rfl rfl
theorem Keep.allocTree (K : Keep h0 h) : Keep h0 (h.allocTree n).1 := K.of_eq rfl rfl rfl

theorem Keep.kill (K : Keep h0 h) : Keep h0 (h.kill n) where
  nNode := K.nNode
  data x := by
    by_cases e : x = n
    · right; subst e; exact ⟨upd_same _ _ _, upd_same _ _ _⟩
    · simp only [Heap.kill, upd_ne _ _ e]; exact K.data x

/-- If the computation returns, the memory in its result keeps the data. -/
def Kp (h0 : Heap α) (π : β → Heap α) (r : Except Fault β) : Prop := ∀ b, r = .ok b → Keep h0 (π b)
/-- The same for a computation that may return no memory. -/
def KpO (h0 : Heap α) (r : Except Fault (Option (Heap α))) : Prop := ∀ b, r = .ok (some b) → Keep h0 b

theorem Kp.err {π : β → Heap α} {e : Fault} : Kp h0 π (.error e) := fun _ h => by cases h
theorem KpO.err {e : Fault} : KpO h0 (.error e) := fun _ h => by cases h
theorem KpO.none : KpO h0 (.ok none) := fun _ h => by cases h
theorem KpO.some (K : Keep h0 h) : KpO h0 (.ok (some h)) := fun _ h => by cases h; exact K
theorem Kp.ok {π : β → Heap α} {b : β} (K : Keep h0 (π b)) : Kp h0 π (.ok b) := fun _ h => by cases h; exact K
theorem Kp.pure {π : β → Heap α} {b : β} (K : Keep h0 (π b)) : Kp h0 π (Pure.pure b) := Kp.ok K
theorem Kp.bindA {π : γ → Heap α} {x : Except Fault β} {f : β → Except Fault γ}
    (k : ∀ b, x = .ok b → Kp h0 π (f b)) : Kp h0 π (x >>= f) := by
  cases x with
  | error e => exact Kp.err
  | ok b => exact k b rfl
theorem Kp.bindH {π : γ → Heap α} {x : Except Fault (Heap α)} {f : Heap α → Except Fault γ}
    (K : Kp h0 id x) (k : ∀ h, Keep h0 h → Kp h0 π (f h)) : Kp h0 π (x >>= f) :=
  .bindA fun b e => k b (K b e)
theorem Kp.bindP {π : γ → Heap α} {x : Except Fault (Heap α × β)} {f : Heap α × β → Except Fault γ}
    (K : Kp h0 Prod.fst x) (k : ∀ h b, Keep h0 h → Kp h0 π (f (h, b))) : Kp h0 π (x >>= f) :=
  .bindA fun b e => k b.1 b.2 (K b e)
theorem Kp.bindO {π : γ → Heap α} {x : Except Fault (Option (Heap α))} {f : Option (Heap α) → Except Fault γ}
    (K : KpO h0 x) (k : ∀ h, Keep h0 h → Kp h0 π (f (some h))) (k0 : Kp h0 π (f none)) : Kp h0 π (x >>= f) := by
  refine .bindA fun b e => ?_
  cases b with
  | none => exact k0
  | some h => exact k h (K h e)

theorem Keep.release : ∀ {f : Nat} {pins : List NodeId} {n : NodeId} {h : Heap α}, Keep h0 h →
    Kp h0 id (h.release f pins n)
  | 0, _, _, _, _ => Kp.err
  | f + 1, pins, n, h, K => by
    unfold Heap.release
    split
    · exact Kp.ok K
    · simp only
      have step : ∀ {o : Option NodeId} {g : Heap α}, Keep h0 g →
          Kp h0 id (match o with | some c => g.release f pins c | none => .ok g) := by
        intro o g Kg
        cases o with
        | none => exact Kp.ok Kg
        | some c => exact Keep.release Kg
      split
      · exact Kp.err
      · rename_i e
        exact step (step K.kill _ e)

theorem Keep.dropStep {k : Nat} {pins : List NodeId} {v : NodeId} (K : Keep h0 h) :
    Kp h0 id (h.dropStep k pins v) := by
  unfold Heap.dropStep
  split
  · refine Kp.bindH ?_ fun h2 K => Kp.bindH K.release fun h3 K => K.release
    split
    · exact K.setNext.setFirst.release
    · exact Kp.ok K.setNext.setFirst
  · exact K.release

theorem Keep.dropLoop {k : Nat} : ∀ {f : Nat} {pins : List NodeId} {ev : Option (DftEvent NodeId)}
    {h : Heap α}, Keep h0 h → Kp h0 id (h.dropLoop k f pins ev)
  | f, _, none, _, K => by cases f <;> exact Kp.ok K
  | 0, _, some _, _, _ => Kp.err
  | f + 1, pins, some ev, h, K => by
    unfold Heap.dropLoop
    simp only
    split
    · split
      · exact Kp.err
      · rename_i e
        exact Keep.dropLoop (K.release _ e)
    · split
      · exact Kp.err
      · rename_i e
        exact Keep.dropLoop (K.dropStep _ e)

theorem Keep.dropTreeWith {k : Nat} {pins : List NodeId} (K : Keep h0 h) :
    Kp h0 id (h.dropTreeWith k pins t) := by
  unfold Heap.dropTreeWith
  split
  · exact Kp.ok K
  · split
    · exact Kp.err
    · rename_i e
      have := K.dropLoop _ e
      exact Keep.release (Keep.setGrants (Keep.setRoot this))

theorem Keep.maybeDropTree {pins : List NodeId} (K : Keep h0 h) : Kp h0 id (h.maybeDropTree pins t) := by
  unfold Heap.maybeDropTree
  split
  · exact K.dropTreeWith
  · exact Kp.ok K

theorem Keep.relTree {pins : List NodeId} (K : Keep h0 h) : Kp h0 id (h.relTree pins t) :=
  (K.setTreeRc).maybeDropTree

theorem Keep.incRef (K : Keep h0 h) (e : h.incRef n = some h') : Keep h0 h' := by
  unfold Heap.incRef at e
  split at e
  · split at e
    · cases e; exact K.setMem
    · cases e
  · cases e; exact K.setMem

theorem Keep.withNodeCore (K : Keep h0 h) : Kp h0 id (h.withNodeCore n) := by
  unfold Heap.withNodeCore
  split
  · rename_i e; exact Kp.ok (K.incRef e)
  · exact Kp.err

theorem Keep.cloneLink (K : Keep h0 h) : Kp h0 id (h.cloneLink n) := by
  unfold Heap.cloneLink
  split
  · exact Kp.err
  · exact Kp.ok K.setMem

theorem Keep.decRef (K : Keep h0 h) : Kp h0 id (h.decRef n) := by
  unfold Heap.decRef
  split
  · exact Kp.err
  · split
    · split
      · exact Kp.err
      · exact (K.setMem).maybeDropTree
    · exact Kp.ok K.setMem

theorem Keep.dropLink (K : Keep h0 h) : Kp h0 id (h.dropLink n) :=
  Kp.bindH K.decRef fun _ K => K.release

theorem Keep.transferLock {u : TreeId} (K : Keep h0 h) : KpO h0 (h.transferLock t u) := by
  unfold Heap.transferLock
  repeat' split
  all_goals first
    | exact KpO.err
    | exact KpO.none
    | exact KpO.some K.setGrants.setGrants
    | exact KpO.some K

theorem Keep.setTreeCore {pins : List NodeId} (K : Keep h0 h) : KpO h0 (h.setTreeCore pins n t) := by
  unfold Heap.setTreeCore
  split
  · exact KpO.some K.setMem
  · split
    · exact KpO.err
    · exact KpO.none
    · rename_i h1 e
      have K1 : Keep h0 h1 := by
        split at e
        · exact K.transferLock _ e
        · cases e; exact K
      simp only
      split
      · exact KpO.err
      · rename_i e2
        exact KpO.some (K1.setMem.maybeDropTree _ e2)

theorem Keep.decLock (K : Keep h0 h) : Kp h0 id (h.decLock n) := by
  unfold Heap.decLock
  repeat' (first | split | (simp only; split))
  all_goals first
    | exact Kp.err
    | exact Kp.ok K.setMem.setGrants
    | exact Kp.ok K.setMem

theorem Keep.incLockNonzero (K : Keep h0 h) : Kp h0 id (h.incLockNonzero n) := by
  unfold Heap.incLockNonzero
  repeat' split
  all_goals first | exact Kp.err | exact Kp.ok K.setMem

theorem Keep.acqLock {k : Kind} (K : Keep h0 h) : KpO h0 (h.acqLock n k) := by
  cases k
  · exact KpO.some K
  · simp only [Heap.acqLock]
    unfold Heap.acquireEditGrant
    repeat' split
    all_goals first
      | exact KpO.err
      | exact KpO.none
      | exact KpO.some K.setGrants.setMem
      | exact KpO.some K.setMem
  · simp only [Heap.acqLock]
    unfold Heap.acquireEditProhibition
    repeat' split
    all_goals first
      | exact KpO.err
      | exact KpO.none
      | exact KpO.some K.setGrants.setMem
      | exact KpO.some K.setMem

theorem Kp.expectLock {r : Except Fault (Option (Heap α))} (K : KpO h0 r) : Kp h0 id (Heap.expectLock r) := by
  unfold Heap.expectLock
  split
  · exact Kp.err
  · exact Kp.err
  · exact Kp.ok (K _ rfl)

theorem Keep.wrap {k : Kind} (K : Keep h0 h) : Kp h0 id (h.wrap n k) :=
  Kp.bindH K.withNodeCore fun _ K => Kp.expectLock K.acqLock

theorem Keep.cloneHandle {k : Kind} (K : Keep h0 h) : Kp h0 id (h.cloneHandle n k) := by
  cases k
  · exact K.cloneLink
  · exact Kp.bindH K.incLockNonzero fun _ K => K.cloneLink
  · exact Kp.bindH K.incLockNonzero fun _ K => K.cloneLink

theorem Keep.dropHandle {k : Kind} (K : Keep h0 h) : Kp h0 id (h.dropHandle n k) := by
  cases k
  · exact K.dropLink
  · exact Kp.bindH K.decLock fun _ K => K.dropLink
  · exact Kp.bindH K.decLock fun _ K => K.dropLink

/-! ### Edits -/

theorem Keep.dropLocal {held : List NodeId} (K : Keep h0 h) : Kp h0 id (h.dropLocal held n) := K.release
theorem Keep.dropOpt {held : List NodeId} {o : Option NodeId} (K : Keep h0 h) : Kp h0 id (h.dropOpt held o) := by
  cases o
  · exact Kp.ok K
  · exact K.release
theorem Keep.putNext {held : List NodeId} {m : NodeId} {v : Option NodeId} (K : Keep h0 h) :
    Kp h0 id (h.putNext held m v) := K.setNext.dropOpt
theorem Keep.putFirst {held : List NodeId} {m : NodeId} {v : Option NodeId} (K : Keep h0 h) :
    Kp h0 id (h.putFirst held m v) := K.setFirst.dropOpt
theorem Keep.putRoot {held : List NodeId} {x : NodeId} (K : Keep h0 h) :
    Kp h0 id (h.putRoot held t x) := K.setRoot.dropOpt
theorem Keep.connect {held : List NodeId} {a b : NodeId} (K : Keep h0 h) :
    Kp h0 id (h.connect held a b) := K.setPrev.putNext
theorem Keep.numSub {m : NodeId} {v : Nat} (K : Keep h0 h) : Kp h0 id (h.numSub m v) := by
  unfold Heap.numSub
  split
  · exact Kp.err
  · exact Kp.ok K.setNum

theorem Keep.newByUnlink {held : List NodeId} (K : Keep h0 h) : Kp h0 Prod.fst (h.newByUnlink held n) := by
  unfold Heap.newByUnlink
  split
  · exact Kp.ok K
  refine Kp.bindA fun prev _ => Kp.bindA fun prevC _ => Kp.bindH ?_ fun h K => Kp.bindH ?_ fun h K =>
    Kp.bindH ?_ fun h K => Kp.bindH K.setParent.setPrev.putNext fun h K => Kp.bindH K.dropLocal fun h K =>
      Kp.bindH K.dropOpt fun h K => Kp.pure K
  · split
    · refine Kp.bindA fun first _ => Kp.bindH ?_ fun h K => ?_
      · split
        · exact K.putFirst
        · exact Kp.ok K
      · split
        · exact Kp.err
        · exact K.numSub
    · exact Kp.ok K
  · split
    · exact Kp.bindH K.putNext fun h K => K.dropLocal
    · exact Kp.ok K
  · split
    · exact K.setPrev.dropLocal
    · exact Kp.ok K

theorem Keep.setMembLoop {start : NodeId} : ∀ {f : Nat} {ev : Option (DftEvent NodeId)} {h : Heap α},
    Keep h0 h → KpO h0 (h.setMembLoop f start t ev)
  | f, none, _, K => by cases f <;> exact KpO.some K
  | 0, some _, _, _ => KpO.err
  | f + 1, some ev, h, K => by
    unfold Heap.setMembLoop
    split
    · exact KpO.some K
    simp only
    cases ev with
    | opn m =>
      simp only
      split
      · exact KpO.err
      · exact KpO.none
      · rename_i e
        split
        · exact KpO.err
        · rename_i e2
          exact Keep.setMembLoop ((K.setTreeCore _ e).release _ e2)
    | cls m =>
      simp only
      split
      · exact KpO.err
      · rename_i e2
        exact Keep.setMembLoop (K.release _ e2)

theorem Keep.setMemberships (K : Keep h0 h) : KpO h0 (h.setMemberships n t) := K.setMembLoop

theorem Keep.createNewTree (K : Keep h0 h) : Kp h0 id (h.createNewTree n) := by
  unfold Heap.createNewTree
  simp only
  split
  · exact Kp.err
  · exact Kp.err
  · rename_i e
    exact (K.allocTree.setMemberships _ e).relTree

theorem Keep.insertFirst {held : List NodeId} {b : Bool} (K : Keep h0 h) :
    Kp h0 Prod.fst (h.insertFirst held n b p) := by
  unfold Heap.insertFirst
  refine Kp.bindA fun c _ => ?_
  split
  · exact Kp.pure K
  refine Kp.bindA fun fl _ => Kp.bindH ?_ fun h K => Kp.bindH K.setParent.putFirst fun h K => Kp.pure K.numAdd
  split
  · exact Kp.bindH K.setPrev.connect fun h K => K.dropLocal
  · exact Kp.ok K.setPrev

theorem Keep.insertLast {held : List NodeId} {b : Bool} (K : Keep h0 h) :
    Kp h0 Prod.fst (h.insertLast held n b p) := by
  unfold Heap.insertLast
  refine Kp.bindA fun c _ => ?_
  split
  · exact Kp.pure K
  refine Kp.bindA fun fl _ => Kp.bindH ?_ fun h K => Kp.pure K.setParent.numAdd
  split
  · exact Kp.bindH K.setPrev.connect fun h K => Kp.bindH K.dropLocal fun h K => K.dropLocal
  · exact K.setPrev.putFirst

theorem Keep.insertBetween {held : List NodeId} {a b : NodeId} (K : Keep h0 h) :
    Kp h0 id (h.insertBetween held n p a b) := by
  unfold Heap.insertBetween
  exact Kp.bindA fun _ _ => Kp.bindH K.setParent.setNext.putNext fun h K => Kp.pure K.setPrev.setPrev.numAdd

theorem Keep.insert {held : List NodeId} {b : Bool} {dest : InsertAs NodeId} (K : Keep h0 h) :
    Kp h0 Prod.fst (h.insert held n b dest) := by
  cases dest with
  | firstChildOf q => exact K.insertFirst
  | lastChildOf q => exact K.insertLast
  | previousSiblingOf a =>
    simp only [Heap.insert]
    split
    · exact Kp.ok K
    refine Kp.bindA fun s _ => ?_
    split
    · exact Kp.bindH K.insertBetween fun h K => Kp.bindH K.dropLocal fun h K => Kp.bindH K.dropLocal fun h K => Kp.pure K
    · exact Kp.bindP K.insertFirst fun h r K => Kp.bindH K.dropLocal fun h K => Kp.pure K
  | nextSiblingOf a =>
    simp only [Heap.insert]
    split
    · exact Kp.ok K
    split
    · exact Kp.bindH K.insertBetween fun h K => Kp.bindH K.dropLocal fun h K => Kp.bindH K.dropLocal fun h K => Kp.pure K
    · exact Kp.bindP K.insertLast fun h r K => Kp.bindH K.dropLocal fun h K => Kp.pure K

theorem Keep.detachSubtree (K : Keep h0 h) : Kp h0 id (h.detachSubtree n) := by
  unfold Heap.detachSubtree
  split
  · exact Kp.ok K
  · exact Kp.bindP K.newByUnlink fun h _ K => K.createNewTree

theorem Keep.moveSame {held : List NodeId} {dest : InsertAs NodeId} (K : Keep h0 h) :
    Kp h0 Prod.fst (h.moveSame held n dest) := by
  unfold Heap.moveSame
  split
  · exact Kp.ok K
  · exact Kp.bindP K.newByUnlink fun h _ K => K.insert

theorem Keep.moveOther {dest : InsertAs NodeId} (K : Keep h0 h) :
    Kp h0 Prod.fst (h.moveOther n dest t) := by
  unfold Heap.moveOther
  refine Kp.bindP K.newByUnlink fun h _ K => ?_
  exact Kp.bindO K.setMemberships (fun h K => K.insert) Kp.err

theorem Keep.detachInsert {dest : InsertAs NodeId} (K : Keep h0 h) :
    Kp h0 Prod.fst (h.detachInsert n dest) := by
  unfold Heap.detachInsert
  split
  · exact K.moveSame
  · exact Kp.bindA fun t _ => Kp.bindP K.acqTree.moveOther fun h r K => Kp.bindH K.relTree fun h K => Kp.pure K

theorem Kp.expectOk {r : Except Fault (Heap α × Except HierarchyError β)} {msg : String}
    (K : Kp h0 Prod.fst r) : Kp h0 Prod.fst (Heap.expectOk r msg) := by
  unfold Heap.expectOk
  split
  · exact Kp.err
  · exact Kp.ok (K _ rfl)
  · exact Kp.err

theorem Keep.reparentLoop {held : List NodeId} : ∀ {f : Nat} {c : Option NodeId} {q : NodeId} {h : Heap α},
    Keep h0 h → Kp h0 id (h.reparentLoop held f c q)
  | f, none, _, _, K => by cases f <;> exact Kp.ok K
  | 0, some _, _, _, _ => Kp.err
  | f + 1, some c, q, h, K => by
    unfold Heap.reparentLoop
    exact Kp.bindH K.setParent.dropLocal fun h K => Keep.reparentLoop K

theorem Keep.interruptParent {m : NodeId} (K : Keep h0 h) : Kp h0 Prod.fst (h.interruptParent n t m) := by
  unfold Heap.interruptParent
  split
  · refine Kp.bindH ?_ fun h K => Kp.bindP (Kp.expectOk K.moveSame) fun h _ K =>
      Kp.bindH K.dropLocal fun h K => Kp.pure K
    split
    · exact Kp.bindH K.insertBetween fun h K => K.dropLocal
    · exact Kp.bindP (Kp.expectOk K.insertLast) fun h _ K => Kp.pure K
  · exact Kp.bindH K.putRoot fun h K => Kp.bindH K.setPrev.putFirst fun h K => Kp.pure K.setParent.numAdd

theorem Keep.interruptChild {m : NodeId} (K : Keep h0 h) : Kp h0 Prod.fst (h.interruptChild n m) := by
  unfold Heap.interruptChild
  exact Kp.bindH K.setFirst.setParent.putFirst fun h K => Kp.bindH K.reparentLoop fun h K =>
    Kp.pure K.setNum.setNum

theorem Keep.replaceRelinkSome {held : List NodeId} {f : NodeId} {a b : Option NodeId} (K : Keep h0 h) :
    Kp h0 id (h.replaceRelinkSome held p f a b) := by
  unfold Heap.replaceRelinkSome
  refine Kp.bindA fun last _ => Kp.bindH ?_ fun h K => K.dropLocal
  split
  · exact Kp.bindH K.connect fun h K => Kp.bindH K.connect fun h K => K.dropLocal
  · refine Kp.bindH K.connect fun h K => ?_
    split
    · exact Kp.err
    · exact Kp.bindH K.setPrev.dropLocal fun h K => K.dropLocal
  · refine Kp.bindH K.connect fun h K => ?_
    split
    · exact Kp.err
    · exact K.setPrev.putFirst
  · exact K.putFirst

theorem Keep.replaceRelinkNone {held : List NodeId} {a b : Option NodeId} (K : Keep h0 h) :
    Kp h0 id (h.replaceRelinkNone held p a b) := by
  unfold Heap.replaceRelinkNone
  split
  · exact Kp.bindH K.connect fun h K => K.dropLocal
  · exact Kp.bindH K.putNext fun h K => K.dropLocal
  · split
    · exact Kp.err
    · exact K.setPrev.putFirst
  · exact K.putFirst

theorem Keep.replaceNonRoot {f : Option NodeId} (K : Keep h0 h) : Kp h0 id (h.replaceNonRoot n p f) := by
  unfold Heap.replaceNonRoot
  refine Kp.bindH K.reparentLoop fun h K => Kp.bindA fun prev _ => Kp.bindH ?_ fun h K => ?_
  · split
    · exact K.replaceRelinkSome
    · exact K.replaceRelinkNone
  · split
    · exact Kp.err
    · exact Kp.bindH K.numSub fun h K => K.numAdd.dropLocal

theorem Keep.replaceTail (K : Keep h0 h) : Kp h0 id (h.replaceTail n) := by
  unfold Heap.replaceTail
  refine Kp.bindH K.setParent.putFirst fun h K => Kp.bindH K.setPrev.putNext fun h K => ?_
  simp only
  split
  · exact Kp.err
  · exact Kp.err
  · rename_i e
    exact (K.setNum.allocTree.setMemberships _ e).relTree

theorem Keep.replace (K : Keep h0 h) : Kp h0 Prod.fst (h.replaceWithChildren n) := by
  unfold Heap.replaceWithChildren
  refine Kp.bindA fun t _ => ?_
  have K := K.acqTree (t := t)
  simp only
  split
  · exact Kp.bindH K.replaceNonRoot fun h K => Kp.bindH K.replaceTail fun h K => Kp.bindH K.relTree fun h K => Kp.pure K
  · split
    · exact Kp.bindH K.relTree fun h K => Kp.pure K
    · split
      · split
        · exact Kp.err
        · exact Kp.bindH K.setParent.putRoot fun h K => Kp.bindH K.replaceTail fun h K =>
            Kp.bindH K.relTree fun h K => Kp.pure K
      · exact Kp.bindH K.relTree fun h K => Kp.pure K

/-! ### Creations -/

/-- From `h0` to `h` one node with data `d` has been created (and perhaps freed again). -/
structure Made (h0 : Heap α) (d : α) (h : Heap α) : Prop where
  nNode : h.nNode = h0.nNode + 1
  data : ∀ x, x ≠ h0.nNode → (h.data x = h0.data x ∧ h.mutB x = h0.mutB x) ∨
    (h.data x = none ∧ h.mutB x = false)
  new : (h.data h0.nNode = some d ∨ h.data h0.nNode = none) ∧ h.mutB h0.nNode = false

theorem Made.keep {d : α} (M : Made h0 d h) (K : Keep h h') : Made h0 d h' where
  nNode := K.nNode.trans M.nNode
  data x hx := by
    rcases K.data x with ⟨e1, e2⟩ | e
    · rcases M.data x hx with ⟨e3, e4⟩ | ⟨e3, e4⟩
      · exact .inl ⟨e1.trans e3, e2.trans e4⟩
      · exact .inr ⟨e1.trans e3, e2.trans e4⟩
    · exact .inr e
  new := by
    rcases K.data h0.nNode with ⟨e1, e2⟩ | ⟨e1, e2⟩
    · rw [e1, e2]; exact M.new
    · exact ⟨.inr e1, e2⟩

theorem Made.alloc {d : α} {m : Membership} : Made h d (h.allocNode d m).1 where
  nNode := rfl
  data x hx := by
    simp only [Heap.allocNode, upd_ne _ _ hx]
    exact .inl ⟨trivial, trivial⟩
  new := by simp [Heap.allocNode]

theorem made_newTreeRoot {d : α} : Made h d (h.newTreeRoot d).1 :=
  (Made.alloc (d := d) (m := .weak none)).keep ((Keep.refl _).of_eq rfl rfl rfl)

theorem made_newOrphan {d : α} {m : NodeId} (e : h.newOrphan d t = .ok (h', m)) :
    Made h d h' ∧ m = h.nNode := by
  unfold Heap.newOrphan at e
  simp only at e
  split at e
  · rename_i e2
    cases e
    exact ⟨Made.alloc.keep ((Keep.refl _).incRef e2), rfl⟩
  · cases e

theorem made_process {d : α} {r : Except HierarchyError NodeId}
    {process : Heap α → NodeId → Except Fault (Heap α × Except HierarchyError Unit)}
    (hp : ∀ h1 m, Kp h1 Prod.fst (process h1 m)) (e : h.createAndProcess d t process = .ok (h', r)) :
    Made h d h' ∧ ∀ m, r = .ok m → m = h.nNode := by
  simp only [Heap.createAndProcess, bind, Except.bind, pure, Except.pure] at e
  split at e
  · cases e
  rename_i v hv
  obtain ⟨h1, m⟩ := v
  obtain ⟨M1, rfl⟩ := made_newOrphan hv
  simp only at e
  split at e
  · cases e
  rename_i v2 hv2
  obtain ⟨h2, r2⟩ := v2
  have M2 := M1.keep (hp _ _ _ hv2)
  simp only at e
  split at e
  · cases e
    exact ⟨M2, fun m e => by cases e; rfl⟩
  · split at e
    · cases e
    · rename_i h3 e3
      cases e
      exact ⟨M2.keep ((Keep.refl _).dropLink _ e3), fun m e => by cases e⟩

theorem made_expect {d : α} {m : NodeId} {msg : String}
    {process : Heap α → NodeId → Except Fault (Heap α × Except HierarchyError Unit)}
    (hp : ∀ h1 m, Kp h1 Prod.fst (process h1 m))
    (e : Heap.expectOk (h.createAndProcess d t process) msg = .ok (h', m)) :
    Made h d h' ∧ m = h.nNode := by
  unfold Heap.expectOk at e
  split at e
  · cases e
  · rename_i e2
    cases e
    obtain ⟨M, e⟩ := made_process hp e2
    exact ⟨M, e _ rfl⟩
  · cases e

theorem made_create {d : α} {as : AdoptAs} {r : Except HierarchyError NodeId}
    (e : h.nodeCreate n d as = .ok (h', r)) : Made h d h' ∧ ∀ m, r = .ok m → m = h.nNode := by
  simp only [Heap.nodeCreate, bind, Except.bind] at e
  split at e
  · cases e
  cases as <;> simp only [Heap.tryCreateNodeAs, Heap.createFirst, Heap.createLast, Heap.createPrev,
    Heap.createNext, bind, Except.bind, pure, Except.pure] at e
  · split at e
    · cases e
    rename_i v hv
    split at hv
    · cases hv
    cases e
    obtain ⟨M, e⟩ := made_expect (fun h1 m => (Keep.refl h1).insertFirst) hv
    exact ⟨M, fun m e' => by cases e'; exact e⟩
  · split at e
    · cases e
    rename_i v hv
    split at hv
    · cases hv
    cases e
    obtain ⟨M, e⟩ := made_expect (fun h1 m => (Keep.refl h1).insertLast) hv
    exact ⟨M, fun m e' => by cases e'; exact e⟩
  · split at e
    · cases e
    exact made_process (fun h1 m => (Keep.refl h1).insert) e
  · split at e
    · cases e
    exact made_process (fun h1 m => (Keep.refl h1).insert) e

theorem made_parent {d : α} {m : NodeId} (e : h.createInterruptingParent n d = .ok (h', m)) :
    Made h d h' ∧ m = h.nNode := by
  simp only [Heap.createInterruptingParent, bind, Except.bind] at e
  split at e
  · cases e
  exact made_expect (fun h1 m => (Keep.refl h1).interruptParent) e

theorem made_child {d : α} {m : NodeId} (e : h.createInterruptingChild n d = .ok (h', m)) :
    Made h d h' ∧ m = h.nNode := by
  simp only [Heap.createInterruptingChild, bind, Except.bind] at e
  split at e
  · cases e
  exact made_expect (fun h1 m => (Keep.refl h1).interruptChild) e

end Dendron
