import Verif.Proofs.KeptAll

/-! In every history, each living tree has an owner: a `Tree` or a handle to one of its nodes. -/

set_option autoImplicit false
set_option linter.unusedSimpArgs false

namespace Dendron
variable {α β γ : Type} {h h' : Heap α} {n p : NodeId} {t : TreeId}

/-- Something owns tree `t`: an `Rc<TreeCore>` outside of the memberships, or a strong membership. -/
def Owned (h : Heap α) (t : TreeId) : Prop := h.treeRc t ≠ 0 ∨ ∃ n rc l, h.mem n = .strong t rc l

/-- Every living tree has an owner. -/
def TK (h : Heap α) : Prop := ∀ t, h.treeAlive t = true → Owned h t
/-- Every living tree but `u` has an owner. -/
def TKB (u : TreeId) (h : Heap α) : Prop := ∀ t, h.treeAlive t = true → t = u ∨ Owned h t

theorem TK.of_eq (K : TK h) (e1 : h'.mem = h.mem) (e2 : h'.root = h.root) (e3 : h'.treeRc = h.treeRc) : TK h' := by
  intro t ht
  unfold Heap.treeAlive at ht
  rw [e2] at ht
  unfold Owned
  rw [e1, e3]
  exact K t ht
theorem TKB.of_eq (K : TKB t h) (e1 : h'.mem = h.mem) (e2 : h'.root = h.root) (e3 : h'.treeRc = h.treeRc) : TKB t h' := by
  intro u ht
  unfold Heap.treeAlive at ht
  rw [e2] at ht
  unfold Owned
  rw [e1, e3]
  exact K u ht

theorem TK.setNext {m : NodeId} {v : Option NodeId} (K : TK h) : TK (h.setNext m v) := K.of_eq rfl rfl rfl
theorem TK.setFirst {m : NodeId} {v : Option NodeId} (K : TK h) : TK (h.setFirst m v) := K.of_eq rfl rfl rfl
theorem TK.setParent {m : NodeId} {v : Option NodeId} (K : TK h) : TK (h.setParent m v) := K.of_eq rfl rfl rfl
theorem TK.setPrev {m : NodeId} {v : Option NodeId} (K : TK h) : TK (h.setPrev m v) := K.of_eq rfl rfl rfl
theorem TK.setNum {m : NodeId} {v : Nat} (K : TK h) : TK (h.setNum m v) := K.of_eq rfl rfl rfl
theorem TK.numAdd {m : NodeId} {v : Nat} (K : TK h) : TK (h.numAdd m v) := K.of_eq rfl rfl rfl
theorem TK.setGrants {v : Int} (K : TK h) : TK (h.setGrants t v) := K.of_eq rfl rfl rfl

/-- If the computation returns, every living tree in its result has an owner. -/
def Kt (π : β → Heap α) (r : Except Fault β) : Prop := ∀ b, r = .ok b → TK (π b)
/-- The same for a computation that may return no memory. -/
def KtO (r : Except Fault (Option (Heap α))) : Prop := ∀ b, r = .ok (some b) → TK b

theorem Kt.err {π : β → Heap α} {e : Fault} : Kt π (.error e) := fun _ h => by cases h
theorem KtO.err {e : Fault} : KtO (α := α) (.error e) := fun _ h => by cases h
theorem KtO.none : KtO (α := α) (.ok none) := fun _ h => by cases h
theorem KtO.some (K : TK h) : KtO (.ok (some h)) := fun _ h => by cases h; exact K
theorem Kt.ok {π : β → Heap α} {b : β} (K : TK (π b)) : Kt π (.ok b) := fun _ h => by cases h; exact K
theorem Kt.pure {π : β → Heap α} {b : β} (K : TK (π b)) : Kt π (Pure.pure b) := Kt.ok K
theorem Kt.bindA {π : γ → Heap α} {x : Except Fault β} {f : β → Except Fault γ}
    (k : ∀ b, x = .ok b → Kt π (f b)) : Kt π (x >>= f) := by
  cases x with
  | error e => exact Kt.err
  | ok b => exact k b rfl
theorem Kt.bindH {π : γ → Heap α} {x : Except Fault (Heap α)} {f : Heap α → Except Fault γ}
    (K : Kt id x) (k : ∀ h, TK h → Kt π (f h)) : Kt π (x >>= f) :=
  .bindA fun b e => k b (K b e)
theorem Kt.bindP {π : γ → Heap α} {x : Except Fault (Heap α × β)} {f : Heap α × β → Except Fault γ}
    (K : Kt Prod.fst x) (k : ∀ h b, TK h → Kt π (f (h, b))) : Kt π (x >>= f) :=
  .bindA fun b e => k b.1 b.2 (K b e)
theorem Kt.bindO {π : γ → Heap α} {x : Except Fault (Option (Heap α))} {f : Option (Heap α) → Except Fault γ}
    (K : KtO x) (k : ∀ h, TK h → Kt π (f (some h))) (k0 : Kt π (f none)) : Kt π (x >>= f) := by
  refine .bindA fun b e => ?_
  cases b with
  | none => exact k0
  | some h => exact k h (K h e)

/-- Trees, their counts and strong memberships are unchanged. -/
structure TFrame (h h' : Heap α) : Prop where
  root : h'.root = h.root
  treeRc : h'.treeRc = h.treeRc
  mem : ∀ n t rc l, h.mem n = .strong t rc l → h'.mem n = .strong t rc l

theorem TFrame.refl (h : Heap α) : TFrame h h := ⟨rfl, rfl, fun _ _ _ _ e => e⟩
theorem TFrame.trans {h'' : Heap α} (a : TFrame h h') (b : TFrame h' h'') : TFrame h h'' :=
  ⟨b.root.trans a.root, b.treeRc.trans a.treeRc, fun n t rc l e => b.mem n t rc l (a.mem n t rc l e)⟩
theorem TFrame.owned (F : TFrame h h') (o : Owned h t) : Owned h' t := by
  rcases o with o | ⟨n, rc, l, o⟩
  · exact .inl (by rw [F.treeRc]; exact o)
  · exact .inr ⟨n, rc, l, F.mem _ _ _ _ o⟩
theorem TFrame.keep (F : TFrame h h') (K : TK h) : TK h' := fun t ht =>
  F.owned (K t (by unfold Heap.treeAlive at *; rw [← F.root]; exact ht))
theorem TFrame.keepB (F : TFrame h h') (K : TKB t h) : TKB t h' := fun u hu =>
  (K u (by unfold Heap.treeAlive at *; rw [← F.root]; exact hu)).imp id F.owned

theorem release_frame : ∀ {f : Nat} {pins : List NodeId} {n : NodeId} {h h' : Heap α},
    h.release f pins n = .ok h' → TFrame h h'
  | 0, _, _, _, _, e => by cases e
  | f + 1, pins, n, h, h', e => by
    unfold Heap.release at e
    split at e
    · cases e; exact .refl h
    · rename_i c
      simp only at e
      have step : ∀ {o : Option NodeId} {g g' : Heap α},
          (match o with | some c => g.release f pins c | none => Except.ok g) = .ok g' → TFrame g g' := by
        intro o g g' e
        cases o with
        | none => cases e; exact .refl g
        | some c => exact release_frame e
      have hk : TFrame h (h.kill n) := by
        refine ⟨rfl, rfl, fun m t rc l hm => ?_⟩
        by_cases e : m = n
        · subst e
          exact absurd (referenced_iff.2 (.inl ⟨t, rc, l, hm⟩)) (by simp_all)
        · simp [Heap.kill, upd_ne _ _ e, hm]
      split at e
      · cases e
      · rename_i e1
        exact hk.trans ((step e1).trans (step e))

theorem dropStep_frame {k : Nat} {pins : List NodeId} (e : h.dropStep k pins n = .ok h') : TFrame h h' := by
  unfold Heap.dropStep at e
  split at e
  · simp only [bind, Except.bind] at e
    split at e
    · cases e
    rename_i p _ _ g1 e1
    split at e
    · cases e
    rename_i g2 e2
    refine TFrame.trans ?_ ((release_frame e2).trans (release_frame e))
    have h0 : TFrame h ((h.setNext n none).setFirst p (h.next n)) := ⟨rfl, rfl, fun _ _ _ _ e => e⟩
    split at e1
    · exact h0.trans (release_frame e1)
    · cases e1; exact h0
  · exact release_frame e

theorem dropLoop_frame {k : Nat} : ∀ {f : Nat} {pins : List NodeId} {ev : Option (DftEvent NodeId)}
    {h h' : Heap α}, h.dropLoop k f pins ev = .ok h' → TFrame h h'
  | f, _, none, h, _, e => by cases f <;> (cases e; exact .refl h)
  | 0, _, some _, _, _, e => by cases e
  | f + 1, pins, some ev, h, h', e => by
    unfold Heap.dropLoop at e
    simp only at e
    split at e
    · split at e
      · cases e
      · rename_i e1
        exact (release_frame e1).trans (dropLoop_frame e)
    · split at e
      · cases e
      · rename_i e1
        exact (dropStep_frame e1).trans (dropLoop_frame e)

theorem TK.release {f : Nat} {pins : List NodeId} (K : TK h) : Kt id (h.release f pins n) :=
  fun _ e => (release_frame e).keep K

theorem TKB.dropTreeWith {k : Nat} {pins : List NodeId} (K : TKB t h) :
    Kt id (h.dropTreeWith k pins t) := by
  unfold Heap.dropTreeWith
  split
  · rename_i hr
    refine Kt.ok fun u hu => (K u hu).resolve_left ?_
    rintro rfl
    simp [Heap.treeAlive, hr] at hu
  · split
    · exact Kt.err
    · rename_i h1 e
      refine TK.release (TK.setGrants (fun u hu => ?_))
      by_cases eu : u = t
      · subst eu; simp [Heap.treeAlive, Heap.setRoot] at hu
      · have : h1.treeAlive u = true := by simpa [Heap.treeAlive, Heap.setRoot, upd_ne _ _ eu] using hu
        exact ((dropLoop_frame e).keepB K u this).resolve_left eu

theorem TKB.maybeDropTree {pins : List NodeId} (K : TKB t h) : Kt id (h.maybeDropTree pins t) := by
  unfold Heap.maybeDropTree
  split
  · exact K.dropTreeWith
  · rename_i c
    refine Kt.ok fun u hu => ?_
    rcases K u hu with rfl | h1
    · have hu' : h.treeAlive u = true := hu
      by_cases hr : h.treeRc u = 0
      · have hs : h.hasStrongMember u = true := by
          simpa [hu', hr] using c
        unfold Heap.hasStrongMember at hs
        simp only [List.any_eq_true] at hs
        obtain ⟨n, -, hn⟩ := hs
        refine .inr ⟨n, ?_⟩
        split at hn
        · rename_i t' rc l hm
          simp only [beq_iff_eq] at hn
          subst hn
          exact ⟨rc, l, hm⟩
        · cases hn
      · exact .inl hr
    · exact h1

theorem TK.weak (K : TK h) : TKB t h := fun u hu => .inr (K u hu)

theorem TK.setTreeRc {v : Nat} (K : TK h) : TKB t (h.setTreeRc t v) := by
  intro u hu
  by_cases e : u = t
  · exact .inl e
  · right
    rcases K u hu with h1 | h1
    · left; simpa [Heap.setTreeRc, upd_ne _ _ e] using h1
    · exact .inr h1
theorem TK.acqTree (K : TK h) : TK (h.acqTree t) := by
  intro u hu
  by_cases e : u = t
  · subst e; left; simp [Heap.acqTree, Heap.setTreeRc]
  · rcases K u hu with h1 | h1
    · left; simpa [Heap.acqTree, Heap.setTreeRc, upd_ne _ _ e] using h1
    · exact .inr h1
theorem TK.allocTree (K : TK h) : TK (h.allocTree n).1 := by
  intro u hu
  by_cases e : u = h.nTree
  · subst e; left; simp [Heap.allocTree]
  · rcases K u (by simpa [Heap.treeAlive, Heap.allocTree, upd_ne _ _ e] using hu) with h1 | h1
    · left; simpa [Heap.allocTree, upd_ne _ _ e] using h1
    · exact .inr h1

/-- A store to a membership: only the tree it referred to strongly may have lost its owner. -/
theorem TK.setMem {v : Membership} (K : TK h)
    (hv : ∀ u rc l, h.mem n = .strong u rc l → u = t ∨ ∃ rc l, v = .strong u rc l) : TKB t (h.setMem n v) := by
  intro u hu
  rcases K u hu with h1 | ⟨m, rc, l, h1⟩
  · exact .inr (.inl h1)
  · by_cases e : m = n
    · subst e
      rcases hv u rc l h1 with h2 | ⟨rc', l', h2⟩
      · exact .inl h2
      · exact .inr (.inr ⟨m, rc', l', by simp [Heap.setMem, h2]⟩)
    · exact .inr (.inr ⟨m, rc, l, by simp [Heap.setMem, upd_ne _ _ e, h1]⟩)
/-- Nothing is lost if the node referred strongly to no other tree. -/
theorem TK.setMem0 {v : Membership} (K : TK h)
    (hv : ∀ u rc l, h.mem n = .strong u rc l → ∃ rc l, v = .strong u rc l) : TK (h.setMem n v) := by
  intro u hu
  rcases K u hu with h1 | ⟨m, rc, l, h1⟩
  · exact .inl h1
  · by_cases e : m = n
    · subst e
      obtain ⟨rc', l', h2⟩ := hv u rc l h1
      exact .inr ⟨m, rc', l', by simp [Heap.setMem, h2]⟩
    · exact .inr ⟨m, rc, l, by simp [Heap.setMem, upd_ne _ _ e, h1]⟩

theorem TK.relTree {pins : List NodeId} (K : TK h) : Kt id (h.relTree pins t) :=
  K.setTreeRc.maybeDropTree

theorem TK.incRef (K : TK h) (e : h.incRef n = some h') : TK h' := by
  unfold Heap.incRef at e
  split at e
  · split at e
    · cases e; exact (K.setMem0 (by intro u rc l e; simp_all [Heap.setGrants]))
    · cases e
  · cases e; exact (K.setMem0 (by intro u rc l e; simp_all [Heap.setGrants]))

theorem TK.withNodeCore (K : TK h) : Kt id (h.withNodeCore n) := by
  unfold Heap.withNodeCore
  split
  · rename_i e; exact Kt.ok (K.incRef e)
  · exact Kt.err

theorem TK.cloneLink (K : TK h) : Kt id (h.cloneLink n) := by
  unfold Heap.cloneLink
  split
  · exact Kt.err
  · exact Kt.ok (K.setMem0 (by intro u rc l e; simp_all [Heap.setGrants]))

theorem TK.decRef (K : TK h) : Kt id (h.decRef n) := by
  unfold Heap.decRef
  split
  · exact Kt.err
  · split
    · split
      · exact Kt.err
      · exact (K.setMem (t := _) (by intro u rc l e; simp_all)).maybeDropTree
    · exact Kt.ok (K.setMem0 (by intro u rc l e; simp_all [Heap.setGrants]))

theorem TK.dropLink (K : TK h) : Kt id (h.dropLink n) :=
  Kt.bindH K.decRef fun _ K => K.release

theorem TK.transferLock {u : TreeId} (K : TK h) : KtO (h.transferLock t u) := by
  unfold Heap.transferLock
  repeat' split
  all_goals first
    | exact KtO.err
    | exact KtO.none
    | exact KtO.some K.setGrants.setGrants
    | exact KtO.some K

theorem transferLock_mem {u : TreeId} (e : h.transferLock t u = .ok (some h')) : h'.mem = h.mem := by
  unfold Heap.transferLock at e
  repeat' split at e
  all_goals cases e
  all_goals rfl

theorem TK.setTreeCore {pins : List NodeId} (K : TK h) : KtO (h.setTreeCore pins n t) := by
  unfold Heap.setTreeCore
  split
  · exact KtO.some (K.setMem0 (by intro u rc l e; simp_all [Heap.setGrants]))
  · split
    · exact KtO.err
    · exact KtO.none
    · rename_i h1 e
      have K1 : TK h1 ∧ h1.mem = h.mem := by
        split at e
        · exact ⟨K.transferLock _ e, transferLock_mem e⟩
        · cases e; exact ⟨K, rfl⟩
      obtain ⟨K1, hm1⟩ := K1
      simp only
      split
      · exact KtO.err
      · rename_i e2
        exact KtO.some ((K1.setMem (t := _) (by intro u rc l e; simp_all)).maybeDropTree _ e2)

theorem TK.decLock (K : TK h) : Kt id (h.decLock n) := by
  unfold Heap.decLock
  repeat' (first | split | (simp only; split))
  all_goals first
    | exact Kt.err
    | exact Kt.ok (K.setMem0 (by intro u rc l e; simp_all [Heap.setGrants])).setGrants
    | exact Kt.ok (K.setMem0 (by intro u rc l e; simp_all [Heap.setGrants]))

theorem TK.incLockNonzero (K : TK h) : Kt id (h.incLockNonzero n) := by
  unfold Heap.incLockNonzero
  repeat' split
  all_goals first | exact Kt.err | exact Kt.ok (K.setMem0 (by intro u rc l e; simp_all [Heap.setGrants]))

theorem TK.acqLock {k : Kind} (K : TK h) : KtO (h.acqLock n k) := by
  cases k
  · exact KtO.some K
  · simp only [Heap.acqLock]
    unfold Heap.acquireEditGrant
    repeat' split
    all_goals first
      | exact KtO.err
      | exact KtO.none
      | exact KtO.some (K.setGrants.setMem0 (by intro u rc l e; simp_all [Heap.setGrants]))
      | exact KtO.some (K.setMem0 (by intro u rc l e; simp_all [Heap.setGrants]))
  · simp only [Heap.acqLock]
    unfold Heap.acquireEditProhibition
    repeat' split
    all_goals first
      | exact KtO.err
      | exact KtO.none
      | exact KtO.some (K.setGrants.setMem0 (by intro u rc l e; simp_all [Heap.setGrants]))
      | exact KtO.some (K.setMem0 (by intro u rc l e; simp_all [Heap.setGrants]))

theorem Kt.expectLock {r : Except Fault (Option (Heap α))} (K : KtO r) : Kt id (Heap.expectLock r) := by
  unfold Heap.expectLock
  split
  · exact Kt.err
  · exact Kt.err
  · exact Kt.ok (K _ rfl)

theorem TK.wrap {k : Kind} (K : TK h) : Kt id (h.wrap n k) :=
  Kt.bindH K.withNodeCore fun _ K => Kt.expectLock K.acqLock

theorem TK.cloneHandle {k : Kind} (K : TK h) : Kt id (h.cloneHandle n k) := by
  cases k
  · exact K.cloneLink
  · exact Kt.bindH K.incLockNonzero fun _ K => K.cloneLink
  · exact Kt.bindH K.incLockNonzero fun _ K => K.cloneLink

theorem TK.dropHandle {k : Kind} (K : TK h) : Kt id (h.dropHandle n k) := by
  cases k
  · exact K.dropLink
  · exact Kt.bindH K.decLock fun _ K => K.dropLink
  · exact Kt.bindH K.decLock fun _ K => K.dropLink

/-! ### Edits -/

theorem TK.dropLocal {held : List NodeId} (K : TK h) : Kt id (h.dropLocal held n) := K.release
theorem TK.dropOpt {held : List NodeId} {o : Option NodeId} (K : TK h) : Kt id (h.dropOpt held o) := by
  cases o
  · exact Kt.ok K
  · exact K.release
theorem TK.putNext {held : List NodeId} {m : NodeId} {v : Option NodeId} (K : TK h) :
    Kt id (h.putNext held m v) := K.setNext.dropOpt
theorem TK.putFirst {held : List NodeId} {m : NodeId} {v : Option NodeId} (K : TK h) :
    Kt id (h.putFirst held m v) := K.setFirst.dropOpt
theorem TK.putRoot {held : List NodeId} {x : NodeId} (K : TK h) (o : Owned h t) :
    Kt id (h.putRoot held t x) := by
  refine TK.dropOpt fun u hu => ?_
  by_cases e : u = t
  · subst e; exact o
  · exact K u (by simpa [Heap.treeAlive, Heap.setRoot, upd_ne _ _ e] using hu)
theorem TK.connect {held : List NodeId} {a b : NodeId} (K : TK h) :
    Kt id (h.connect held a b) := K.setPrev.putNext
theorem TK.numSub {m : NodeId} {v : Nat} (K : TK h) : Kt id (h.numSub m v) := by
  unfold Heap.numSub
  split
  · exact Kt.err
  · exact Kt.ok K.setNum

theorem TK.newByUnlink {held : List NodeId} (K : TK h) : Kt Prod.fst (h.newByUnlink held n) := by
  unfold Heap.newByUnlink
  split
  · exact Kt.ok K
  refine Kt.bindA fun prev _ => Kt.bindA fun prevC _ => Kt.bindH ?_ fun h K => Kt.bindH ?_ fun h K =>
    Kt.bindH ?_ fun h K => Kt.bindH K.setParent.setPrev.putNext fun h K => Kt.bindH K.dropLocal fun h K =>
      Kt.bindH K.dropOpt fun h K => Kt.pure K
  · split
    · refine Kt.bindA fun first _ => Kt.bindH ?_ fun h K => ?_
      · split
        · exact K.putFirst
        · exact Kt.ok K
      · split
        · exact Kt.err
        · exact K.numSub
    · exact Kt.ok K
  · split
    · exact Kt.bindH K.putNext fun h K => K.dropLocal
    · exact Kt.ok K
  · split
    · exact K.setPrev.dropLocal
    · exact Kt.ok K

theorem TK.setMembLoop {start : NodeId} : ∀ {f : Nat} {ev : Option (DftEvent NodeId)} {h : Heap α},
    TK h → KtO (h.setMembLoop f start t ev)
  | f, none, _, K => by cases f <;> exact KtO.some K
  | 0, some _, _, _ => KtO.err
  | f + 1, some ev, h, K => by
    unfold Heap.setMembLoop
    split
    · exact KtO.some K
    simp only
    cases ev with
    | opn m =>
      simp only
      split
      · exact KtO.err
      · exact KtO.none
      · rename_i e
        split
        · exact KtO.err
        · rename_i e2
          exact TK.setMembLoop ((K.setTreeCore _ e).release _ e2)
    | cls m =>
      simp only
      split
      · exact KtO.err
      · rename_i e2
        exact TK.setMembLoop (K.release _ e2)

theorem TK.setMemberships (K : TK h) : KtO (h.setMemberships n t) := K.setMembLoop

theorem TK.createNewTree (K : TK h) : Kt id (h.createNewTree n) := by
  unfold Heap.createNewTree
  simp only
  split
  · exact Kt.err
  · exact Kt.err
  · rename_i e
    exact (K.allocTree.setMemberships _ e).relTree

theorem TK.insertFirst {held : List NodeId} {b : Bool} (K : TK h) :
    Kt Prod.fst (h.insertFirst held n b p) := by
  unfold Heap.insertFirst
  refine Kt.bindA fun c _ => ?_
  split
  · exact Kt.pure K
  refine Kt.bindA fun fl _ => Kt.bindH ?_ fun h K => Kt.bindH K.setParent.putFirst fun h K => Kt.pure K.numAdd
  split
  · exact Kt.bindH K.setPrev.connect fun h K => K.dropLocal
  · exact Kt.ok K.setPrev

theorem TK.insertLast {held : List NodeId} {b : Bool} (K : TK h) :
    Kt Prod.fst (h.insertLast held n b p) := by
  unfold Heap.insertLast
  refine Kt.bindA fun c _ => ?_
  split
  · exact Kt.pure K
  refine Kt.bindA fun fl _ => Kt.bindH ?_ fun h K => Kt.pure K.setParent.numAdd
  split
  · exact Kt.bindH K.setPrev.connect fun h K => Kt.bindH K.dropLocal fun h K => K.dropLocal
  · exact K.setPrev.putFirst

theorem TK.insertBetween {held : List NodeId} {a b : NodeId} (K : TK h) :
    Kt id (h.insertBetween held n p a b) := by
  unfold Heap.insertBetween
  exact Kt.bindA fun _ _ => Kt.bindH K.setParent.setNext.putNext fun h K => Kt.pure K.setPrev.setPrev.numAdd

theorem TK.insert {held : List NodeId} {b : Bool} {dest : InsertAs NodeId} (K : TK h) :
    Kt Prod.fst (h.insert held n b dest) := by
  cases dest with
  | firstChildOf q => exact K.insertFirst
  | lastChildOf q => exact K.insertLast
  | previousSiblingOf a =>
    simp only [Heap.insert]
    split
    · exact Kt.ok K
    refine Kt.bindA fun s _ => ?_
    split
    · exact Kt.bindH K.insertBetween fun h K => Kt.bindH K.dropLocal fun h K => Kt.bindH K.dropLocal fun h K => Kt.pure K
    · exact Kt.bindP K.insertFirst fun h r K => Kt.bindH K.dropLocal fun h K => Kt.pure K
  | nextSiblingOf a =>
    simp only [Heap.insert]
    split
    · exact Kt.ok K
    split
    · exact Kt.bindH K.insertBetween fun h K => Kt.bindH K.dropLocal fun h K => Kt.bindH K.dropLocal fun h K => Kt.pure K
    · exact Kt.bindP K.insertLast fun h r K => Kt.bindH K.dropLocal fun h K => Kt.pure K

theorem TK.detachSubtree (K : TK h) : Kt id (h.detachSubtree n) := by
  unfold Heap.detachSubtree
  split
  · exact Kt.ok K
  · exact Kt.bindP K.newByUnlink fun h _ K => K.createNewTree

theorem TK.moveSame {held : List NodeId} {dest : InsertAs NodeId} (K : TK h) :
    Kt Prod.fst (h.moveSame held n dest) := by
  unfold Heap.moveSame
  split
  · exact Kt.ok K
  · exact Kt.bindP K.newByUnlink fun h _ K => K.insert

theorem TK.moveOther {dest : InsertAs NodeId} (K : TK h) :
    Kt Prod.fst (h.moveOther n dest t) := by
  unfold Heap.moveOther
  refine Kt.bindP K.newByUnlink fun h _ K => ?_
  exact Kt.bindO K.setMemberships (fun h K => K.insert) Kt.err

theorem TK.detachInsert {dest : InsertAs NodeId} (K : TK h) :
    Kt Prod.fst (h.detachInsert n dest) := by
  unfold Heap.detachInsert
  split
  · exact K.moveSame
  · exact Kt.bindA fun t _ => Kt.bindP K.acqTree.moveOther fun h r K => Kt.bindH K.relTree fun h K => Kt.pure K

theorem Kt.expectOk {r : Except Fault (Heap α × Except HierarchyError β)} {msg : String}
    (K : Kt Prod.fst r) : Kt Prod.fst (Heap.expectOk r msg) := by
  unfold Heap.expectOk
  split
  · exact Kt.err
  · exact Kt.ok (K _ rfl)
  · exact Kt.err

theorem TK.reparentLoop {held : List NodeId} : ∀ {f : Nat} {c : Option NodeId} {q : NodeId} {h : Heap α},
    TK h → Kt id (h.reparentLoop held f c q)
  | f, none, _, _, K => by cases f <;> exact Kt.ok K
  | 0, some _, _, _, _ => Kt.err
  | f + 1, some c, q, h, K => by
    unfold Heap.reparentLoop
    exact Kt.bindH K.setParent.dropLocal fun h K => TK.reparentLoop K

theorem TK.interruptParent {m : NodeId} (K : TK h) (o : Owned h t) : Kt Prod.fst (h.interruptParent n t m) := by
  unfold Heap.interruptParent
  split
  · refine Kt.bindH ?_ fun h K => Kt.bindP (Kt.expectOk K.moveSame) fun h _ K =>
      Kt.bindH K.dropLocal fun h K => Kt.pure K
    split
    · exact Kt.bindH K.insertBetween fun h K => K.dropLocal
    · exact Kt.bindP (Kt.expectOk K.insertLast) fun h _ K => Kt.pure K
  · exact Kt.bindH (K.putRoot o) fun h K => Kt.bindH K.setPrev.putFirst fun h K => Kt.pure K.setParent.numAdd

theorem TK.interruptChild {m : NodeId} (K : TK h) : Kt Prod.fst (h.interruptChild n m) := by
  unfold Heap.interruptChild
  exact Kt.bindH K.setFirst.setParent.putFirst fun h K => Kt.bindH K.reparentLoop fun h K =>
    Kt.pure K.setNum.setNum

theorem TK.replaceRelinkSome {held : List NodeId} {f : NodeId} {a b : Option NodeId} (K : TK h) :
    Kt id (h.replaceRelinkSome held p f a b) := by
  unfold Heap.replaceRelinkSome
  refine Kt.bindA fun last _ => Kt.bindH ?_ fun h K => K.dropLocal
  split
  · exact Kt.bindH K.connect fun h K => Kt.bindH K.connect fun h K => K.dropLocal
  · refine Kt.bindH K.connect fun h K => ?_
    split
    · exact Kt.err
    · exact Kt.bindH K.setPrev.dropLocal fun h K => K.dropLocal
  · refine Kt.bindH K.connect fun h K => ?_
    split
    · exact Kt.err
    · exact K.setPrev.putFirst
  · exact K.putFirst

theorem TK.replaceRelinkNone {held : List NodeId} {a b : Option NodeId} (K : TK h) :
    Kt id (h.replaceRelinkNone held p a b) := by
  unfold Heap.replaceRelinkNone
  split
  · exact Kt.bindH K.connect fun h K => K.dropLocal
  · exact Kt.bindH K.putNext fun h K => K.dropLocal
  · split
    · exact Kt.err
    · exact K.setPrev.putFirst
  · exact K.putFirst

theorem TK.replaceNonRoot {f : Option NodeId} (K : TK h) : Kt id (h.replaceNonRoot n p f) := by
  unfold Heap.replaceNonRoot
  refine Kt.bindH K.reparentLoop fun h K => Kt.bindA fun prev _ => Kt.bindH ?_ fun h K => ?_
  · split
    · exact K.replaceRelinkSome
    · exact K.replaceRelinkNone
  · split
    · exact Kt.err
    · exact Kt.bindH K.numSub fun h K => K.numAdd.dropLocal

theorem TK.replaceTail (K : TK h) : Kt id (h.replaceTail n) := by
  unfold Heap.replaceTail
  refine Kt.bindH K.setParent.putFirst fun h K => Kt.bindH K.setPrev.putNext fun h K => ?_
  simp only
  split
  · exact Kt.err
  · exact Kt.err
  · rename_i e
    exact (K.setNum.allocTree.setMemberships _ e).relTree

theorem TK.replace (K : TK h) : Kt Prod.fst (h.replaceWithChildren n) := by
  unfold Heap.replaceWithChildren
  refine Kt.bindA fun t _ => ?_
  have K := K.acqTree (t := t)
  simp only
  split
  · exact Kt.bindH K.replaceNonRoot fun h K => Kt.bindH K.replaceTail fun h K => Kt.bindH K.relTree fun h K => Kt.pure K
  · split
    · exact Kt.bindH K.relTree fun h K => Kt.pure K
    · split
      · split
        · exact Kt.err
        · exact Kt.bindH (K.setParent.putRoot (.inl (by simp [Heap.acqTree, Heap.setTreeRc, Heap.setParent]))) fun h K => Kt.bindH K.replaceTail fun h K =>
            Kt.bindH K.relTree fun h K => Kt.pure K
      · exact Kt.bindH K.relTree fun h K => Kt.pure K

/-! ### Creations -/

/-- Strong memberships are of nodes that have been created. -/
def MemBound (h : Heap α) : Prop := ∀ n t rc l, h.mem n = .strong t rc l → n < h.nNode

theorem TK.allocNode {d : α} {m : Membership} (K : TK h) (B : MemBound h) : TK (h.allocNode d m).1 := by
  intro u hu
  rcases K u hu with h1 | ⟨x, rc, l, h1⟩
  · exact .inl h1
  · refine .inr ⟨x, rc, l, ?_⟩
    simp [Heap.allocNode, upd_ne _ _ (Nat.ne_of_lt (B x u rc l h1)), h1]

theorem TK.newTreeRoot {d : α} (K : TK h) (B : MemBound h) : TK (h.newTreeRoot d).1 := by
  intro u hu
  by_cases e : u = h.nTree
  · subst e
    refine .inr ⟨h.nNode, 1, 0, ?_⟩
    simp [Heap.newTreeRoot, Heap.allocNode, Heap.allocTree, Heap.setTreeRc, Heap.setMem]
  · have hu' : h.treeAlive u = true := by
      simpa [Heap.newTreeRoot, Heap.allocNode, Heap.allocTree, Heap.setTreeRc, Heap.setMem, Heap.treeAlive,
        upd_ne _ _ e] using hu
    rcases K u hu' with h1 | ⟨x, rc, l, h1⟩
    · left
      simpa [Heap.newTreeRoot, Heap.allocNode, Heap.allocTree, Heap.setTreeRc, Heap.setMem,
        upd_ne _ _ e] using h1
    · refine .inr ⟨x, rc, l, ?_⟩
      simp [Heap.newTreeRoot, Heap.allocNode, Heap.allocTree, Heap.setTreeRc, Heap.setMem,
        upd_ne _ _ (Nat.ne_of_lt (B x u rc l h1)), h1]

theorem TK.createAndProcess {d : α}
    {process : Heap α → NodeId → Except Fault (Heap α × Except HierarchyError Unit)} (K : TK h)
    (B : MemBound h) (hp : ∀ h m, TK h → Owned h t → Kt Prod.fst (process h m)) :
    Kt Prod.fst (h.createAndProcess d t process) := by
  unfold Heap.createAndProcess
  refine Kt.bindA fun v hv => ?_
  have K1 : TK v.1 ∧ Owned v.1 t := by
    unfold Heap.newOrphan at hv
    simp only at hv
    split at hv
    · rename_i h2 e2
      cases hv
      refine ⟨(K.allocNode B).incRef e2, ?_⟩
      unfold Heap.incRef at e2
      have hm : (h.allocNode d (.weak (some t))).1.mem (h.allocNode d (.weak (some t))).2 =
          .weak (some t) := by simp [Heap.allocNode]
      rw [hm] at e2
      simp only at e2
      split at e2
      · rename_i u hu
        cases e2
        have : u = t := by
          simp only [Option.filter_eq_some_iff, Option.some.injEq] at hu
          exact hu.1.symm
        subst this
        exact .inr ⟨_, 1, 0, upd_same _ _ _⟩
      · cases e2
    · cases hv
  refine Kt.bindP (hp v.1 v.2 K1.1 K1.2) fun h r K => ?_
  cases r with
  | ok u => exact Kt.ok K
  | error er => exact Kt.bindH K.dropLink fun h K => Kt.pure K

theorem TK.nodeCreate {d : α} {as : AdoptAs} (K : TK h) (B : MemBound h) :
    Kt Prod.fst (h.nodeCreate n d as) := by
  unfold Heap.nodeCreate
  refine Kt.bindA fun t _ => ?_
  cases as <;> simp only [Heap.tryCreateNodeAs, Heap.createFirst, Heap.createLast, Heap.createPrev,
    Heap.createNext]
  · exact Kt.bindP (Kt.bindA fun _ _ => Kt.expectOk (K.createAndProcess B fun _ _ K _ => K.insertFirst))
      fun h _ K => Kt.pure K
  · exact Kt.bindP (Kt.bindA fun _ _ => Kt.expectOk (K.createAndProcess B fun _ _ K _ => K.insertLast))
      fun h _ K => Kt.pure K
  · exact Kt.bindA fun _ _ => K.createAndProcess B fun _ _ K _ => K.insert
  · exact Kt.bindA fun _ _ => K.createAndProcess B fun _ _ K _ => K.insert

theorem TK.createParent {d : α} (K : TK h) (B : MemBound h) :
    Kt Prod.fst (h.createInterruptingParent n d) := by
  unfold Heap.createInterruptingParent
  exact Kt.bindA fun t _ => Kt.expectOk (K.createAndProcess B fun _ _ K o => K.interruptParent o)

theorem TK.createChild {d : α} (K : TK h) (B : MemBound h) :
    Kt Prod.fst (h.createInterruptingChild n d) := by
  unfold Heap.createInterruptingChild
  exact Kt.bindA fun t _ => Kt.expectOk (K.createAndProcess B fun _ _ K _ => K.interruptChild)

/-! ### Calls -/

variable {w w' : World α}

theorem created_treeKept {k : Kind} {r : Res} (K : TK w.heap) (e : w.created k n = .ok (w', r)) :
    TK w'.heap := by
  simp only [World.created, bind, Except.bind, pure, Except.pure] at e
  split at e
  · cases e
  rename_i h1 e1
  cases e
  exact Kt.expectLock K.acqLock _ e1

theorem execAcquire_treeKept {g : Bool} {r : Res} (K : TK w.heap)
    (e : w.execAcquire g t = .ok (w', r)) : TK w'.heap := by
  unfold World.execAcquire at e
  split at e
  · cases e
  · cases e; exact K
  · cases e
    cases g <;> exact K.setGrants

/-- Every call keeps the invariant that each living tree has an owner. -/
theorem exec_treeKept {op : Op α} {r : Res} (B : MemBound w.heap) (K : TK w.heap)
    (e : w.exec op = .ok (w', r)) : TK w'.heap := by
  cases op with
  | newTree hot d =>
    exact created_treeKept (w := { w with heap := (w.heap.newTreeRoot d).1 }) (K.newTreeRoot B) e
  | clone k n =>
    simp only [World.exec, bind, Except.bind, pure, Except.pure] at e
    split at e
    · cases e
    rename_i e1; cases e
    exact K.cloneHandle _ e1
  | drop k n =>
    simp only [World.exec, bind, Except.bind, pure, Except.pure] at e
    split at e
    · cases e
    rename_i e1; cases e
    exact K.dropHandle _ e1
  | nav k q n =>
    simp only [World.exec, bind, Except.bind, pure, Except.pure] at e
    split at e
    · cases e
    split at e
    · cases e; exact K
    · split at e
      · cases e
      rename_i e1; cases e
      exact K.wrap _ e1
  | upgrade n =>
    simp only [World.exec, bind, Except.bind, pure, Except.pure] at e
    split at e
    · cases e; exact K
    · split at e
      · cases e
      rename_i e1; cases e
      exact K.wrap _ e1
  | plainOf k n =>
    simp only [World.exec, bind, Except.bind, pure, Except.pure] at e
    split at e
    · cases e
    rename_i e1; cases e
    exact K.cloneLink _ e1
  | bundle k n =>
    simp only [World.exec, bind, Except.bind, pure, Except.pure] at e
    split at e
    · cases e
    rename_i e1
    split at e
    · cases e; exact K.acqLock _ e1
    · split at e
      · cases e
      rename_i e2; cases e
      exact K.dropLink _ e2
  | bundleWith k n t =>
    simp only [World.exec, bind, Except.bind, pure, Except.pure] at e
    split at e
    · split at e
      · cases e
      rename_i e1; cases e
      exact Kt.expectLock K.acqLock _ e1
    · cases e
  | treeOf k n =>
    simp only [World.exec, bind, Except.bind, pure, Except.pure] at e
    split at e
    · cases e
    cases e
    exact K.acqTree
  | cloneTree t => cases e; exact K.acqTree
  | dropTree t =>
    simp only [World.exec, bind, Except.bind, pure, Except.pure] at e
    split at e
    · cases e
    rename_i e1; cases e
    exact K.relTree _ e1
  | treeRoot t =>
    simp only [World.exec, bind, Except.bind, pure, Except.pure] at e
    split at e
    · cases e
    split at e
    · cases e
    rename_i e1; cases e
    exact K.wrap _ e1
  | upgradeTree t =>
    simp only [World.exec] at e
    split at e <;> cases e
    · exact K.acqTree
    · exact K
  | acquire g t => exact execAcquire_treeKept K e
  | cloneTok g t =>
    simp only [World.exec] at e
    split at e
    · exact execAcquire_treeKept K e
    · cases e; cases g <;> exact K
  | dropTok g t =>
    simp only [World.exec, bind, Except.bind, pure, Except.pure] at e
    split at e
    · split at e
      · cases e
      cases e
      cases g <;> exact K.setGrants
    · cases e; cases g <;> exact K
  | extract g n =>
    simp only [World.exec, bind, Except.bind, pure, Except.pure] at e
    split at e
    · cases e
    split at e
    · cases e
    rename_i e1
    split at e
    · cases e
    · cases e; exact execAcquire_treeKept K e1
  | create a n d as =>
    simp only [World.exec, bind, Except.bind, pure, Except.pure] at e
    split at e
    · cases e
    split at e
    · cases e
    rename_i v e1
    have K1 := K.nodeCreate B _ e1
    split at e
    · cases e; exact K1
    · exact created_treeKept (w := { w with heap := v.1 }) K1 e
  | createParent a n d =>
    simp only [World.exec, bind, Except.bind, pure, Except.pure] at e
    split at e
    · cases e
    split at e
    · cases e
    rename_i v e1
    exact created_treeKept (w := { w with heap := v.1 }) (K.createParent B _ e1) e
  | createChild a n d =>
    simp only [World.exec, bind, Except.bind, pure, Except.pure] at e
    split at e
    · cases e
    split at e
    · cases e
    rename_i v e1
    exact created_treeKept (w := { w with heap := v.1 }) (K.createChild B _ e1) e
  | detach a n =>
    simp only [World.exec, bind, Except.bind, pure, Except.pure] at e
    split at e
    · cases e
    split at e
    · cases e
    rename_i h1 e1; cases e
    exact K.detachSubtree _ e1
  | replace a n =>
    simp only [World.exec, bind, Except.bind, pure, Except.pure] at e
    split at e
    · cases e
    split at e
    · cases e
    rename_i v e1
    have K1 := K.replace _ e1
    split at e <;> cases e <;> exact K1
  | move a n dest =>
    simp only [World.exec, bind, Except.bind, pure, Except.pure] at e
    split at e
    · cases e
    split at e
    · cases e
    rename_i v e1
    have K1 := K.detachInsert _ e1
    split at e <;> cases e <;> exact K1
  | write n d =>
    simp only [World.exec] at e
    split at e <;> cases e
    · exact K
    · exact K.of_eq rfl rfl rfl
  | borrowMut n b =>
    simp only [World.exec] at e
    split at e <;> cases e
    · exact K
    · exact K.of_eq rfl rfl rfl

/-- In every history each living tree has an owner. -/
theorem ReachAny.treeKept (R : ReachAny w) : TK w.heap := by
  induction R with
  | init => exact fun t ht => (by cases ht)
  | step R s ih =>
    exact exec_treeKept (fun n t rc l e => R.own.base.bound n (R.own.base.memb _ _ _ _ e).1) ih s.run

end Dendron
