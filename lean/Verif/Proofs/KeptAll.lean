import Verif.Proofs.Strict
import Verif.Proofs.SafeAll

/-! In every history, each living node has an owner: nothing is leaked one by one (only whole cycles of
owners, C44). -/

set_option autoImplicit false

namespace Dendron
variable {α β γ : Type} {h h' : Heap α} {n p x : NodeId} {t : TreeId} {E : List NodeId}

/-- If the computation returns, every living node outside of `E` has an owner. -/
def Kr (E : List NodeId) (π : β → Heap α) (r : Except Fault β) : Prop := ∀ b, r = .ok b → RefBut E (π b)
/-- The same for a computation that may return no memory. -/
def KrO (E : List NodeId) (r : Except Fault (Option (Heap α))) : Prop := ∀ b, r = .ok (some b) → RefBut E b

theorem Kr.err {π : β → Heap α} {e : Fault} : Kr E π (.error e) := fun _ h => by cases h
theorem KrO.err {e : Fault} : KrO (α := α) E (.error e) := fun _ h => by cases h
theorem KrO.none : KrO (α := α) E (.ok none) := fun _ h => by cases h
theorem KrO.some (K : RefBut E h) : KrO E (.ok (some h)) := fun _ h => by cases h; exact K
theorem Kr.ok {π : β → Heap α} {b : β} (K : RefBut E (π b)) : Kr E π (.ok b) := fun _ h => by cases h; exact K
theorem Kr.pure {π : β → Heap α} {b : β} (K : RefBut E (π b)) : Kr E π (Pure.pure b) := Kr.ok K
theorem Kr.bindA {π : γ → Heap α} {x : Except Fault β} {f : β → Except Fault γ}
    (k : ∀ b, x = .ok b → Kr E π (f b)) : Kr E π (x >>= f) := by
  cases x with
  | error e => exact Kr.err
  | ok b => exact k b rfl
theorem Kr.bindH {E' : List NodeId} {π : γ → Heap α} {x : Except Fault (Heap α)} {f : Heap α → Except Fault γ}
    (K : Kr E' id x) (k : ∀ h, RefBut E' h → Kr E π (f h)) : Kr E π (x >>= f) :=
  .bindA fun b e => k b (K b e)
theorem Kr.bindP {E' : List NodeId} {π : γ → Heap α} {x : Except Fault (Heap α × β)}
    {f : Heap α × β → Except Fault γ}
    (K : Kr E' Prod.fst x) (k : ∀ h b, RefBut E' h → Kr E π (f (h, b))) : Kr E π (x >>= f) :=
  .bindA fun b e => k b.1 b.2 (K b e)
theorem Kr.bindO {E' : List NodeId} {π : γ → Heap α} {x : Except Fault (Option (Heap α))}
    {f : Option (Heap α) → Except Fault γ}
    (K : KrO E' x) (k : ∀ h, RefBut E' h → Kr E π (f (some h))) (k0 : Kr E π (f none)) : Kr E π (x >>= f) := by
  refine .bindA fun b e => ?_
  cases b with
  | none => exact k0
  | some h => exact k h (K h e)
theorem Kr.weaken {E' : List NodeId} {π : β → Heap α} {r : Except Fault β} (K : Kr E π r)
    (hs : ∀ x ∈ E, x ∈ E') : Kr E' π r := fun b e => (K b e).weaken hs

/-! ### Freeing -/

/-- A node that is dead, pinned or referenced needs no exception. -/
theorem RefBut.tight (K : RefBut (x :: E) h) (hx : h.alive x = true → x ∈ E ∨ h.referenced x = true) :
    RefBut E h := by
  refine ⟨fun y hy => ?_, K.bound⟩
  rcases K.ref y hy with h1 | h1
  · rcases List.mem_cons.1 h1 with rfl | h2
    · exact hx hy
    · exact .inl h2
  · exact .inr h1

theorem RefBut.kill (K : RefBut (x :: E) h) :
    RefBut ((h.firstChild x).toList ++ ((h.next x).toList ++ E)) (h.kill x) := by
  have hal : ∀ y, (h.kill x).alive y = true → y ≠ x ∧ h.alive y = true := by
    intro y hy
    by_cases e : y = x
    · subst e; simp [Heap.alive, Heap.kill] at hy
    · refine ⟨e, ?_⟩
      simpa [Heap.alive, Heap.kill, upd_ne _ _ e] using hy
  refine ⟨fun y hy => ?_, fun y hy => K.bound y (hal y hy).2⟩
  obtain ⟨hyx, hya⟩ := hal y hy
  rcases K.ref y hya with h1 | h1
  · rcases List.mem_cons.1 h1 with h2 | h2
    · exact absurd h2 hyx
    · left; simp [h2]
  · rcases referenced_iff.1 h1 with ⟨t, rc, l, e⟩ | ⟨t, ht, e⟩ | ⟨m, hmn, hma, e⟩
    · exact .inr (referenced_iff.2 (.inl ⟨t, rc, l, by simp [Heap.kill, upd_ne _ _ hyx, e]⟩))
    · exact .inr (referenced_iff.2 (.inr (.inl ⟨t, ht, e⟩)))
    · by_cases em : m = x
      · subst em
        left
        rcases e with e | e <;> simp [e]
      · right
        refine referenced_iff.2 (.inr (.inr ⟨m, hmn, ?_, ?_⟩))
        · simpa [Heap.alive, Heap.kill, upd_ne _ _ em] using hma
        · simpa [Heap.kill, upd_ne _ _ em] using e

theorem RefBut.release {pins : List NodeId} : ∀ {f : Nat} {E : List NodeId} {x : NodeId} {h : Heap α},
    (∀ y ∈ pins, y ∈ E) → RefBut (x :: E) h → Kr E id (h.release f pins x)
  | 0, _, _, _, _, _ => Kr.err
  | f + 1, E, x, h, hp, K => by
    unfold Heap.release
    split
    · rename_i c
      refine Kr.ok (K.tight fun ha => ?_)
      simp only [ha, Bool.not_true, Bool.false_or, Bool.or_eq_true, List.contains_iff_mem] at c
      exact c.imp (hp x) id
    · simp only
      have step : ∀ {o : Option NodeId} {E' : List NodeId} {g : Heap α}, (∀ y ∈ pins, y ∈ E') →
          RefBut (o.toList ++ E') g →
          Kr E' id (match o with | some c => g.release f pins c | none => .ok g) := by
        intro o E' g hp' Kg
        cases o with
        | none => exact Kr.ok Kg
        | some c => exact RefBut.release hp' Kg
      split
      · exact Kr.err
      · rename_i e
        exact step hp (step (fun y hy => List.mem_append_right _ (hp y hy)) K.kill _ e)

theorem release_root : ∀ {f : Nat} {pins : List NodeId} {n : NodeId} {h h' : Heap α},
    h.release f pins n = .ok h' → h'.root = h.root
  | 0, _, _, _, _, e => by cases e
  | f + 1, pins, n, h, h', e => by
    unfold Heap.release at e
    split at e
    · cases e; rfl
    · simp only at e
      have step : ∀ {o : Option NodeId} {g g' : Heap α},
          (match o with | some c => g.release f pins c | none => Except.ok g) = .ok g' → g'.root = g.root := by
        intro o g g' e
        cases o with
        | none => cases e; rfl
        | some c => exact release_root e
      split at e
      · cases e
      · rename_i e1
        exact (step e).trans ((step e1).trans rfl)

theorem dropStep_root {k : Nat} {pins : List NodeId} (e : h.dropStep k pins n = .ok h') :
    h'.root = h.root := by
  unfold Heap.dropStep at e
  split at e
  · simp only [bind, Except.bind] at e
    split at e
    · cases e
    rename_i g1 e1
    split at e
    · cases e
    rename_i g2 e2
    refine (release_root e).trans ((release_root e2).trans ?_)
    split at e1
    · exact (release_root e1).trans rfl
    · cases e1; rfl
  · exact release_root e

theorem dropLoop_root {k : Nat} : ∀ {f : Nat} {pins : List NodeId} {ev : Option (DftEvent NodeId)}
    {h h' : Heap α}, h.dropLoop k f pins ev = .ok h' → h'.root = h.root
  | f, _, none, _, _, e => by cases f <;> (cases e; rfl)
  | 0, _, some _, _, _, e => by cases e
  | f + 1, pins, some ev, h, h', e => by
    unfold Heap.dropLoop at e
    simp only at e
    split at e
    · split at e
      · cases e
      · rename_i e1
        exact (dropLoop_root e).trans (release_root e1)
    · split at e
      · cases e
      · rename_i e1
        exact (dropLoop_root e).trans (dropStep_root e1)

/-! ### Stores -/

/-- A store to `next_sibling`: the old value is dropped afterwards. -/
theorem RefBut.storeNext {m : NodeId} {v : Option NodeId} (K : RefBut E h) :
    RefBut ((h.next m).toList ++ E) (h.setNext m v) :=
  (K.weaken fun _ hx => List.mem_append_right _ hx).setNext fun y hy => .inr (.inl (by simp [hy]))
theorem RefBut.storeFirst {m : NodeId} {v : Option NodeId} (K : RefBut E h) :
    RefBut ((h.firstChild m).toList ++ E) (h.setFirst m v) :=
  (K.weaken fun _ hx => List.mem_append_right _ hx).setFirst fun y hy => .inr (.inl (by simp [hy]))
theorem RefBut.storeRoot {v : Option NodeId} (K : RefBut E h) :
    RefBut ((h.root t).toList ++ E) (h.setRoot t v) :=
  (K.weaken fun _ hx => List.mem_append_right _ hx).setRoot fun y hy => .inr (.inl (by simp [hy]))

theorem RefBut.setGrants {v : Int} (K : RefBut E h) : RefBut E (h.setGrants t v) :=
  K.congr rfl rfl rfl rfl rfl rfl rfl
theorem RefBut.setTreeRc {v : Nat} (K : RefBut E h) : RefBut E (h.setTreeRc t v) :=
  K.congr rfl rfl rfl rfl rfl rfl rfl

theorem RefBut.setMem {m : NodeId} {v : Membership} (K : RefBut E h)
    (hv : m ∈ E ∨ ∃ t rc l, v = .strong t rc l) : RefBut E (h.setMem m v) := by
  refine ⟨fun y hy => ?_, K.bound⟩
  rcases K.ref y hy with h1 | h1
  · exact .inl h1
  · by_cases e : y = m
    · subst e
      rcases hv with hv | ⟨t, rc, l, rfl⟩
      · exact .inl hv
      · exact .inr (referenced_iff.2 (.inl ⟨t, rc, l, by simp [Heap.setMem]⟩))
    · right
      rcases referenced_iff.1 h1 with ⟨t, rc, l, e'⟩ | h2
      · exact referenced_iff.2 (.inl ⟨t, rc, l, by simp [Heap.setMem, upd_ne _ _ e, e']⟩)
      · exact referenced_iff.2 (.inr h2)
theorem RefBut.setStrong {m : NodeId} {rc l : Nat} (K : RefBut E h) : RefBut E (h.setMem m (.strong t rc l)) :=
  K.setMem (.inr ⟨t, rc, l, rfl⟩)

theorem RefBut.dropOptS {pins : List NodeId} {o : Option NodeId} (K : RefBut (o.toList ++ E) h)
    (hp : ∀ y ∈ pins, y ∈ E) : Kr E id (h.dropOpt pins o) := by
  cases o with
  | none => exact Kr.ok K
  | some x => exact RefBut.release hp K
theorem RefBut.dropLocalS {pins : List NodeId} (K : RefBut (x :: E) h)
    (hp : ∀ y ∈ pins, y ∈ E) : Kr E id (h.dropLocal pins x) := RefBut.release hp K
theorem RefBut.putNextS {pins : List NodeId} {m : NodeId} {v : Option NodeId} (K : RefBut E h)
    (hp : ∀ y ∈ pins, y ∈ E) : Kr E id (h.putNext pins m v) := K.storeNext.dropOptS hp
theorem RefBut.putFirstS {pins : List NodeId} {m : NodeId} {v : Option NodeId} (K : RefBut E h)
    (hp : ∀ y ∈ pins, y ∈ E) : Kr E id (h.putFirst pins m v) := K.storeFirst.dropOptS hp
theorem RefBut.putRootS {pins : List NodeId} (K : RefBut E h)
    (hp : ∀ y ∈ pins, y ∈ E) : Kr E id (h.putRoot pins t x) := K.storeRoot.dropOptS hp
theorem RefBut.connectS {pins : List NodeId} {a b : NodeId} (K : RefBut E h)
    (hp : ∀ y ∈ pins, y ∈ E) : Kr E id (h.connect pins a b) := K.setPrev.putNextS hp
theorem RefBut.numSubS {m : NodeId} {v : Nat} (K : RefBut E h) : Kr E id (h.numSub m v) :=
  fun _ e => K.numSub e

/-! ### Destruction of trees -/

theorem RefBut.dropStep {k : Nat} {pins : List NodeId} {v : NodeId} (K : RefBut (v :: E) h)
    (hp : ∀ y ∈ pins, y ∈ E) (hv : ∀ s, h.next v = some s → s ∈ E) :
    Kr E id (h.dropStep k pins v) := by
  unfold Heap.dropStep
  split
  · rename_i p _
    have K1 : RefBut (v :: E) (h.setNext v none) :=
      K.setNext fun y hy => .inr (.inl (List.mem_cons_of_mem _ (hv y hy)))
    have K2 := (K1.weaken (E' := p :: v :: E) (by simp +contextual)).storeFirst (m := p) (v := h.next v)
    have h3 : Kr (p :: v :: E) id (match h.firstChild p with
        | some c => ((h.setNext v none).setFirst p (h.next v)).release k (p :: v :: pins) c
        | none => .ok ((h.setNext v none).setFirst p (h.next v))) := by
      have : (h.setNext v none).firstChild p = h.firstChild p := rfl
      rw [this] at K2
      cases hf : h.firstChild p with
      | none => rw [hf] at K2; exact Kr.ok K2
      | some c =>
        rw [hf] at K2
        refine RefBut.release ?_ K2
        intro y hy
        simp only [List.mem_cons] at hy ⊢
        exact hy.imp id fun h => h.imp id (hp y)
    exact Kr.bindH h3 fun g K => Kr.bindH (RefBut.release (by
      intro y hy; simp only [List.mem_cons] at hy ⊢; exact hy.imp id (hp y)) K) fun g' K =>
        RefBut.release hp K
  · exact RefBut.release hp K

theorem RefBut.dropLoop {k : Nat} {pins : List NodeId} : ∀ {f : Nat} {ev : Option (DftEvent NodeId)}
    {h : Heap α}, (∀ y ∈ pins, y ∈ E) → RefBut ((ev.map DftEvent.value).toList ++ E) h →
      Kr E id (h.dropLoop k f pins ev)
  | f, none, _, _, K => by cases f <;> exact Kr.ok K
  | 0, some _, _, _, _ => Kr.err
  | f + 1, some ev, h, hp, K => by
    have hpp : ∀ y ∈ (match h.evNext ev with | some e => e.value :: pins | none => pins),
        y ∈ ((h.evNext ev).map DftEvent.value).toList ++ E := by
      cases h.evNext ev with
      | none => simpa using hp
      | some e =>
        intro y hy
        simp only [List.mem_cons] at hy
        simp only [Option.map_some, Option.toList_some, List.mem_append, List.mem_singleton]
        exact hy.imp id (hp y)
    have K' : RefBut (ev.value :: (((h.evNext ev).map DftEvent.value).toList ++ E)) h :=
      K.weaken fun y hy => by
        simp only [Option.map_some, Option.toList_some, List.mem_append, List.mem_singleton] at hy
        simp only [List.mem_cons, List.mem_append]
        exact hy.imp id .inr
    unfold Heap.dropLoop
    simp only
    split
    · split
      · exact Kr.err
      · rename_i v _ _ e
        exact RefBut.dropLoop hp (RefBut.release hpp K' _ e)
    · split
      · exact Kr.err
      · rename_i v _ _ e
        refine RefBut.dropLoop hp (K'.dropStep hpp ?_ _ e)
        intro s hs
        simp [Heap.evNext, Heap.nextLink, show h.next v = some s from hs, DftEvent.value]

theorem RefBut.dropTreeWith {k : Nat} {pins : List NodeId} (K : RefBut E h) (hp : ∀ y ∈ pins, y ∈ E) :
    Kr E id (h.dropTreeWith k pins t) := by
  unfold Heap.dropTreeWith
  split
  · exact Kr.ok K
  · rename_i r hr
    split
    · exact Kr.err
    · rename_i h1 e
      have K1 : RefBut E h1 := RefBut.dropLoop hp (K.weaken fun _ hy => List.mem_append_right _ hy) _ e
      have K2 := (K1.storeRoot (t := t) (v := none)).setGrants (t := t) (v := 0)
      rw [dropLoop_root e, hr] at K2
      exact RefBut.release hp K2

theorem RefBut.maybeDropTree {pins : List NodeId} (K : RefBut E h) (hp : ∀ y ∈ pins, y ∈ E) :
    Kr E id (h.maybeDropTree pins t) := by
  unfold Heap.maybeDropTree
  split
  · exact K.dropTreeWith hp
  · exact Kr.ok K

theorem RefBut.relTree {pins : List NodeId} (K : RefBut E h) (hp : ∀ y ∈ pins, y ∈ E) :
    Kr E id (h.relTree pins t) := K.setTreeRc.maybeDropTree hp
theorem RefBut.relTree0 (K : RefBut E h) : Kr E id (h.relTree [] t) := K.relTree (by simp)

/-! ### Memberships and handles -/

theorem RefBut.incRef (K : RefBut E h) (e : h.incRef n = some h') : RefBut E h' := by
  unfold Heap.incRef at e
  split at e
  · split at e
    · cases e; exact K.setStrong
    · cases e
  · cases e; exact K.setStrong

theorem RefBut.withNodeCore (K : RefBut E h) : Kr E id (h.withNodeCore n) := by
  unfold Heap.withNodeCore
  split
  · rename_i e; exact Kr.ok (K.incRef e)
  · exact Kr.err

theorem RefBut.cloneLink (K : RefBut E h) : Kr E id (h.cloneLink n) := by
  unfold Heap.cloneLink
  split
  · exact Kr.err
  · exact Kr.ok K.setStrong

theorem RefBut.decRef (K : RefBut (n :: E) h) : Kr (n :: E) id (h.decRef n) := by
  unfold Heap.decRef
  split
  · exact Kr.err
  · split
    · split
      · exact Kr.err
      · exact (K.setMem (.inl (by simp))).maybeDropTree (by simp)
    · exact Kr.ok K.setStrong

theorem RefBut.dropLink (K : RefBut (n :: E) h) : Kr E id (h.dropLink n) :=
  Kr.bindH K.decRef fun _ K => RefBut.release (by simp) K
theorem RefBut.dropLink' (K : RefBut E h) : Kr E id (h.dropLink n) :=
  (K.weaken fun _ hx => List.mem_cons_of_mem _ hx).dropLink

theorem RefBut.transferLock {u : TreeId} (K : RefBut E h) : KrO E (h.transferLock t u) := by
  unfold Heap.transferLock
  repeat' split
  all_goals first
    | exact KrO.err
    | exact KrO.none
    | exact KrO.some K.setGrants.setGrants
    | exact KrO.some K

theorem RefBut.setTreeCore {pins : List NodeId} (K : RefBut E h) (hp : ∀ y ∈ pins, y ∈ E) (hn : n ∈ E) :
    KrO E (h.setTreeCore pins n t) := by
  unfold Heap.setTreeCore
  split
  · exact KrO.some (K.setMem (.inl hn))
  · split
    · exact KrO.err
    · exact KrO.none
    · rename_i h1 e
      have K1 : RefBut E h1 := by
        split at e
        · exact K.transferLock _ e
        · cases e; exact K
      simp only
      split
      · exact KrO.err
      · rename_i e2
        exact KrO.some (K1.setStrong.maybeDropTree hp _ e2)

theorem RefBut.decLock (K : RefBut E h) : Kr E id (h.decLock n) := by
  unfold Heap.decLock
  repeat' (first | split | (simp only; split))
  all_goals first
    | exact Kr.err
    | exact Kr.ok K.setStrong.setGrants
    | exact Kr.ok K.setStrong

theorem RefBut.incLockNonzero (K : RefBut E h) : Kr E id (h.incLockNonzero n) := by
  unfold Heap.incLockNonzero
  repeat' split
  all_goals first | exact Kr.err | exact Kr.ok K.setStrong

theorem RefBut.acqLock {k : Kind} (K : RefBut E h) : KrO E (h.acqLock n k) := by
  cases k
  · exact KrO.some K
  · simp only [Heap.acqLock]
    unfold Heap.acquireEditGrant
    repeat' split
    all_goals first
      | exact KrO.err
      | exact KrO.none
      | exact KrO.some K.setGrants.setStrong
      | exact KrO.some K.setStrong
  · simp only [Heap.acqLock]
    unfold Heap.acquireEditProhibition
    repeat' split
    all_goals first
      | exact KrO.err
      | exact KrO.none
      | exact KrO.some K.setGrants.setStrong
      | exact KrO.some K.setStrong

theorem Kr.expectLock {r : Except Fault (Option (Heap α))} (K : KrO E r) : Kr E id (Heap.expectLock r) := by
  unfold Heap.expectLock
  split
  · exact Kr.err
  · exact Kr.err
  · exact Kr.ok (K _ rfl)

theorem RefBut.wrap {k : Kind} (K : RefBut E h) : Kr E id (h.wrap n k) :=
  Kr.bindH K.withNodeCore fun _ K => Kr.expectLock K.acqLock

theorem RefBut.cloneHandle {k : Kind} (K : RefBut E h) : Kr E id (h.cloneHandle n k) := by
  cases k
  · exact K.cloneLink
  · exact Kr.bindH K.incLockNonzero fun _ K => K.cloneLink
  · exact Kr.bindH K.incLockNonzero fun _ K => K.cloneLink

theorem RefBut.dropHandle {k : Kind} (K : RefBut E h) : Kr E id (h.dropHandle n k) := by
  cases k
  · exact K.dropLink'
  · exact Kr.bindH K.decLock fun _ K => K.dropLink'
  · exact Kr.bindH K.decLock fun _ K => K.dropLink'

/-! ### Edits -/

theorem RefBut.newByUnlink {held : List NodeId} (K : RefBut (n :: held) h) :
    Kr (n :: held) Prod.fst (h.newByUnlink held n) := by
  unfold Heap.newByUnlink
  split
  · exact Kr.ok K
  refine Kr.bindA fun prev _ => Kr.bindA fun prevC _ => ?_
  simp only
  have K1 : RefBut (prev.toList ++ ((h.nextLink n).toList ++ (prevC :: ((h.parentLink n).toList ++ n :: held)))) h :=
    K.weaken fun y hy => by
      refine List.mem_append_right _ (List.mem_append_right _ (List.mem_cons_of_mem _ (List.mem_append_right _ hy)))
  refine Kr.bindH (E' := prev.toList ++ ((h.nextLink n).toList ++ (prevC :: ((h.parentLink n).toList ++ n :: held)))) ?_
    fun h1 K => Kr.bindH (E' := (h.nextLink n).toList ++ (prevC :: ((h.parentLink n).toList ++ n :: held))) ?_
    fun h2 K => Kr.bindH (E' := prevC :: ((h.parentLink n).toList ++ n :: held)) ?_
    fun h3 K => Kr.bindH (K.setParent.setPrev.putNextS fun _ hy => hy) fun h K =>
      Kr.bindH (K.dropLocalS fun _ hy => hy) fun h K =>
      Kr.bindH (K.dropOptS fun _ hy => hy) fun h K => Kr.pure K
  · split
    · refine Kr.bindA fun first _ => Kr.bindH
        (E' := prev.toList ++ ((h.nextLink n).toList ++ (prevC :: ((h.parentLink n).toList ++ n :: held)))) ?_ fun h K => ?_
      · split
        · exact K1.putFirstS fun _ hy => by simpa [*] using hy
        · exact Kr.ok K1
      · split
        · exact Kr.err
        · exact K.numSubS
    · exact Kr.ok K1
  · cases prev with
    | none => exact Kr.ok K
    | some s => exact Kr.bindH (K.putNextS fun _ hy => hy) fun h K => K.dropLocalS fun _ hy => hy
  · cases hx : h.nextLink n with
    | none => rw [hx] at K; exact Kr.ok K
    | some s => rw [hx] at K; exact (RefBut.setPrev K).dropLocalS fun _ hy => hy

theorem RefBut.setMembLoop {start : NodeId} (hst : start ∈ E) : ∀ {f : Nat} {ev : Option (DftEvent NodeId)}
    {h : Heap α}, RefBut ((ev.map DftEvent.value).toList ++ E) h → KrO E (h.setMembLoop f start t ev)
  | f, none, _, K => by cases f <;> exact KrO.some K
  | 0, some _, _, _ => KrO.err
  | f + 1, some ev, h, K => by
    unfold Heap.setMembLoop
    split
    · rename_i e
      subst e
      refine KrO.some (K.weaken ?_)
      intro y hy
      simp only [Option.map_some, DftEvent.value, Option.toList_some, List.mem_append, List.mem_singleton] at hy
      exact hy.elim (fun e => e ▸ hst) id
    have hpp : ∀ y ∈ start :: (match h.evNext ev with | some e => [e.value] | none => []),
        y ∈ ((h.evNext ev).map DftEvent.value).toList ++ E := by
      intro y hy
      rcases List.mem_cons.1 hy with rfl | hy
      · exact List.mem_append_right _ hst
      · cases hx : h.evNext ev with
        | none => simp [hx] at hy
        | some e => simp only [hx, List.mem_singleton] at hy; simp [hy]
    have K' : RefBut (ev.value :: (((h.evNext ev).map DftEvent.value).toList ++ E)) h :=
      K.weaken fun y hy => by
        simp only [Option.map_some, Option.toList_some, List.mem_append, List.mem_singleton] at hy
        simp only [List.mem_cons, List.mem_append]
        exact hy.imp id .inr
    simp only
    cases ev with
    | opn m =>
      simp only
      split
      · exact KrO.err
      · exact KrO.none
      · rename_i e
        split
        · exact KrO.err
        · rename_i e2
          refine RefBut.setMembLoop hst (RefBut.release hpp (K'.setTreeCore ?_ (by simp [DftEvent.value]) _ e) _ e2)
          intro y hy
          rcases List.mem_cons.1 hy with rfl | hy
          · simp [DftEvent.value]
          · exact List.mem_cons_of_mem _ (hpp y hy)
    | cls m =>
      simp only
      split
      · exact KrO.err
      · rename_i e2
        exact RefBut.setMembLoop hst (RefBut.release hpp K' _ e2)

theorem RefBut.setMemberships (K : RefBut E h) (hn : n ∈ E) : KrO E (h.setMemberships n t) :=
  RefBut.setMembLoop hn (K.weaken fun _ hy => List.mem_append_right _ hy)

theorem RefBut.allocTree (K : RefBut E h) : RefBut E (h.allocTree n).1 := by
  refine ⟨fun y hy => ?_, K.bound⟩
  refine (K.ref y hy).imp id fun e => ?_
  rcases referenced_iff.1 e with h1 | ⟨u, hu, e'⟩ | h1
  · exact referenced_iff.2 (.inl h1)
  · refine referenced_iff.2 (.inr (.inl ⟨u, Nat.lt_succ_of_lt hu, ?_⟩))
    simp [Heap.allocTree, upd_ne _ _ (Nat.ne_of_lt hu), e']
  · exact referenced_iff.2 (.inr (.inr h1))

theorem RefBut.createNewTree (K : RefBut E h) (hn : n ∈ E) : Kr E id (h.createNewTree n) := by
  unfold Heap.createNewTree
  simp only
  split
  · exact Kr.err
  · exact Kr.err
  · rename_i e
    exact RefBut.relTree0 (K.allocTree.setMemberships hn _ e)

theorem RefBut.insertFirst {held : List NodeId} {b : Bool} (K : RefBut (n :: p :: held) h) :
    Kr (n :: p :: held) Prod.fst (h.insertFirst held n b p) := by
  unfold Heap.insertFirst
  refine Kr.bindA fun c _ => ?_
  split
  · exact Kr.pure K
  refine Kr.bindA fun fl _ => Kr.bindH (E' := n :: p :: held) ?_ fun h K =>
    Kr.bindH (K.setParent.putFirstS fun _ hy => hy) fun h K => Kr.pure K.numAdd
  split
  · rename_i l _
    exact Kr.bindH ((K.weaken (E' := l :: n :: p :: held) fun _ hy => List.mem_cons_of_mem _ hy).setPrev.connectS
      fun _ hy => hy) fun h K => K.dropLocalS fun _ hy => hy
  · exact Kr.ok K.setPrev

theorem RefBut.insertLast {held : List NodeId} {b : Bool} (K : RefBut (n :: p :: held) h) :
    Kr (n :: p :: held) Prod.fst (h.insertLast held n b p) := by
  unfold Heap.insertLast
  refine Kr.bindA fun c _ => ?_
  split
  · exact Kr.pure K
  refine Kr.bindA fun fl _ => Kr.bindH (E' := n :: p :: held) ?_ fun h K => Kr.pure K.setParent.numAdd
  split
  · rename_i f l _
    exact Kr.bindH ((K.weaken (E' := l :: f :: n :: p :: held) fun _ hy =>
      List.mem_cons_of_mem _ (List.mem_cons_of_mem _ hy)).setPrev.connectS
      fun _ hy => hy) fun h K => Kr.bindH (K.dropLocalS fun _ hy => hy) fun h K => K.dropLocalS fun _ hy => hy
  · exact K.setPrev.putFirstS fun _ hy => hy

theorem RefBut.insertBetween {held : List NodeId} {a b : NodeId} (K : RefBut E h)
    (hs : ∀ y ∈ n :: p :: a :: b :: held, y ∈ E) : Kr E id (h.insertBetween held n p a b) := by
  unfold Heap.insertBetween
  refine Kr.bindA fun _ hc => ?_
  have hab : h.next a = some b := by
    unfold Heap.betweenChecks at hc
    split at hc
    · cases hc
    split at hc
    · cases hc
    split at hc
    · cases hc
    · rename_i e
      simpa [Heap.nextLink] using e
  have K1 : RefBut E (h.setParent n (some p)) := K.setParent
  refine Kr.bindH (RefBut.putNextS (K1.setNext fun y hy => .inr (.inl ?_)) hs) fun h K =>
    Kr.pure K.setPrev.setPrev.numAdd
  rw [show (h.setParent n (some p)).next a = h.next a from rfl, hab] at hy
  cases hy
  exact hs _ (by simp)

theorem RefBut.insert {held : List NodeId} {b : Bool} {dest : InsertAs NodeId}
    (K : RefBut (n :: dest.anchor :: held) h) :
    Kr (n :: dest.anchor :: held) Prod.fst (h.insert held n b dest) := by
  cases dest with
  | firstChildOf q => exact K.insertFirst
  | lastChildOf q => exact K.insertLast
  | previousSiblingOf a =>
    simp only [Heap.insert]
    split
    · exact Kr.ok K
    rename_i p _
    refine Kr.bindA fun s _ => ?_
    split
    · rename_i s _
      have K1 : RefBut (s :: p :: n :: a :: held) h := K.weaken (by simp +contextual [InsertAs.anchor])
      exact Kr.bindH (K1.insertBetween (by simp +contextual)) fun h K =>
        Kr.bindH (E' := p :: n :: a :: held) (K.dropLocalS (by simp +contextual)) fun h K =>
          Kr.bindH (E' := n :: a :: held) (K.dropLocalS (by simp +contextual)) fun h K => Kr.pure K
    · have K1 : RefBut (n :: p :: a :: held) h := K.weaken (by simp +contextual [InsertAs.anchor])
      exact Kr.bindP K1.insertFirst fun h r K => Kr.bindH (E' := n :: a :: held)
        (RefBut.dropLocalS (K.weaken (by simp +contextual)) (by simp +contextual)) fun h K => Kr.pure K
  | nextSiblingOf a =>
    simp only [Heap.insert]
    split
    · exact Kr.ok K
    rename_i p _
    split
    · rename_i s _
      have K1 : RefBut (s :: p :: n :: a :: held) h := K.weaken (by simp +contextual [InsertAs.anchor])
      exact Kr.bindH (K1.insertBetween (by simp +contextual)) fun h K =>
        Kr.bindH (E' := p :: n :: a :: held) (K.dropLocalS (by simp +contextual)) fun h K =>
          Kr.bindH (E' := n :: a :: held) (K.dropLocalS (by simp +contextual)) fun h K => Kr.pure K
    · have K1 : RefBut (n :: p :: a :: held) h := K.weaken (by simp +contextual [InsertAs.anchor])
      exact Kr.bindP K1.insertLast fun h r K => Kr.bindH (E' := n :: a :: held)
        (RefBut.dropLocalS (K.weaken (by simp +contextual)) (by simp +contextual)) fun h K => Kr.pure K

theorem RefBut.detachSubtree (K : RefBut [n] h) : Kr [n] id (h.detachSubtree n) := by
  unfold Heap.detachSubtree
  split
  · exact Kr.ok K
  · exact Kr.bindP K.newByUnlink fun h _ K => K.createNewTree (by simp)

theorem RefBut.moveSame {held : List NodeId} {dest : InsertAs NodeId}
    (K : RefBut (n :: dest.anchor :: held) h) :
    Kr (n :: dest.anchor :: held) Prod.fst (h.moveSame held n dest) := by
  unfold Heap.moveSame
  split
  · exact Kr.ok K
  · exact Kr.bindP K.newByUnlink fun h _ K => K.insert

theorem RefBut.moveOther {dest : InsertAs NodeId} (K : RefBut [n, dest.anchor] h) :
    Kr [n, dest.anchor] Prod.fst (h.moveOther n dest t) := by
  unfold Heap.moveOther
  refine Kr.bindP K.newByUnlink fun h _ K => ?_
  exact Kr.bindO (K.setMemberships (by simp)) (fun h K => K.insert) Kr.err

theorem RefBut.detachInsert {dest : InsertAs NodeId} (K : RefBut [n, dest.anchor] h) :
    Kr [n, dest.anchor] Prod.fst (h.detachInsert n dest) := by
  unfold Heap.detachInsert
  split
  · exact K.moveSame
  · exact Kr.bindA fun t _ => Kr.bindP K.acqTree.moveOther fun h r K =>
      Kr.bindH K.relTree0 fun h K => Kr.pure K

theorem Kr.expectOk {r : Except Fault (Heap α × Except HierarchyError β)} {msg : String}
    (K : Kr E Prod.fst r) : Kr E Prod.fst (Heap.expectOk r msg) := by
  unfold Heap.expectOk
  split
  · exact Kr.err
  · exact Kr.ok (K _ rfl)
  · exact Kr.err

theorem RefBut.reparentLoop {held : List NodeId} : ∀ {f : Nat} {c : Option NodeId} {q : NodeId} {h : Heap α},
    (∀ y ∈ q :: held, y ∈ E) → RefBut (c.toList ++ E) h → Kr E id (h.reparentLoop held f c q)
  | f, none, _, _, _, K => by cases f <;> exact Kr.ok K
  | 0, some _, _, _, _, _ => Kr.err
  | f + 1, some c, q, h, hs, K => by
    unfold Heap.reparentLoop
    refine Kr.bindH (E' := (h.nextLink c).toList ++ E) (RefBut.dropLocalS (RefBut.setParent (K.weaken ?_)) ?_)
      fun h K => RefBut.reparentLoop hs K
    · intro y hy
      simp only [Option.toList_some, List.mem_append, List.mem_singleton] at hy
      simp only [List.mem_cons, List.mem_append]
      exact hy.imp id .inr
    · intro y hy
      rcases List.mem_append.1 hy with hy | hy
      · exact List.mem_append_left _ hy
      · exact List.mem_append_right _ (hs y hy)

theorem RefBut.interruptParent {m : NodeId} (K : RefBut [m, n] h) :
    Kr [m, n] Prod.fst (h.interruptParent n t m) := by
  unfold Heap.interruptParent
  split
  · rename_i p _
    refine Kr.bindH (E' := [n, m, p]) ?_ fun h K =>
      Kr.bindP (Kr.expectOk (RefBut.moveSame (n := n) (dest := .lastChildOf m) K)) fun h _ K =>
      Kr.bindH (E' := [m, n]) (RefBut.dropLocalS (K.weaken (by simp +contextual [InsertAs.anchor])) (by simp +contextual))
        fun h K => Kr.pure K
    split
    · rename_i s _
      have K1 : RefBut [s, n, m, p] h := K.weaken (by simp +contextual)
      exact Kr.bindH (K1.insertBetween (by simp +contextual)) fun h K => K.dropLocalS (by simp +contextual)
    · have K1 : RefBut [m, p, n] h := K.weaken (by simp +contextual)
      exact Kr.bindP (Kr.expectOk K1.insertLast) fun h _ K => Kr.pure (RefBut.weaken K (by simp +contextual))
  · exact Kr.bindH (K.putRootS (by simp +contextual)) fun h K =>
      Kr.bindH (K.setPrev.putFirstS (by simp +contextual)) fun h K => Kr.pure K.setParent.numAdd

theorem RefBut.interruptChild {m : NodeId} (K : RefBut [m, n] h) :
    Kr [m, n] Prod.fst (h.interruptChild n m) := by
  unfold Heap.interruptChild
  simp only
  have K1 : RefBut ((h.firstChildLink n).toList ++ [m, n]) (h.setFirst n (some m)) := K.storeFirst
  refine Kr.bindH (K1.setParent.putFirstS (by simp +contextual [or_comm])) fun h K =>
    Kr.bindH (E' := [m, n]) (RefBut.reparentLoop (by simp +contextual) K) fun h K => Kr.pure K.setNum.setNum

/-- A store of a link that was owned by a local variable. -/
theorem RefBut.gainNext {a b : NodeId} (K : RefBut (b :: E) h) (ha : h.alive a = true) :
    RefBut ((h.next a).toList ++ E) (h.setNext a (some b)) := by
  have K1 : RefBut (b :: ((h.next a).toList ++ E)) (h.setNext a (some b)) :=
    K.storeNext.weaken fun y hy => by
      simp only [List.mem_append, List.mem_cons] at hy ⊢
      grind
  exact K1.tight fun _ => .inr (ref_next (m := a) (K.bound a ha) ha (by simp [Heap.setNext]))
theorem RefBut.gainFirst {a b : NodeId} (K : RefBut (b :: E) h) (ha : h.alive a = true) :
    RefBut ((h.firstChild a).toList ++ E) (h.setFirst a (some b)) := by
  have K1 : RefBut (b :: ((h.firstChild a).toList ++ E)) (h.setFirst a (some b)) :=
    K.storeFirst.weaken fun y hy => by
      simp only [List.mem_append, List.mem_cons] at hy ⊢
      grind
  exact K1.tight fun _ => .inr (ref_first (m := a) (K.bound a ha) ha (by simp [Heap.setFirst]))
theorem RefBut.connectG {pins : List NodeId} {a b : NodeId} (K : RefBut (b :: E) h) (ha : h.alive a = true)
    (hp : ∀ y ∈ pins, y ∈ E) : Kr E id (h.connect pins a b) :=
  (K.setPrev.gainNext (a := a) ha).dropOptS hp
theorem RefBut.putFirstG {pins : List NodeId} {a b : NodeId} (K : RefBut (b :: E) h) (ha : h.alive a = true)
    (hp : ∀ y ∈ pins, y ∈ E) : Kr E id (h.putFirst pins a (some b)) :=
  (K.gainFirst ha).dropOptS hp

theorem dropOpt_keeps {pins : List NodeId} {o : Option NodeId} (hx : x ∈ pins)
    (e : h.dropOpt pins o = .ok h') (ha : h.alive x = true) : h'.alive x = true := by
  cases o with
  | none => cases e; exact ha
  | some c => exact release_keeps hx e ha
theorem connect_keeps {pins : List NodeId} {a b : NodeId} (hx : x ∈ pins)
    (e : h.connect pins a b = .ok h') (ha : h.alive x = true) : h'.alive x = true :=
  dropOpt_keeps (h := (h.setPrev b (some a)).setNext a (some b)) hx e ha
theorem reparentLoop_keeps {held : List NodeId} : ∀ {f : Nat} {c : Option NodeId} {q : NodeId} {h h' : Heap α},
    x ∈ q :: held → h.reparentLoop held f c q = .ok h' → h.alive x = true → h'.alive x = true
  | f, none, _, _, _, _, e, ha => by cases f <;> (cases e; exact ha)
  | 0, some _, _, _, _, _, e, _ => by cases e
  | f + 1, some c, q, h, h', hx, e, ha => by
    unfold Heap.reparentLoop at e
    simp only [bind, Except.bind] at e
    split at e
    · cases e
    rename_i h1 e1
    exact reparentLoop_keeps hx e (release_keeps (List.mem_append_right _ hx) e1 ha)

theorem prevCycLink_live {c : NodeId} (e : h.prevCycLink n = .ok c) : h.alive c = true := by
  unfold Heap.prevCycLink at e
  split at e
  · rename_i m hm
    cases e
    simp only [Heap.upgrade, Option.filter_eq_some_iff] at hm
    exact hm.2
  · cases e
theorem prevLink_live {c : NodeId} (e : h.prevLink n = .ok (some c)) : h.alive c = true := by
  unfold Heap.prevLink at e
  cases hc : h.prevCycLink n with
  | error f => simp [hc, bind, Except.bind] at e
  | ok d =>
    simp only [hc, bind, Except.bind] at e
    split at e <;> cases e
    exact prevCycLink_live hc
theorem parentLink_live {c : NodeId} (e : h.parentLink n = some c) : h.alive c = true := by
  simp only [Heap.parentLink, Heap.upgrade, Option.filter_eq_some_iff] at e
  exact e.2

theorem RefBut.replaceRelinkSome {held : List NodeId} {f : NodeId} {a b : Option NodeId}
    (K : RefBut (a.toList ++ (b.toList ++ f :: p :: held)) h) (hpa : h.alive p = true)
    (haa : ∀ x, a = some x → h.alive x = true) :
    Kr (p :: held) id (h.replaceRelinkSome held p f a b) := by
  unfold Heap.replaceRelinkSome
  refine Kr.bindA fun last hl => Kr.bindH (E' := last :: p :: held) ?_ fun h K => K.dropLocalS fun _ hy => hy
  have hla := prevCycLink_live hl
  cases a with
  | some a =>
    have ha := haa a rfl
    cases b with
    | some b =>
      have K1 : RefBut (f :: b :: a :: last :: p :: held) h := K.weaken (by simp +contextual)
      refine Kr.bindA fun h1 e1 => ?_
      have K2 : RefBut (b :: a :: last :: p :: held) h1 := K1.connectG ha (by simp +contextual) _ e1
      have hl1 : h1.alive last = true := connect_keeps (by simp) e1 hla
      exact Kr.bindH (K2.connectG hl1 fun _ hy => hy) fun h K => K.dropLocalS fun _ hy => hy
    | none =>
      have K1 : RefBut (f :: a :: last :: p :: held) h := K.weaken (by simp +contextual)
      refine Kr.bindH (K1.connectG ha fun _ hy => hy) fun h K => ?_
      split
      · exact Kr.err
      · rename_i c _
        have K2 : RefBut (c :: a :: last :: p :: held) h := K.weaken fun _ hy => List.mem_cons_of_mem _ hy
        exact Kr.bindH (K2.setPrev.dropLocalS fun _ hy => hy) fun h K => K.dropLocalS fun _ hy => hy
  | none =>
    cases b with
    | some b =>
      have K1 : RefBut (b :: f :: last :: p :: held) h := K.weaken (by simp +contextual)
      refine Kr.bindA fun h1 e1 => ?_
      have K2 : RefBut (f :: last :: p :: held) h1 := K1.connectG hla (fun _ hy => hy) _ e1
      have hp1 : h1.alive p = true := connect_keeps (by simp) e1 hpa
      split
      · exact Kr.err
      · exact K2.setPrev.putFirstG hp1 fun _ hy => hy
    | none =>
      have K1 : RefBut (f :: last :: p :: held) h := K.weaken (by simp +contextual)
      exact K1.putFirstG hpa fun _ hy => hy

theorem RefBut.replaceRelinkNone {held : List NodeId} {a b : Option NodeId}
    (K : RefBut (a.toList ++ (b.toList ++ p :: held)) h) (hpa : h.alive p = true)
    (haa : ∀ x, a = some x → h.alive x = true) :
    Kr (p :: held) id (h.replaceRelinkNone held p a b) := by
  unfold Heap.replaceRelinkNone
  cases a with
  | some a =>
    have ha := haa a rfl
    cases b with
    | some b =>
      have K1 : RefBut (b :: a :: p :: held) h := K.weaken (by simp +contextual)
      exact Kr.bindH (K1.connectG ha fun _ hy => hy) fun h K => K.dropLocalS fun _ hy => hy
    | none =>
      exact Kr.bindH (E' := a :: p :: held) (K.putNextS fun _ hy => hy) fun h K => K.dropLocalS fun _ hy => hy
  | none =>
    cases b with
    | some b =>
      simp only
      split
      · exact Kr.err
      · exact RefBut.putFirstG (E := p :: held) (RefBut.setPrev K) hpa fun _ hy => hy
    | none => exact K.putFirstS fun _ hy => hy

theorem RefBut.replaceNonRoot {f : Option NodeId} (K : RefBut [n] h) (hpa : h.alive p = true) :
    Kr [n] id (h.replaceNonRoot n p f) := by
  unfold Heap.replaceNonRoot
  refine Kr.bindA fun h1 e1 => ?_
  have K1 : RefBut (f.toList ++ [p, n]) h1 := by
    refine RefBut.reparentLoop (E := f.toList ++ [p, n]) ?_ (K.weaken ?_) _ e1
    · intro y hy
      simp only [List.mem_cons, List.mem_append, List.not_mem_nil, or_false] at hy ⊢
      grind
    · intro y hy
      simp only [List.mem_cons, List.mem_append, List.not_mem_nil, or_false] at hy ⊢
      grind
  have hp1 : h1.alive p = true := reparentLoop_keeps (by simp) e1 hpa
  refine Kr.bindA fun prev e2 => Kr.bindH (E' := [p, n]) ?_ fun h K => ?_
  · have hpl : ∀ x, prev = some x → h1.alive x = true := fun x hx => prevLink_live (hx ▸ e2)
    cases f with
    | some f =>
      refine RefBut.replaceRelinkSome (K1.weaken ?_) hp1 hpl
      intro y hy
      simp only [Option.toList_some, List.mem_cons, List.mem_append, List.not_mem_nil, or_false] at hy ⊢
      grind
    | none =>
      refine RefBut.replaceRelinkNone (K1.weaken ?_) hp1 hpl
      intro y hy
      simp only [Option.toList_none, List.mem_cons, List.mem_append, List.not_mem_nil, or_false] at hy ⊢
      grind
  · split
    · exact Kr.err
    · exact Kr.bindH K.numSubS fun h K => K.numAdd.dropLocalS fun _ hy => hy

theorem RefBut.replaceTail (K : RefBut [n] h) : Kr [n] id (h.replaceTail n) := by
  unfold Heap.replaceTail
  refine Kr.bindH (K.setParent.putFirstS fun _ hy => hy) fun h K =>
    Kr.bindH (K.setPrev.putNextS fun _ hy => hy) fun h K => ?_
  simp only
  split
  · exact Kr.err
  · exact Kr.err
  · rename_i e
    exact RefBut.relTree0 (K.setNum.allocTree.setMemberships (by simp) _ e)

theorem RefBut.replaceWithChildren (K : RefBut [n] h) : Kr [n] Prod.fst (h.replaceWithChildren n) := by
  unfold Heap.replaceWithChildren
  refine Kr.bindA fun t _ => ?_
  have K := K.acqTree (t := t)
  simp only
  split
  · rename_i p hp
    exact Kr.bindH (K.replaceNonRoot (parentLink_live hp)) fun h K => Kr.bindH K.replaceTail fun h K =>
      Kr.bindH K.relTree0 fun h K => Kr.pure K
  · split
    · exact Kr.bindH K.relTree0 fun h K => Kr.pure K
    · split
      · split
        · exact Kr.err
        · exact Kr.bindH (K.setParent.putRootS fun _ hy => hy) fun h K => Kr.bindH K.replaceTail fun h K =>
            Kr.bindH K.relTree0 fun h K => Kr.pure K
      · exact Kr.bindH K.relTree0 fun h K => Kr.pure K

/-! ### Creations -/

theorem RefBut.createAndProcess {d : α}
    {process : Heap α → NodeId → Except Fault (Heap α × Except HierarchyError Unit)} (K : RefBut [] h)
    (hp : ∀ h m, RefBut [m, n] h → Kr [m, n] Prod.fst (process h m)) :
    ∀ h' r, h.createAndProcess d t process = .ok (h', r) → (∀ m, r = .ok m → RefBut [m, n] h') ∧
      ∀ e, r = .error e → RefBut [n] h' := by
  intro h' r e
  simp only [Heap.createAndProcess, bind, Except.bind, pure, Except.pure] at e
  split at e
  · cases e
  rename_i v hv
  obtain ⟨h1, m⟩ := v
  have O := newOrphan_in K hv
  simp only at e
  split at e
  · cases e
  rename_i v2 hv2
  obtain ⟨h2, r2⟩ := v2
  have K2 : RefBut [m, n] h2 := hp h1 m (O.ref.weaken (by simp)) _ hv2
  simp only at e
  split at e
  · cases e
    exact ⟨fun m h => by cases h; exact K2, fun e h => by cases h⟩
  · split at e
    · cases e
    · rename_i h3 e3
      cases e
      exact ⟨fun m h => (by cases h), fun _ _ => K2.dropLink _ e3⟩

theorem RefBut.expectCreate {d : α} {m : NodeId} {msg : String}
    {process : Heap α → NodeId → Except Fault (Heap α × Except HierarchyError Unit)} (K : RefBut [] h)
    (hp : ∀ h m, RefBut [m, n] h → Kr [m, n] Prod.fst (process h m))
    (e : Heap.expectOk (h.createAndProcess d t process) msg = .ok (h', m)) : RefBut [m, n] h' := by
  unfold Heap.expectOk at e
  split at e
  · cases e
  · rename_i e2
    cases e
    exact (K.createAndProcess hp _ _ e2).1 _ rfl
  · cases e

theorem RefBut.nodeCreate {d : α} {as : AdoptAs} {r : Except HierarchyError NodeId} (K : RefBut [] h)
    (e : h.nodeCreate n d as = .ok (h', r)) :
    (∀ m, r = .ok m → RefBut [m, n] h') ∧ ∀ e, r = .error e → RefBut [n] h' := by
  simp only [Heap.nodeCreate, bind, Except.bind] at e
  split at e
  · cases e
  cases as <;> simp only [Heap.tryCreateNodeAs, Heap.createFirst, Heap.createLast, Heap.createPrev,
    Heap.createNext, bind, Except.bind, pure, Except.pure] at e
  · split at e
    · cases e
    rename_i v hv
    split at hv
    · cases hv
    cases e
    exact ⟨fun m e => by cases e; exact K.expectCreate (fun _ _ K => K.insertFirst) hv, fun e h => by cases h⟩
  · split at e
    · cases e
    rename_i v hv
    split at hv
    · cases hv
    cases e
    exact ⟨fun m e => by cases e; exact K.expectCreate (fun _ _ K => K.insertLast) hv, fun e h => by cases h⟩
  · split at e
    · cases e
    exact K.createAndProcess (fun _ m K => RefBut.insert (dest := .previousSiblingOf n) K) _ _ e
  · split at e
    · cases e
    exact K.createAndProcess (fun _ m K => RefBut.insert (dest := .nextSiblingOf n) K) _ _ e

theorem RefBut.createParent {d : α} {m : NodeId} (K : RefBut [] h)
    (e : h.createInterruptingParent n d = .ok (h', m)) : RefBut [m, n] h' := by
  simp only [Heap.createInterruptingParent, bind, Except.bind] at e
  split at e
  · cases e
  exact K.expectCreate (fun _ m K => K.interruptParent) e

theorem RefBut.createChild {d : α} {m : NodeId} (K : RefBut [] h)
    (e : h.createInterruptingChild n d = .ok (h', m)) : RefBut [m, n] h' := by
  simp only [Heap.createInterruptingChild, bind, Except.bind] at e
  split at e
  · cases e
  exact K.expectCreate (fun _ m K => K.interruptChild) e

theorem RefBut.newTreeRoot {d : α} (K : RefBut [] h) : RefBut [] (h.newTreeRoot d).1 := by
  have hne : ∀ {y}, (h.newTreeRoot d).1.alive y = true → y ≠ h.nNode → h.alive y = true := by
    intro y hy e
    simpa [Heap.newTreeRoot, Heap.allocNode, Heap.allocTree, Heap.setTreeRc, Heap.setMem, Heap.alive,
      upd_ne _ _ e] using hy
  refine ⟨fun y hy => .inr ?_, fun y hy => ?_⟩
  · by_cases e : y = h.nNode
    · subst e
      refine referenced_iff.2 (.inl ⟨h.nTree, 1, 0, ?_⟩)
      simp [Heap.newTreeRoot, Heap.allocNode, Heap.allocTree, Heap.setTreeRc, Heap.setMem]
    · rcases K.ref y (hne hy e) with h1 | h1
      · simp at h1
      · rcases referenced_iff.1 h1 with ⟨u, rc, l, e'⟩ | ⟨u, hu, e'⟩ | ⟨m, hm, hma, e'⟩
        · refine referenced_iff.2 (.inl ⟨u, rc, l, ?_⟩)
          simp [Heap.newTreeRoot, Heap.allocNode, Heap.allocTree, Heap.setTreeRc, Heap.setMem,
            upd_ne _ _ e, e']
        · refine referenced_iff.2 (.inr (.inl ⟨u, Nat.lt_succ_of_lt hu, ?_⟩))
          simp [Heap.newTreeRoot, Heap.allocNode, Heap.allocTree, Heap.setTreeRc, Heap.setMem,
            upd_ne _ _ (Nat.ne_of_lt hu), e']
        · refine referenced_iff.2 (.inr (.inr ⟨m, Nat.lt_succ_of_lt hm, ?_, ?_⟩))
          · simpa [Heap.newTreeRoot, Heap.allocNode, Heap.allocTree, Heap.setTreeRc, Heap.setMem, Heap.alive,
              upd_ne _ _ (Nat.ne_of_lt hm)] using hma
          · simpa [Heap.newTreeRoot, Heap.allocNode, Heap.allocTree, Heap.setTreeRc, Heap.setMem,
              upd_ne _ _ (Nat.ne_of_lt hm)] using e'
  · by_cases e : y = h.nNode
    · subst e; exact Nat.lt_succ_self _
    · exact Nat.lt_succ_of_lt (K.bound y (hne hy e))

/-! ### Calls -/

variable {w w' : World α}

theorem Own.strip (I : Own w) (K : RefBut E w.heap) (hE : ∀ x ∈ E, w.Holds x) : RefBut [] w.heap := by
  refine ⟨fun y hy => .inr ?_, K.bound⟩
  rcases K.ref y hy with h1 | h1
  · obtain ⟨k, hk⟩ := hE y h1
    obtain ⟨t, rc, l, e, -⟩ := I.tree_of_held hk
    exact referenced_iff.2 (.inl ⟨t, rc, l, e⟩)
  · exact h1

theorem created_kept {k : Kind} {r : Res} (K : RefBut E w.heap) (e : w.created k n = .ok (w', r)) :
    RefBut E w'.heap ∧ w'.Holds n ∧ ∀ m, w.Holds m → w'.Holds m := by
  simp only [World.created, bind, Except.bind, pure, Except.pure] at e
  split at e
  · cases e
  rename_i h1 e1
  cases e
  refine ⟨Kr.expectLock K.acqLock _ e1, ⟨k, ?_⟩, fun m hm => ?_⟩
  · simp [World.give]
  · obtain ⟨k', hk⟩ := hm
    refine ⟨k', ?_⟩
    simp only [World.give]
    split
    · omega
    · exact hk

theorem HasAuth.holds {a : Auth} (ha : w.HasAuth n a) : w.Holds n := by
  cases a with
  | token t => exact ⟨.plain, ha.1⟩
  | hot => exact ⟨.hot, ha⟩

theorem execAcquire_kept {g : Bool} {r : Res} (K : RefBut E w.heap)
    (e : w.execAcquire g t = .ok (w', r)) : RefBut E w'.heap := by
  unfold World.execAcquire at e
  split at e
  · cases e
  · cases e; exact K
  · cases e
    cases g <;> exact K.setGrants

/-- Every call keeps the invariant that each living node has an owner. -/
theorem exec_kept {op : Op α} {r : Res} (I : Own w) (hal : w.Allowed op) (K : RefBut [] w.heap)
    (e : w.exec op = .ok (w', r)) : RefBut [] w'.heap := by
  have I' := I.exec hal e
  cases op with
  | newTree hot d =>
    exact (created_kept (w := { w with heap := (w.heap.newTreeRoot d).1 }) K.newTreeRoot e).1
  | clone k n =>
    simp only [World.exec, bind, Except.bind, pure, Except.pure] at e
    split at e
    · cases e
    rename_i e1; cases e
    exact K.cloneHandle _ e1
  | drop k n =>
    simp only [World.exec, bind, Except.bind, pure, Except.pure] at e
    split at e
    · cases e
    rename_i e1; cases e
    exact K.dropHandle _ e1
  | nav k q n =>
    simp only [World.exec, bind, Except.bind, pure, Except.pure] at e
    split at e
    · cases e
    split at e
    · cases e; exact K
    · split at e
      · cases e
      rename_i e1; cases e
      exact K.wrap _ e1
  | upgrade n =>
    simp only [World.exec, bind, Except.bind, pure, Except.pure] at e
    split at e
    · cases e; exact K
    · split at e
      · cases e
      rename_i e1; cases e
      exact K.wrap _ e1
  | plainOf k n =>
    simp only [World.exec, bind, Except.bind, pure, Except.pure] at e
    split at e
    · cases e
    rename_i e1; cases e
    exact K.cloneLink _ e1
  | bundle k n =>
    simp only [World.exec, bind, Except.bind, pure, Except.pure] at e
    split at e
    · cases e
    rename_i e1
    split at e
    · cases e; exact K.acqLock _ e1
    · split at e
      · cases e
      rename_i e2; cases e
      exact K.dropLink' _ e2
  | bundleWith k n t =>
    simp only [World.exec, bind, Except.bind, pure, Except.pure] at e
    split at e
    · split at e
      · cases e
      rename_i e1; cases e
      exact Kr.expectLock K.acqLock _ e1
    · cases e
  | treeOf k n =>
    simp only [World.exec, bind, Except.bind, pure, Except.pure] at e
    split at e
    · cases e
    cases e
    exact K.acqTree
  | cloneTree t => cases e; exact K.acqTree
  | dropTree t =>
    simp only [World.exec, bind, Except.bind, pure, Except.pure] at e
    split at e
    · cases e
    rename_i e1; cases e
    exact K.relTree0 _ e1
  | treeRoot t =>
    simp only [World.exec, bind, Except.bind, pure, Except.pure] at e
    split at e
    · cases e
    split at e
    · cases e
    rename_i e1; cases e
    exact K.wrap _ e1
  | upgradeTree t =>
    simp only [World.exec] at e
    split at e <;> cases e
    · exact K.acqTree
    · exact K
  | acquire g t => exact execAcquire_kept K e
  | cloneTok g t =>
    simp only [World.exec] at e
    split at e
    · exact execAcquire_kept K e
    · cases e; cases g <;> exact K
  | dropTok g t =>
    simp only [World.exec, bind, Except.bind, pure, Except.pure] at e
    split at e
    · split at e
      · cases e
      cases e
      cases g <;> exact K.setGrants
    · cases e; cases g <;> exact K
  | extract g n =>
    simp only [World.exec, bind, Except.bind, pure, Except.pure] at e
    split at e
    · cases e
    split at e
    · cases e
    rename_i e1
    split at e
    · cases e
    · cases e; exact execAcquire_kept K e1
  | create a n d as =>
    simp only [World.exec, bind, Except.bind, pure, Except.pure] at e
    split at e
    · cases e
    split at e
    · cases e
    rename_i v e1
    obtain ⟨h1, r1⟩ := v
    obtain ⟨c1, c2⟩ := K.nodeCreate e1
    simp only at e
    split at e
    · rename_i er
      simp only [Except.ok.injEq, Prod.mk.injEq] at e
      obtain ⟨rfl, -⟩ := e
      exact I'.strip (c2 _ rfl) (by simp only [List.mem_singleton]; rintro x rfl; exact HasAuth.holds hal)
    · rename_i m
      obtain ⟨k1, k2, k3⟩ := created_kept (w := { w with heap := h1 }) (c1 _ rfl) e
      refine I'.strip k1 ?_
      simp only [List.mem_cons, List.not_mem_nil, or_false]
      rintro x (rfl | rfl)
      · exact k2
      · exact k3 _ (HasAuth.holds hal)
  | createParent a n d =>
    simp only [World.exec, bind, Except.bind, pure, Except.pure] at e
    split at e
    · cases e
    split at e
    · cases e
    rename_i v e1
    obtain ⟨h1, m⟩ := v
    obtain ⟨k1, k2, k3⟩ := created_kept (w := { w with heap := h1 }) (K.createParent e1) e
    refine I'.strip k1 ?_
    simp only [List.mem_cons, List.not_mem_nil, or_false]
    rintro x (rfl | rfl)
    · exact k2
    · exact k3 _ (HasAuth.holds hal)
  | createChild a n d =>
    simp only [World.exec, bind, Except.bind, pure, Except.pure] at e
    split at e
    · cases e
    split at e
    · cases e
    rename_i v e1
    obtain ⟨h1, m⟩ := v
    obtain ⟨k1, k2, k3⟩ := created_kept (w := { w with heap := h1 }) (K.createChild e1) e
    refine I'.strip k1 ?_
    simp only [List.mem_cons, List.not_mem_nil, or_false]
    rintro x (rfl | rfl)
    · exact k2
    · exact k3 _ (HasAuth.holds hal)
  | detach a n =>
    simp only [World.exec, bind, Except.bind, pure, Except.pure] at e
    split at e
    · cases e
    split at e
    · cases e
    rename_i h1 e1; cases e
    exact I'.strip (RefBut.detachSubtree (K.weaken (by simp)) _ e1)
      (by simp only [List.mem_singleton]; rintro x rfl; exact HasAuth.holds hal)
  | replace a n =>
    simp only [World.exec, bind, Except.bind, pure, Except.pure] at e
    split at e
    · cases e
    split at e
    · cases e
    rename_i v e1
    have K1 := RefBut.replaceWithChildren (K.weaken (by simp)) _ e1
    split at e <;> cases e <;> exact I'.strip K1
      (by simp only [List.mem_singleton]; rintro x rfl; exact HasAuth.holds hal)
  | move a n dest =>
    simp only [World.exec, bind, Except.bind, pure, Except.pure] at e
    split at e
    · cases e
    split at e
    · cases e
    rename_i v e1
    have K1 := RefBut.detachInsert (K.weaken (by simp)) _ e1
    split at e <;> cases e <;> exact I'.strip K1
      (by
        simp only [List.mem_cons, List.not_mem_nil, or_false]
        rintro x (rfl | rfl)
        · exact HasAuth.holds hal.1
        · exact ⟨.hot, hal.2⟩)
  | write n d =>
    simp only [World.exec] at e
    split at e <;> cases e
    · exact K
    · obtain ⟨k, hk⟩ := hal
      obtain ⟨-, -, -, -, ha, -⟩ := I.tree_of_held hk
      have hl : ∀ y, (w.heap.setData n d).alive y = w.heap.alive y := by
        intro y
        by_cases e : y = n
        · subst e; rw [ha]; simp [Heap.setData, Heap.alive]
        · simp [Heap.setData, Heap.alive, upd_ne _ _ e]
      refine ⟨fun y hy => .inr ?_, fun y hy => ?_⟩
      · rw [hl] at hy
        have := (K.ref y hy).resolve_left (by simp)
        rcases referenced_iff.1 this with h1 | h1 | ⟨m, hm, hma, h1⟩
        · exact referenced_iff.2 (.inl h1)
        · exact referenced_iff.2 (.inr (.inl h1))
        · exact referenced_iff.2 (.inr (.inr ⟨m, hm, by rw [hl]; exact hma, h1⟩))
      · rw [hl] at hy; exact K.bound y hy
  | borrowMut n b =>
    simp only [World.exec] at e
    split at e <;> cases e
    · exact K
    · exact K.congr rfl rfl rfl rfl rfl rfl rfl

/-- In every history each living node has an owner. -/
theorem ReachAny.kept (R : ReachAny w) : RefBut [] w.heap := by
  induction R with
  | init => exact ⟨fun x hx => (by cases hx), fun x hx => (by cases hx)⟩
  | step R s ih => exact exec_kept R.own s.allowed ih s.run

end Dendron
