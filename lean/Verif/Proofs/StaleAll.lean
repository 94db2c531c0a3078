import Verif.Proofs.MoveMore

/-! The previous-sibling pointer of a node is not changed by anything but link surgery around it. -/

set_option linter.unusedSimpArgs false
set_option linter.unusedVariables false

set_option autoImplicit false

namespace Dendron
variable {α β γ : Type} {h h' : Heap α} {n p f v : NodeId} {t : TreeId}

/-- The pointer of `f` is `v`, or `f` has been freed. -/
def PrevStays (f v : NodeId) (h : Heap α) : Prop := h.prevCyc f = some v ∨ h.data f = none

/-- If the computation returns, the memory in its result keeps the pointer. -/
def Ps (f v : NodeId) (r : Except Fault (Heap α)) : Prop := ∀ b, r = .ok b → PrevStays f v b
/-- The same for a computation that may return no memory. -/
def PsO (f v : NodeId) (r : Except Fault (Option (Heap α))) : Prop :=
  ∀ b, r = .ok (some b) → PrevStays f v b

theorem Ps.err {e : Fault} : Ps (α := α) f v (.error e) := fun _ h => by cases h
theorem PsO.err {e : Fault} : PsO (α := α) f v (.error e) := fun _ h => by cases h
theorem PsO.none : PsO (α := α) f v (.ok none) := fun _ h => by cases h
theorem PsO.some (K : PrevStays f v h) : PsO f v (.ok (some h)) := fun _ h => by cases h; exact K
theorem Ps.ok (K : PrevStays f v h) : Ps f v (.ok h) := fun _ h => by cases h; exact K
theorem Ps.bindH {x : Except Fault (Heap α)} {g : Heap α → Except Fault (Heap α)}
    (K : Ps f v x) (k : ∀ h, PrevStays f v h → Ps f v (g h)) : Ps f v (x >>= g) := by
  cases x with
  | error e => exact Ps.err
  | ok b => exact k b (K b rfl)

theorem PrevStays.kill (K : PrevStays f v h) : PrevStays f v (h.kill n) := by
  by_cases e : f = n
  · subst e; right; simp [Heap.kill]
  · rcases K with K | K
    · left; simpa [Heap.kill, upd_ne _ _ e] using K
    · right; simpa [Heap.kill, upd_ne _ _ e] using K

theorem PrevStays.release : ∀ {k : Nat} {pins : List NodeId} {n : NodeId} {h : Heap α},
    PrevStays f v h → Ps f v (h.release k pins n)
  | 0, _, _, _, _ => Ps.err
  | k + 1, pins, n, h, K => by
    unfold Heap.release
    split
    · exact Ps.ok K
    · simp only
      have step : ∀ {o : Option NodeId} {g : Heap α}, PrevStays f v g →
          Ps f v (match o with | some c => g.release k pins c | none => .ok g) := by
        intro o g Kg
        cases o with
        | none => exact Ps.ok Kg
        | some c => exact PrevStays.release Kg
      split
      · exact Ps.err
      · rename_i e
        exact step (step K.kill _ e)

theorem PrevStays.of_eq (K : PrevStays f v h) (e1 : h'.prevCyc = h.prevCyc) (e2 : h'.data = h.data) :
    PrevStays f v h' := by
  unfold PrevStays; rw [e1, e2]; exact K

theorem PrevStays.dropStep {k : Nat} {pins : List NodeId} {m : NodeId} (K : PrevStays f v h) :
    Ps f v (h.dropStep k pins m) := by
  unfold Heap.dropStep
  have K1 : PrevStays f v ((h.setNext m none).setFirst m none) := K.of_eq rfl rfl
  split
  · refine Ps.bindH ?_ fun h2 K => Ps.bindH K.release fun h3 K => K.release
    split
    · exact PrevStays.release (K.of_eq rfl rfl)
    · exact Ps.ok (K.of_eq rfl rfl)
  · exact K.release

theorem PrevStays.dropLoop {k : Nat} : ∀ {g : Nat} {pins : List NodeId} {ev : Option (DftEvent NodeId)}
    {h : Heap α}, PrevStays f v h → Ps f v (h.dropLoop k g pins ev)
  | g, _, none, _, K => by cases g <;> exact Ps.ok K
  | 0, _, some _, _, _ => Ps.err
  | g + 1, pins, some ev, h, K => by
    unfold Heap.dropLoop
    simp only
    split
    · split
      · exact Ps.err
      · rename_i e
        exact PrevStays.dropLoop (K.release _ e)
    · split
      · exact Ps.err
      · rename_i e
        exact PrevStays.dropLoop (K.dropStep _ e)

theorem PrevStays.dropTreeWith {k : Nat} {pins : List NodeId} (K : PrevStays f v h) :
    Ps f v (h.dropTreeWith k pins t) := by
  unfold Heap.dropTreeWith
  split
  · exact Ps.ok K
  · split
    · exact Ps.err
    · rename_i e
      have K := K.dropLoop _ e
      exact PrevStays.release (K.of_eq rfl rfl)

theorem PrevStays.maybeDropTree {pins : List NodeId} (K : PrevStays f v h) :
    Ps f v (h.maybeDropTree pins t) := by
  unfold Heap.maybeDropTree
  split
  · exact K.dropTreeWith
  · exact Ps.ok K

theorem PrevStays.relTree {pins : List NodeId} (K : PrevStays f v h) : Ps f v (h.relTree pins t) :=
  PrevStays.maybeDropTree (K.of_eq rfl rfl)

theorem PrevStays.transferLock {u : TreeId} (K : PrevStays f v h) : PsO f v (h.transferLock t u) := by
  unfold Heap.transferLock
  repeat' split
  all_goals first
    | exact PsO.err
    | exact PsO.none
    | exact PsO.some K
    | exact PsO.some (K.of_eq rfl rfl)

theorem PrevStays.setTreeCore {pins : List NodeId} (K : PrevStays f v h) :
    PsO f v (h.setTreeCore pins n t) := by
  unfold Heap.setTreeCore
  split
  · exact PsO.some (K.of_eq rfl rfl)
  · split
    · exact PsO.err
    · exact PsO.none
    · rename_i h1 e
      have K1 : PrevStays f v h1 := by
        split at e
        · exact K.transferLock _ e
        · cases e; exact K
      simp only
      split
      · exact PsO.err
      · rename_i e2
        exact PsO.some (PrevStays.maybeDropTree (h := h1.setMem _ _) (K1.of_eq rfl rfl) _ e2)

theorem PrevStays.setMembLoop {start : NodeId} : ∀ {g : Nat} {ev : Option (DftEvent NodeId)} {h : Heap α},
    PrevStays f v h → PsO f v (h.setMembLoop g start t ev)
  | g, none, _, K => by cases g <;> exact PsO.some K
  | 0, some _, _, _ => PsO.err
  | g + 1, some ev, h, K => by
    unfold Heap.setMembLoop
    split
    · exact PsO.some K
    simp only
    cases ev with
    | opn m =>
      simp only
      split
      · exact PsO.err
      · exact PsO.none
      · rename_i e
        split
        · exact PsO.err
        · rename_i e2
          exact PrevStays.setMembLoop ((K.setTreeCore _ e).release _ e2)
    | cls m =>
      simp only
      split
      · exact PsO.err
      · rename_i e2
        exact PrevStays.setMembLoop (K.release _ e2)

theorem PrevStays.setMemberships (K : PrevStays f v h) : PsO f v (h.setMemberships n t) :=
  K.setMembLoop

theorem PrevStays.createNewTree (K : PrevStays f v h) : Ps f v (h.createNewTree n) := by
  unfold Heap.createNewTree
  simp only
  split
  · exact Ps.err
  · exact Ps.err
  · rename_i e
    have K1 : PrevStays f v (h.allocTree n).1 := K.of_eq rfl rfl
    exact (K1.setMemberships _ e).relTree

variable {ch : NodeId → List NodeId} {l1 l2 m1 m2 : List NodeId} {q : NodeId}

/-- The pointer of the first of several siblings after the last has been unlinked. -/
theorem unlink_last_prev (S : Shape h ch) (hs : ch p = f :: (l1 ++ [n])) :
    ∃ h1, h.newByUnlinkL n = .ok (h1, true) ∧ SameNonLink h h1 ∧ FShape h1 (upd ch p (f :: l1)) ∧
      h1.prevCyc f = some n := by
  have hs' : ch p = (f :: l1) ++ n :: [] := hs
  obtain ⟨h1, he, s, a1, a2, a3, a4, a5⟩ := newByUnlink_eq S hs'
  obtain ⟨h1', he', s', F, -, -, -⟩ := unlink_forward S hs'
  rw [he] at he'
  cases he'
  refine ⟨h1, he, s, by simpa using F, ?_⟩
  have hnd := S.nodup p
  rw [hs] at hnd
  have hfn : f ≠ n := by
    rintro rfl
    simp at hnd
  rw [a4, if_neg hfn]
  have := S.back.pseg p
  rw [hs] at this
  simp only [List.head?_nil, reduceCtorEq, if_false]
  rw [this.1, ← List.cons_append, List.getLast?_append]
  simp

/-- Reading the last child: the stale pointer. -/
theorem stale_last (F : FShape h ch) (hs : ch p = f :: l1) (K : PrevStays f n h)
    (hn : h.alive n = true) : h.lastChildLink p = .ok (some n) := by
  have hfm : f ∈ ch p := by simp [hs]
  have hf := F.alive_of_mem hfm
  have hp := F.alive_parent hfm
  have hfc : h.firstChildLink p = some f := by
    rw [Heap.firstChildLink, F.first p hp, hs]; rfl
  have hpc : h.prevCyc f = some n := by
    rcases K with K | K
    · exact K
    · simp [Heap.alive, K] at hf
  have hu : h.upgrade (some n) = some n := by simp [Heap.upgrade, Option.filter, hn]
  simp [Heap.lastChildLink, hfc, Heap.prevCycLink, hpc, hu, Except.map]

/-- Insertions change the pointers of the inserted node, of the first child of the parent and of the
following sibling only. -/
theorem insertL_prev {dest : InsertAs NodeId} {b : Bool} {x : NodeId} {r : Except HierarchyError Unit}
    (F : FShape h ch) (hd : DestSplit ch dest q m1 m2) (hq : h.alive q = true) (hx : x ≠ n)
    (hxq : x ∉ ch q) (e : h.insertL n b dest = .ok (h', r)) : h'.prevCyc x = h.prevCyc x ∧ h'.data x = h.data x := by
  have key1 : ∀ {h'' : Heap α} {r}, h.insertFirstL n b q = .ok (h'', r) → h''.prevCyc x = h.prevCyc x ∧ h''.data x = h.data x := by
    intro h'' r e
    unfold Heap.insertFirstL at e
    simp only [bind, Except.bind, pure, Except.pure] at e
    split at e
    · cases e
    split at e
    · cases e; exact ⟨rfl, rfl⟩
    split at e
    · cases e
    rename_i fl hfl
    cases e
    cases fl with
    | none => simp [Heap.setPrev, Heap.numAdd, Heap.setNum, Heap.setFirst, Heap.setParent, upd_apply, hx]
    | some w =>
      obtain ⟨a, l⟩ := w
      have hxa : x ≠ a := by
        rintro rfl
        simp only [Heap.firstLastChildLink, Heap.firstChildLink, F.first q hq] at hfl
        cases hc : ch q with
        | nil => simp [hc] at hfl
        | cons y l' =>
          simp only [hc, List.head?_cons] at hfl
          cases hpc : h.prevCycLink y with
          | error e => simp [hpc, Except.map] at hfl
          | ok z =>
            simp [hpc, Except.map] at hfl
            exact hxq (by simp [hc, hfl.1])
      simp [Heap.setPrev, Heap.numAdd, Heap.setNum, Heap.setFirst, Heap.setParent, Heap.connectAdjacent,
        Heap.setNext, upd_apply, hx, hxa]
  have key2 : ∀ {h'' : Heap α} {r}, h.insertLastL n b q = .ok (h'', r) → h''.prevCyc x = h.prevCyc x ∧ h''.data x = h.data x := by
    intro h'' r e
    unfold Heap.insertLastL at e
    simp only [bind, Except.bind, pure, Except.pure] at e
    split at e
    · cases e
    split at e
    · cases e; exact ⟨rfl, rfl⟩
    split at e
    · cases e
    rename_i fl hfl
    cases e
    cases fl with
    | none => simp [Heap.setPrev, Heap.numAdd, Heap.setNum, Heap.setFirst, Heap.setParent, upd_apply, hx]
    | some w =>
      obtain ⟨a, l⟩ := w
      have hxa : x ≠ a := by
        rintro rfl
        simp only [Heap.firstLastChildLink, Heap.firstChildLink, F.first q hq] at hfl
        cases hc : ch q with
        | nil => simp [hc] at hfl
        | cons y l' =>
          simp only [hc, List.head?_cons] at hfl
          cases hpc : h.prevCycLink y with
          | error e => simp [hpc, Except.map] at hfl
          | ok z =>
            simp [hpc, Except.map] at hfl
            exact hxq (by simp [hc, hfl.1])
      simp [Heap.setPrev, Heap.numAdd, Heap.setNum, Heap.setFirst, Heap.setParent, Heap.connectAdjacent,
        Heap.setNext, upd_apply, hx, hxa]
  have key3 : ∀ {h'' : Heap α} {a s : NodeId}, x ≠ s → h.insertBetweenL n q a s = .ok h'' →
      h''.prevCyc x = h.prevCyc x ∧ h''.data x = h.data x := by
    intro h'' a s hxs e
    unfold Heap.insertBetweenL at e
    simp only [bind, Except.bind, pure, Except.pure] at e
    split at e
    · cases e
    cases e
    simp [Heap.setPrev, Heap.numAdd, Heap.setNum, Heap.setFirst, Heap.setParent, Heap.connectAdjacent,
        Heap.setNext, upd_apply, hx, hxs]
  have hpar : ∀ a, a ∈ ch q → h.parentLink a = some q := by
    intro a ha
    rw [F.parentLink (F.alive_of_mem ha), F.parent_of_mem ha]
  cases hd with
  | first => exact key1 e
  | last => exact key2 e
  | prev hs =>
    rename_i a l2
    have ha : a ∈ ch q := by simp [hs]
    simp only [Heap.insertL, hpar a ha, bind, Except.bind, pure, Except.pure] at e
    split at e
    · cases e
    split at e
    · split at e
      · cases e
      rename_i e1
      cases e
      exact key3 (by rintro rfl; exact hxq ha) e1
    · exact key1 e
  | next hs =>
    rename_i a l1
    have ha : a ∈ ch q := by simp [hs]
    simp only [Heap.insertL, hpar a ha, bind, Except.bind, pure, Except.pure] at e
    split at e
    · rename_i s hsn
      split at e
      · cases e
      rename_i e1
      cases e
      refine key3 ?_ e1
      rintro rfl
      have := F.next_at hs
      rw [Heap.nextLink, this] at hsn
      exact hxq (by rw [hs]; cases m2 <;> simp_all)
    · exact key2 e

open RTree
variable {T : RTree NodeId} {t' : TreeId} {dest : InsertAs NodeId}

/-- Detaching the last of several children. -/
theorem detach_stale (W : WF h ch) (hs : ch p = f :: (l1 ++ [n])) (e : h.detachSubtree n = .ok h') :
    PrevStays f n h' := by
  have hm : n ∈ ch p := by simp [hs]
  rw [W.detachSubtree_eq (W.alive_of_mem hm)] at e
  obtain ⟨h1, he, -, -, hp⟩ := unlink_last_prev W.toShape hs
  simp only [Heap.detachSubtreeL, isRoot_false W.toFShape hm, Bool.false_eq_true, if_false, he,
    bind, Except.bind] at e
  exact PrevStays.createNewTree (.inl hp) _ e

/-- Moving the last of several children into another tree. -/
theorem moveOther_stale (W : WF h ch) (hs : ch p = f :: (l1 ++ [n])) (hT : SubtreeAt ch n T)
    (ht : h.memTree n = some t) (hd : DestSplit ch dest q m1 m2) (hq : h.alive q = true)
    (ht' : h.memTree q = some t') (hne : t ≠ t')
    (g1 : (h.lockedIn T.nodes : Int) ≤ h.grants t) (g2 : 0 ≤ h.grants t')
    (g3 : h.grants t' + h.lockedIn T.nodes ≤ Lock.isizeMax)
    (e : h.detachInsert n dest = .ok (h', .ok ())) : PrevStays f n h' := by
  have hs' : ch p = (f :: l1) ++ n :: [] := hs
  have hm : n ∈ ch p := by simp [hs]
  have ha := W.alive_of_mem hm
  have hmp : h.memTree p = some t := by
    rw [← W.tree.child n p ha (W.parent_of_mem hm)]; exact ht
  have hqp : q ≠ p := by
    rintro rfl; rw [hmp] at ht'; exact hne (by simpa using ht')
  obtain ⟨-, -, -, -, -, -, -, -, a1, a2, k, c, e1, e2, sim, S, hkq, hcq, -⟩ :=
    moveOther_wide W hs' hT ht hd hq ht' hne g1 g2 g3
  rw [W.move_other_eq hs' hT ht hd hq ht' hne g1 g2 g3] at e
  have hda : h.alive dest.anchor = true ∧ h.memTree dest.anchor = some t' := by
    rcases hd.anchor with e | e
    · rw [e]; exact ⟨hq, ht'⟩
    · have := W.alive_of_mem e
      exact ⟨this, (W.tree.child _ q this (W.parent_of_mem e)).trans ht'⟩
  have hns : h.belongsToSameTree n dest.anchor = false := by
    have : n ≠ dest.anchor := by
      intro e; rw [← e, ht] at hda; exact hne (by simpa using hda.2)
    simp [Heap.belongsToSameTree, ht, hda.2, hne, this]
  have htc : h.treeCore dest.anchor = .ok t' := (W.tree.treeCore_iff hda.1).2 hda.2
  have Sa : Shape (h.acqTree t') ch :=
    { toFShape := ⟨W.dead, W.first, W.nodup, W.mem, W.seg, W.rootNext, W.acyc, W.bound⟩
      num := W.num
      back := ⟨W.back.pseg, W.back.rootPrev⟩ }
  obtain ⟨h1, he, -, -, hp⟩ := unlink_last_prev Sa hs
  have e1' := e1
  rw [he] at e1'
  cases e1'
  simp only [Heap.detachInsertL, hns, Bool.false_eq_true, if_false, htc, bind, Except.bind,
    Heap.moveOtherL, e1, e2, pure, Except.pure] at e
  split at e
  · cases e
  rename_i v hv
  obtain ⟨h3, r3⟩ := v
  split at e
  · cases e
  rename_i h4 e4
  cases e
  have K2 : PrevStays f n a2 := PrevStays.setMemberships (.inl hp) _ e2
  have F2 : FShape a2 c := sim.symm.fshape S.toFShape
  have hd2 : DestSplit c dest q m1 m2 := by
    cases hd with
    | first => rw [← hcq]; exact .first q
    | last => rw [← hcq]; exact .last q
    | prev hs => exact .prev (hcq ▸ hs)
    | next hs => exact .next (hcq ▸ hs)
  have hq2 : a2.alive q = true := by rw [← sim.alive]; exact hkq
  have hfn : f ≠ n := by
    have := W.nodup p
    rw [hs] at this
    rintro rfl; simp at this
  have hfq : f ∉ c q := by
    rw [hcq]
    intro h1
    have := W.parent_of_mem h1
    rw [W.parent_of_mem (p := p) (by simp [hs])] at this
    exact hqp (by simpa using this.symm)
  have hp3 := insertL_prev F2 hd2 hq2 hfn hfq hv
  have K3 : PrevStays f n h3 := by
    rcases K2 with K | K
    · exact .inl (hp3.1.trans K)
    · exact .inr (hp3.2.trans K)
  exact K3.relTree _ e4

/-- Inserting between two children leaves the pointer of the first child alone. -/
theorem insertL_mid {x : NodeId} {r : Except HierarchyError Unit}
    (F : FShape h ch) (hd : DestSplit ch dest q m1 m2) (hx : x ≠ n)
    (hm1 : m1.head? = some x) (hm2 : m2 ≠ [])
    (hprev : ∀ a l1 l2, ch q = l1 ++ a :: l2 → l1 ≠ [] → h.prevLink a = .ok l1.getLast?)
    (e : h.insertL n true dest = .ok (h', r)) : h'.prevCyc x = h.prevCyc x := by
  have key3 : ∀ {h'' : Heap α} {a s : NodeId}, x ≠ s → h.insertBetweenL n q a s = .ok h'' →
      h''.prevCyc x = h.prevCyc x := by
    intro h'' a s hxs e
    unfold Heap.insertBetweenL at e
    simp only [bind, Except.bind, pure, Except.pure] at e
    split at e
    · cases e
    cases e
    simp [Heap.setPrev, Heap.numAdd, Heap.setNum, Heap.setFirst, Heap.setParent, Heap.connectAdjacent,
        Heap.setNext, upd_apply, hx, hxs]
  have hpar : ∀ a, a ∈ ch q → h.parentLink a = some q := by
    intro a ha
    rw [F.parentLink (F.alive_of_mem ha), F.parent_of_mem ha]
  have hnd := F.nodup q
  cases hd with
  | first => simp at hm1
  | last => simp at hm2
  | prev hs =>
    rename_i a l2
    have ha : a ∈ ch q := by simp [hs]
    obtain ⟨l, rfl⟩ : ∃ l, m1 = x :: l := by
      cases m1 with
      | nil => simp at hm1
      | cons y l => simp at hm1; subst hm1; exact ⟨l, rfl⟩
    obtain ⟨z, hz⟩ : ∃ z, (x :: l).getLast? = some z := ⟨_, List.getLast?_eq_some_getLast (by simp)⟩
    simp only [Heap.insertL, hpar a ha, bind, Except.bind, pure, Except.pure,
      hprev a _ _ hs (by simp), hz] at e
    split at e
    · cases e
    rename_i e1
    cases e
    refine key3 ?_ e1
    rintro rfl
    rw [hs] at hnd
    simp at hnd
  | next hs =>
    rename_i a l1
    have ha : a ∈ ch q := by simp [hs]
    obtain ⟨b, l, rfl⟩ : ∃ b l, m2 = b :: l := by
      cases m2 with
      | nil => exact absurd rfl hm2
      | cons y l => exact ⟨y, l, rfl⟩
    have hn : h.nextLink a = some b := by
      have := F.next_at hs
      rw [Heap.nextLink, this]; rfl
    simp only [Heap.insertL, hpar a ha, bind, Except.bind, pure, Except.pure, hn] at e
    split at e
    · cases e
    rename_i e1
    cases e
    refine key3 ?_ e1
    rintro rfl
    rw [hs] at hnd
    cases l1 with
    | nil => simp at hm1; subst hm1; simp at hnd
    | cons y l1 => simp at hm1; subst hm1; simp at hnd

theorem DestSplit.list (hd : DestSplit ch dest q m1 m2) : ch q = m1 ++ m2 := by
  cases hd with
  | first => rfl
  | last => simp
  | prev hs => exact hs
  | next hs => simpa using hs

/-- A destination at the end of a list. -/
theorem DestSplit.atEnd (hd : DestSplit ch dest q m1 m2) (e : m2 = []) :
    dest = .lastChildOf q ∨ (dest = .firstChildOf q ∧ ch q = []) ∨
      ∃ a l, ch q = l ++ [a] ∧ dest = .nextSiblingOf a := by
  cases hd with
  | first => exact .inr (.inl ⟨rfl, e⟩)
  | last => exact .inl rfl
  | prev hs => cases e
  | next hs => subst e; exact .inr (.inr ⟨_, _, hs, rfl⟩)

/-- A destination at the beginning of a list. -/
theorem DestSplit.atStart (hd : DestSplit ch dest q m1 m2) (e : m1 = []) :
    dest = .firstChildOf q ∨ (dest = .lastChildOf q ∧ ch q = []) ∨
      ∃ a l, ch q = a :: l ∧ dest = .previousSiblingOf a := by
  cases hd with
  | first => exact .inl rfl
  | last => exact .inr (.inl ⟨rfl, e⟩)
  | prev hs => subst e; exact .inr (.inr ⟨_, _, hs, rfl⟩)
  | next hs => simp at e

/-- Moving the last of several children inside its tree: afterwards `last_child` of the old parent is
the moved node, wherever it has gone; or it is its own next sibling. -/
theorem moveSame_stale (W : WF h ch) (hs : ch p = f :: (l1 ++ [n]))
    (hd : DestSplit (upd ch p (f :: l1)) dest q m1 m2) (hq : h.alive q = true)
    (hnd : ¬ Desc ch n q) (hmt : h.memTree n = h.memTree q) :
    ∃ h', h.detachInsert n dest = .ok (h', .ok ()) ∧ h'.parentLink n = some q ∧
      h'.lastChildLink p = .ok (some n) ∧
      (¬ (q = p ∧ m2 = []) → h'.nextLink n = m2.head?) ∧
      (q = p → m2 = [] → h'.nextLink n = some n ∧ ∀ z, (f :: l1).getLast? = some z → h'.nextLink z = none) := by
  have hs' : ch p = (f :: l1) ++ n :: [] := hs
  have hm : n ∈ ch p := by simp [hs]
  have hfm : f ∈ ch p := by simp [hs]
  have ha := W.alive_of_mem hm
  have hf := W.alive_of_mem hfm
  have hp := W.alive_parent hm
  have hpar := W.parent_of_mem hm
  have hnp : n ≠ p := fun e => W.toFShape.not_self (e ▸ hm)
  have hfn : f ≠ n := by
    have := W.nodup p
    rw [hs] at this
    rintro rfl; simp at this
  have hd0 : DestSplit (upd ch p ((f :: l1) ++ [])) dest q m1 m2 := by simpa using hd
  have hanc : dest.anchor = q ∨ dest.anchor ∈ ch q := by
    rcases hd.anchor with e | e
    · exact .inl e
    · refine .inr ?_
      rw [upd_apply] at e
      split at e
      · rename_i hqp
        subst hqp; rw [hs']; exact List.mem_append_left _ e
      · exact e
  have hb : h.belongsToSameTree n dest.anchor = true := by
    have : h.memTree dest.anchor = h.memTree q := by
      rcases hanc with e | e
      · rw [e]
      · exact W.tree.child _ q (W.alive_of_mem e) (W.parent_of_mem e)
    simp [Heap.belongsToSameTree, this, hmt]
  have hda : h.alive dest.anchor = true := by
    rcases hanc with e | e
    · rw [e]; exact hq
    · exact W.alive_of_mem e
  obtain ⟨h1, he, s1, F1, hp1⟩ := unlink_last_prev W.toShape hs
  obtain ⟨h1', k1, he', simk, -, Sk, -⟩ := unlink_wide W.toShape hs'
  rw [he] at he'
  cases he'
  have hunf : h.detachInsert n dest = h1.insertL n true dest := by
    rw [W.detachInsert_same ha hda hb]
    simp only [Heap.detachInsertL, hb, if_true, Heap.moveSameL, isRoot_false W.toFShape hm,
      Bool.false_eq_true, if_false, he, bind, Except.bind]
  by_cases hmid : q = p → m1 ≠ [] ∧ m2 ≠ []
  · obtain ⟨h0, h', e, sim, s, W'⟩ := moveSame_wideSpec W hs' (fun _ _ => hmid) hd0 hq hnd hmt
    have F0 := sim.symm.fshape W'.toFShape
    have hn0 : h0.alive n = true := by
      rw [← sim.alive, s.alive]; exact ha
    have hq' : upd (upd ch p (f :: l1 ++ [])) q (m1 ++ n :: m2) q = m1 ++ n :: m2 := by simp
    have hnq : n ∈ upd (upd ch p (f :: l1 ++ [])) q (m1 ++ n :: m2) q := by rw [hq']; simp
    have hnx := F0.next_at hq'
    refine ⟨h0, e, ?_, ?_, ?_, ?_⟩
    · rw [F0.parentLink hn0, F0.parent_of_mem hnq]
    · have e' := e
      rw [hunf] at e'
      by_cases hqp : q = p
      · obtain ⟨h2, h3⟩ := hmid hqp
        subst hqp
        have hm12 : m1 ++ m2 = f :: l1 := by
          have := DestSplit.list hd
          rw [upd_same] at this; exact this.symm
        have hhd : m1.head? = some f := by
          cases m1 with
          | nil => exact absurd rfl h2
          | cons y l => simp at hm12; simp [hm12.1]
        obtain ⟨l, rfl⟩ : ∃ l, m1 = f :: l := by
          cases m1 with
          | nil => simp at hhd
          | cons y l => simp at hhd; subst hhd; exact ⟨l, rfl⟩
        refine stale_last F0 (by rw [hq']; rfl) (.inl ?_) hn0
        rw [insertL_mid F1 hd hfn hhd h3 ?_ e', hp1]
        intro a k1 k2 hk hk1
        have haf : ¬ StaleHead (f :: l1) [] a := by
          rintro ⟨-, hh⟩
          simp at hh
          subst hh
          have hnd' := F1.nodup q
          rw [hk] at hnd'
          rw [upd_same] at hk
          cases k1 with
          | nil => exact hk1 rfl
          | cons y k1 => simp at hk; rw [hk.1] at hnd'; simp at hnd'
        rw [← simk.prevLink haf]
        exact Sk.prevLink_at (p := q) (l2 := k2) (by simpa using hk)
      · refine stale_last F0 (f := f) (l1 := l1) (by simp [upd_apply, Ne.symm hqp]) (.inl ?_) hn0
        have hq1 : h1.alive q = true := by rw [s1.alive]; exact hq
        rw [(insertL_prev F1 hd hq1 hfn ?_ e').1, hp1]
        intro hfq
        rw [upd_ne _ _ hqp] at hfq
        have := W.parent_of_mem hfq
        rw [W.parent_of_mem hfm] at this
        exact hqp (by simpa using this.symm)
    · intro _
      rw [Heap.nextLink, hnx]
    · intro e1 e2
      exact absurd e2 (hmid e1).2
  · have hqp : q = p := Classical.byContradiction fun h => hmid (fun e => absurd e h)
    subst hqp
    have hm12 : m1 ++ m2 = f :: l1 := by
      have := DestSplit.list hd
      rw [upd_same] at this; exact this.symm
    have hn1 : h1.alive n = true := by rw [s1.alive]; exact ha
    have hq1 : h1.alive q = true := by rw [s1.alive]; exact hq
    have hu : ∀ g : Heap α, g.alive n = true → g.upgrade (some n) = some n := by
      intro g hg; simp [Heap.upgrade, Option.filter, hg]
    have hfl : h1.firstLastChildLink q = .ok (some (f, n)) := by
      have : h1.firstChildLink q = some f := by
        rw [Heap.firstChildLink, F1.first q hq1, upd_same]; rfl
      simp [Heap.firstLastChildLink, this, Heap.prevCycLink, hp1, hu _ hn1, Except.map]
    have hnn : h1.next n = none := by
      obtain ⟨h2, he2, -, -, -, a3, -⟩ := newByUnlink_eq W.toShape hs'
      rw [he] at he2; cases he2
      rw [a3]; simp
    have hpf : h1.prevLink f = .ok none := by
      simp [Heap.prevLink, Heap.prevCycLink, hp1, hu _ hn1, hnn, bind, Except.bind, pure, Except.pure]
    have hparl : ∀ a, a ∈ f :: l1 → h1.parentLink a = some q := by
      intro a h2
      have h3 : a ∈ upd ch q (f :: l1) q := by simpa using h2
      rw [F1.parentLink (F1.alive_of_mem h3), F1.parent_of_mem h3]
    by_cases hm2 : m2 = []
    · subst hm2
      have hins : h1.insertL n true dest = h1.insertLastL n true q := by
        rcases DestSplit.atEnd hd rfl with rfl | ⟨-, h2⟩ | ⟨a, l, hs2, rfl⟩
        · rfl
        · simp at h2
        · rw [upd_same] at hs2
          have hn2 : h1.nextLink a = none := by
            rw [Heap.nextLink, F1.next_at (p := q) (l1 := l) (n := a) (l2 := []) (by rw [upd_same]; exact hs2)]; rfl
          simp only [Heap.insertL, hparl a (by rw [hs2]; simp), hn2]
      obtain ⟨g, hg1, hg2, hg3, hg4, hg5, hg6⟩ : ∃ g, h1.insertLastL n true q = .ok (g, .ok ()) ∧
          g.parent n = some q ∧ g.next n = some n ∧ (∀ z, z ≠ n → g.next z = h1.next z) ∧
          (g.alive = h1.alive ∧ g.firstChild q = h1.firstChild q) ∧ g.prevCyc f = some n := by
        refine ⟨_, by
          simp only [Heap.insertLastL, Heap.loopCheck, hfl, bind, Except.bind, pure, Except.pure, if_true,
            Bool.false_eq_true, if_false]; rfl, ?_⟩
        refine ⟨?_, ?_, ?_, ⟨rfl, rfl⟩, ?_⟩
        · simp [Heap.numAdd, Heap.setNum, Heap.setParent]
        · simp [Heap.numAdd, Heap.setNum, Heap.setParent, Heap.connectAdjacent, Heap.setNext]
        · intro z hz
          simp [Heap.numAdd, Heap.setNum, Heap.setParent, Heap.connectAdjacent, Heap.setNext, Heap.setPrev, upd_apply, hz]
        · simp [Heap.numAdd, Heap.setNum, Heap.setParent, Heap.connectAdjacent, Heap.setNext, Heap.setPrev, upd_apply, hfn]
      have hgn : g.alive n = true := by rw [hg5.1]; exact hn1
      refine ⟨g, by rw [hunf, hins, hg1], ?_, ?_, ?_, ?_⟩
      · have : g.upgrade (some q) = some q := by simp [Heap.upgrade, Option.filter, hg5.1, hq1]
        rw [Heap.parentLink, hg2, this]
      · have : g.firstChildLink q = some f := by
          rw [Heap.firstChildLink, hg5.2, F1.first q hq1, upd_same]; rfl
        simp [Heap.lastChildLink, this, Heap.prevCycLink, hg6, hu _ hgn, Except.map]
      · intro h2; exact absurd ⟨rfl, rfl⟩ h2
      · intro _ _
        refine ⟨hg3, ?_⟩
        intro z hz
        have hz2 : z ∈ f :: l1 := List.mem_of_getLast? hz
        have hzn : z ≠ n := by
          rintro rfl
          have := W.nodup q
          rw [hs', nodup_mid] at this
          exact this.1 hz2
        obtain ⟨l, hl⟩ := List.getLast?_eq_some_iff.1 hz
        rw [Heap.nextLink, hg4 z hzn, F1.next_at (p := q) (l1 := l) (n := z) (l2 := []) (by rw [upd_same]; exact hl)]; rfl
    · have hm1 : m1 = [] := Classical.byContradiction fun h => hmid (fun _ => ⟨h, hm2⟩)
      subst hm1
      have hm2' : m2 = f :: l1 := by simpa using hm12
      subst hm2'
      have hins : h1.insertL n true dest = h1.insertFirstL n true q := by
        rcases DestSplit.atStart hd rfl with rfl | ⟨-, h2⟩ | ⟨a, l, hs2, rfl⟩
        · rfl
        · simp at h2
        · rw [upd_same] at hs2
          cases hs2
          simp only [Heap.insertL, hparl f (by simp), hpf, bind, Except.bind]
      obtain ⟨g, hg1, hg2, hg3, hg5, hg6⟩ : ∃ g, h1.insertFirstL n true q = .ok (g, .ok ()) ∧
          g.parent n = some q ∧ g.next n = some f ∧
          (g.alive = h1.alive ∧ g.firstChild q = some n) ∧ g.prevCyc n = some n := by
        refine ⟨_, by
          simp only [Heap.insertFirstL, Heap.loopCheck, hfl, bind, Except.bind, pure, Except.pure, if_true,
            Bool.false_eq_true, if_false]; rfl, ?_⟩
        refine ⟨?_, ?_, ⟨rfl, ?_⟩, ?_⟩
        · simp [Heap.numAdd, Heap.setNum, Heap.setParent, Heap.setFirst]
        · simp [Heap.numAdd, Heap.setNum, Heap.setParent, Heap.connectAdjacent, Heap.setNext, Heap.setFirst]
        · simp [Heap.numAdd, Heap.setNum, Heap.setParent, Heap.connectAdjacent, Heap.setNext, Heap.setFirst]
        · simp [Heap.numAdd, Heap.setNum, Heap.setParent, Heap.connectAdjacent, Heap.setNext, Heap.setPrev, Heap.setFirst, upd_apply, Ne.symm hfn]
      have hgn : g.alive n = true := by rw [hg5.1]; exact hn1
      refine ⟨g, by rw [hunf, hins, hg1], ?_, ?_, ?_, ?_⟩
      · have : g.upgrade (some q) = some q := by simp [Heap.upgrade, Option.filter, hg5.1, hq1]
        rw [Heap.parentLink, hg2, this]
      · have : g.firstChildLink q = some n := hg5.2
        simp [Heap.lastChildLink, this, Heap.prevCycLink, hg6, hu _ hgn, Except.map]
      · intro h2; exact hg3
      · intro _ h2; cases h2

/-- Replacing the childless last of several children. -/
theorem replace_stale (W : WF h ch) (hs : ch p = f :: (l1 ++ [n])) (hc : ch n = [])
    (e : h.replaceWithChildren n = .ok (h', .ok ())) : PrevStays f n h' := by
  have hs' : ch p = (f :: l1) ++ n :: [] := hs
  have hm : n ∈ ch p := by simp [hs]
  have ha := W.alive_of_mem hm
  have hp := W.alive_parent hm
  have hfn : f ≠ n := by
    have := W.nodup p
    rw [hs] at this
    rintro rfl; simp at this
  rw [W.replaceWithChildren_eq ha] at e
  have hpc : h.prevCyc f = some n := by
    have := W.back.pseg p
    rw [hs] at this
    rw [this.1, ← List.cons_append, List.getLast?_append]
    simp
  obtain ⟨t, ht, -⟩ := W.tree.live n ha
  have htc : h.treeCore n = .ok t := (W.tree.treeCore_iff ha).2 ht
  have hfirst : (h.acqTree t).firstChildLink n = none := by
    show h.firstChild n = none
    rw [W.first n ha, hc]; rfl
  have hparl : (h.acqTree t).parentLink n = some p := by
    show h.parentLink n = some p
    rw [W.toFShape.parentLink ha, W.parent_of_mem hm]
  have hprev : (h.acqTree t).prevLink n = .ok (some ((f :: l1).getLast (by simp))) := by
    show h.prevLink n = _
    rw [W.toShape.prevLink_at hs', List.getLast?_eq_some_getLast (by simp)]
  have hnx : (h.acqTree t).nextLink n = none := by
    show h.next n = none
    rw [W.toFShape.next_at hs']; rfl
  simp only [Heap.replaceWithChildrenL, htc, bind, Except.bind, hfirst, hparl, Heap.replaceNonRootL,
    Heap.reparentLoopL, hprev, hnx, Heap.replaceRelinkNoneL, pure, Except.pure] at e
  split at e
  · cases e
  rename_i v1 e1
  split at e
  · cases e
  rename_i v2 e2
  split at e
  · cases e
  rename_i v3 e3
  cases e
  have K1 : PrevStays f n v1 := by
    split at e1
    · cases e1
    unfold Heap.numSub at e1
    split at e1
    · cases e1
    rename_i e4
    split at e4
    · cases e4
    cases e4; cases e1
    exact .inl hpc
  have K2 : PrevStays f n v2 := by
    unfold Heap.replaceTailL at e2
    simp only at e2
    split at e2
    · cases e2
    · cases e2
    rename_i v5 e5
    refine PrevStays.relTree (PrevStays.setMemberships ?_ _ e5) _ e2
    rcases K1 with K | K
    · left
      simpa [Heap.allocTree, Heap.setNum, Heap.setNext, Heap.setPrev, Heap.setFirst, Heap.setParent,
        upd_apply, hfn] using K
    · exact .inr K
  exact K2.relTree _ e3

end Dendron
