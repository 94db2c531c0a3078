import Verif.Proofs.StrictMore
import Verif.Proofs.ReplaceSpec
import Verif.Spec.World

/-! In consistent memories no edit frees a node before its end: the edits agree with their variants
without release checks.  The same holds in memories that differ from a consistent one in pointers
that are not read. -/

set_option linter.unusedSimpArgs false
set_option linter.unusedVariables false

set_option autoImplicit false

namespace Dendron
variable {α : Type} {h h' k : Heap α} {ch : NodeId → List NodeId} {n p q : NodeId} {t t' : TreeId}
  {l1 l2 m1 m2 : List NodeId} {D : NodeId → Prop} {E : List NodeId} {d : α} {T : RTree NodeId}

/-! ### Transfer between similar memories -/

theorem RefBut.sim (K : RefBut E k) (s : Sim D k h) : RefBut E h := by
  refine ⟨fun x hx => ?_, fun x hx => ?_⟩
  · rw [s.alive] at hx; rw [s.referenced]; exact K.ref x hx
  · rw [s.alive] at hx; rw [s.nNode]; exact K.bound x hx

theorem UnlinkOK.sim (U : UnlinkOK k n) (s : Sim D k h) (hn : k.isRoot n = false → ¬ D n) :
    UnlinkOK h n := by
  intro p c hp hc
  rw [s.parentLink] at hp
  have hd := hn (by simp [Heap.isRoot, hp])
  rw [s.prevCycLink hd] at hc
  rw [s.next, s.firstChild]
  exact U p c hp hc

theorem LastNext.sim (L : LastNext k p) (s : Sim D k h) (hp : FirstNot D k p) : LastNext h p := by
  intro f l e
  rw [s.firstLastChildLink hp] at e
  rw [s.next, s.alive]
  exact L f l e

/-- The first children an insertion may look at are not in `D`. -/
def LastReads (D : NodeId → Prop) (h : Heap α) : InsertAs NodeId → Prop
  | .firstChildOf _ | .previousSiblingOf _ => True
  | .lastChildOf p => FirstNot D h p
  | .nextSiblingOf a => ∀ p, h.parentLink a = some p → h.nextLink a = none → FirstNot D h p

theorem InsReads.last {dest : InsertAs NodeId} (r : InsReads D k dest) : LastReads D k dest := by
  cases dest with
  | firstChildOf p => trivial
  | lastChildOf p => exact r
  | previousSiblingOf a => trivial
  | nextSiblingOf a =>
    intro p hp hx
    have := r p hp
    rw [hx] at this
    exact this

theorem InsertOK.sim {dest : InsertAs NodeId} (I : InsertOK k dest) (s : Sim D k h)
    (r : LastReads D k dest) : InsertOK h dest := by
  cases dest with
  | firstChildOf p => show h.alive p = true; rw [s.alive]; exact I
  | lastChildOf p => exact ⟨by rw [s.alive]; exact I.1, I.2.sim s r⟩
  | previousSiblingOf a => trivial
  | nextSiblingOf a =>
    refine ⟨by rw [s.alive]; exact I.1, fun p hp hx => ?_⟩
    rw [s.parentLink] at hp
    rw [s.nextLink] at hx
    exact (I.2 p hp hx).sim s (r p hp hx)

/-- Inserting here fails at once, or nothing is freed. -/
def InsertReady (h : Heap α) (n : NodeId) (dest : InsertAs NodeId) : Prop :=
  ReadyToInsert h n dest ∨ (dest.isSibling = true ∧ h.parentLink dest.anchor = none)

theorem InsertReady.strict {b : Bool} {dest : InsertAs NodeId} (R : InsertReady h n dest) :
    h.insert [] n b dest = h.insertL n b dest := by
  rcases R with R | ⟨R1, R2⟩
  · exact R.strict
  · cases dest with
    | firstChildOf p => cases R1
    | lastChildOf p => cases R1
    | previousSiblingOf a =>
      have : h.parentLink a = none := R2
      simp only [Heap.insert, Heap.insertL, this]
    | nextSiblingOf a =>
      have : h.parentLink a = none := R2
      simp only [Heap.insert, Heap.insertL, this]

theorem InsertReady.sim {dest : InsertAs NodeId} (R : InsertReady k n dest) (s : Sim D k h)
    (r : LastReads D k dest) : InsertReady h n dest := by
  rcases R with R | ⟨R1, R2⟩
  · exact .inl ⟨R.ref.sim s, by rw [s.alive]; exact R.alive, by rw [s.next]; exact R.next, R.dest.sim s r⟩
  · exact .inr ⟨R1, by rw [s.parentLink]; exact R2⟩

/-! ### Consistent memories -/

theorem FShape.next_last (S : FShape h ch) {l : NodeId} (e : (ch p).getLast? = some l) :
    h.next l = none := by
  obtain ⟨ys, hy⟩ := List.getLast?_eq_some_iff.1 e
  exact S.next_at (l2 := []) hy

theorem Shape.unlinkOK (S : Shape h ch) (ha : h.alive n = true) : UnlinkOK h n := by
  intro p c hp hc
  rw [S.parentLink ha] at hp
  have hm := S.mem_of_parent ha hp
  have hpa := S.alive_parent hm
  obtain ⟨l1, l2, hs⟩ := List.append_of_mem hm
  rcases List.eq_nil_or_concat l1 with rfl | ⟨l, x, rfl⟩
  · have hs' : ch p = n :: l2 := by simpa using hs
    rw [S.prevCycLink_first hs'] at hc
    simp only [Except.ok.injEq] at hc
    have hx : h.next c = none := S.next_last (p := p) (by
      rw [hs', ← hc]; exact List.getLast?_eq_some_getLast (List.cons_ne_nil _ _))
    refine ⟨fun _ => by rw [S.first p hpa, hs']; rfl, fun y hy => ?_⟩
    rw [hx] at hy; cases hy
  · rw [List.concat_eq_append] at hs
    rw [S.prevCycLink_mid hs] at hc
    simp only [Except.ok.injEq] at hc
    subst hc
    have hx : h.next x = some n := S.next_at (p := p) (l1 := l) (l2 := n :: l2) (by simp [hs])
    refine ⟨(fun e => by rw [hx] at e; cases e), fun y hy => ?_⟩
    rw [hx] at hy; cases hy
    refine ⟨rfl, ?_⟩
    rintro rfl
    have := S.nodup p
    rw [hs, List.append_assoc] at this
    have := (List.nodup_append.1 this).2.1
    simp at this

theorem Shape.lastNext (S : Shape h ch) (ha : h.alive p = true) : LastNext h p := by
  intro f l e
  cases hc : ch p with
  | nil => rw [S.firstLast_nil ha hc] at e; cases e
  | cons x xs =>
    rw [S.firstLast_cons hc] at e
    simp only [Except.ok.injEq, Option.some.injEq, Prod.mk.injEq] at e
    have hl : (ch p).getLast? = some l := by
      rw [hc, ← e.2]; exact List.getLast?_eq_some_getLast (List.cons_ne_nil _ _)
    exact ⟨S.next_last hl, S.alive_of_mem (List.mem_of_getLast? hl)⟩

theorem Shape.insertOK {dest : InsertAs NodeId} (S : Shape h ch) (ha : h.alive dest.anchor = true) :
    InsertOK h dest := by
  cases dest with
  | firstChildOf p => exact ha
  | lastChildOf p => exact ⟨ha, S.lastNext ha⟩
  | previousSiblingOf a => trivial
  | nextSiblingOf a => exact ⟨ha, fun p hp _ => S.lastNext (parentLink_alive' hp)⟩

/-- The cyclic pointer of a first child leads to a node without next sibling even when the last
child has just been unlinked. -/
theorem Shape.unlink_lastNext {k1 : Heap α} {b : Bool} (S : Shape k ch) (ha : k.alive n = true)
    (hr : k.isRoot n = false) (e : k.newByUnlinkL n = .ok (k1, b)) (hq : k.alive q = true) :
    LastNext k1 q := by
  cases hpp : k.parent n with
  | none => rw [(S.isRoot_iff ha).2 hpp] at hr; cases hr
  | some p =>
    have hm := S.mem_of_parent ha hpp
    obtain ⟨l1, l2, hs⟩ := List.append_of_mem hm
    obtain ⟨g, eg, same, h1, h2, h3, h4, h5⟩ := newByUnlink_eq S hs
    rw [eg] at e
    obtain rfl : g = k1 := by simpa using congrArg (fun r => match r with | .ok x => x.1 | .error _ => k1) e
    intro f l efl
    unfold Heap.firstLastChildLink Heap.firstChildLink at efl
    cases hf : g.firstChild q with
    | none => simp only [hf] at efl; cases efl
    | some f' =>
      simp only [hf] at efl
      unfold Heap.prevCycLink at efl
      cases hu : g.upgrade (g.prevCyc f') with
      | none => simp only [hu] at efl; cases efl
      | some l' =>
        simp only [hu, Except.map, Except.ok.injEq, Option.some.injEq, Prod.mk.injEq] at efl
        obtain ⟨rfl, rfl⟩ := efl
        simp only [Heap.upgrade, Option.filter_eq_some_iff] at hu
        obtain ⟨hpc, hla⟩ := hu
        refine ⟨?_, hla⟩
        have hnd : (l1 ++ n :: l2).Nodup := hs ▸ S.nodup p
        have key : l' = n ∨ k.next l' = none := by
          rw [h4] at hpc
          by_cases hfn : f' = n
          · simp only [hfn, if_true, Option.some.injEq] at hpc; exact .inl hpc.symm
          simp only [hfn, if_false] at hpc
          rw [h2] at hf
          by_cases hqp : q = p
          · simp only [hqp, if_true] at hf
            by_cases hh : l2.head? = some f'
            · simp only [hh, if_true] at hpc
              cases l1 with
              | nil =>
                simp only [List.getLast?_nil, Option.none_or] at hpc
                refine .inr (S.next_last (p := p) ?_)
                rw [hs]
                simp only [List.nil_append]
                cases l2 with
                | nil => simp at hpc
                | cons y ys => rw [List.getLast?_cons_cons]; exact hpc
              | cons y ys =>
                simp only [List.cons_append, List.head?_cons, Option.some.injEq] at hf
                subst hf
                have : y ∈ l2 := List.mem_of_head? hh
                simp [this] at hnd
            · simp only [hh, if_false] at hpc
              cases l1 with
              | nil => exact absurd (by simpa using hf) hh
              | cons y ys =>
                simp only [List.cons_append, List.head?_cons, Option.some.injEq] at hf
                subst hf
                rw [S.prevCyc_at (l1 := []) (l2 := ys ++ n :: l2) (by simpa using hs)] at hpc
                refine .inr (S.next_last (p := p) ?_)
                rw [hs]; simpa using hpc
          · simp only [hqp, if_false] at hf
            rw [S.first q hq] at hf
            have hfq : f' ∈ ch q := List.mem_of_head? hf
            have hh : l2.head? ≠ some f' := by
              intro hh
              exact hqp (S.unique_parent hfq (by rw [hs]; simp [List.mem_of_head? hh]))
            simp only [hh, if_false] at hpc
            cases hc : ch q with
            | nil => rw [hc] at hf; cases hf
            | cons y ys =>
              rw [hc] at hf
              simp only [List.head?_cons, Option.some.injEq] at hf
              subst hf
              rw [S.prevCyc_at (l1 := []) (l2 := ys) (by simpa using hc)] at hpc
              refine .inr (S.next_last (p := q) ?_)
              rw [hc]; simpa using hpc
        rw [h3]
        by_cases hln : l' = n
        · simp [hln]
        · simp only [hln, if_false]
          have hkn : k.next l' = none := by rcases key with h0 | h0; exact absurd h0 hln; exact h0
          by_cases hl1 : l1.getLast? = some l'
          · obtain ⟨ys, hy⟩ := List.getLast?_eq_some_iff.1 hl1
            have := S.next_at (p := p) (n := l') (l1 := ys) (l2 := n :: l2) (by rw [hs, hy]; simp)
            rw [hkn] at this; cases this
          · simp only [hl1, if_false]; exact hkn

theorem Shape.unlink_insertOK {k1 : Heap α} {b : Bool} {dest : InsertAs NodeId} (S : Shape k ch)
    (ha : k.alive n = true) (hr : k.isRoot n = false) (e : k.newByUnlinkL n = .ok (k1, b))
    (hd : k.alive dest.anchor = true) : InsertOK k1 dest := by
  have hal := newByUnlinkL_alive e
  cases dest with
  | firstChildOf p => show k1.alive p = true; rw [hal]; exact hd
  | lastChildOf p => exact ⟨by rw [hal]; exact hd, S.unlink_lastNext ha hr e hd⟩
  | previousSiblingOf a => trivial
  | nextSiblingOf a =>
    refine ⟨by rw [hal]; exact hd, fun p hp _ => S.unlink_lastNext ha hr e ?_⟩
    rw [← hal]; exact parentLink_alive' hp

/-! ### The edits -/

theorem WF.detachSubtree_sim (W : WF k ch) (s : Sim D k h) (ha : k.alive n = true)
    (hn : k.isRoot n = false → ¬ D n) : h.detachSubtree n = h.detachSubtreeL n :=
  detachSubtree_strict (W.refBut.sim s) (by rw [s.alive]; exact ha) ((W.toShape.unlinkOK ha).sim s hn)

theorem WF.detachSubtree_eq (W : WF h ch) (ha : h.alive n = true) :
    h.detachSubtree n = h.detachSubtreeL n :=
  W.detachSubtree_sim (Sim.refl (D := fun _ => False) h) ha (fun _ => id)

theorem WF.detachInsert_sim {dest : InsertAs NodeId} (W : WF k ch) (s : Sim D k h)
    (ha : k.alive n = true) (hd : k.alive dest.anchor = true) (hn : k.isRoot n = false → ¬ D n)
    (hr : k.belongsToSameTree n dest.anchor = true → k.isRoot n = false → ∀ h1 b,
      k.newByUnlinkL n = .ok (h1, b) → LastReads D h1 dest)
    (hr' : k.belongsToSameTree n dest.anchor = false → ∀ t h1 b h2, k.treeCore dest.anchor = .ok t →
      (k.acqTree t).newByUnlinkL n = .ok (h1, b) → h1.setMemberships n t = .ok (some h2) →
      InsertReady h2 n dest ∧ LastReads D h2 dest) :
    h.detachInsert n dest = h.detachInsertL n dest := by
  have hnt : ∀ {k' h' : Heap α}, Sim D k' h' → (k'.isRoot n = false → ¬ D n) → ∀ {h1 b},
      h'.newByUnlinkL n = .ok (h1, b) → ∃ k1, k'.newByUnlinkL n = .ok (k1, b) ∧ Sim D k1 h1 := by
    intro k' h' s hn h1 b e
    have := s.newByUnlinkL hn
    rw [e] at this
    generalize k'.newByUnlinkL n = r at this ⊢
    cases this with
    | @ok x y s1 =>
      obtain ⟨k1, b'⟩ := x
      obtain ⟨s1, e1⟩ := s1
      simp only at s1 e1
      subst e1
      exact ⟨k1, rfl, s1⟩
  refine detachInsert_strict (W.refBut.sim s) (by rw [s.alive]; exact ha)
    ((W.toShape.unlinkOK ha).sim s hn) ?_ ?_
  · intro hb hroot h1 b e
    rw [s.belongsToSameTree] at hb
    rw [s.isRoot] at hroot
    obtain ⟨k1, e1, s1⟩ := hnt s hn e
    exact (W.toShape.unlink_insertOK ha hroot e1 hd).sim s1 (hr hb hroot k1 b e1)
  · intro hb t ht h1 b h2 e em
    rw [s.belongsToSameTree] at hb
    rw [s.treeCore] at ht
    obtain ⟨k1, e1, s1⟩ := hnt (s.acqTree t) hn e
    have := s1.setMemberships n t
    rw [em] at this
    cases e2 : k1.setMemberships n t with
    | error x => rw [e2] at this; cases this
    | ok o =>
      rw [e2] at this
      cases this with
      | ok s2 =>
        cases s2 with
        | some s2 =>
          rename_i k2
          obtain ⟨r1, r2⟩ := hr' hb t k1 b k2 ht e1 e2
          exact (r1.sim s2 r2).strict

/-- The state of the memory before the insertion into another tree. -/
theorem moveOther_ready {dest : InsertAs NodeId} (W : WF h ch) (hs : ch p = l1 ++ n :: l2)
    (hT : SubtreeAt ch n T)
    (ht : h.memTree n = some t) (hd : DestSplit ch dest q m1 m2) (hq : h.alive q = true)
    (ht' : h.memTree q = some t') (hne : t ≠ t')
    (g1 : (h.lockedIn T.nodes : Int) ≤ h.grants t) (g2 : 0 ≤ h.grants t')
    (g3 : h.grants t' + h.lockedIn T.nodes ≤ Lock.isizeMax) {h1 h2 : Heap α} {b : Bool}
    (e1 : (h.acqTree t').newByUnlinkL n = .ok (h1, b))
    (e2 : h1.setMemberships n t' = .ok (some h2)) : ReadyToInsert h2 n dest := by
  obtain ⟨-, -, -, -, -, -, -, -, f1, f2, k, c, e1', e2', sim, Sk, hka, hcq, hpn, hpq, -, -, -, -, -, hkn, TW⟩ :=
    moveOther_wideL W hs hT ht hd hq ht' hne g1 g2 g3
  rw [e1] at e1'
  obtain ⟨rfl, rfl⟩ : h1 = f1 ∧ b = true := by simpa using e1'
  rw [e2] at e2'
  obtain rfl : h2 = f2 := by simpa using e2'
  have hnp : n ∈ ch p := by simp [hs]
  have hpne : q ≠ p := by
    rintro rfl
    rw [← W.tree.child n q (W.alive_of_mem hnp) (W.parent_of_mem hnp)] at ht'
    rw [ht] at ht'
    exact hne (by simpa using ht')
  have Kk : RefBut [n] k := by
    refine ⟨fun x hx => ?_, Sk.bound⟩
    by_cases hxn : x = n
    · exact .inl (by simp [hxn])
    · right
      cases hxp : k.parent x with
      | none =>
        obtain ⟨u, hu, hua⟩ := TW.live x hx
        exact referenced_iff.2 (.inr (.inl ⟨u, TW.bound u hua, TW.top x u hxn hx hxp hu⟩))
      | some y =>
        have hm := Sk.mem_of_parent hx hxp
        obtain ⟨m1, m2, hsm⟩ := List.append_of_mem hm
        rcases List.eq_nil_or_concat m1 with rfl | ⟨m, z, rfl⟩
        · have hya := Sk.alive_parent hm
          exact ref_first (Sk.bound y hya) hya (by rw [Sk.first y hya, hsm]; rfl)
        · rw [List.concat_eq_append] at hsm
          have hza : k.alive z = true := Sk.alive_of_mem (p := y) (by rw [hsm]; simp)
          exact ref_next (Sk.bound z hza) hza (Sk.next_at (p := y) (l1 := m) (l2 := x :: m2) (by simp [hsm]))
  have hfn : FirstNot (StaleHead l1 l2) k q := by
    intro f hf hst
    rw [Sk.first q hka, hcq] at hf
    have h1 : f ∈ ch q := List.mem_of_head? hf
    have h2 : f ∈ ch p := by rw [hs]; exact List.mem_append_left _ (List.mem_of_head? hst.2)
    exact hpne (W.unique_parent h1 h2)
  have hanc : k.alive dest.anchor = true := by
    rcases hd.anchor with e | e
    · rw [e]; exact hka
    · exact Sk.alive_of_mem (p := q) (by rw [hcq]; exact e)
  have hr : LastReads (StaleHead l1 l2) k dest := by
    cases hd with
    | first => trivial
    | last => exact hfn
    | prev _ => trivial
    | @next _ a _ _ hsa =>
      intro y hy _
      have hm : a ∈ c q := by rw [hcq, hsa]; simp
      rw [Sk.parentLink (c := a) hanc, Sk.parent_of_mem hm] at hy
      cases hy; exact hfn
  have R : ReadyToInsert k n dest :=
    ⟨Kk, hkn, Sk.rootNext n hkn hpn, Sk.insertOK hanc⟩
  exact ⟨R.ref.sim sim.symm, by rw [← sim.alive]; exact R.alive, by rw [← sim.next]; exact R.next,
    R.dest.sim sim.symm hr⟩

theorem WF.refs_alive (W : WF h ch) {m f : NodeId} (hm : h.alive m = true)
    (hf : h.firstChild m = some f) : h.alive f = true := by
  rw [W.first m hm] at hf
  exact W.alive_of_mem (List.mem_of_head? hf)

/-- Allocation in similar memories. -/
theorem Sim.of_newOrphan {h1 : Heap α} {m : NodeId} (s : Sim D k h) (e : h.newOrphan d t = .ok (h1, m)) :
    ∃ k1, k.newOrphan d t = .ok (k1, m) ∧ Sim D k1 h1 := by
  have := s.newOrphan d t
  rw [e] at this
  cases e1 : k.newOrphan d t with
  | error x => rw [e1] at this; cases this
  | ok v =>
    rw [e1] at this
    cases this with
    | ok s1 =>
      obtain ⟨k1, m'⟩ := v
      obtain ⟨s1, e2⟩ := s1
      simp only at s1 e2
      subst e2
      exact ⟨k1, rfl, s1⟩

theorem WF.nodeCreate_sim {as : AdoptAs} (W : WF k ch) (s : Sim D k h) (ha : k.alive n = true)
    (hr : LastReads D k (as.at n)) : h.nodeCreate n d as = h.nodeCreateL n d as := by
  have hanc : k.alive (as.at n).anchor = true := by cases as <;> exact ha
  refine nodeCreate_strict (W.refBut.sim s) (by rw [s.alive]; exact ha)
    ((W.toShape.insertOK hanc).sim s hr) ?_
  intro m f hm hf
  rw [s.alive] at hm ⊢
  rw [s.firstChild] at hf
  exact W.refs_alive hm hf

theorem WF.nodeCreate_eq {as : AdoptAs} (W : WF h ch) (ha : h.alive n = true) :
    h.nodeCreate n d as = h.nodeCreateL n d as :=
  W.nodeCreate_sim (Sim.refl (D := fun _ => False) h) ha (by
    cases as
    · trivial
    · exact fun _ _ => id
    · trivial
    · exact fun _ _ _ _ _ => id)

theorem WF.createInterruptingChild_sim (W : WF k ch) (s : Sim D k h) (ha : k.alive n = true) :
    h.createInterruptingChild n d = h.createInterruptingChildL n d := by
  unfold Heap.createInterruptingChild Heap.createInterruptingChildL
  cases h.treeCore n with
  | error e => rfl
  | ok t =>
    simp only [bind, Except.bind]
    rw [createAndProcess_congr (k := fun h m => h.interruptChildL n m)]
    intro h1 m e
    have O := newOrphan_in (W.refBut.sim s) e
    have hnm : n ≠ m := by
      have := W.bound n ha
      rw [← s.nNode] at this
      exact O.id ▸ Nat.ne_of_lt this
    exact interruptChild_strict O.ref O.alive (by rw [O.first, upd_same]) hnm

theorem WF.createInterruptingChild_eq (W : WF h ch) (ha : h.alive n = true) :
    h.createInterruptingChild n d = h.createInterruptingChildL n d :=
  W.createInterruptingChild_sim (Sim.refl (D := fun _ => False) h) ha

theorem WF.createInterruptingParent_sim (W : WF k ch) (s : Sim D k h) (ha : k.alive n = true)
    (hr : ∀ p, k.parentLink n = some p → ¬ D n ∧
        match k.nextLink n with
        | some x => ¬ D x
        | none => FirstNot D k p) :
    h.createInterruptingParent n d = h.createInterruptingParentL n d := by
  unfold Heap.createInterruptingParent Heap.createInterruptingParentL
  cases htc : h.treeCore n with
  | error e => rfl
  | ok t =>
    simp only [bind, Except.bind]
    rw [createAndProcess_congr (k := fun h m => h.interruptParentL n t m)]
    intro h1 m e
    have K := W.refBut.sim s
    have O := newOrphan_in K e
    obtain ⟨k1, ek, s1⟩ := s.of_newOrphan e
    have hal : h.alive n = true := by rw [s.alive]; exact ha
    have hnm : n ≠ m := O.id ▸ Nat.ne_of_lt (K.bound n hal)
    have hm : m = k.nNode := O.id.trans s.nNode
    obtain ⟨-, kd, kp, kf, kx, -⟩ := newOrphan_facts ek
    have hkp : ∀ p, k1.parentLink n = some p → k.parentLink n = some p ∧ p ≠ m := by
      intro p hp
      simp only [Heap.parentLink, Heap.upgrade, kp, upd_ne _ _ hnm, Option.filter_eq_some_iff] at hp ⊢
      have hm := W.mem_of_parent ha hp.1
      have hpa := W.alive_parent hm
      refine ⟨⟨hp.1, hpa⟩, ?_⟩
      rintro rfl
      have := W.bound _ hpa
      rw [← s.nNode] at this
      exact absurd O.id (Nat.ne_of_lt this)
    have hkx : k1.nextLink n = k.nextLink n := by
      simp only [Heap.nextLink, kx, upd_ne _ _ hnm]
    have htk : k.memTree n = some t := by
      rw [s.treeCore] at htc; exact (W.tree.treeCore_iff ha).1 htc
    have hn1 : h1.alive n = true := by rw [O.live]; simp [hal]
    -- the state of the consistent memory once the new node is in place
    have mid : ∀ p, k1.parentLink n = some p → ∃ k2, k1.insertL m true (.nextSiblingOf n) = .ok (k2, .ok ()) ∧
        UnlinkOK k2 n ∧ LastNext k1 p ∧ ¬ D n ∧
        (match k1.nextLink n with | some x => ¬ D x | none => FirstNot D k1 p) := by
      intro p hp
      obtain ⟨hp', hpm⟩ := hkp p hp
      have hmem := W.mem_of_parent ha ((W.parentLink ha).symm.trans hp')
      obtain ⟨l1, l2, hs⟩ := List.append_of_mem hmem
      have htp : k.memTree p = some t := by
        rw [← W.tree.child n p ha (W.parent_of_mem hmem)]; exact htk
      obtain ⟨k1', k2, e1, e2, c, W2, -⟩ := create_insert (d := d) W (.next hs) (W.alive_parent hmem) htp
      rw [ek] at e1
      obtain ⟨rfl, rfl⟩ : k1 = k1' ∧ m = k.nNode := by simpa using e1
      refine ⟨k2, e2, W2.toShape.unlinkOK (by rw [c.alive]; simp [ha]), ?_, (hr p hp').1, ?_⟩
      · exact (newOrphan_in W.refBut ek).lastNext W.refBut (W.alive_parent hmem)
          (fun f hf => W.refs_alive (W.alive_parent hmem) hf) (W.toShape.lastNext (W.alive_parent hmem))
      · have := (hr p hp').2
        rw [hkx]
        cases hx : k.nextLink n with
        | some x => rw [hx] at this; exact this
        | none =>
          rw [hx] at this
          intro f hf
          rw [kf, upd_ne _ _ hpm] at hf
          exact this f hf
    have hmp : h1.parentLink n ≠ some m := by
      intro hp
      rw [s1.parentLink] at hp
      exact (hkp m hp).2 rfl
    refine interruptParent_strict O.ref hn1 O.alive (by rw [O.first, upd_same]) (by rw [O.next, upd_same])
      hnm hmp ⟨?_, ?_, ?_, ?_⟩
    · intro p hp hx
      rw [s1.parentLink] at hp
      rw [s1.nextLink] at hx
      obtain ⟨-, -, -, r1, -, r2⟩ := mid p hp
      rw [hx] at r2
      exact r1.sim s1 r2
    · intro p x h2 hp hx e2
      rw [s1.parentLink] at hp
      rw [s1.nextLink] at hx
      obtain ⟨k2, f1, f2, -, r1, r2⟩ := mid p hp
      rw [hx] at r2
      simp only [Heap.insertL, hp, hx, bind, Except.bind, pure, Except.pure] at f1
      have rel := s1.insertBetweenL (a := n) (b := x) r2 m p
      rw [e2] at rel
      cases e3 : k1.insertBetweenL m p n x with
      | error y => rw [e3] at rel; cases rel
      | ok g =>
        rw [e3] at rel f1
        simp only [Except.ok.injEq, Prod.mk.injEq] at f1
        obtain ⟨rfl, -⟩ := f1
        cases rel with
        | ok s2 => exact f2.sim s2 (fun _ => r1)
    · intro p h2 hp hx e2
      rw [s1.parentLink] at hp
      rw [s1.nextLink] at hx
      obtain ⟨k2, f1, f2, -, r1, r2⟩ := mid p hp
      rw [hx] at r2
      simp only [Heap.insertL, hp, hx] at f1
      have rel := s1.insertLastL r2 m true
      rw [e2, f1] at rel
      cases rel with
      | ok s2 => exact f2.sim s2.1 (fun _ => r1)
    · intro hp y hy
      rw [s1.parentLink] at hp
      have hpn : k.parent n = none := by
        have e1 : k1.parentLink n = k.parentLink n := by
          simp only [Heap.parentLink, Heap.upgrade, kp, upd_ne _ _ hnm]
          cases hpp : k.parent n with
          | none => rfl
          | some p =>
            have := W.alive_parent (W.mem_of_parent ha hpp)
            have h2 : k1.alive p = true := by
              rw [Heap.alive, kd]
              by_cases hpm : p = m
              · simp [hpm]
              · rw [upd_ne _ _ hpm]; exact this
            simp [Option.filter, this, h2]
        rw [e1, W.parentLink ha] at hp
        exact hp
      rw [O.root, s.root, W.tree.top n t ha hpn htk] at hy
      cases hy; rfl

theorem WF.createInterruptingParent_eq (W : WF h ch) (ha : h.alive n = true) :
    h.createInterruptingParent n d = h.createInterruptingParentL n d :=
  W.createInterruptingParent_sim (Sim.refl (D := fun _ => False) h) ha (fun p _ => ⟨id, by
    cases h.nextLink n
    · exact fun _ _ => id
    · exact id⟩)

theorem WF.replaceWithChildren_sim (W : WF k ch) (s : Sim D k h) (ha : k.alive n = true)
    (hr : ∀ p, k.parentLink n = some p → ¬ D n ∧ FirstNot D k n) :
    h.replaceWithChildren n = h.replaceWithChildrenL n := by
  refine replaceWithChildren_strict (W.refBut.sim s) ?_ ?_
  · intro p hp
    have hp' := hp
    rw [s.parentLink] at hp'
    obtain ⟨r1, r2⟩ := hr p hp'
    have hm := W.mem_of_parent ha ((W.parentLink ha).symm.trans hp')
    refine ⟨?_, hp, (W.toShape.unlinkOK ha).sim s (fun _ => r1), ?_⟩
    · rintro rfl; exact W.not_self hm
    · intro f l hf hl
      rw [s.firstChild] at hf
      rw [s.prevCycLink (r2 f hf)] at hl
      rw [s.next, s.alive]
      have L := W.toShape.lastNext ha f l (by
        simp only [Heap.firstLastChildLink, Heap.firstChildLink, hf, hl, Except.map])
      refine ⟨L.1, ?_, L.2⟩
      intro hln
      rw [hln] at hl
      rw [W.first n ha] at hf
      cases hc : ch n with
      | nil => rw [hc] at hf; cases hf
      | cons x xs =>
        rw [hc] at hf
        simp only [List.head?_cons, Option.some.injEq] at hf
        subst hf
        rw [W.toShape.prevCycLink_first hc] at hl
        simp only [Except.ok.injEq] at hl
        exact W.not_self (p := n) (by rw [hc, ← hl]; exact List.getLast_mem _)
  · intro hp
    rw [s.parentLink] at hp
    have hpn : k.parent n = none := by rw [W.parentLink ha] at hp; exact hp
    refine ⟨?_, ?_, by rw [s.next]; exact W.rootNext n ha hpn⟩
    · intro t y ht hy
      rw [s.treeCore] at ht
      rw [s.root, W.tree.top n t ha hpn ((W.tree.treeCore_iff ha).1 ht)] at hy
      cases hy; rfl
    · intro t ht
      rw [s.treeCore] at ht
      rw [s.nTree]
      exact W.tree.bound t (W.tree_alive ha ((W.tree.treeCore_iff ha).1 ht))

theorem WF.replaceWithChildren_eq (W : WF h ch) (ha : h.alive n = true) :
    h.replaceWithChildren n = h.replaceWithChildrenL n :=
  W.replaceWithChildren_sim (Sim.refl (D := fun _ => False) h) ha
    (fun p _ => ⟨id, fun _ _ => id⟩)

/-- Moves within a tree. -/
theorem WF.detachInsert_same {dest : InsertAs NodeId} (W : WF h ch) (ha : h.alive n = true)
    (hd : h.alive dest.anchor = true) (hb : h.belongsToSameTree n dest.anchor = true) :
    h.detachInsert n dest = h.detachInsertL n dest :=
  W.detachInsert_sim (Sim.refl (D := fun _ => False) h) ha hd (fun _ => id)
    (fun _ _ _ _ _ => by cases dest <;> first | trivial | exact fun _ _ => id | exact fun _ _ _ _ _ => id)
    (fun hb' => by rw [hb] at hb'; cases hb')

theorem lastReads_false (h : Heap α) (dest : InsertAs NodeId) : LastReads (fun _ => False) h dest := by
  cases dest <;> first | trivial | exact fun _ _ => id | exact fun _ _ _ _ _ => id

/-- Moves to another tree. -/
theorem WF.detachInsert_other {dest : InsertAs NodeId} (W : WF h ch) (ha : h.alive n = true)
    (hd : h.alive dest.anchor = true)
    (hr : ∀ t h1 b h2, h.treeCore dest.anchor = .ok t → (h.acqTree t).newByUnlinkL n = .ok (h1, b) →
      h1.setMemberships n t = .ok (some h2) → InsertReady h2 n dest) :
    h.detachInsert n dest = h.detachInsertL n dest :=
  W.detachInsert_sim (Sim.refl (D := fun _ => False) h) ha hd (fun _ => id)
    (fun _ _ _ _ _ => lastReads_false _ _) (fun _ t h1 b h2 e1 e2 e3 => ⟨hr t h1 b h2 e1 e2 e3, lastReads_false _ _⟩)

end Dendron
