import Verif.Model.Cost
import Verif.Proofs.StrictSpec

/-! Costs of detaching and moving subtrees. -/

set_option linter.unusedSimpArgs false
set_option linter.unusedVariables false

set_option autoImplicit false

namespace Dendron
open RTree

variable {α : Type} {h h2 : Heap α} {ch : NodeId → List NodeId} {n p q r : NodeId} {t t' : TreeId}
  {T R : RTree NodeId} {l1 l2 m1 m2 : List NodeId}

/-! ### The budgeted versions are the modelled functions -/

theorem detachSubtreeF_erase (h : Heap α) (n : NodeId) :
    h.detachSubtree n = (if h.isRoot n then .ok h else
      match h.newByUnlink [] n with
      | .error e => .error e
      | .ok (h1, _) => h1.createNewTreeF (2 * (h1.allocTree n).1.nNode + 2) n) := by
  unfold Heap.detachSubtree
  split
  · rfl
  · simp only [bind, Except.bind]
    cases h.newByUnlink [] n with
    | error e => rfl
    | ok v => rfl

/-- more budget does not change a result -/
theorem setMembLoop_mono {start : NodeId} : ∀ {f g : Nat} {ev : Option (DftEvent NodeId)} {h : Heap α}
    {r : Option (Heap α)}, Heap.setMembLoop f start t ev h = .ok r → f ≤ g →
    Heap.setMembLoop g start t ev h = .ok r
  | f, g, none, h, r, e, hg => by cases f <;> cases g <;> exact e
  | 0, _, some _, _, _, e, _ => by cases e
  | f + 1, 0, some ev, h, r, e, hg => by omega
  | f + 1, g + 1, some ev, h, r, e, hg => by
    unfold Heap.setMembLoop at e ⊢
    split at e
    · rename_i hc; rw [if_pos hc]; exact e
    · rename_i hc
      rw [if_neg hc]
      simp only at e ⊢
      cases ev with
      | opn m =>
        simp only at e ⊢
        generalize (start :: match h.evNext (.opn m) with | some e => [e.value] | none => []) = held at e ⊢
        cases e1 : h.setTreeCore (m :: held) m t with
        | error x => rw [e1] at e; cases e
        | ok o =>
          rw [e1] at e
          cases o with
          | none => exact e
          | some h1 =>
            simp only at e ⊢
            cases e2 : h1.release h1.relFuel held m with
            | error x => rw [e2] at e; cases e
            | ok h2 =>
              rw [e2] at e
              exact setMembLoop_mono e (by omega)
      | cls m =>
        simp only at e ⊢
        generalize (start :: match h.evNext (.cls m) with | some e => [e.value] | none => []) = held at e ⊢
        cases e2 : h.release h.relFuel held m with
        | error x => rw [e2] at e; cases e
        | ok h2 =>
          rw [e2] at e
          exact setMembLoop_mono e (by omega)

/-- the loop needs one iteration for every event -/
theorem MoveCtx.loop_needs (C : MoveCtx h ch n T t t' r R) : ∀ (evs : List (DftEvent NodeId))
    (D : List NodeId) (f : Nat), EvChain h.evNext evs → evs.getLast? = some (.cls n) → evs.Nodup →
    (∀ e ∈ evs, e.value ∈ T.nodes) → T.nodes = D ++ opens evs → f < evs.length →
    Heap.setMembLoop f n t' evs.head? ((h.relabel D t t').settle t R.nodes) = .error .diverge
  | [], D, f, _, hl, _, _, _, _ => by simp at hl
  | [e], D, f, _, hl, _, _, hT, hf => by
    cases f with
    | zero => rfl
    | succ f => simp at hf
  | e :: e2 :: evs, D, f, hc, hl, hnd, hv, hT, hf => by
    have hne : e ≠ .cls n := by
      rintro rfl
      rw [List.getLast?_cons_cons] at hl
      exact (List.nodup_cons.1 hnd).1 (List.mem_of_getLast? hl)
    have hve := hv e (by simp)
    have hve2 := hv e2 (by simp)
    simp only [EvChain] at hc
    cases f with
    | zero => rfl
    | succ f =>
      have hL := C.sameLinks D
      have hnx : ((h.relabel D t t').settle t R.nodes).evNext e = some e2 := by
        rw [C.evNext hL hve hne]; exact hc.1
      have hnT : n ∈ T.nodes := by have := label_mem_nodes T; rwa [C.sub.1] at this
      have ih := fun D' hT' => MoveCtx.loop_needs C (e2 :: evs) D' f hc.2
        (by simpa [List.getLast?_cons_cons] using hl)
        (List.nodup_cons.1 hnd).2 (fun x hx => hv x (List.mem_cons_of_mem _ hx)) hT'
        (by simpa using hf)
      simp only [List.head?_cons] at ih ⊢
      unfold Heap.setMembLoop
      simp only [hne, if_false, hnx]
      cases e with
      | opn x =>
        simp only [DftEvent.value] at hve
        simp only [opens] at hT
        have hst := C.step (pins := x :: n :: [e2.value]) hT (by
          intro y hy
          simp only [List.mem_cons, List.not_mem_nil, or_false] at hy
          rcases hy with rfl | rfl | rfl <;> assumption)
        simp only [hst]
        have hL2 := C.sameLinks (D ++ [x])
        rw [C.release hL2 hve (by simp)]
        simp only
        exact ih (D ++ [x]) (by simpa using hT)
      | cls x =>
        simp only [DftEvent.value] at hve
        simp only [opens] at hT
        simp only
        rw [C.release hL hve (by simp)]
        simp only
        exact ih D hT

/-- exactly two iterations for every node -/
theorem MoveCtx.loop_exact (C : MoveCtx h ch n T t t' r R) (f : Nat) :
    (2 * T.nodes.length ≤ f → ∃ k, Heap.setMembLoop f n t' (some (.opn n)) h = .ok (some k)) ∧
    (f < 2 * T.nodes.length → Heap.setMembLoop f n t' (some (.opn n)) h = .error .diverge) := by
  have hnd := C.sub.nodup C.shape
  have h0 : (h.relabel [] t t').settle t R.nodes = h := by
    rw [relabel_nil C.ne, settle_held C.held]
  have hc := C.shape.evChain T C.sub.2 (by rw [C.sub.1]; exact C.alive)
  constructor
  · intro hf
    have := C.loop T.events [] f hc (by rw [events_last, C.sub.1]) (events_nodup T hnd) (mem_events_value T)
      (by rw [opens_events]; simp) (by rw [events_length]; exact hf)
    rw [h0, events_head, C.sub.1] at this
    exact ⟨_, this⟩
  · intro hf
    have := C.loop_needs T.events [] f hc (by rw [events_last, C.sub.1]) (events_nodup T hnd)
      (mem_events_value T) (by rw [opens_events]; simp) (by rw [events_length]; exact hf)
    rw [h0, events_head, C.sub.1] at this
    exact this

/-- the same in a memory that differs in pointers that are not read -/
theorem MoveCtx.loop_sim {D : NodeId → Prop} {g : Heap α} (C : MoveCtx h ch n T t t' r R) (s : Sim D g h) (f : Nat) :
    (2 * T.nodes.length ≤ f →
      Heap.setMembLoop f n t' (some (.opn n)) g = g.setMemberships n t') ∧
    (f < 2 * T.nodes.length → Heap.setMembLoop f n t' (some (.opn n)) g = .error .diverge) := by
  have run : ∀ f, 2 * T.nodes.length ≤ f → ∃ k, Heap.setMembLoop f n t' (some (.opn n)) g = .ok (some k) := by
    intro f hf
    obtain ⟨k, hk⟩ := (C.loop_exact f).1 hf
    have := s.setMembLoop f n t' (some (.opn n))
    rw [hk] at this
    obtain ⟨o, e, so⟩ := this.get
    cases so
    exact ⟨_, e⟩
  have hsz : 2 * T.nodes.length ≤ 2 * g.nNode + 2 := by
    have := C.sub.size_le C.shape C.alive
    rw [← s.nNode]; omega
  constructor
  · intro hf
    obtain ⟨k, e⟩ := run _ (Nat.le_refl _)
    rw [setMembLoop_mono e hf, Heap.setMemberships, setMembLoop_mono e hsz]
  · intro hf
    have := s.setMembLoop f n t' (some (.opn n))
    rw [(C.loop_exact f).2 hf] at this
    generalize Heap.setMembLoop f n t' (some (.opn n)) g = a at this
    cases this
    rfl

theorem WF.newByUnlink_eq (W : WF h ch) (ha : h.alive n = true) (held : List NodeId) :
    h.newByUnlink held n = h.newByUnlinkL n :=
  (newByUnlink_strict W.refBut ha (W.toShape.unlinkOK ha) held).1

theorem detach_exact (W : WF h ch) (hs : ch p = l1 ++ n :: l2) (hT : SubtreeAt ch n T)
    {rc lk : Nat} (hmem : h.mem n = .strong t rc lk)
    (g1 : (h.lockedIn T.nodes : Int) ≤ h.grants t)
    (g2 : (h.lockedIn T.nodes : Int) ≤ Lock.isizeMax) (f : Nat) :
    (2 * T.nodes.length ≤ f → h.detachSubtreeF f n = h.detachSubtree n) ∧
    (f < 2 * T.nodes.length → h.detachSubtreeF f n = .error .diverge) := by
  have hm : n ∈ ch p := by simp [hs]
  have ha := W.alive_of_mem hm
  have ht : h.memTree n = some t := by simp [Heap.memTree, hmem]
  have hta := W.tree_alive ha ht
  have htb := W.tree.bound t hta
  obtain ⟨r, hr⟩ := Option.isSome_iff_exists.1 hta
  obtain ⟨hx, h1, he, sim, s1, Sh1, p1⟩ := unlink_wide W.toShape hs
  have F1 := Sh1.toFShape
  have N1 := Sh1.num
  obtain ⟨h2, hh2⟩ : ∃ h2, h2 = (h1.allocTree n).1 := ⟨_, rfl⟩
  have hne : t ≠ h.nTree := Nat.ne_of_lt htb
  have fresh : h.root h.nTree = none := by
    cases e : h.root h.nTree with
    | none => rfl
    | some x => have := W.tree.bound h.nTree (by simp [Heap.treeAlive, e]); exact absurd this (Nat.lt_irrefl _)
  have k : ∀ {ch'}, FShape h1 ch' → FShape h2 ch' := by
    intro ch' F; subst hh2
    exact ⟨F.dead, F.first, F.nodup, F.mem, F.seg, F.rootNext, F.acyc, F.bound⟩
  have kr : ∀ u, h2.root u = if u = h.nTree then some n else h.root u := by
    intro u; subst hh2; simp [Heap.allocTree, upd_apply, s1.nTree, s1.root]
  have krc : ∀ u, h2.treeRc u = if u = h.nTree then 1 else h.treeRc u := by
    intro u; subst hh2; simp [Heap.allocTree, upd_apply, s1.nTree, s1.treeRc]
  have kg : ∀ u, h2.grants u = if u = h.nTree then 0 else h.grants u := by
    intro u; subst hh2; simp [Heap.allocTree, upd_apply, s1.nTree, s1.grants]
  have knt : h2.nTree = h.nTree + 1 := by subst hh2; simp [Heap.allocTree, s1.nTree]
  have U : Unlinked h h2 ch n p l1 l2 t h.nTree :=
    { split := hs, memb := ht, ne := hne, shape := k F1
      num := by subst hh2; exact N1
      data := by subst hh2; exact s1.data
      mutB := by subst hh2; exact s1.mutB
      mem := by subst hh2; exact s1.mem
      nNode := by subst hh2; exact s1.nNode
      nTree := by rw [knt]; exact Nat.le_succ _
      parent := by subst hh2; exact p1
      root := by intro u hu; simp [kr, hu]
      root' := by intro x hx; rw [fresh] at hx; simp at hx
      root'' := by intro x hx; simp [kr] at hx; exact .inl hx.symm
      alive' := by simp [Heap.treeAlive, kr]
      bound' := by rw [knt]; exact Nat.lt_succ_self _
      treeRc := by intro u hu; simp [krc, hu]
      grants := by intro u hu; simp [kg, hu] }
  obtain ⟨R, hR⟩ := (k F1).exists_subtree r
  have C := U.ctx W.toFShape W.tree W.refs hT hr hR g1 (by simp [kg]) (by simpa [kg] using g2)
  have hnt : hx.nTree = h.nTree := by rw [← sim.nTree, s1.nTree]
  have sa : Sim (StaleHead l1 l2) (hx.allocTree n).1 h2 := by
    subst hh2; exact (sim.allocTree n).1
  have key := C.loop_sim sa f
  have hroot := isRoot_false W.toFShape hm
  have hun := W.newByUnlink_eq ha []
  rw [he] at hun
  have e2 : (hx.allocTree n).2 = h.nTree := by simp [Heap.allocTree, hnt]
  constructor
  · intro hf
    have := key.1 hf
    simp only [Heap.detachSubtreeF, Heap.detachSubtree, hroot, hun, bind, Except.bind,
      Heap.createNewTreeF, Heap.createNewTree, e2, this, Bool.false_eq_true, if_false]
    cases (hx.allocTree n).1.setMemberships n h.nTree with
    | error e => rfl
    | ok o => cases o <;> rfl
  · intro hf
    have := key.2 hf
    simp only [Heap.detachSubtreeF, hroot, hun, bind, Except.bind, Heap.createNewTreeF, e2, this]
    simp

theorem insertF_new (f : Nat) (h : Heap α) (held : List NodeId) (n : NodeId) (dest : InsertAs NodeId) :
    h.insertF f held n true dest = h.insert held n true dest := by
  have h1 : ∀ h : Heap α, ∀ held p, h.insertFirstF f held n true p = h.insertFirst held n true p := by
    intro h held p
    simp [Heap.insertFirstF, Heap.loopCheckF, bind, Except.bind]
  have h2 : ∀ h : Heap α, ∀ held p, h.insertLastF f held n true p = h.insertLast held n true p := by
    intro h held p
    simp [Heap.insertLastF, Heap.loopCheckF, bind, Except.bind]
  cases dest with
  | firstChildOf p => exact h1 h held p
  | lastChildOf p => exact h2 h held p
  | previousSiblingOf a =>
    simp only [Heap.insertF, Heap.insert, h1, bind, Except.bind, pure, Except.pure]
    cases h.parentLink a with
    | none => rfl
    | some p =>
      simp only
      cases h.prevLink a with
      | error e => rfl
      | ok o => cases o <;> rfl
  | nextSiblingOf a =>
    simp only [Heap.insertF, Heap.insert, h2, bind, Except.bind, pure, Except.pure]
    cases h.parentLink a with
    | none => rfl
    | some p =>
      simp only
      cases h.nextLink a <;> rfl

/-- with the budget of the model -/
theorem insertF_erase (h : Heap α) (held : List NodeId) (n : NodeId) (isNew : Bool) (dest : InsertAs NodeId) :
    h.insertF (h.nNode + 1) held n isNew dest = h.insert held n isNew dest := by
  have h1 : ∀ held p, h.insertFirstF (h.nNode + 1) held n isNew p = h.insertFirst held n isNew p := by
    intro held p
    cases isNew with
    | true => simp [Heap.insertFirstF, Heap.loopCheckF, bind, Except.bind]
    | false =>
      simp only [Heap.insertFirstF, Heap.insertFirst, Heap.loopCheckF, Heap.loopCheck, Heap.isAncestorOf,
        Bool.false_eq_true, if_false, if_true, bind, Except.bind, pure, Except.pure]
  have h2 : ∀ held p, h.insertLastF (h.nNode + 1) held n isNew p = h.insertLast held n isNew p := by
    intro held p
    cases isNew with
    | true => simp [Heap.insertLastF, Heap.loopCheckF, bind, Except.bind]
    | false =>
      simp only [Heap.insertLastF, Heap.insertLast, Heap.loopCheckF, Heap.loopCheck, Heap.isAncestorOf,
        Bool.false_eq_true, if_false, if_true, bind, Except.bind, pure, Except.pure]
  cases dest with
  | firstChildOf p => exact h1 held p
  | lastChildOf p => exact h2 held p
  | previousSiblingOf a =>
    simp only [Heap.insertF, Heap.insert, h1, bind, Except.bind, pure, Except.pure]
    cases h.parentLink a with
    | none => rfl
    | some p =>
      simp only
      cases h.prevLink a with
      | error e => rfl
      | ok o => cases o <;> rfl
  | nextSiblingOf a =>
    simp only [Heap.insertF, Heap.insert, h2, bind, Except.bind, pure, Except.pure]
    cases h.parentLink a with
    | none => rfl
    | some p =>
      simp only
      cases h.nextLink a <;> rfl

theorem newByUnlink_flag {held : List NodeId} {b : Bool} (hr : h.isRoot n = false)
    (e : h.newByUnlink held n = .ok (h2, b)) : b = true := by
  unfold Heap.newByUnlink at e
  simp only [hr, Bool.false_eq_true, if_false, bind, Except.bind, pure, Except.pure] at e
  repeat (split at e; · cases e)
  cases e; rfl

theorem moveSameF_eq (f : Nat) (h : Heap α) (held : List NodeId) (n : NodeId) (dest : InsertAs NodeId) :
    h.moveSameF f held n dest = h.moveSame held n dest := by
  unfold Heap.moveSameF Heap.moveSame
  cases hr : h.isRoot n with
  | true => rfl
  | false =>
    simp only [Bool.false_eq_true, if_false, bind, Except.bind]
    cases e : h.newByUnlink (dest.anchor :: held) n with
    | error e => rfl
    | ok v =>
      obtain ⟨h1, b⟩ := v
      obtain rfl := newByUnlink_flag hr e
      exact insertF_new f h1 held n dest

theorem moveOther_exact {dest : InsertAs NodeId} (W : WF h ch) (hs : ch p = l1 ++ n :: l2)
    (hT : SubtreeAt ch n T)
    (ht : h.memTree n = some t) (hd : DestSplit ch dest q m1 m2) (hq : h.alive q = true)
    (ht' : h.memTree q = some t') (hne : t ≠ t')
    (g1 : (h.lockedIn T.nodes : Int) ≤ h.grants t) (g2 : 0 ≤ h.grants t')
    (g3 : h.grants t' + h.lockedIn T.nodes ≤ Lock.isizeMax) (f : Nat) :
    (2 * T.nodes.length ≤ f → h.detachInsertF f n dest = h.detachInsert n dest) ∧
    (f < 2 * T.nodes.length → h.detachInsertF f n dest = .error .diverge) := by
  have hm : n ∈ ch p := by simp [hs]
  have ha := W.alive_of_mem hm
  have hanc : h.alive dest.anchor = true ∧ h.memTree dest.anchor = some t' := by
    rcases hd.anchor with e | e
    · rw [e]; exact ⟨hq, ht'⟩
    · have := W.alive_of_mem e
      exact ⟨this, by rw [W.tree.child _ q this (W.parent_of_mem e)]; exact ht'⟩
  have hbt : h.belongsToSameTree n dest.anchor = false := by
    have h1 : n ≠ dest.anchor := by
      intro e; rw [← e, ht] at hanc; exact hne (by simpa using hanc.2)
    simp [Heap.belongsToSameTree, h1, ht, hanc.2, hne]
  have htc : h.treeCore dest.anchor = .ok t' := W.tree.treeCore hanc.1 hanc.2
  have ht'a := W.tree_alive hq ht'
  have hta := W.tree_alive ha ht
  obtain ⟨r, hr⟩ := Option.isSome_iff_exists.1 hta
  obtain ⟨hA, hAdef⟩ : ∃ hA, hA = h.acqTree t' := ⟨_, rfl⟩
  have WA : WF hA ch := by subst hAdef; exact acqTree_wf W t'
  have htA : hA.memTree n = some t := by subst hAdef; exact ht
  have hlkA : ∀ D, hA.lockedIn D = h.lockedIn D := by intro D; subst hAdef; rfl
  obtain ⟨hx, h2, he, sim, s2, Sh2, p2⟩ := unlink_wide WA.toShape hs
  have F2 := Sh2.toFShape
  have N2 := Sh2.num
  have rA : hA.root = h.root := by subst hAdef; rfl
  have gA : hA.grants = h.grants := by subst hAdef; rfl
  have U : Unlinked hA h2 ch n p l1 l2 t t' :=
    { split := hs, memb := htA, ne := hne, shape := F2, num := N2, data := s2.data
      mutB := s2.mutB, mem := s2.mem, nNode := s2.nNode, nTree := by rw [s2.nTree]; exact Nat.le_refl _
      parent := p2, root := by intro u hu; rw [s2.root]
      root' := by intro x hx; rw [s2.root]; exact hx
      root'' := by intro x hx; rw [s2.root] at hx; exact .inr hx
      alive' := by rw [s2.treeAlive]; simp only [Heap.treeAlive, rA]; exact ht'a
      bound' := by
        rw [s2.nTree]; subst hAdef; exact W.tree.bound t' ht'a
      treeRc := by intro u hu; rw [s2.treeRc]
      grants := by intro u hu; rw [s2.grants] }
  obtain ⟨R, hR⟩ := F2.exists_subtree r
  have hrA : hA.root t = some r := by rw [rA]; exact hr
  have C := U.ctx WA.toFShape WA.tree WA.refs hT hrA hR (by rw [hlkA, gA]; exact g1)
    (by rw [s2.grants, gA]; exact g2) (by rw [s2.grants, gA, hlkA]; exact g3)
  have key := C.loop_sim sim f
  have hun := WA.newByUnlink_eq (by subst hAdef; exact ha) [dest.anchor]
  rw [he, hAdef] at hun
  constructor
  · intro hf
    have := key.1 hf
    simp only [Heap.detachInsertF, Heap.detachInsert, hbt, htc, Bool.false_eq_true, if_false, bind, Except.bind,
      Heap.moveOtherF, Heap.moveOther, hun, this, insertF_new]
    cases hx.setMemberships n t' with
    | error e => rfl
    | ok o => cases o <;> rfl
  · intro hf
    have := key.2 hf
    simp only [Heap.detachInsertF, hbt, htc, Bool.false_eq_true, if_false, bind, Except.bind,
      Heap.moveOtherF, hun, this]

end Dendron
