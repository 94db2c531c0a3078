import Verif.Proofs.WorldWide

/-! Reading the invariant of the wider histories in terms of the API. -/

set_option linter.unusedSimpArgs false
set_option linter.unusedVariables false

set_option autoImplicit false

namespace Dendron
variable {α : Type} {h h' : Heap α} {w w' v v' : World α} {ch ch' : NodeId → List NodeId} {n m p q : NodeId}
  {t t' : TreeId} {k : Kind} {op : Op α} {r : Res}

/-- Such histories are histories of calls. -/
theorem ReachW.any (hr : ReachW w) : ReachAny w := by
  induction hr with
  | init => exact .init
  | step _ s ih => exact ih.step ⟨s.allowed, s.run⟩

/-- The state is `v` with other previous-sibling pointers. -/
theorem Wide.fix (W : Wide w v ch) :
    ∃ pv, w = ⟨v.heap.fix pv, v.held, v.trees, v.grantTok, v.prohTok⟩ := by
  obtain ⟨⟨pv, e, -⟩, h2, h3, h4, h5⟩ := W.sim.symm
  refine ⟨pv, ?_⟩
  cases w
  simp only at e h2 h3 h4 h5
  rw [e, h2, h3, h4, h5]

theorem Wide.fwd (W : Wide w v ch) : FWF w.heap ch where
  toFShape := W.shape
  tree := by
    obtain ⟨pv, rfl⟩ := W.fix
    have T := W.inv.wf.tree
    exact ⟨T.live, T.root, T.child, T.top, T.bound⟩
  refs := by
    obtain ⟨pv, rfl⟩ := W.fix
    have T := W.inv.wf.refs
    exact ⟨T.alive, T.pos, T.held⟩

theorem FWF.tree_alive (W : FWF h ch) (ha : h.alive n = true) (ht : h.memTree n = some t) :
    h.treeAlive t = true := by
  obtain ⟨u, h1, h2⟩ := W.tree.live n ha
  rw [ht] at h1; cases h1; exact h2

theorem Wide.num (W : Wide w v ch) : NumOK w.heap ch := by
  obtain ⟨pv, rfl⟩ := W.fix; exact W.inv.wf.num

theorem Wide.held_alive (W : Wide w v ch) (hk : 0 < w.held k n) : w.heap.alive n = true := by
  obtain ⟨pv, rfl⟩ := W.fix; exact W.inv.held_alive hk

theorem Wide.nodeTree_held (W : Wide w v ch) (hk : 0 < w.held k n) :
    w.heap.nodeTree n = .ok t ↔ w.heap.memTree n = some t :=
  W.fwd.tree.treeCore_iff (W.held_alive hk)

theorem Wide.treeHeld_iff (W : Wide w v ch) : w.TreeHeld t ↔ w.heap.treeAlive t = true := by
  obtain ⟨pv, rfl⟩ := W.fix; exact W.inv.treeHeld_iff

theorem Wide.alive_locks (W : Wide w v ch) (hta : w.heap.treeAlive t = true) :
    (w.GrantAlive t ↔ 0 < w.heap.grants t) ∧ (w.ProhAlive t ↔ w.heap.grants t < 0) := by
  obtain ⟨pv, rfl⟩ := W.fix; exact W.inv.alive_locks hta

theorem Wide.locksExact (W : Wide w v ch) (hta : w.heap.treeAlive t = true) : w.LocksExact t := by
  obtain ⟨pv, rfl⟩ := W.fix; exact W.inv.locksExact hta

theorem Wide.strong (W : Wide w v ch) (n : NodeId) (t : TreeId) (rc l : Nat)
    (hm : w.heap.mem n = .strong t rc l) :
    rc = w.held .plain n + w.held .hot n + w.held .frozen n ∧ l = w.held .hot n + w.held .frozen n := by
  obtain ⟨pv, rfl⟩ := W.fix; exact W.inv.strong n t rc l hm

theorem Wide.weak (W : Wide w v ch) (n : NodeId) (o : Option TreeId) (hm : w.heap.mem n = .weak o) (k : Kind) :
    w.held k n = 0 := by
  obtain ⟨pv, rfl⟩ := W.fix; exact W.inv.weak n o hm k

theorem Wide.treeRc (W : Wide w v ch) (t : TreeId) : w.heap.treeRc t = w.trees t := by
  obtain ⟨pv, rfl⟩ := W.fix; exact W.inv.treeRc t

theorem Wide.treesAlive (W : Wide w v ch) (t : TreeId) (ht : 0 < w.trees t) : w.heap.treeAlive t = true := by
  obtain ⟨pv, rfl⟩ := W.fix; exact W.inv.treesAlive t ht

theorem Wide.toks (W : Wide w v ch) (t : TreeId) (ht : 0 < w.grantTok t + w.prohTok t) : t < w.heap.nTree := by
  obtain ⟨pv, rfl⟩ := W.fix; exact W.inv.toks t ht

theorem FWF.tree_nodes (W : FWF h ch) (hta : h.treeAlive t = true) :
    ∃ r R, h.root t = some r ∧ SubtreeAt ch r R ∧
      ∀ x, x ∈ R.nodes ↔ h.alive x = true ∧ h.memTree x = some t := by
  obtain ⟨r, hr⟩ := Option.isSome_iff_exists.1 hta
  obtain ⟨R, hR⟩ := W.toFShape.exists_subtree r
  refine ⟨r, R, hr, hR, ?_⟩
  intro x
  have hra := (W.tree.root t r hr).1
  rw [hR.mem_nodes_iff]
  constructor
  · intro hd
    have hxa := W.toFShape.desc_alive hra hd
    exact ⟨hxa, ((W.tree.toE (fun _ => False)).mem_iff W.toFShape hr (by simp) hxa).1 hd⟩
  · rintro ⟨hxa, hx⟩
    exact ((W.tree.toE (fun _ => False)).mem_iff W.toFShape hr (by simp) hxa).2 hx

/-- What a call leaves alone, between the real states. -/
theorem Keeps.wide {U : TreeId → Prop} {X : NodeId → Prop} (W : Wide w v ch) (W' : Wide w' v' ch')
    (K : Keeps v.heap v'.heap ch ch' U X) : Keeps w.heap w'.heap ch ch' U X := by
  obtain ⟨pv, rfl⟩ := W.fix
  obtain ⟨pv', rfl⟩ := W'.fix
  exact ⟨K.stay, K.noJoin, K.died, K.data, K.mutB, K.nodes, K.trees, K.fresh, K.freshTree⟩

theorem Wide.edits (W : Wide w v ch) (t : TreeId) : Edits v.heap op t ↔ Edits w.heap op t := by
  obtain ⟨pv, rfl⟩ := W.fix; cases op <;> rfl

theorem World.StepW.tokenOK (s : w.StepW op w' r) : TokenOK w.heap op := by
  by_cases hf : TokenOK w.heap op
  · exact hf
  · obtain ⟨m, e⟩ := World.bad_token hf
    rw [s.run] at e; cases e

/-- A step from a reachable state. -/
theorem ReachW.step_wide (hr : ReachW w) (s : w.StepW op w' r) :
    ∃ v ch v' ch', Wide w v ch ∧ Wide w' v' ch' ∧
      Keeps w.heap w'.heap ch ch' (Edits w.heap op) (Writes op) := by
  obtain ⟨v, ch, W⟩ := hr.wide
  obtain ⟨v', ch', W', K, -⟩ := s.wide W
  exact ⟨v, ch, v', ch', W, W', (K.mono (fun t ht => (W.edits t).1 ht) (fun _ h => h)).wide W W'⟩

theorem Wide.edits_grants (W : Wide w v ch) (ha : w.Allowed op) (hf : TokenOK w.heap op)
    (he : Edits w.heap op t) : 0 < w.heap.grants t := by
  have h1 := W.inv.edits_grants (W.sim.allowed ha) (W.sim.heap.tokenOK hf) ((W.edits t).2 he)
  rw [W.sim.heap.grants] at h1; exact h1

/-- Where navigation does not depend on a stale pointer, it is right. -/
theorem Wide.navTo (W : Wide w v ch) (hk : w.heap.alive n = true) {q : Nav} {kd : Kind}
    (hq : ∀ p, UsesLast ch (.nav kd q n : Op α) p → LastRight w.heap ch p) :
    w.heap.navTo n q = v.heap.navTo n q := by
  have hal : v.heap.alive n = true := by rw [W.sim.heap.alive]; exact hk
  have S := W.inv.wf.toFShape
  have hU : ∀ p, UsesLast ch (.nav kd q n : Op α) p → ∀ x, (ch p).head? = some x →
      ¬ (w.heap.prevCyc x ≠ v.heap.prevCyc x) := by
    intro p hp x hx hd; exact hd (W.lastRight (hq p hp) hx)
  refine SimW.navTo W.sim.heap.symm (kd := kd) ?_
  cases q with
  | prevSibling =>
    intro hd
    obtain ⟨p, hp⟩ := (W.heads n hd).2 hal
    exact hU p hp n hp hd
  | lastSibling =>
    intro p hp f hf
    have hm := S.mem_of_parentLink hal hp
    rw [S.first p (S.alive_parent hm)] at hf
    exact hU p hm f hf
  | lastChild =>
    intro f hf
    rw [S.first n hal] at hf
    exact hU n rfl f hf
  | _ => trivial

theorem LastRight.of_inv (I : Inv w ch) (ha : w.heap.alive p = true) : LastRight w.heap ch p :=
  (Wide.of_inv I).lastRight_of ha fun _ _ => rfl

theorem AtEnd.anchor {dest : InsertAs NodeId} (hd : AtEnd ch dest p) :
    p = dest.anchor ∨ dest.anchor ∈ ch p := by
  obtain ⟨l1, l2, hd, -⟩ := hd
  cases hd with
  | first => exact .inl rfl
  | last => exact .inl rfl
  | prev e => right; rw [e]; simp [InsertAs.anchor]
  | next e => right; rw [e]; simp [InsertAs.anchor]

/-- The node of which a call needs the last child is alive. -/
theorem Inv.usesLast_alive (I : Inv w ch) (ha : w.Allowed op) (hu : UsesLast ch op p) :
    w.heap.alive p = true := by
  have S := I.wf.toFShape
  cases op <;> simp only [UsesLast] at hu
  case nav kd q n =>
    cases q <;> simp only at hu
    · exact S.alive_parent (List.mem_of_head? hu)
    · exact S.alive_parent hu
    · subst hu; exact I.held_alive ha
  case create a n d as =>
    have hal := I.held_alive ha.holds
    rcases hu.anchor with e | e
    · cases as <;> (have e : p = n := e; subst e; exact hal)
    · exact S.alive_parent e
  case createParent a n d =>
    rcases hu with h1 | h1
    · exact S.alive_parent (List.mem_of_head? h1)
    · exact S.alive_parent (List.mem_of_getLast? h1)
  case detach a n => exact S.alive_parent (List.mem_of_head? hu)
  case replace a n =>
    rcases hu with rfl | h1
    · exact I.held_alive ha.holds
    · exact S.alive_parent (List.mem_of_head? h1)
  case move a n dest =>
    rcases hu with h1 | h1
    · exact S.alive_parent (List.mem_of_head? h1)
    · rcases h1.anchor with e | e
      · rw [e]; exact I.held_alive ha.2
      · exact S.alive_parent (List.mem_of_mem_erase e)

/-- The calls without a known defect are among those considered here. -/
theorem World.Step.toW (s : w.Step op w' r) (I : Inv w ch) : w.StepW op w' r where
  allowed := s.allowed
  room := s.room
  run := s.run
  fits := by
    intro ch1 S
    obtain rfl := I.wf.toFShape.unique S
    exact ⟨(s.safe ch I.wf.toFShape).fits, fun p hp => .of_inv I (I.usesLast_alive s.allowed hp)⟩

theorem Reach.toW (hr : Reach w) : ReachW w := by
  induction hr with
  | init => exact .init
  | step hr s ih =>
    obtain ⟨ch, I⟩ := hr.inv
    exact .step ih (s.toW I)

/-! ### Navigation -/

section
variable {D : NodeId → Prop} {k' : Heap α}

theorem Sim.hasPrev (s : Sim D h k') (hn : ¬ D n) : k'.hasPrev n = h.hasPrev n := by
  unfold Heap.hasPrev; rw [s.prevCycLink hn, s.next]

theorem Sim.firstLastSibling (s : Sim D h k') (hp : ∀ p, h.parentLink n = some p → FirstNot D h p) :
    k'.firstLastSibling n = h.firstLastSibling n := by
  unfold Heap.firstLastSibling
  rw [s.parentLink]
  cases e : h.parentLink n with
  | none => rfl
  | some p => simp only; rw [s.firstLastChildLink (hp p e)]
end

/-- The pointer of a child that is not the first, or whose parent has a right `last_child`, is right. -/
theorem Wide.prevCyc_eq (W : Wide w v ch) {l1 l2 : List NodeId} {c : NodeId} (hs : ch p = l1 ++ c :: l2)
    (ho : LastRight w.heap ch p ∨ l1 ≠ []) : w.heap.prevCyc c = v.heap.prevCyc c := by
  apply Decidable.byContradiction
  intro hne
  have hm : c ∈ ch p := by rw [hs]; simp
  have hh := W.heads.head W.inv.wf.toFShape hm hne
  rcases ho with ho | ho
  · exact hne (W.lastRight ho hh)
  · have hnd := W.inv.wf.nodup p
    rw [hs] at hnd hh
    cases l1 with
    | nil => exact ho rfl
    | cons x l1 =>
      obtain rfl : x = c := by simpa using hh
      simp at hnd

theorem Wide.prevCyc_top (W : Wide w v ch) {c : NodeId} (ha : w.heap.alive c = true) (ht : ∀ p, c ∉ ch p) :
    w.heap.prevCyc c = v.heap.prevCyc c := by
  apply Decidable.byContradiction
  intro hne
  exact W.heads.not_root (by rw [W.sim.heap.alive]; exact ha) ht hne

theorem Wide.firstNot (W : Wide w v ch) (ha : w.heap.alive p = true) (ho : LastRight w.heap ch p) :
    FirstNot (fun x => w.heap.prevCyc x ≠ v.heap.prevCyc x) v.heap p := by
  intro f hf
  rw [W.inv.wf.first p (by rw [W.sim.heap.alive]; exact ha)] at hf
  exact fun hne => hne (W.lastRight ho hf)

theorem Wide.coherent (W : Wide w v ch) : CoherentOn w.heap ch (LastRight w.heap ch) := by
  have C := W.inv.wf.coherent
  have s := W.sim.heap.symm
  have al : ∀ c, w.heap.alive c = true → v.heap.alive c = true := fun c hc => by
    rw [W.sim.heap.alive]; exact hc
  have nr : w.heap.nodeIsRoot = v.heap.nodeIsRoot := by obtain ⟨pv, rfl⟩ := W.fix; rfl
  have hnx : w.heap.hasNext = v.heap.hasNext := by obtain ⟨pv, rfl⟩ := W.fix; rfl
  have fn := fun (p : NodeId) hc ho => W.firstNot (p := p) hc ho
  have par : ∀ p c, c ∈ ch p → ∀ q, v.heap.parentLink c = some q → q = p := by
    intro p c hc q hq
    have ha := W.inv.wf.alive_of_mem hc
    exact W.inv.wf.toFShape.unique_parent ((C.parent q c ha).1 hq) hc
  have alp : ∀ p c, c ∈ ch p → w.heap.alive p = true := fun p c hc => by
    rw [← W.sim.heap.alive]; exact (C.alive p c hc).1
  refine ⟨C.nodup, C.uniq, ?_, C.acyclic, ?_, ?_, ?_, ?_, ?_, ?_, ?_, ?_, ?_, ?_, ?_, ?_, ?_, ?_, ?_, ?_⟩
  · intro p c hc; rw [← W.sim.heap.alive]; exact C.alive p c hc
  · intro p c hc; rw [s.parentLink]; exact C.parent p c (al c hc)
  · intro c hc; rw [nr]; exact C.isRoot c (al c hc)
  · intro c hc; rw [nr]; exact C.isRootTotal c (al c hc)
  · intro p hp; rw [s.firstChildLink]; exact C.firstChild p (al p hp)
  · intro p hp ho; rw [s.lastChildLink (fn p hp ho)]; exact C.lastChild p (al p hp)
  · intro p hp ho; rw [s.firstLastChildLink (fn p hp ho)]; exact C.firstLastChild p (al p hp)
  · intro p l1 c l2 hs; rw [s.nextLink]; exact C.next p l1 c l2 hs
  · intro p l1 c l2 hs ho
    rw [s.prevLink fun hne => hne (W.prevCyc_eq hs ho)]; exact C.prev p l1 c l2 hs
  · intro p l1 c l2 hs; rw [hnx]; exact C.hasNext p l1 c l2 hs
  · intro p l1 c l2 hs ho
    rw [s.hasPrev fun hne => hne (W.prevCyc_eq hs ho)]; exact C.hasPrev p l1 c l2 hs
  · intro p l1 c l2 hs ho
    rw [s.isFirstSibling fun hne => hne (W.prevCyc_eq hs ho)]; exact C.isFirst p l1 c l2 hs
  · intro p l1 c l2 hs; rw [s.isLastSibling]; exact C.isLast p l1 c l2 hs
  · intro p c hc; rw [s.firstSibling]; exact C.firstSib p c hc
  · intro p c hc ho
    rw [s.lastSibling fun q hq => par p c hc q hq ▸ fn p (alp p c hc) ho]; exact C.lastSib p c hc
  · intro p c hc ho
    rw [s.firstLastSibling fun q hq => par p c hc q hq ▸ fn p (alp p c hc) ho]; exact C.firstLastSib p c hc
  · intro c hc ht
    have hd : ¬ (w.heap.prevCyc c ≠ v.heap.prevCyc c) := fun hne => hne (W.prevCyc_top hc ht)
    have hpar : ∀ q, v.heap.parentLink c = some q →
        FirstNot (fun x => w.heap.prevCyc x ≠ v.heap.prevCyc x) v.heap q := by
      intro q hq
      exact absurd ((C.parent q c (al c hc)).1 hq) (ht q)
    rw [s.nextLink, s.prevLink hd, hnx, s.hasPrev hd, s.isFirstSibling hd, s.isLastSibling, s.firstSibling,
      s.lastSibling hpar, s.firstLastSibling hpar]
    exact C.top c (al c hc) ht

theorem Wide.counts (W : Wide w v ch) : CountsExact w.heap ch := by
  have C := W.inv.wf.counts
  obtain ⟨pv, rfl⟩ := W.fix
  exact ⟨C.num, C.has, C.one, C.multi, C.walk⟩

theorem Wide.trees (W : Wide w v ch) : TreesAgree w.heap ch := by
  have C := W.inv.wf.trees
  obtain ⟨pv, rfl⟩ := W.fix
  exact ⟨C.root, C.rootUnique, C.rootAncestor, C.childTree, C.belongs, C.same, C.treeRoot⟩

theorem Wide.positions (W : Wide w v ch) : PositionsOn w.heap ch (LastRight w.heap ch) := by
  have C := W.inv.wf.positions
  have K := W.coherent
  have S := W.shape
  refine ⟨?_, ?_, ?_, ?_, ?_⟩
  · intro p l1 c l2 hs ho
    unfold Heap.countPreceding
    rw [K.prev p l1 c l2 hs (.inl ho)]
    simp only [bind, Except.bind]
    have hlen : l1.length ≤ w.heap.nNode := by
      have := S.length_le p; rw [hs] at this; simp at this; omega
    have := succCount_list (step := w.heap.prevLink) l1.reverse (w.heap.nNode + 1) (by simp; omega) (by
      intro m1 a m2 e
      have e' : l1 = m2.reverse ++ a :: m1.reverse := by
        have := congrArg List.reverse e; simpa using this
      have := K.prev p m2.reverse a (m1.reverse ++ c :: l2) (by rw [hs, e']; simp) (.inl ho)
      simpa using this)
    simpa using this
  · intro p l1 c l2 hs; exact S.countFollowing hs
  · intro c ha ht
    obtain ⟨h1, h2, -⟩ := K.top c ha ht
    constructor
    · unfold Heap.countPreceding; rw [h2]; rfl
    · unfold Heap.countFollowing; rw [h1]; rfl
  · intro n l ha hl; exact S.countAncestors ha hl
  · intro n ha; exact C.depthTotal n (by rw [W.sim.heap.alive]; exact ha)

end Dendron
