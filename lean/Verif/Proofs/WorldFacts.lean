import Verif.Proofs.WorldStepEdit

/-! Reading the invariant in terms of the API. -/

set_option linter.unusedSimpArgs false
set_option linter.unusedVariables false

set_option autoImplicit false

namespace Dendron
variable {α : Type} {h h' : Heap α} {w w' : World α} {ch ch' : NodeId → List NodeId} {n m r p q : NodeId}
  {t t' : TreeId} {k : Kind} {op : Op α}

theorem Inv.nodeTree_held (I : Inv w ch) (hk : 0 < w.held k n) :
    w.heap.nodeTree n = .ok t ↔ w.heap.memTree n = some t :=
  I.wf.tree.treeCore_iff (I.held_alive hk)

theorem Inv.treeHeld_iff (I : Inv w ch) : w.TreeHeld t ↔ w.heap.treeAlive t = true := by
  constructor
  · rintro (h1 | ⟨k, n, hk, h1⟩)
    · exact I.treesAlive t h1
    · exact I.wf.tree_alive (I.held_alive hk) ((I.nodeTree_held hk).1 h1)
  · intro hta
    rcases I.wf.refs.held t hta with h1 | ⟨n, rc, l, hm⟩
    · left; rw [I.treeRc] at h1; exact h1
    · have h1 := I.strong _ _ _ _ hm
      have h2 := I.wf.refs.pos _ _ _ _ hm
      have : 0 < w.held .plain n ∨ 0 < w.held .hot n ∨ 0 < w.held .frozen n := by omega
      rcases this with h3 | h3 | h3
      · exact .inr ⟨_, n, h3, (I.nodeTree_held h3).2 (memTree_strong hm)⟩
      · exact .inr ⟨_, n, h3, (I.nodeTree_held h3).2 (memTree_strong hm)⟩
      · exact .inr ⟨_, n, h3, (I.nodeTree_held h3).2 (memTree_strong hm)⟩

/-- The alive locks, in terms of the counter. -/
theorem Inv.alive_locks (I : Inv w ch) (hta : w.heap.treeAlive t = true) :
    (w.GrantAlive t ↔ 0 < w.heap.grants t) ∧ (w.ProhAlive t ↔ w.heap.grants t < 0) := by
  obtain ⟨L, hL, hmem, hmode, hb⟩ := I.locks t hta
  have hex : ∀ x ∈ L, 0 < w.held .hot x ∧ w.heap.nodeTree x = .ok t ∨
      0 < w.held .frozen x ∧ w.heap.nodeTree x = .ok t := by
    intro x hx
    obtain ⟨h1, h2⟩ := (hmem x).1 hx
    by_cases h0 : 0 < w.held .hot x
    · exact .inl ⟨h0, (I.nodeTree_held h0).2 h1⟩
    · have h0 : 0 < w.held .frozen x := by omega
      exact .inr ⟨h0, (I.nodeTree_held h0).2 h1⟩
  have hsub : ∀ x k, 0 < w.held k x → w.heap.nodeTree x = .ok t → k ≠ .plain → 0 < L.length := by
    intro x k hk hx hkp
    refine List.length_pos_of_mem ((hmem x).2 ⟨(I.nodeTree_held hk).1 hx, ?_⟩)
    cases k <;> simp at hkp <;> omega
  have hne : 0 < L.length → ∃ x, x ∈ L := fun h => List.exists_mem_of_length_pos h
  rcases hmode with ⟨a, b, c⟩ | ⟨a, b, c⟩
  · constructor
    · constructor
      · rintro (h1 | ⟨x, h1, h2⟩)
        · omega
        · have := hsub x _ h1 h2 (by simp); omega
      · intro hg
        by_cases h0 : 0 < w.grantTok t
        · exact .inl h0
        · obtain ⟨x, hx⟩ := hne (by omega)
          rcases hex x hx with h1 | h1
          · exact .inr ⟨x, h1⟩
          · have := b x ((hmem x).1 hx).1; omega
    · constructor
      · rintro (h1 | ⟨x, h1, h2⟩)
        · omega
        · have := b x ((I.nodeTree_held h1).1 h2); omega
      · intro hg; omega
  · constructor
    · constructor
      · rintro (h1 | ⟨x, h1, h2⟩)
        · omega
        · have := b x ((I.nodeTree_held h1).1 h2); omega
      · intro hg; omega
    · constructor
      · rintro (h1 | ⟨x, h1, h2⟩)
        · omega
        · have := hsub x _ h1 h2 (by simp); omega
      · intro hg
        by_cases h0 : 0 < w.prohTok t
        · exact .inl h0
        · obtain ⟨x, hx⟩ := hne (by omega)
          rcases hex x hx with h1 | h1
          · have := b x ((hmem x).1 hx).1; omega
          · exact .inr ⟨x, h1⟩

theorem Inv.locksExact (I : Inv w ch) (hta : w.heap.treeAlive t = true) : w.LocksExact t := by
  obtain ⟨e1, e2⟩ := I.alive_locks hta
  obtain ⟨L, hL, hmem, hmode, hb⟩ := I.locks t hta
  refine ⟨L, hL, ?_, ?_, ?_, ?_⟩
  · intro x
    rw [hmem]
    constructor
    · rintro ⟨h1, h2⟩
      have : 0 < w.held .hot x ∨ 0 < w.held .frozen x := by omega
      refine ⟨h2, ?_⟩
      rcases this with h3 | h3 <;> exact (I.nodeTree_held h3).2 h1
    · rintro ⟨h2, h1⟩
      have : 0 < w.held .hot x ∨ 0 < w.held .frozen x := by omega
      refine ⟨?_, h2⟩
      rcases this with h3 | h3 <;> exact (I.nodeTree_held h3).1 h1
  · intro hg
    rw [e1] at hg
    rcases hmode with ⟨a, b, c⟩ | ⟨a, b, c⟩ <;> omega
  · intro hg
    rw [e2] at hg
    rcases hmode with ⟨a, b, c⟩ | ⟨a, b, c⟩ <;> omega
  · intro h1 h2
    rw [e1] at h1; rw [e2] at h2; omega

/-- A tree whose hierarchy a call does not edit looks the same afterwards. -/
theorem Keeps.navTo {U : TreeId → Prop} {X : NodeId → Prop} (K : Keeps h h' ch ch' U X)
    (W : WF h ch) (W' : WF h' ch') (hu : ¬ U t) (ha : h.alive n = true) (ht : h.memTree n = some t)
    (ha' : h'.alive n = true) :
    h'.memTree n = some t ∧ ch' n = ch n ∧ (∀ p, n ∈ ch' p ↔ n ∈ ch p) ∧
      ∀ q, h'.navTo n q = h.navTo n q := by
  obtain ⟨hm', hc'⟩ := K.stay n t ha ht hu ha'
  have hta := W.tree_alive ha ht
  have hta' := W'.tree_alive ha' hm'
  have hlt := W.tree.bound t hta
  -- nodes of `t` that are alive before are alive afterwards
  have hlive : ∀ x, h.alive x = true → h.memTree x = some t → h'.alive x = true := by
    intro x hx hxt
    cases hx' : h'.alive x with
    | true => rfl
    | false => rw [K.died x t hx hx' hxt] at hta'; cases hta'
  have hmem : ∀ x, h.alive x = true → h.memTree x = some t → ∀ p, x ∈ ch' p ↔ x ∈ ch p := by
    intro x hx hxt p
    have hxm' := (K.stay x t hx hxt hu (hlive x hx hxt)).1
    constructor
    · intro hp
      have hpa' := W'.alive_parent hp
      have hpt' : h'.memTree p = some t := by
        rw [← W'.tree.child x p (hlive x hx hxt) (W'.parent_of_mem hp)]; exact hxm'
      obtain ⟨h1, h2⟩ := K.noJoin p t hpa' hpt' hu hlt
      rw [(K.stay p t h1 h2 hu hpa').2] at hp; exact hp
    · intro hp
      have hpa := W.alive_parent hp
      have hpt : h.memTree p = some t := by
        rw [← W.tree.child x p hx (W.parent_of_mem hp)]; exact hxt
      rw [(K.stay p t hpa hpt hu (hlive p hpa hpt)).2]; exact hp
  have hlist : ∀ p, n ∈ ch p → ch' p = ch p := by
    intro p hp
    have hpa := W.alive_parent hp
    have hpt : h.memTree p = some t := by
      rw [← W.tree.child n p ha (W.parent_of_mem hp)]; exact ht
    exact (K.stay p t hpa hpt hu (hlive p hpa hpt)).2
  refine ⟨hm', hc', hmem n ha ht, ?_⟩
  have C := W.coherent
  have C' := W'.coherent
  have hcase : (∀ p, n ∉ ch p) ∨ ∃ p l1 l2, ch p = l1 ++ n :: l2 := by
    by_cases e : ∃ p, n ∈ ch p
    · obtain ⟨p, hp⟩ := e
      obtain ⟨l1, l2, e⟩ := List.append_of_mem hp
      exact .inr ⟨p, l1, l2, e⟩
    · exact .inl (fun p hp => e ⟨p, hp⟩)
  have htop' : (∀ p, n ∉ ch p) → ∀ p, n ∉ ch' p := fun h1 p hp => h1 p ((hmem n ha ht p).1 hp)
  intro q
  cases q with
  | root =>
    obtain ⟨u, r, h1, h2, h3, h4, h5, h6⟩ := W.trees.root n ha
    have e1 := (W.tree.treeCore_iff ha).1 h1
    obtain rfl : u = t := by rw [ht] at e1; simpa using e1.symm
    have e2 := (W.tree.treeCore_iff h4).1 h6
    have hr' := hlive r h4 e2
    have hrm' := (K.stay r u h4 e2 hu hr').1
    have htop : ∀ p, r ∉ ch' p := fun p hp => h5 p ((hmem r h4 e2 p).1 hp)
    obtain ⟨u', r', g1, g2, g3, g4, g5, g6⟩ := W'.trees.root n ha'
    have f1 := (W'.tree.treeCore_iff ha').1 g1
    obtain rfl : u' = u := by rw [hm'] at f1; simpa using f1.symm
    have : r' = r := W'.trees.rootUnique r' r u' g4 hr' g6 ((W'.tree.treeCore_iff hr').2 hrm') g5 htop
    simp [Heap.navTo, h3, g3, this]
  | parent =>
    simp only [Heap.navTo, Except.ok.injEq]
    cases hp : h.parentLink n with
    | some p => exact (C'.parent p n ha').2 ((hmem n ha ht p).2 ((C.parent p n ha).1 hp))
    | none =>
      cases hp' : h'.parentLink n with
      | none => rfl
      | some p =>
        have := (C.parent p n ha).2 ((hmem n ha ht p).1 ((C'.parent p n ha').1 hp'))
        rw [hp] at this; cases this
  | prevSibling =>
    rcases hcase with hc | ⟨p, l1, l2, hc⟩
    · simp only [Heap.navTo, (C.top n ha hc).2.1, (C'.top n ha' (htop' hc)).2.1]
    · simp only [Heap.navTo, C.prev p l1 n l2 hc,
        C'.prev p l1 n l2 ((hlist p (by simp [hc])).trans hc)]
  | nextSibling =>
    rcases hcase with hc | ⟨p, l1, l2, hc⟩
    · simp only [Heap.navTo, (C.top n ha hc).1, (C'.top n ha' (htop' hc)).1]
    · simp only [Heap.navTo, C.next p l1 n l2 hc,
        C'.next p l1 n l2 ((hlist p (by simp [hc])).trans hc)]
  | firstSibling =>
    rcases hcase with hc | ⟨p, l1, l2, hc⟩
    · simp only [Heap.navTo, (C.top n ha hc).2.2.2.2.2.2.1, (C'.top n ha' (htop' hc)).2.2.2.2.2.2.1]
    · have hp : n ∈ ch p := by simp [hc]
      obtain ⟨f, h1, h2⟩ := C.firstSib p n hp
      obtain ⟨f', h1', h2'⟩ := C'.firstSib p n (by rw [hlist p hp]; exact hp)
      rw [hlist p hp, h1] at h1'
      obtain rfl : f = f' := by simpa using h1'
      simp only [Heap.navTo, h2, h2']
  | lastSibling =>
    rcases hcase with hc | ⟨p, l1, l2, hc⟩
    · simp only [Heap.navTo, (C.top n ha hc).2.2.2.2.2.2.2.1, (C'.top n ha' (htop' hc)).2.2.2.2.2.2.2.1]
    · have hp : n ∈ ch p := by simp [hc]
      obtain ⟨f, h1, h2⟩ := C.lastSib p n hp
      obtain ⟨f', h1', h2'⟩ := C'.lastSib p n (by rw [hlist p hp]; exact hp)
      rw [hlist p hp, h1] at h1'
      obtain rfl : f = f' := by simpa using h1'
      simp only [Heap.navTo, h2, h2']
  | firstChild => simp only [Heap.navTo, C.firstChild n ha, C'.firstChild n ha', hc']
  | lastChild => simp only [Heap.navTo, C.lastChild n ha, C'.lastChild n ha', hc']

/-- An edit needs a grant. -/
theorem Inv.edits_grants (I : Inv w ch) (ha : w.Allowed op) (hf : TokenOK w.heap op)
    (he : Edits w.heap op t) : 0 < w.heap.grants t := by
  cases op <;> simp only [Edits] at he
  case create a n d as => exact I.auth_grants ha hf he
  case createParent a n d => exact I.auth_grants ha hf he
  case createChild a n d => exact I.auth_grants ha hf he
  case detach a n => exact I.auth_grants ha hf he
  case replace a n => exact I.auth_grants ha hf he
  case move a n dest =>
    rcases he with he | he
    · exact I.auth_grants ha.1 hf he
    · exact I.hot_grants ha.2 he

theorem World.Step.tokenOK {r : Res} (s : w.Step op w' r) : TokenOK w.heap op := by
  by_cases hf : TokenOK w.heap op
  · exact hf
  · obtain ⟨m, e⟩ := World.bad_token hf
    rw [s.run] at e; cases e

end Dendron
