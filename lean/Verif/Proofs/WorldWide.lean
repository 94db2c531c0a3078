import Verif.Proofs.WorldFacts

/-! Histories with stale last-child pointers: the invariant up to these pointers. -/

set_option linter.unusedSimpArgs false
set_option linter.unusedVariables false

set_option autoImplicit false

namespace Dendron
variable {α : Type} {h h' : Heap α} {w w' v : World α} {ch ch' : NodeId → List NodeId} {n m r p q : NodeId}
  {t t' : TreeId} {k : Kind} {op : Op α} {a : Auth} {l1 l2 : List NodeId} {D : NodeId → Prop}

/-- The nodes of `D` are first siblings (or dead). -/
def HeadsOnly (h : Heap α) (ch : NodeId → List NodeId) (D : NodeId → Prop) : Prop :=
  ∀ x, D x → x < h.nNode ∧ (h.alive x = true → ∃ p, (ch p).head? = some x)

theorem HeadsOnly.head {x : NodeId} (H : HeadsOnly h ch D) (S : FShape h ch) (hx : x ∈ ch q) (hd : D x) :
    (ch q).head? = some x := by
  obtain ⟨p, hp⟩ := (H x hd).2 (S.alive_of_mem hx)
  rw [← S.unique_parent (List.mem_of_head? hp) hx]; exact hp

theorem HeadsOnly.not_root (H : HeadsOnly h ch D) (ha : h.alive n = true) (hr : ∀ p, n ∉ ch p) : ¬ D n := by
  intro hd
  obtain ⟨p, hp⟩ := (H n hd).2 ha
  exact hr p (List.mem_of_head? hp)

theorem FShape.mem_of_parentLink (S : FShape h ch) (ha : h.alive n = true) (e : h.parentLink n = some p) : n ∈ ch p := by
  rw [S.mem]
  exact ⟨ha, by rw [← S.parentLink ha]; exact e⟩

theorem FShape.mem_of_not_root (S : FShape h ch) (ha : h.alive n = true) (e : h.isRoot n = false) : ∃ p, n ∈ ch p := by
  cases hp : h.parent n with
  | none => rw [(S.isRoot_iff ha).2 hp] at e; cases e
  | some p => exact ⟨p, (S.mem p n).2 ⟨ha, hp⟩⟩

/-- What the place of a move looks like after the node has left its own place. -/
theorem FShape.exists_dest {dest : InsertAs NodeId} (S : FShape h ch) (hs : ch p = l1 ++ n :: l2)
    (hnd : ¬ Desc ch n dest.anchor) (hsib : dest.isSibling = true → ∃ q, dest.anchor ∈ ch q) :
    ∃ q m1 m2, DestSplit (upd ch p (l1 ++ l2)) dest q m1 m2 ∧ (q = dest.anchor ∨ dest.anchor ∈ ch q) := by
  have hne : dest.anchor ≠ n := fun e => hnd (e ▸ .refl _)
  have hsib1 : dest.isSibling = true → ∃ q, dest.anchor ∈ upd ch p (l1 ++ l2) q := by
    intro e
    obtain ⟨q, hq⟩ := hsib e
    refine ⟨q, ?_⟩
    by_cases eq : q = p
    · subst eq
      rw [hs] at hq
      simp only [upd_same]
      simp only [List.mem_append, List.mem_cons] at hq ⊢
      rcases hq with h1 | h1 | h1
      · exact .inl h1
      · exact absurd h1 hne
      · exact .inr h1
    · rw [upd_ne _ _ eq]; exact hq
  obtain ⟨q, m1, m2, hds, hq⟩ := exists_destSplit hsib1
  refine ⟨q, m1, m2, hds, ?_⟩
  rcases hq with h1 | h1
  · exact .inl h1
  · right
    by_cases eq : q = p
    · subst eq
      simp only [upd_same] at h1
      rw [hs]
      simp only [List.mem_append, List.mem_cons] at h1 ⊢
      rcases h1 with h1 | h1
      · exact .inl h1
      · exact .inr (.inr h1)
    · rwa [upd_ne _ _ eq] at h1

theorem mem_upd_split {x : NodeId} (hs : ch p = l1 ++ n :: l2) (hx : x ∈ upd ch p (l1 ++ l2) q) : x ∈ ch q := by
  by_cases e : q = p
  · subst e
    rw [upd_same] at hx
    rw [hs]
    simp only [List.mem_append, List.mem_cons] at hx ⊢
    rcases hx with h1 | h1
    · exact .inl h1
    · exact .inr (.inr h1)
  · rwa [upd_ne _ _ e] at hx

theorem head_upd_split {x : NodeId} (hs : ch p = l1 ++ n :: l2) (hx : (ch q).head? = some x) (hxn : x ≠ n) :
    (upd ch p (l1 ++ l2) q).head? = some x := by
  by_cases e : q = p
  · subst e
    rw [upd_same]
    rw [hs] at hx
    have : l1 ≠ [] := by rintro rfl; exact hxn (by simpa using hx.symm)
    exact head?_append_eq this hx
  · rw [upd_ne _ _ e]; exact hx

theorem newOrphan_alive {h1 : Heap α} {m : NodeId} {d : α} (e : h.newOrphan d t = .ok (h1, m)) : h.treeAlive t = true := by
  unfold Heap.newOrphan Heap.incRef at e
  simp only [Heap.allocNode, upd_same] at e
  cases ht : h.treeAlive t with
  | true => rfl
  | false =>
    have : (some t).filter (Heap.treeAlive (α := α) { h with
      data := upd h.data h.nNode (some d)
      mutB := upd h.mutB h.nNode false
      parent := upd h.parent h.nNode none
      firstChild := upd h.firstChild h.nNode none
      next := upd h.next h.nNode none
      prevCyc := upd h.prevCyc h.nNode (some h.nNode)
      numCh := upd h.numCh h.nNode 0
      mem := upd h.mem h.nNode (.weak (some t))
      nNode := h.nNode + 1 }) = none := by
      have : (Heap.treeAlive (α := α) { h with
        data := upd h.data h.nNode (some d)
        mutB := upd h.mutB h.nNode false
        parent := upd h.parent h.nNode none
        firstChild := upd h.firstChild h.nNode none
        next := upd h.next h.nNode none
        prevCyc := upd h.prevCyc h.nNode (some h.nNode)
        numCh := upd h.numCh h.nNode 0
        mem := upd h.mem h.nNode (.weak (some t))
        nNode := h.nNode + 1 }) t = false := ht
      simp [Option.filter, this]
    rw [this] at e
    simp at e

/-- The memory in which a node has just been created. -/
theorem Shape.of_newOrphan {h1 : Heap α} {m : NodeId} {d : α} (S : Shape h ch) (e : h.newOrphan d t = .ok (h1, m)) :
    m = h.nNode ∧ Shape h1 ch ∧ (∀ x, h.alive x = true → h1.alive x = true) := by
  obtain ⟨h2, e2, C, S2, -⟩ := newOrphan_spec S (newOrphan_alive e) d
  rw [e] at e2
  obtain ⟨rfl, rfl⟩ : h1 = h2 ∧ m = h.nNode := by simpa using e2
  exact ⟨rfl, S2, fun x hx => by rw [C.alive]; simp [hx]⟩

/-- The memory in the middle of the move of the only node of a tree. -/
theorem Inv.leafMid {dest : InsertAs NodeId} (I : Inv v ch) (ha : v.HasAuth n a)
    (hf : TokenFits v.heap n a) (hdest : 0 < v.held .hot dest.anchor)
    (hl : LonelyRoot v.heap ch n dest) (hr : Room v.heap)
    {t0 : TreeId} {g1 g2 : Heap α} {b : Bool} (htc : v.heap.treeCore dest.anchor = .ok t0)
    (hg : (v.heap.acqTree t0).newByUnlinkL n = .ok (g1, b))
    (hm2 : g1.setMemberships n t0 = .ok (some g2)) :
    ∃ q m1 m2, (∃ t, RootGoes v.heap ch n (.node n []) t t0 dest q m1 m2 ∧
      LeafMid v.heap g2 ch n t t0 dest) := by
  obtain ⟨t, rc, lk, hm, -, hta⟩ := I.tree_of_held ha.holds
  have ht := memTree_strong hm
  obtain ⟨q, m1, m2, t', G, hanc, hta', hrc⟩ := I.rootGoes ha hf hdest hl hr ht
  have ht'' := (I.wf.tree.treeCore_iff (I.held_alive hdest)).1 htc
  obtain rfl : t0 = t' := by
    rw [hanc] at ht''; simpa using ht''.symm
  obtain ⟨k2, e, M⟩ := G.leafMid hrc
  have hroot : (v.heap.acqTree t0).isRoot n = true := by
    have : v.heap.isRoot n = true := by
      simp [Heap.isRoot, Heap.parentLink, G.parent, Heap.upgrade]
    exact this
  unfold Heap.newByUnlinkL at hg
  simp only [hroot, if_true, Except.ok.injEq, Prod.mk.injEq, pure, Except.pure] at hg
  obtain ⟨rfl, rfl⟩ := hg
  rw [e] at hm2
  obtain rfl : k2 = g2 := by simpa using hm2
  exact ⟨q, m1, m2, t, G, M⟩

theorem Inv.opReads_move {dest : InsertAs NodeId} (I : Inv v ch) (ha : v.HasAuth n a)
    (hdest : 0 < v.held .hot dest.anchor) (hr : Room v.heap) (hf : TokenFits v.heap n a)
    (hs : MoveFits v.heap ch n dest) (H : HeadsOnly v.heap ch D)
    (hU : ∀ p, UsesLast ch (.move a n dest : Op α) p → ∀ x, (ch p).head? = some x → ¬ D x) :
    OpReads D v.heap (.move a n dest) := by
  have S := I.wf.toFShape
  have hal := I.held_alive ha.holds
  have hala := I.held_alive hdest
  have hnD : v.heap.isRoot n = false → ¬ D n := by
    intro hr hd
    obtain ⟨p, hp⟩ := (H n hd).2 hal
    exact hU p (.inl hp) n hp hd
  refine ⟨hnD, ?_, ?_⟩
  · intro hb hroot g b hg
    obtain ⟨p, hp⟩ := S.mem_of_not_root hal hroot
    obtain ⟨l1, l2, hsp⟩ := List.append_of_mem hp
    obtain ⟨g', k, e, sim, snl, Sk, hpar⟩ := unlink_wide I.wf.toShape hsp
    rw [hg] at e
    obtain ⟨rfl, rfl⟩ : g = g' ∧ b = true := by simpa using e
    rcases hs with h1 | ⟨-, hnd, hsib, hlast⟩ | h1
    · exact absurd hp (h1.1 p)
    rotate_left
    · exact absurd hp (h1.1 p)
    obtain ⟨q, m1, m2, hds, hq⟩ := S.exists_dest hsp hnd hsib
    have herase := S.erase_eq hsp
    have hqa : v.heap.alive q = true := by
      rcases hq with h1 | h1
      · rw [h1]; exact hala
      · exact I.wf.alive_parent h1
    have hend : m1 = [] ∨ m2 = [] → AtEnd (fun r => (ch r).erase n) dest q := by
      intro h1; rw [herase]; exact ⟨m1, m2, hds, h1⟩
    refine (InsReads.of_shape Sk (by rw [snl.alive]; exact hqa) hds ?_ ?_).sim sim ?_
    · intro x hx hdx
      refine head_upd_split hsp (H.head S (mem_upd_split hsp hx) hdx) ?_
      rintro rfl; exact hnD hroot hdx
    · intro h1 x hx hdx
      exact hU q (.inr (hend h1)) x (H.head S (mem_upd_split hsp (List.mem_of_head? hx)) hdx) hdx
    · rintro a rfl hst
      refine hlast p (lastOf_of hsp hst.1 hst.ne_nil) ?_
      rw [herase]
      obtain ⟨l2e, hh⟩ := hst
      cases l1 with
      | nil => simp at hh
      | cons y l1 =>
        obtain rfl : y = a := by simpa using hh
        exact ⟨[], _, .prev (p := p) (a := y) (l1 := []) (l2 := l1 ++ l2) (by rw [upd_same]; rfl), .inl rfl⟩
  · intro hb t0 g1 g2 b htc hg hm2
    rcases hs with ⟨h1, h2⟩ | ⟨⟨p, hp⟩, hnd, hsib, hlast⟩ | lonely
    · simp [Heap.belongsToSameTree, h2] at hb
    rotate_left
    · obtain ⟨q, m1, m2, _, G, M⟩ := I.leafMid ha hf hdest lonely hr htc hg hm2
      refine InsReads.of_shape M.shape (by
        have : g2.alive q = v.heap.alive q := by simp [Heap.alive, M.data]
        rw [this]; exact G.qalive) G.split ?_ ?_
      · intro x hx hdx; exact H.head S hx hdx
      · intro h1 x hx
        refine hU q (.inr ?_) x hx
        have : (fun q => (ch q).erase n) = ch := by
          funext z; exact List.erase_of_not_mem (lonely.1 z)
        rw [this]; exact ⟨m1, m2, G.split, h1⟩
    obtain ⟨l1, l2, hsp⟩ := List.append_of_mem hp
    have herase := S.erase_eq hsp
    obtain ⟨t, rc, lk, hm, -, hta⟩ := I.tree_of_held ha.holds
    have ht := memTree_strong hm
    have hgp := I.auth_grants ha hf ht
    have hpt : v.heap.memTree p = some t := by rw [← I.wf.memTree_child hp]; exact ht
    obtain ⟨q, m1, m2, hds, hq⟩ := exists_destSplit hsib
    have hqa : v.heap.alive q = true := by
      rcases hq with h1 | h1
      · rw [h1]; exact hala
      · exact I.wf.alive_parent h1
    have ht'' := (I.wf.tree.treeCore_iff hala).1 htc
    have hta' := I.wf.tree_alive hala ht''
    have hqt : v.heap.memTree q = some t0 := by
      rcases hq with h1 | h1
      · rw [h1]; exact ht''
      · rw [← I.wf.memTree_child h1]; exact ht''
    have htt : t ≠ t0 := by
      rintro rfl
      simp [Heap.belongsToSameTree, ht, ht''] at hb
    have hpq : q ≠ p := by
      rintro rfl; rw [hpt] at hqt; exact htt (by simpa using hqt)
    have hgp' := I.hot_grants hdest ht''
    obtain ⟨T, hT⟩ := I.wf.exists_subtree n
    have hDm : ∀ x ∈ T.nodes, v.heap.memTree x = some t := by
      intro x hx
      exact (I.wf.tree.desc_memTree S ((hT.mem_nodes_iff x).1 hx)).trans ht
    have hl := I.locksCounted hta (by omega) _ (hT.nodup S) hDm
    obtain ⟨r1, r2⟩ := hr t hta
    obtain ⟨r3, r4⟩ := hr t0 hta'
    obtain ⟨-, -, -, -, -, -, -, -, f1, f2, k, c, e1, e2, sim, Sk, hka, hcq, -⟩ :=
      moveOther_wide I.wf hsp hT ht hds hqa hqt htt hl (by omega) (by simp only [Lock.isizeMax]; omega)
    rw [hg] at e1
    obtain ⟨rfl, rfl⟩ : g1 = f1 ∧ b = true := by simpa using e1
    rw [hm2] at e2
    obtain rfl : g2 = f2 := by simpa using e2
    have hds' : DestSplit (upd ch p (l1 ++ l2)) dest q m1 m2 := hds.congr (upd_ne _ _ hpq)
    refine (InsReads.of_shape Sk hka (hds.congr hcq) ?_ ?_).sim sim ?_
    · intro x hx hdx
      rw [hcq] at hx ⊢
      exact H.head S hx hdx
    · intro h1 x hx hdx
      rw [hcq] at hx
      refine hU q (.inr ?_) x hx hdx
      rw [herase]; exact ⟨m1, m2, hds', h1⟩
    · rintro a rfl hst
      have : a ∈ ch p := by rw [hsp]; exact List.mem_append_left _ (List.mem_of_head? hst.2)
      have h2 := I.wf.memTree_child this
      have h3 : v.heap.memTree a = some t0 := ht''
      rw [h3, hpt] at h2
      exact htt (by simpa using h2.symm)

/-- A call that does not depend on the end of a list with a stale pointer does not read a stale
pointer. -/
theorem Inv.opReads (I : Inv v ch) (ha : v.Allowed op) (hr : Room v.heap) (hf : TokenOK v.heap op)
    (hs : CallFits v.heap ch op) (H : HeadsOnly v.heap ch D)
    (hU : ∀ p, UsesLast ch op p → ∀ x, (ch p).head? = some x → ¬ D x) : OpReads D v.heap op := by
  have S := I.wf.toFShape
  cases op with
  | nav kd q n =>
    have hal := I.held_alive ha
    cases q with
    | prevSibling =>
      intro hd
      obtain ⟨p, hp⟩ := (H n hd).2 hal
      exact hU p hp n hp hd
    | lastSibling =>
      intro p hp f hf
      have hm := S.mem_of_parentLink hal hp
      rw [S.first p (S.alive_parent hm)] at hf
      exact hU p hm f hf
    | lastChild =>
      intro f hf
      rw [S.first n hal] at hf
      exact hU n rfl f hf
    | _ => trivial
  | create a n d as =>
    have hal := I.held_alive ha.holds
    intro t h1 m e
    obtain ⟨rfl, S1, hal1⟩ := I.wf.toShape.of_newOrphan e
    by_cases hx : ∃ p l1 l2, DestSplit ch (as.at n) p l1 l2
    · obtain ⟨p, l1, l2, hd⟩ := hx
      have hpa : v.heap.alive p = true := by
        rcases S.destSplit_parent hd with rfl | hm
        · exact hal
        · exact S.alive_parent hm
      exact InsReads.of_shape S1 (hal1 p hpa) hd (fun x hx hd => H.head S hx hd)
        (fun he => hU p ⟨l1, l2, hd, he⟩)
    · have hroot : ∀ p, n ∉ ch p := by
        intro p hp
        obtain ⟨l1, l2, e⟩ := List.append_of_mem hp
        apply hx
        cases as
        · exact ⟨n, _, _, .first n⟩
        · exact ⟨n, _, _, .last n⟩
        · exact ⟨p, _, _, .prev e⟩
        · exact ⟨p, _, _, .next e⟩
      have hpl : ∀ p, h1.parentLink n ≠ some p := by
        intro p hp
        exact hroot p (S1.toFShape.mem_of_parentLink (hal1 n hal) hp)
      cases as
      · exact absurd ⟨n, _, _, .first n⟩ hx
      · exact absurd ⟨n, _, _, .last n⟩ hx
      · exact ⟨H.not_root hal hroot, fun p hp => absurd hp (hpl p)⟩
      · exact fun p hp => absurd hp (hpl p)
  | createParent a n d =>
    have hal := I.held_alive ha.holds
    intro t h1 m e
    obtain ⟨rfl, S1, hal1⟩ := I.wf.toShape.of_newOrphan e
    have hfresh := S.fresh_not_alive
    have hch : ch v.heap.nNode = [] := S.dead _ hfresh
    obtain ⟨-, hdata, -⟩ := newOrphan_facts e
    refine ⟨?_, ?_, ?_, ?_⟩
    · intro p hp
      have hm := S1.toFShape.mem_of_parentLink (hal1 n hal) hp
      have hpa := S.alive_parent hm
      refine ⟨?_, ?_⟩
      · intro hd
        have hh := H.head S hm hd
        exact hU p (.inl hh) n hh hd
      · obtain ⟨l1, l2, hs⟩ := List.append_of_mem hm
        have hn : h1.nextLink n = l2.head? := S1.next_at hs
        rw [hn]
        cases l2 with
        | nil =>
          intro f hf
          rw [S1.first p (hal1 p hpa)] at hf
          exact hU p (.inr (by rw [hs]; simp)) f hf
        | cons x l2 =>
          intro hd
          have hh := H.head S (q := p) (x := x) (by rw [hs]; simp) hd
          have hnd := S.nodup p
          rw [hs] at hnd hh
          have := head?_at_front (l := l1 ++ [n]) (l' := l2) (a := x) (b := x) (by simpa using hnd)
            (by simpa using hh) rfl
          simp at this
    · obtain ⟨-, -, -, hf, -⟩ := newOrphan_facts e
      rw [hf, upd_same]
    · rintro rfl; rw [hfresh] at hal; cases hal
    · intro hp
      have := S1.toFShape.mem_of_parentLink (hal1 n hal) hp
      rw [hch] at this; cases this
  | detach a n =>
    have hal := I.held_alive ha.holds
    intro _ hd
    obtain ⟨p, hp⟩ := (H n hd).2 hal
    exact hU p hp n hp hd
  | replace a n =>
    have hal := I.held_alive ha.holds
    intro p hp
    have hm := S.mem_of_parentLink hal hp
    refine ⟨?_, ?_, ?_⟩
    · intro hd
      have hh := H.head S hm hd
      exact hU p (.inr hh) n hh hd
    · intro f hf
      rw [S.first n hal] at hf
      exact hU n (.inl rfl) f hf
    · intro hv f hf
      obtain ⟨l1, l2, hs⟩ := List.append_of_mem hm
      rw [I.wf.toShape.prevLink_at hs] at hv
      have : l1 = [] := by simpa using hv
      subst this
      have hh : (ch p).head? = some n := by rw [hs]; rfl
      rw [S.first p (S.alive_parent hm)] at hf
      exact hU p (.inr hh) f hf
  | move a n dest => exact I.opReads_move ha.1 ha.2 hr hf hs H hU
  | _ => trivial

theorem Inv.insertReady {dest : InsertAs NodeId} (I : Inv v ch) (ha : v.HasAuth n a)
    (hdest : 0 < v.held .hot dest.anchor) (hr : Room v.heap) (hf : TokenFits v.heap n a)
    (hs : MoveFits v.heap ch n dest) (hb : v.heap.belongsToSameTree n dest.anchor = false)
    {t0 : TreeId} {g1 g2 : Heap α} {b : Bool} (htc : v.heap.treeCore dest.anchor = .ok t0)
    (hg : (v.heap.acqTree t0).newByUnlinkL n = .ok (g1, b))
    (hm2 : g1.setMemberships n t0 = .ok (some g2)) : ReadyToInsert g2 n dest := by
  have S := I.wf.toFShape
  have hal := I.held_alive ha.holds
  have hala := I.held_alive hdest
  rcases hs with ⟨h1, h2⟩ | ⟨⟨p, hp⟩, hnd, hsib, hlast⟩ | lonely
  · simp [Heap.belongsToSameTree, h2] at hb
  rotate_left
  · obtain ⟨_, _, _, _, _, M⟩ := I.leafMid ha hf hdest lonely hr htc hg hm2
    exact M.ready
  obtain ⟨l1, l2, hsp⟩ := List.append_of_mem hp
  obtain ⟨t, rc, lk, hm, -, hta⟩ := I.tree_of_held ha.holds
  have ht := memTree_strong hm
  have hgp := I.auth_grants ha hf ht
  obtain ⟨q, m1, m2, hds, hq⟩ := exists_destSplit hsib
  have hqa : v.heap.alive q = true := by
    rcases hq with h1 | h1
    · rw [h1]; exact hala
    · exact I.wf.alive_parent h1
  have ht'' := (I.wf.tree.treeCore_iff hala).1 htc
  have hta' := I.wf.tree_alive hala ht''
  have hqt : v.heap.memTree q = some t0 := by
    rcases hq with h1 | h1
    · rw [h1]; exact ht''
    · rw [← I.wf.memTree_child h1]; exact ht''
  have htt : t ≠ t0 := by
    rintro rfl
    simp [Heap.belongsToSameTree, ht, ht''] at hb
  have hgp' := I.hot_grants hdest ht''
  obtain ⟨T, hT⟩ := I.wf.exists_subtree n
  have hDm : ∀ x ∈ T.nodes, v.heap.memTree x = some t := by
    intro x hx
    exact (I.wf.tree.desc_memTree S ((hT.mem_nodes_iff x).1 hx)).trans ht
  have hl := I.locksCounted hta (by omega) _ (hT.nodup S) hDm
  obtain ⟨r1, r2⟩ := hr t hta
  obtain ⟨r3, r4⟩ := hr t0 hta'
  exact moveOther_ready I.wf hsp hT ht hds hqa hqt htt hl (by omega)
    (by simp only [Lock.isizeMax]; omega) hg hm2

/-- Such a call frees no node before its end, also in the state with stale pointers. -/
theorem Inv.opEq (I : Inv v ch) (ha : v.Allowed op) (hr : Room v.heap) (hf : TokenOK v.heap op)
    (hs : CallFits v.heap ch op) (H : HeadsOnly v.heap ch D)
    (hU : ∀ p, UsesLast ch op p → ∀ x, (ch p).head? = some x → ¬ D x) (s : Sim D v.heap h) :
    OpEq h op := by
  have S := I.wf.toFShape
  have R := I.opReads ha hr hf hs H hU
  cases op with
  | create a n d as =>
    have hal := I.held_alive ha.holds
    refine I.wf.nodeCreate_sim s hal ?_
    cases as with
    | firstChild => trivial
    | previousSibling => trivial
    | lastChild =>
      intro f hf
      rw [S.first n hal] at hf
      exact hU n ⟨ch n, [], .last n, .inr rfl⟩ f hf
    | nextSibling =>
      intro p hp hx f hf
      have hm := S.mem_of_parentLink hal hp
      obtain ⟨l1, l2, e⟩ := List.append_of_mem hm
      have hx : v.heap.next n = none := hx
      rw [S.next_at e, List.head?_eq_none_iff] at hx
      subst hx
      rw [S.first p (S.alive_parent hm)] at hf
      exact hU p ⟨_, _, .next e, .inr rfl⟩ f hf
  | createParent a n d =>
    have hal := I.held_alive ha.holds
    refine I.wf.createInterruptingParent_sim s hal ?_
    intro p hp
    have hm := S.mem_of_parentLink hal hp
    have hpa := S.alive_parent hm
    refine ⟨?_, ?_⟩
    · intro hd
      have hh := H.head S hm hd
      exact hU p (.inl hh) n hh hd
    · obtain ⟨l1, l2, hs⟩ := List.append_of_mem hm
      have hn : v.heap.nextLink n = l2.head? := S.next_at hs
      rw [hn]
      cases l2 with
      | nil =>
        intro f hf
        rw [S.first p hpa] at hf
        exact hU p (.inr (by rw [hs]; simp)) f hf
      | cons x l2 =>
        intro hd
        have hh := H.head S (q := p) (x := x) (by rw [hs]; simp) hd
        have hnd := S.nodup p
        rw [hs] at hnd hh
        have := head?_at_front (l := l1 ++ [n]) (l' := l2) (a := x) (b := x) (by simpa using hnd)
          (by simpa using hh) rfl
        simp at this
  | createChild a n d => exact I.wf.createInterruptingChild_sim s (I.held_alive ha.holds)
  | detach a n => exact I.wf.detachSubtree_sim s (I.held_alive ha.holds) R
  | replace a n =>
    exact I.wf.replaceWithChildren_sim s (I.held_alive ha.holds) (fun p hp => ⟨(R p hp).1, (R p hp).2.1⟩)
  | move a n dest =>
    exact I.wf.detachInsert_sim s (I.held_alive ha.1.holds) (I.held_alive ha.2) R.1
      (fun h1 h2 k b e => (R.2.1 h1 h2 k b e).last)
      (fun h1 t k b k2 e1 e2 e3 => ⟨.inl (I.insertReady ha.1 ha.2 hr hf hs h1 e1 e2 e3),
        (R.2.2 h1 t k k2 b e1 e2 e3).last⟩)
  | _ => trivial

/-- The state is right up to the stale pointers of first siblings; `v` is the state with right
pointers. -/
structure Wide (w v : World α) (ch : NodeId → List NodeId) : Prop where
  sim : SimW (fun x => w.heap.prevCyc x ≠ v.heap.prevCyc x) w v
  inv : Inv v ch
  heads : HeadsOnly v.heap ch (fun x => w.heap.prevCyc x ≠ v.heap.prevCyc x)

theorem Sim.exact (s : Sim D h h') : Sim (fun x => h.prevCyc x ≠ h'.prevCyc x) h h' := by
  obtain ⟨pv, rfl, ag⟩ := s
  exact ⟨pv, rfl, fun x hx => (Decidable.not_not.1 hx).symm⟩

theorem Sim.diff (s : Sim D h h') {x : NodeId} (hx : h.prevCyc x ≠ h'.prevCyc x) (hd : ¬ D x) : False := by
  obtain ⟨pv, rfl, ag⟩ := s
  exact hx (ag x hd).symm

theorem SimW.exact (s : SimW D w v) : SimW (fun x => w.heap.prevCyc x ≠ v.heap.prevCyc x) w v :=
  ⟨s.heap.exact, s.held, s.trees, s.grantTok, s.prohTok⟩

theorem SimW.room (s : SimW D w v) (hr : Room w.heap) : Room v.heap := by
  intro t ht
  rw [s.heap.treeAlive] at ht
  rw [s.heap.grants]; exact hr t ht

theorem SimW.allowed (s : SimW D w v) (ha : w.Allowed op) : v.Allowed op := by
  obtain ⟨h1, h2, h3, h4, h5⟩ := s
  have e : ∀ k n, v.held k n = w.held k n := fun k n => by rw [h2]
  have ea : ∀ n a, w.HasAuth n a → v.HasAuth n a := by
    intro n a hn
    cases a <;> simp only [World.HasAuth, h2, h4] at hn ⊢ <;> exact hn
  cases op <;> simp only [World.Allowed, World.Holds, h2, h3, h4, h5] at ha ⊢ <;>
    first | exact ha | exact ea _ _ ha | exact ⟨ea _ _ ha.1, ha.2⟩

theorem Sim.tokenOK (s : Sim D h h') (hf : TokenOK h op) : TokenOK h' op := by
  have ea : ∀ n a, TokenFits h n a → TokenFits h' n a := by
    intro n a hn
    cases a <;> simp only [TokenFits, s.memTree] at hn ⊢; exact hn
  cases op <;> simp only [TokenOK, s.memTree] at hf ⊢ <;> first | exact hf | exact ea _ _ hf

theorem Sim.callFits (s : Sim D h h') (hf : CallFits h ch op) : CallFits h' ch op := by
  cases op <;> simp only [CallFits, MoveFits, LonelyRoot, s.memTree, s.treeRc] at hf ⊢; exact hf

theorem lastChildLink_prevCyc {x y : NodeId} (hf : h.firstChild p = some x) (hl : h.lastChildLink p = .ok (some y)) :
    h.prevCyc x = some y := by
  simp only [Heap.lastChildLink, Heap.firstChildLink, hf, Heap.prevCycLink, Heap.upgrade] at hl
  cases e : h.prevCyc x with
  | none => simp [e, Except.map] at hl
  | some z =>
    simp only [e, Option.filter] at hl
    cases ea : h.alive z with
    | false => simp [ea, Except.map] at hl
    | true =>
      simp only [ea, if_true, Except.map, Except.ok.injEq] at hl
      exact hl

/-- Where `last_child` is right, the pointer of the first child is. -/
theorem Wide.lastRight {x : NodeId} (W : Wide w v ch) (hl : LastRight w.heap ch p) (hx : (ch p).head? = some x) :
    w.heap.prevCyc x = v.heap.prevCyc x := by
  have S := W.inv.wf.toFShape
  have hm := List.mem_of_head? hx
  have hpa := S.alive_parent hm
  obtain ⟨y, hy⟩ : ∃ y, (ch p).getLast? = some y := by
    cases e : (ch p).getLast? with
    | some y => exact ⟨y, rfl⟩
    | none =>
      rw [List.getLast?_eq_none_iff] at e
      rw [e] at hx; simp at hx
  have hf : w.heap.firstChild p = some x := by
    rw [← W.sim.heap.firstChild, S.first p hpa]; exact hx
  have h2 : v.heap.lastChildLink p = .ok (ch p).getLast? := W.inv.wf.toShape.lastChildLink hpa
  rw [hy] at h2
  have hl : w.heap.lastChildLink p = .ok (some y) := by rw [← hy]; exact hl
  rw [lastChildLink_prevCyc hf hl, lastChildLink_prevCyc (by rw [S.first p hpa]; exact hx) h2]

/-- A call in such a state. -/
theorem Wide.step (W : Wide w v ch) (ha : w.Allowed op) (hs : CallFits w.heap ch op)
    (hu : ∀ p, UsesLast ch op p → LastRight w.heap ch p) (hr : Room w.heap) (hf : TokenOK w.heap op) :
    ∃ w' r v' ch', w.exec op = .ok (w', r) ∧ Wide w' v' ch' ∧
      Keeps v.heap v'.heap ch ch' (Edits v.heap op) (Writes op) ∧
      (∀ p x, p < v.heap.nNode → (ch' p).head? = some x → w'.heap.prevCyc x ≠ v'.heap.prevCyc x →
        DropsLast ch op p ∨ ((ch p).head? = some x ∧ w.heap.prevCyc x ≠ v.heap.prevCyc x)) ∧
      ∀ x p, (ch' p).head? = some x → w'.heap.prevCyc x ≠ v'.heap.prevCyc x →
        (∀ q, ¬ DropsLast ch op q) → ∃ q, (ch q).head? = some x ∧ w.heap.prevCyc x ≠ v.heap.prevCyc x := by
  have s := W.sim
  have I := W.inv
  have hU : ∀ p, UsesLast ch op p → ∀ x, (ch p).head? = some x →
      ¬ (w.heap.prevCyc x ≠ v.heap.prevCyc x) := by
    intro p hp x hx hd; exact hd (W.lastRight (hu p hp) hx)
  have R := I.opReads (s.allowed ha) (s.room hr) (s.heap.tokenOK hf) (s.heap.callFits hs) W.heads hU
  obtain ⟨v1, r, v', ch', D', e, s1, I', K, HK, SO⟩ :=
    I.step (s.allowed ha) (s.heap.callFits hs) (s.room hr) (s.heap.tokenOK hf)
  have R2 := s.symm.exec R
    (I.opEq (D := fun _ => False) (s.allowed ha) (s.room hr) (s.heap.tokenOK hf) (s.heap.callFits hs)
      (fun _ hx => hx.elim) (fun _ _ _ _ hx => hx) (Sim.refl _))
    (I.opEq (s.allowed ha) (s.room hr) (s.heap.tokenOK hf) (s.heap.callFits hs) W.heads hU s.heap.symm)
  rw [e] at R2
  obtain ⟨⟨w', r'⟩, e', s2, er⟩ := (Rel.flip (Q := fun a b => SimR _ b a) R2 fun _ _ h => h).get
  simp only at s2 er
  subst er
  have s3 : SimW (fun x => (w.heap.prevCyc x ≠ v.heap.prevCyc x) ∨ D' x) w' v' :=
    (s2.symm.mono fun _ h => .inl h).trans (s1.mono fun _ h => .inr h)
  have hstale : ∀ x, w'.heap.prevCyc x ≠ v'.heap.prevCyc x → ¬ D' x →
      w.heap.prevCyc x ≠ v.heap.prevCyc x := by
    intro x hx hD e
    exact s3.heap.diff hx (fun h => h.elim (fun h => h e) hD)
  have hold : ∀ x, x < v.heap.nNode → v'.heap.alive x = true → v.heap.alive x = true := by
    intro x hb ha'
    cases e : v.heap.alive x with
    | true => rfl
    | false => rw [K.fresh x hb e] at ha'; cases ha'
  refine ⟨w', r, v', ch', e', ⟨s3.exact, I', ?_⟩, K, ?_, ?_⟩
  rotate_left
  rotate_left
  · intro x p hx hst hnd
    have hxa' := I'.wf.alive_of_mem (List.mem_of_head? hx)
    have hD : ¬ D' x := fun hD => by
      obtain ⟨-, q, hq, -⟩ := SO x hD
      exact hnd q hq
    have hdx := hstale x hst hD
    obtain ⟨hb, hh⟩ := W.heads x hdx
    obtain ⟨q, hq⟩ := hh (hold x hb hxa')
    exact ⟨q, hq, hdx⟩
  rotate_left
  · intro p x hp hx hst
    have hxa' := I'.wf.alive_of_mem (List.mem_of_head? hx)
    by_cases hD : D' x
    · obtain ⟨-, q, hq, -, h2⟩ := SO x hD
      rw [I'.wf.toFShape.unique_parent (List.mem_of_head? hx) (List.mem_of_head? (h2 hxa'))]
      exact .inl hq
    · have hdx := hstale x hst hD
      obtain ⟨hb, hh⟩ := W.heads x hdx
      obtain ⟨q, hq⟩ := hh (hold x hb hxa')
      obtain ⟨q', hq', he⟩ := HK q x hq hxa' fun p hp hpx => hU p hp x hpx hdx
      obtain rfl := I'.wf.toFShape.unique_parent (List.mem_of_head? hx) (List.mem_of_head? hq')
      rcases he with rfl | he
      · exact .inr ⟨hq, hdx⟩
      · exact absurd hp (Nat.not_lt.2 he)
  intro x hx
  by_cases hD : D' x
  · obtain ⟨h1, q, -, -, h2⟩ := SO x hD
    exact ⟨h1, fun ha => ⟨q, h2 ha⟩⟩
  · have hdx := hstale x hx hD
    obtain ⟨hb, hh⟩ := W.heads x hdx
    refine ⟨Nat.lt_of_lt_of_le hb K.nodes, fun ha' => ?_⟩
    obtain ⟨q, hq⟩ := hh (hold x hb ha')
    obtain ⟨q', hq', -⟩ := HK q x hq ha' fun p hp hpx => hU p hp x hpx hdx
    exact ⟨q', hq'⟩

theorem Wide.shape (W : Wide w v ch) : FShape w.heap ch := W.sim.heap.symm.fshape W.inv.wf.toFShape

/-- `last_child` of a node whose first child has the right pointer is right. -/
theorem Wide.lastRight_of (W : Wide w v ch) (ha : w.heap.alive p = true)
    (hx : ∀ x, (ch p).head? = some x → w.heap.prevCyc x = v.heap.prevCyc x) : LastRight w.heap ch p := by
  have ha' : v.heap.alive p = true := by rw [W.sim.heap.alive]; exact ha
  have e1 : v.heap.lastChildLink p = .ok (ch p).getLast? := W.inv.wf.toShape.lastChildLink ha'
  have e2 : w.heap.lastChildLink p = v.heap.lastChildLink p := by
    refine W.sim.heap.symm.lastChildLink ?_
    intro f hf
    have hf : v.heap.firstChild p = some f := hf
    rw [W.inv.wf.first p ha'] at hf
    exact fun hne => hne (hx f hf)
  exact e2.trans e1

theorem World.StepW.wide {r : Res} (s : w.StepW op w' r) (W : Wide w v ch) :
    ∃ v' ch', Wide w' v' ch' ∧ Keeps v.heap v'.heap ch ch' (Edits v.heap op) (Writes op) ∧
      (∀ p, w.heap.alive p = true → w'.heap.alive p = true → LastRight w.heap ch p → ¬ DropsLast ch op p →
        LastRight w'.heap ch' p) ∧
      ((∀ p, w.heap.alive p = true → LastRight w.heap ch p) → (∀ p, ¬ DropsLast ch op p) →
        ∀ p, w'.heap.alive p = true → LastRight w'.heap ch' p) := by
  obtain ⟨h1, h2⟩ := s.fits ch W.shape
  by_cases hf : TokenOK w.heap op
  · obtain ⟨w1, r1, v', ch', e, W', K, St, Stx⟩ := W.step s.allowed h1 h2 s.room hf
    rw [s.run] at e
    simp only [Except.ok.injEq, Prod.mk.injEq] at e
    obtain ⟨rfl, rfl⟩ := e
    have hback : ∀ x p, (ch' p).head? = some x → w'.heap.prevCyc x ≠ v'.heap.prevCyc x →
        (∀ q, ¬ DropsLast ch op q) → ∃ q, (ch q).head? = some x ∧ w.heap.prevCyc x ≠ v.heap.prevCyc x := Stx
    refine ⟨v', ch', W', K, fun p ha ha' hl hd => W'.lastRight_of ha' ?_, fun hall hd p ha' => W'.lastRight_of ha' ?_⟩
    rotate_left
    · intro x hx
      apply Decidable.byContradiction
      intro hne
      obtain ⟨q, hq, hst⟩ := hback x p hx hne hd
      have hqa : w.heap.alive q = true := by
        rw [← W.sim.heap.alive]; exact W.inv.wf.alive_parent (List.mem_of_head? hq)
      exact hst (W.lastRight (hall q hqa) hq)
    intro x hx
    apply Decidable.byContradiction
    intro hne
    have hb := W.inv.wf.bound p (by rw [W.sim.heap.alive]; exact ha)
    rcases St p x hb hx hne with h1 | ⟨h1, h2⟩
    · exact hd h1
    · exact h2 (W.lastRight hl h1)
  · obtain ⟨m, e⟩ := World.bad_token hf
    rw [s.run] at e; cases e

theorem Wide.of_inv (I : Inv w ch) : Wide w w ch :=
  ⟨SimW.refl w, I, fun x hx => absurd rfl hx⟩

theorem ReachW.wide (hr : ReachW w) : ∃ v ch, Wide w v ch := by
  induction hr with
  | init => exact ⟨_, _, .of_inv Inv.init⟩
  | step _ s ih =>
    obtain ⟨v, ch, W⟩ := ih
    obtain ⟨v', ch', W', -, -⟩ := s.wide W
    exact ⟨v', ch', W'⟩

end Dendron
