import Verif.Proofs.ReentryDrop
import Verif.Proofs.WideFacts
import Verif.Proofs.DemoWide
import Verif.Spec.Reentry

/-!
# C57: weak handles in destructors of the data

`ms` are the moments at which destructors of data run while the last handle of a tree is dropped, in
this order (`Model/Reentry`); `m.upgrade x` and `m.upgradeTree u` are the answers the destructor gets at
the moment `m` if it upgrades weak handles of the node `x` and of the tree `u`.
-/

set_option autoImplicit false

namespace Dendron
open RTree
variable {α : Type} {h h' h1 h2 : Heap α} {w : World α} {ch : NodeId → List NodeId} {n x r : NodeId} {t u : TreeId}
  {k : Kind}

/-! ### The answers -/

private theorem at_other {l1 l2 : List (Moment α)} {m : Moment α} (T : ∃ u, h.memTree x = some u ∧ h.treeAlive u = true) (F : FreesT t h (l1 ++ m :: l2) h')
    (hin : ∀ y ∈ (l1 ++ m :: l2).map (·.node), h.memTree y = some t) (hc : ∀ y, m.cell = some y → h.memTree y = some t)
    (hd : ∀ y, m.dying = some y → y = t)
    (ha : h.alive x = true) (hx : h.memTree x ≠ some t) : m.upgrade x = .ok (some x) := by
  obtain ⟨a1, a2, a3⟩ := F.at
  have hx1 : x ∉ l1.map (·.node) := fun e => hx (hin x (by simp only [List.map_append, List.mem_append]; exact .inl e))
  have hx2 : x ≠ m.node := fun e => hx (hin x (by simp [e]))
  have hal : m.heap.alive x = true := by rw [a1, ha]; simpa using hx1
  have hcell : (m.cell == some x) = false := by
    rw [beq_eq_false_iff_ne]; intro e; exact hx (hc x e)
  unfold Moment.upgrade
  rw [hal, hcell, a2 x hal]
  have hbx : (x == m.node) = false := by simpa using hx2
  simp only [hbx, Bool.not_true, Bool.or_false, Bool.false_eq_true, if_false]
  obtain ⟨u, hu, hua⟩ := T
  cases hm : h.mem x with
  | strong v rc l => rfl
  | weak o =>
    have : o = some u := by simpa [Heap.memTree, hm] using hu
    subst this
    have hut : u ≠ t := by rintro rfl; exact hx hu
    have hdy : (m.dying != some u) = true := by
      simp only [bne_iff_ne, ne_eq]; intro e; exact hut (hd u e)
    have hta : m.heap.treeAlive u = true := by
      rw [Heap.treeAlive, a3 u hut]; exact hua
    simp [Option.filter, hta, hdy]

private theorem at_dead {l1 l2 : List (Moment α)} {m : Moment α} (F : FreesT t h (l1 ++ m :: l2) h')
    (hx : h.alive x = false ∨ x ∈ (l1 ++ [m]).map (·.node)) : m.upgrade x = .ok none := by
  obtain ⟨a1, a2, a3⟩ := F.at
  have : (!m.heap.alive x || x == m.node) = true := by
    rw [a1]
    rcases hx with hx | hx
    · simp [hx]
    · simp only [List.map_append, List.mem_append, List.map_cons, List.map_nil, List.mem_cons, List.not_mem_nil,
        or_false] at hx
      rcases hx with hx | rfl
      · have : (l1.map (·.node)).contains x = true := List.contains_iff_mem.2 hx
        rw [this]; simp
      · simp
  unfold Moment.upgrade
  rw [if_pos this]

private theorem at_later {l1 l2 : List (Moment α)} {m : Moment α} (F : FreesT t h (l1 ++ m :: l2) h')
    (hs : ∀ y rc l, h.mem y ≠ .strong t rc l)
    (hin : ∀ y ∈ (l1 ++ m :: l2).map (·.node), h.memTree y = some t)
    (hd : m.dying = some t)
    (hx : x ∈ l2.map (·.node)) : ∃ s, m.upgrade x = .error (.panic s) := by
  obtain ⟨a1, a2, a3⟩ := F.at
  have hn := F.nodup
  rw [List.map_append, List.map_cons, List.nodup_append] at hn
  obtain ⟨-, n2, n3⟩ := hn
  rw [List.nodup_cons] at n2
  have hx1 : x ∉ l1.map (·.node) := fun e => n3 x e x (List.mem_cons_of_mem _ hx) rfl
  have hx2 : x ≠ m.node := by rintro rfl; exact n2.1 hx
  have ha := F.alive_of x (by simp only [List.map_append, List.map_cons, List.mem_append, List.mem_cons]; exact .inr (.inr hx))
  have hal : m.heap.alive x = true := by rw [a1, ha]; simpa using hx1
  have hbx : (x == m.node) = false := by simpa using hx2
  unfold Moment.upgrade
  rw [hal, a2 x hal]
  simp only [hbx, Bool.not_true, Bool.or_false, Bool.false_eq_true, if_false]
  split
  · exact ⟨_, rfl⟩
  · have ht := hin x (by simp only [List.map_append, List.map_cons, List.mem_append, List.mem_cons]; exact .inr (.inr hx))
    cases hm : h.mem x with
    | strong v rc l =>
      have : v = t := by simpa [Heap.memTree, hm] using ht
      subst this
      exact absurd hm (hs x rc l)
    | weak o =>
      have : o = some t := by simpa [Heap.memTree, hm] using ht
      subst this
      simp [Option.filter, hd]

private theorem at_tree {l1 l2 : List (Moment α)} {m : Moment α} (F : FreesT t h (l1 ++ m :: l2) h')
    (hd : m.dying = some t ∨ (m.dying = none ∧ m.heap.root t = none)) :
    m.upgradeTree u = if u ≠ t ∧ h.treeAlive u = true then some u else none := by
  obtain ⟨-, -, a3⟩ := F.at
  unfold Moment.upgradeTree
  by_cases hu : u = t
  · subst hu
    rcases hd with hd | ⟨hd, hr⟩
    · simp [hd]
    · simp [Heap.treeAlive, hr]
  · have : m.heap.treeAlive u = h.treeAlive u := by rw [Heap.treeAlive, a3 u hu]; rfl
    have hdy : (m.dying != some u) = true := by
      rcases hd with hd | ⟨hd, -⟩
      · simp only [hd, bne_iff_ne, ne_eq, Option.some.injEq]; exact fun e => hu e.symm
      · simp [hd]
    simp [this, hu, hdy]

private theorem tree_all (hr : ReachW w) (h1 : w.trees t = 1)
    (h2 : ∀ k n, 0 < w.held k n → w.heap.nodeTree n ≠ .ok t) :
    ∃ h' ms, w.heap.relTreeT t = .ok (h', ms) ∧
      w.exec (.dropTree t) =
        .ok ({ w with heap := h', trees := fun u => if u = t then 0 else w.trees u }, .unit) ∧
      PostOrder w t none ms ∧
      (∀ x, x ∈ ms.map (·.node) ↔ w.heap.alive x = true ∧ w.heap.nodeTree x = .ok t) ∧
      (ms.map (·.node)).Nodup ∧ Answers w t ms ∧
      (∀ l1 m l2, ms = l1 ++ m :: l2 → ∀ x ∈ l2.map (·.node), ∃ s, m.upgrade x = .error (.panic s)) := by
  obtain ⟨v, ch, I⟩ := hr.wide
  have hta := I.treesAlive t (by rw [h1]; decide)
  obtain ⟨r, R, hroot, hR, hRm⟩ := I.fwd.tree_nodes hta
  have hs : ∀ x rc l, w.heap.mem x ≠ .strong t rc l := by
    intro x rc l hm
    have e := I.strong _ _ _ _ hm
    have p := I.fwd.refs.pos _ _ _ _ hm
    have : 0 < w.held .plain x ∨ 0 < w.held .hot x ∨ 0 < w.held .frozen x := by omega
    rcases this with h3 | h3 | h3
    all_goals exact h2 _ x h3 ((I.nodeTree_held h3).2 (memTree_strong hm))
  have hrc : w.heap.treeRc t = 1 := by rw [I.treeRc, h1]
  obtain ⟨h', ms, e1, e2, e3, F, D⟩ := relTreeT_last I.fwd hrc hs hroot hR
  have hin : ∀ y ∈ ms.map (·.node), w.heap.memTree y = some t := by
    intro y hy
    rw [e3, mem_post] at hy
    exact ((hRm y).1 hy).2
  refine ⟨h', ms, e1, ?_, ?_, ?_, F.nodup, ?_, ?_⟩
  · simp only [World.exec, e2, bind, Except.bind, pure, Except.pure]
    congr 3
    funext u
    by_cases e : u = t
    · subst e; simp [h1]
    · simp [e]
  · intro r' ch' T h3 h4 h5
    obtain rfl := h4.unique I.shape
    rw [hroot] at h3; cases h3
    rw [e3, h5.unique hR, List.filter_eq_self.2 (by simp)]
    simp
  · intro x
    rw [e3, mem_post, hRm x]
    exact and_congr_right fun ha => (I.fwd.tree.treeCore_iff ha).symm
  · rintro l1 m l2 rfl
    have hm := D m (by simp)
    refine ⟨?_, fun x hx => at_dead F hx, fun u => at_tree F (.inl hm.1)⟩
    intro x ha hx
    refine at_other (I.fwd.tree.live x ha) F hin (by rw [hm.2]; simp) (by rw [hm.1]; intro y e; cases e; rfl) ha ?_
    exact fun e => hx ((I.fwd.tree.treeCore_iff ha).2 e)
  · rintro l1 m l2 rfl x hx
    exact at_later F hs hin (D m (by simp)).1 hx

private theorem later_exists {ms : List (Moment α)} {a b : NodeId} (ha : a ∈ ms.map (·.node))
    (hb : b ∈ ms.map (·.node)) (hab : a ≠ b) :
    ∃ l1 m l2, ms = l1 ++ m :: l2 ∧ ∃ x, x ∈ l2.map (·.node) := by
  match ms with
  | [] => simp at ha
  | [m] =>
    simp only [List.map_cons, List.map_nil, List.mem_singleton] at ha hb
    exact absurd (ha.trans hb.symm) hab
  | m :: m' :: l => exact ⟨[], m, m' :: l, rfl, m'.node, by simp⟩

/-- C57 for the last `Tree` of a tree without other handles: every data of the tree is destroyed once, in
post-order; the answers for weak handles to nodes of other trees, to nodes already destroyed and to
trees.  Missing: nodes of the same tree that are destroyed later (`C57_tree_violated`). -/
theorem C57_tree_partial (hr : ReachW w) (h1 : w.trees t = 1)
    (h2 : ∀ k n, 0 < w.held k n → w.heap.nodeTree n ≠ .ok t) :
    ∃ h' ms, w.heap.relTreeT t = .ok (h', ms) ∧
      w.exec (.dropTree t) =
        .ok ({ w with heap := h', trees := fun u => if u = t then 0 else w.trees u }, .unit) ∧
      PostOrder w t none ms ∧
      (∀ x, x ∈ ms.map (·.node) ↔ w.heap.alive x = true ∧ w.heap.nodeTree x = .ok t) ∧
      (ms.map (·.node)).Nodup ∧ Answers w t ms := by
  obtain ⟨h', ms, a, b, c, d, e, f, -⟩ := tree_all hr h1 h2
  exact ⟨h', ms, a, b, c, d, e, f⟩

/-- C57, violated: while the last `Tree` of a tree is dropped, upgrading a weak handle to a node of the
tree that is not destroyed yet panics. -/
theorem C57_tree_panics (hr : ReachW w) (h1 : w.trees t = 1)
    (h2 : ∀ k n, 0 < w.held k n → w.heap.nodeTree n ≠ .ok t) {l1 l2 : List (Moment α)} {m : Moment α}
    (e : w.heap.relTreeT t = .ok (h', l1 ++ m :: l2)) (hx : x ∈ l2.map (·.node)) :
    ∃ s, m.upgrade x = .error (.panic s) := by
  obtain ⟨h'', ms, a, -, -, -, -, -, f⟩ := tree_all hr h1 h2
  rw [a] at e
  simp only [Except.ok.injEq, Prod.mk.injEq] at e
  obtain ⟨-, rfl⟩ := e
  exact f _ _ _ rfl x hx

/-- C57, violated in every state: whenever a tree with at least two nodes is released by dropping its last
`Tree`, there is a destructor in which upgrading a weak handle to a node of the tree panics. -/
theorem C57_tree_violated (hr : ReachW w) (h1 : w.trees t = 1)
    (h2 : ∀ k n, 0 < w.held k n → w.heap.nodeTree n ≠ .ok t) {a b : NodeId} (hab : a ≠ b)
    (ha : w.heap.alive a = true ∧ w.heap.nodeTree a = .ok t) (hb : w.heap.alive b = true ∧ w.heap.nodeTree b = .ok t) :
    ∃ h' ms m x s, w.heap.relTreeT t = .ok (h', ms) ∧ m ∈ ms ∧
      (w.heap.alive x = true ∧ w.heap.nodeTree x = .ok t) ∧ m.upgrade x = .error (.panic s) := by
  obtain ⟨h', ms, e, -, -, d, -, -, f⟩ := tree_all hr h1 h2
  obtain ⟨l1, m, l2, rfl, x, hx⟩ := later_exists ((d a).2 ha) ((d b).2 hb) hab
  obtain ⟨s, hs⟩ := f _ _ _ rfl x hx
  exact ⟨h', _, m, x, s, e, by simp, (d x).1 (by simp only [List.map_append, List.map_cons, List.mem_append, List.mem_cons]; exact .inr (.inr hx)), hs⟩

/-! ### The last node handle -/

private theorem decLock_last {k : Kind} (hk : k ≠ .plain) (W : FWF h ch) (hm : h.mem n = .strong t 1 1)
    (e : h.decLock n = .ok h1) :
    FWF h1 ch ∧ h1.mem n = .strong t 1 0 ∧ (∀ x, x ≠ n → h1.mem x = h.mem x) ∧ h1.root = h.root ∧
      h1.treeRc = h.treeRc ∧ h1.data = h.data := by
  unfold Heap.decLock at e
  simp only [hm, Nat.sub_self, if_true] at e
  rw [if_neg (by decide)] at e
  split at e
  · cases e
  · simp only [Except.ok.injEq] at e
    subst e
    have ha := W.refs.alive _ _ _ _ hm
    have mt : ∀ x, ((h.setMem n (.strong t 1 0)).setGrants t ‹_›).memTree x = h.memTree x := by
      intro x
      by_cases e : x = n
      · subst e; simp [Heap.memTree, Heap.setMem, Heap.setGrants, hm]
      · simp [Heap.memTree, Heap.setMem, Heap.setGrants, e]
    have mm : ∀ x, x ≠ n → ((h.setMem n (.strong t 1 0)).setGrants t ‹_›).mem x = h.mem x := by
      intro x hx; simp [Heap.setMem, Heap.setGrants, hx]
    refine ⟨{ toFShape := ⟨W.dead, W.first, W.nodup, W.mem, W.seg, W.rootNext, W.acyc, W.bound⟩
              tree := ?_, refs := ?_ }, by simp [Heap.setMem, Heap.setGrants], mm, rfl, rfl, rfl⟩
    · refine ⟨?_, ?_, ?_, ?_, W.tree.bound⟩
      · intro x hx; rw [mt]; exact W.tree.live x hx
      · intro u x hx; rw [mt]; exact W.tree.root u x hx
      · intro c q hc hq; rw [mt, mt]; exact W.tree.child c q hc hq
      · intro x u hx hp hu; rw [mt] at hu; exact W.tree.top x u hx hp hu
    · refine ⟨?_, ?_, ?_⟩
      · intro x u rc l hx
        by_cases e : x = n
        · subst e; exact ha
        · rw [mm x e] at hx; exact W.refs.alive _ _ _ _ hx
      · intro x u rc l hx
        by_cases e : x = n
        · subst e; simp [Heap.setMem, Heap.setGrants] at hx; omega
        · rw [mm x e] at hx; exact W.refs.pos _ _ _ _ hx
      · intro u hu
        rcases W.refs.held u hu with h3 | ⟨x, rc, l, h3⟩
        · exact .inl h3
        · by_cases e : x = n
          · subst e
            rw [hm] at h3; cases h3
            exact .inr ⟨x, 1, 0, by simp [Heap.setMem, Heap.setGrants]⟩
          · exact .inr ⟨x, rc, l, by rw [mm x e]; exact h3⟩

private theorem node_all (hr : ReachW w) (h1 : w.trees t = 0) (ht : w.heap.nodeTree n = .ok t)
    (hk : w.held k n = 1)
    (h2 : ∀ k' m, 0 < w.held k' m → w.heap.nodeTree m = .ok t → k' = k ∧ m = n) :
    ∃ h' ms, w.heap.dropHandleT n k = .ok (h', ms) ∧
      w.exec (.drop k n) = .ok ({ w with heap := h' }.take k n, .unit) ∧
      PostOrder w t (some n) ms ∧
      (∀ x, x ∈ ms.map (·.node) ↔ w.heap.alive x = true ∧ w.heap.nodeTree x = .ok t) ∧
      (ms.map (·.node)).Nodup ∧ Answers w t ms ∧
      (∀ l1 m l2, ms = l1 ++ m :: l2 → ∀ x ∈ l2.map (·.node), ∃ s, m.upgrade x = .error (.panic s)) := by
  obtain ⟨v, ch, I⟩ := hr.wide
  have hk0 : 0 < w.held k n := by omega
  have ha := I.held_alive hk0
  have hmt := (I.nodeTree_held hk0).1 ht
  have hta := I.fwd.tree_alive ha hmt
  obtain ⟨r, R, hroot, hR, hRm⟩ := I.fwd.tree_nodes hta
  have hz : ∀ k', k' ≠ k → w.held k' n = 0 := by
    intro k' hne
    by_cases h3 : 0 < w.held k' n
    · exact absurd (h2 _ _ h3 ht).1 hne
    · omega
  have hs : ∀ x rc l, x ≠ n → w.heap.mem x ≠ .strong t rc l := by
    intro x rc l hx hm
    have e := I.strong _ _ _ _ hm
    have p := I.fwd.refs.pos _ _ _ _ hm
    have : 0 < w.held .plain x ∨ 0 < w.held .hot x ∨ 0 < w.held .frozen x := by omega
    rcases this with h3 | h3 | h3
    all_goals exact hx (h2 _ x h3 ((I.nodeTree_held h3).2 (memTree_strong hm))).2
  have hmem : ∃ l, w.heap.mem n = .strong t 1 l ∧ (k = .plain → l = 0) ∧ (k ≠ .plain → l = 1) := by
    cases hm : w.heap.mem n with
    | weak o => have := I.weak _ _ hm k; omega
    | strong u rc l =>
      obtain ⟨e1, e2⟩ := I.strong _ _ _ _ hm
      rw [memTree_strong hm] at hmt
      simp only [Option.some.injEq] at hmt
      subst hmt
      cases k with
      | plain =>
        have := hz .hot (by decide); have := hz .frozen (by decide)
        refine ⟨l, ?_, fun _ => by omega, by simp⟩
        congr 1; omega
      | hot =>
        have := hz .plain (by decide); have := hz .frozen (by decide)
        refine ⟨l, ?_, by simp, fun _ => by omega⟩
        congr 1; omega
      | frozen =>
        have := hz .plain (by decide); have := hz .hot (by decide)
        refine ⟨l, ?_, by simp, fun _ => by omega⟩
        congr 1; omega
  -- the state after the lock has been given back
  obtain ⟨g, W, hgm, hgo, hgr, hgt, hgd, hT, hD⟩ : ∃ g, FWF g ch ∧ g.mem n = .strong t 1 0 ∧
      (∀ x, x ≠ n → g.mem x = w.heap.mem x) ∧ g.root = w.heap.root ∧ g.treeRc = w.heap.treeRc ∧
      g.data = w.heap.data ∧ w.heap.dropHandleT n k = g.dropLinkT n ∧ w.heap.dropHandle n k = g.dropLink n := by
    obtain ⟨l, hm, hl0, hl1⟩ := hmem
    by_cases hkp : k = .plain
    · rw [hl0 hkp] at hm
      subst hkp
      exact ⟨w.heap, I.fwd, hm, fun _ _ => rfl, rfl, rfl, rfl, rfl, rfl⟩
    · rw [hl1 hkp] at hm
      obtain ⟨g', e1, -, -⟩ := I.inv.unbundle (n := n) (k := k) (by rw [I.sim.held]; exact hk0) hkp
      have R := I.sim.heap.decLock n
      rw [e1] at R
      obtain ⟨g, e⟩ : ∃ g, w.heap.decLock n = .ok g := by
        generalize w.heap.decLock n = a at R
        cases R with
        | ok _ => exact ⟨_, rfl⟩
      obtain ⟨a1, a2, a3, a4, a5, a6⟩ := decLock_last hkp I.fwd hm e
      refine ⟨g, a1, a2, a3, a4, a5, a6, ?_, ?_⟩
      · cases k <;> simp only [Heap.dropHandleT, e, bind, Except.bind]
        exact absurd rfl hkp
      · cases k <;> simp only [Heap.dropHandle, e, bind, Except.bind]
        exact absurd rfl hkp
  obtain ⟨h', ms, l, e1, e2, e3, e4, F, D, d1, d2, d3⟩ := dropLinkT_last W hgm (by rw [hgt, I.treeRc, h1])
    (fun x rc l hx => by rw [hgo x hx]; exact hs x rc l hx) (by rw [hgr]; exact hroot) hR
  have hal : ∀ x, (g.setMem n (.weak (some t))).alive x = w.heap.alive x := by
    intro x
    show (g.data x).isSome = _
    rw [hgd]; rfl
  have hmT : ∀ x, (g.setMem n (.weak (some t))).memTree x = w.heap.memTree x := by
    intro x
    by_cases e : x = n
    · subst e; simp [Heap.memTree, Heap.setMem] ; simpa [Heap.memTree] using hmt.symm
    · simp [Heap.memTree, Heap.setMem, e, hgo x e]
  have hro : (g.setMem n (.weak (some t))).root = w.heap.root := hgr
  have htA : ∀ u, (g.setMem n (.weak (some t))).treeAlive u = w.heap.treeAlive u := by
    intro u; rw [Heap.treeAlive, hro]; rfl
  have hst : ∀ y rc l, (g.setMem n (.weak (some t))).mem y ≠ .strong t rc l := by
    intro y rc l
    by_cases e : y = n
    · subst e; simp [Heap.setMem]
    · simp only [Heap.setMem, upd_ne _ _ e, hgo y e]; exact hs y rc l e
  have hnR : n ∈ R.nodes := (hRm n).2 ⟨ha, hmt⟩
  have hms : (ms ++ [l]).map (·.node) = R.post.filter (fun x => x ≠ n) ++ [n] := by
    rw [List.map_append, e3]; simp [e4]
  have hiff : ∀ x, x ∈ (ms ++ [l]).map (·.node) ↔ w.heap.alive x = true ∧ w.heap.memTree x = some t := by
    intro x
    rw [hms, List.mem_append, List.mem_filter, mem_post, List.mem_singleton, ← hRm x]
    by_cases e : x = n
    · subst e; simp [hnR]
    · simp [e]
  have hin : ∀ y ∈ (ms ++ [l]).map (·.node), (g.setMem n (.weak (some t))).memTree y = some t := by
    intro y hy
    rw [hmT]; exact ((hiff y).1 hy).2
  have hd : ∀ m ∈ ms ++ [l], m.dying = some t ∨ (m.dying = none ∧ m.heap.root t = none) := by
    intro m hm
    rcases List.mem_append.1 hm with hm | hm
    · exact .inl (D m hm).1
    · rw [List.mem_singleton] at hm; subst hm; exact .inr ⟨d3, d1⟩
  have hc : ∀ m ∈ ms ++ [l], ∀ y, m.cell = some y → (g.setMem n (.weak (some t))).memTree y = some t := by
    intro m hm y hy
    rcases List.mem_append.1 hm with hm | hm
    · rw [(D m hm).2] at hy; cases hy; rw [hmT]; exact hmt
    · rw [List.mem_singleton] at hm; subst hm; rw [d2] at hy; cases hy
  refine ⟨h', ms ++ [l], by rw [hT, e1], ?_, ?_, ?_, F.nodup, ?_, ?_⟩
  · simp only [World.exec, hD, e2, bind, Except.bind, pure, Except.pure]
  · intro r' ch' T h3 h4 h5
    obtain rfl := h4.unique I.shape
    rw [hroot] at h3; cases h3
    rw [hms, h5.unique hR]
    simp
  · intro x
    rw [hiff]
    exact and_congr_right fun ha => (I.fwd.tree.treeCore_iff ha).symm
  · intro l1 m l2 e
    rw [e] at F hin hd hc
    refine ⟨?_, ?_, ?_⟩
    · intro x hxa hx
      have hx' : w.heap.memTree x ≠ some t := fun e => hx ((I.fwd.tree.treeCore_iff hxa).2 e)
      refine at_other ?_ F hin (hc m (by simp)) ?_ (by rw [hal]; exact hxa) (by rw [hmT]; exact hx')
      · obtain ⟨u, hu, hua⟩ := I.fwd.tree.live x hxa
        exact ⟨u, by rw [hmT]; exact hu, by rw [htA]; exact hua⟩
      · intro y hy
        rcases hd m (by simp) with h3 | ⟨h3, -⟩
        · rw [h3] at hy; cases hy; rfl
        · rw [h3] at hy; cases hy
    · intro x hx
      exact at_dead F (by rw [hal]; exact hx)
    · intro u
      rw [at_tree F (hd m (by simp)), htA]
  · intro l1 m l2 e x hx
    have hmm : m ∈ ms := by
      rcases List.eq_nil_or_concat l2 with rfl | ⟨l2', a, rfl⟩
      · simp at hx
      · have : ms = l1 ++ m :: l2' := by
          have e' : ms ++ [l] = (l1 ++ m :: l2') ++ [a] := by rw [e]; simp
          exact (List.append_inj' e' rfl).1
        rw [this]; simp
    rw [e] at F hin
    exact at_later F hst hin (D m hmm).1 hx

/-- C57 for the last handle of a tree, a `Node`, `HotNode` or `FrozenNode` of `n`: every data of the tree is
destroyed once, in post-order except that `n` comes last; the answers for weak handles to nodes of other
trees, to nodes already destroyed and to trees.  Missing: nodes of the same tree that are destroyed later
(`C57_node_violated`). -/
theorem C57_node_partial (hr : ReachW w) (h1 : w.trees t = 0) (ht : w.heap.nodeTree n = .ok t)
    (hk : w.held k n = 1)
    (h2 : ∀ k' m, 0 < w.held k' m → w.heap.nodeTree m = .ok t → k' = k ∧ m = n) :
    ∃ h' ms, w.heap.dropHandleT n k = .ok (h', ms) ∧
      w.exec (.drop k n) = .ok ({ w with heap := h' }.take k n, .unit) ∧
      PostOrder w t (some n) ms ∧
      (∀ x, x ∈ ms.map (·.node) ↔ w.heap.alive x = true ∧ w.heap.nodeTree x = .ok t) ∧
      (ms.map (·.node)).Nodup ∧ Answers w t ms := by
  obtain ⟨h', ms, a, b, c, d, e, f, -⟩ := node_all hr h1 ht hk h2
  exact ⟨h', ms, a, b, c, d, e, f⟩

/-- C57, violated: while the last handle of a tree is dropped, upgrading a weak handle to a node of the
tree that is not destroyed yet panics. -/
theorem C57_node_panics (hr : ReachW w) (h1 : w.trees t = 0) (ht : w.heap.nodeTree n = .ok t)
    (hk : w.held k n = 1)
    (h2 : ∀ k' m, 0 < w.held k' m → w.heap.nodeTree m = .ok t → k' = k ∧ m = n)
    {l1 l2 : List (Moment α)} {m : Moment α}
    (e : w.heap.dropHandleT n k = .ok (h', l1 ++ m :: l2)) (hx : x ∈ l2.map (·.node)) :
    ∃ s, m.upgrade x = .error (.panic s) := by
  obtain ⟨h'', ms, a, -, -, -, -, -, f⟩ := node_all hr h1 ht hk h2
  rw [a] at e
  simp only [Except.ok.injEq, Prod.mk.injEq] at e
  obtain ⟨-, rfl⟩ := e
  exact f _ _ _ rfl x hx

/-- C57, violated in every state: whenever a tree with at least two nodes is released by dropping its last
handle, the node of this handle cannot be upgraded without panic by the destructors of the other nodes. -/
theorem C57_node_violated (hr : ReachW w) (h1 : w.trees t = 0) (ht : w.heap.nodeTree n = .ok t)
    (hk : w.held k n = 1)
    (h2 : ∀ k' m, 0 < w.held k' m → w.heap.nodeTree m = .ok t → k' = k ∧ m = n) {b : NodeId} (hab : b ≠ n)
    (hb : w.heap.alive b = true ∧ w.heap.nodeTree b = .ok t) :
    ∃ h' ms m s, w.heap.dropHandleT n k = .ok (h', ms) ∧ m ∈ ms ∧ m.node = b ∧
      m.upgrade n = .error (.panic s) := by
  obtain ⟨h', ms, e, -, c, d, nd, -, f⟩ := node_all hr h1 ht hk h2
  obtain ⟨v, ch, I⟩ := hr.wide
  have hk0 : 0 < w.held k n := by omega
  have hmt := (I.nodeTree_held hk0).1 ht
  have hta := I.fwd.tree_alive (I.held_alive hk0) hmt
  obtain ⟨r, R, hroot, hR, hRm⟩ := I.fwd.tree_nodes hta
  have hp := c r ch R hroot I.shape hR
  have hb' := (d b).2 hb
  obtain ⟨m, hm, rfl⟩ := List.mem_map.1 hb'
  obtain ⟨l1, l2, rfl⟩ := List.append_of_mem hm
  have hn : n ∈ l2.map (·.node) := by
    rcases List.eq_nil_or_concat l2 with rfl | ⟨l2', a, rfl⟩
    · exfalso
      rw [List.map_append] at hp
      have := (List.append_inj' hp rfl).2
      simp at this
      exact hab this
    · have hp' : (l1 ++ m :: l2').map (·.node) ++ [a.node] =
          R.post.filter (fun x => some x ≠ some n) ++ [n] := by
        rw [← (show (some n).toList = [n] from rfl), ← hp]; simp
      have := (List.append_inj' hp' rfl).2
      simp at this
      simp [this]
  obtain ⟨s, hs⟩ := f _ _ _ rfl n hn
  exact ⟨h', _, m, s, e, by simp, rfl, hs⟩

/-- The only handle of tree 1 of `DemoWorld` is a `HotNode` of the root 4; its other nodes are 1 and 3. -/
private def lone : World Nat := DemoWorld.run [.drop .hot 1] (DemoWorld.at_ 14)

private theorem lone_reach : Reach lone :=
  .step DemoWorld.reach14 (op := .drop .hot 1) (r := .unit)
    ⟨show 0 < (DemoWorld.at_ 14).held .hot 1 by decide, fun _ _ => trivial, DemoWorld.room 14 (by decide), rfl⟩

/-- The last `Tree` of tree 0, which has the nodes 0 and 2; and the last handle of tree 1, whose root 4
has the child 1 and the grandchild 3: 3 is destroyed first, then 1, then 4; the destructor of 3 cannot
ask for its parent 1. -/
example : (ReachW (DemoWorld.at_ 13) ∧ (DemoWorld.at_ 13).trees 0 = 1 ∧
      (∀ k n, 0 < (DemoWorld.at_ 13).held k n → (DemoWorld.at_ 13).heap.nodeTree n ≠ .ok 0) ∧
      ((DemoWorld.at_ 13).heap.alive 0 = true ∧ (DemoWorld.at_ 13).heap.nodeTree 0 = .ok 0) ∧
      ((DemoWorld.at_ 13).heap.alive 2 = true ∧ (DemoWorld.at_ 13).heap.nodeTree 2 = .ok 0)) ∧
    (ReachW lone ∧ lone.trees 1 = 0 ∧ lone.heap.nodeTree 4 = .ok 1 ∧ lone.held .hot 4 = 1 ∧
      (∀ k m, 0 < lone.held k m → lone.heap.nodeTree m = .ok 1 → k = .hot ∧ m = 4) ∧
      (lone.heap.alive 3 = true ∧ lone.heap.nodeTree 3 = .ok 1)) ∧
    ((match lone.heap.dropHandleT 4 .hot with
      | .ok (_, [a, b, c]) => (a.node, b.node, c.node) == (3, 1, 4) &&
        (match a.upgrade 1 with | .error _ => true | .ok _ => false) &&
        (match b.upgrade 3 with | .ok none => true | _ => false)
      | _ => false) = true) := by
  refine ⟨⟨DemoWorld.reach13.toW, rfl, ?_, ⟨rfl, rfl⟩, rfl, rfl⟩, ⟨lone_reach.toW, rfl, rfl, rfl, ?_, rfl, rfl⟩,
    by decide +kernel⟩
  · intro k n hk
    match n, k with
    | 0, .plain | 0, .hot | 0, .frozen | 1, .plain | 1, .frozen | 2, .plain | 2, .hot | 2, .frozen
    | 3, .plain | 3, .hot | 3, .frozen | 4, .plain | 4, .frozen => exact absurd hk (by decide)
    | 1, .hot | 4, .hot => intro e; cases e
    | n + 5, .plain | n + 5, .hot | n + 5, .frozen => exact absurd hk (Nat.lt_irrefl 0)
  · intro k n hk _
    match n, k with
    | 0, .plain | 0, .hot | 0, .frozen | 1, .plain | 1, .hot | 1, .frozen | 2, .plain | 2, .hot | 2, .frozen
    | 3, .plain | 3, .hot | 3, .frozen | 4, .plain | 4, .frozen => exact absurd hk (by decide)
    | 4, .hot => exact ⟨rfl, rfl⟩
    | n + 5, .plain | n + 5, .hot | n + 5, .frozen => exact absurd hk (Nat.lt_irrefl 0)

end Dendron
