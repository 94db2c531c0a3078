import Verif.Proofs.CascadeLoop
import Verif.Proofs.CascadeFuel
import Verif.Proofs.MachineRun

/-! `detach_subtree` with data that owns handles, in terms of ordinary calls. -/

set_option linter.unusedSimpArgs false
set_option linter.unusedVariables false
set_option autoImplicit false

namespace Dendron
open RTree
variable {α : Type} {h h' h1 h2 G H : Heap α} {n x p m : NodeId} {t t' u : TreeId} {dt : Dtor α}
  {pins pins' : List NodeId} {w w1 w2 w3 w4 w5 w' v v' : World α} {own : NodeId → List Asset} {P : List Asset}
  {ch ch' : NodeId → List NodeId} {k : Kind} {a : Auth}

/-! ### Drops -/

/-- The nodes of a tree that survives survive. -/
theorem Drops.saved (D : Drops own P w w') : ReachW w → ∀ x t, w.heap.alive x = true → w.heap.memTree x = some t →
    w'.heap.treeAlive t = true → w'.heap.alive x = true := by
  induction D with
  | nil => exact fun _ _ _ h _ _ => h
  | @cons a as l w w1 w' s hl hm D ih =>
    intro hb x t hx ht hta
    have hb1 := ReachW.step hb s
    have M := Asset.members hb s
    cases hx1 : w1.heap.alive x with
    | true => exact ih hb1 x t hx1 ((M.1 x hx1).trans ht) hta
    | false =>
      have h2 := M.2 x t hx hx1 ht
      have := (D.fade hb1)
      have e := tcell_alive (this.tree t h2)
      rw [e, h2] at hta; cases hta

/-- The survivors keep their children. -/
theorem Drops.children (D : Drops own P w w') : ReachW w → ∀ ch ch', FShape w.heap ch → FShape w'.heap ch' →
    ∀ x, w'.heap.alive x = true → ch' x = ch x := by
  induction D with
  | nil => intro _ ch ch' F F' x _; rw [F.unique F']
  | @cons a as l w w1 w' s hl hm D ih =>
    intro hb ch ch' F F' x hx
    obtain ⟨v, c0, v1, c1, W, W1, K⟩ := hb.step_wide s
    have hb1 := ReachW.step hb s
    obtain rfl := F.unique W.shape
    have hx1 := (D.fade hb1).alive hx
    have hx0 := (Asset.fade hb s).alive hx1
    obtain ⟨t, ht, -⟩ := W.fwd.tree.live x hx0
    have hE : ∀ t, ¬ Edits w.heap a.op t := by intro t; cases a <;> exact id
    rw [ih hb1 c1 ch' W1.shape F' x hx]
    exact (K.stay x t hx0 ht (hE t) hx1).2

theorem Drops.count_le (hr : ReachW w) (D : Drops own P w w') (b : Asset) : w'.count b ≤ w.count b := by
  obtain ⟨l, -, -, h3⟩ := D.account hr
  have := h3 b; omega

theorem Wide.refs (W : Wide w v ch) (x : NodeId) (hx : w.heap.alive x = true) : w.heap.referenced x = true := by
  obtain ⟨pv, rfl⟩ := W.fix
  exact W.inv.wf.referenced hx

theorem Wide.rcOf (W : Wide w v ch) (m : NodeId) :
    w.heap.rcOf m = w.held .plain m + w.held .hot m + w.held .frozen m := by
  unfold Heap.rcOf
  split
  · rename_i t rc l hm; exact (W.strong m t rc l hm).1
  · rename_i o hm
    rw [W.weak m o hm, W.weak m o hm, W.weak m o hm]

/-! ### The loop while there is one more `Tree` -/

theorem setMembLoop_walk {start : NodeId} : ∀ {f : Nat} {ev : Option (DftEvent NodeId)} {h h' : Heap α},
    h.setMembLoop f start t ev = .ok (some h') → Lives h h' → SameWalk h h'
  | f, none, h, h', e, _ => by cases f <;> (cases e; exact ⟨rfl, rfl, rfl, rfl, rfl, rfl⟩)
  | 0, some _, _, _, e, _ => by cases e
  | f + 1, some ev, h, h', e, L => by
    unfold Heap.setMembLoop at e
    split at e
    · cases e; exact ⟨rfl, rfl, rfl, rfl, rfl, rfl⟩
    · simp only at e
      split at e
      · split at e
        · cases e
        · cases e
        · rename_i h1 e1
          split at e
          · cases e
          · rename_i h2 e2
            have b := release_rf e2
            have d := setMembLoop_rf e
            have L1 : Lives h h1 := ⟨fun x hx => b.alive (d.1 x (L.node x hx)), fun u hu => b.tree u (d.2 u (L.tree u hu))⟩
            have a := setTreeCore_rf e1
            have L2 : Lives h1 h2 := ⟨fun x hx => d.1 x (L.node x (a.1 x hx)), fun u hu => d.2 u (L.tree u (a.2 u hu))⟩
            have L3 : Lives h2 h' := ⟨fun x hx => L.node x (a.1 x (b.alive hx)), fun u hu => L.tree u (a.2 u (b.tree u hu))⟩
            obtain ⟨rfl, -⟩ := release_skip e2 L2
            exact (setTreeCore_walk e1 L1).1.trans (setMembLoop_walk e L3)
      · split at e
        · cases e
        · rename_i h2 e2
          have b := release_rf e2
          have d := setMembLoop_rf e
          have L2 : Lives h h2 := ⟨fun x hx => d.1 x (L.node x hx), fun u hu => d.2 u (L.tree u hu)⟩
          obtain ⟨rfl, -⟩ := release_skip e2 L2
          exact setMembLoop_walk e L

/-- The last one with a handle. -/
theorem last_strong (h : Heap α) : ∀ l : List NodeId, (∃ x ∈ l, ∃ t rc k, h.mem x = .strong t rc k) →
    ∃ D m E, l = D ++ m :: E ∧ (∃ t rc k, h.mem m = .strong t rc k) ∧ ∀ x ∈ E, ∃ o, h.mem x = .weak o
  | [], hx => by obtain ⟨x, hx, -⟩ := hx; cases hx
  | y :: l, hx => by
    by_cases hl : ∃ x ∈ l, ∃ t rc k, h.mem x = .strong t rc k
    · obtain ⟨D, m, E, rfl, h2, h3⟩ := last_strong h l hl
      exact ⟨y :: D, m, E, rfl, h2, h3⟩
    · refine ⟨[], y, l, rfl, ?_, fun x hx => ?_⟩
      · obtain ⟨x, hx, h2⟩ := hx
        rcases List.mem_cons.1 hx with rfl | hx
        · exact h2
        · exact absurd ⟨x, hx, h2⟩ hl
      · cases e : h.mem x with
        | weak o => exact ⟨o, rfl⟩
        | strong t rc k => exact absurd ⟨x, hx, t, rc, k, e⟩ hl

/-! ### The ordinary calls -/

theorem detach_facts (hr : ReachW w) (s : w.StepW (.detach a n) w' .unit) (hroot : w.heap.isRoot n = false) :
    w'.heap.memTree n = some w.heap.nTree ∧ (∀ x, w'.heap.alive x = true → w'.heap.memTree x = some w.heap.nTree →
      w.heap.alive x = true ∧ w.heap.memTree x = w.heap.memTree n) ∧ w'.heap.nNode = w.heap.nNode := by
  obtain ⟨v, ch, W⟩ := hr.wide
  have hr' : ReachW w' := .step hr s
  obtain ⟨v', ch', W'⟩ := hr'.wide
  have S := W.shape.view
  obtain ⟨b, S', st⟩ := s.plays hr S
  have hH : w.HasAuth n a := s.allowed
  have hk0 := hH.holds
  have hna := W.held_alive hk0
  have hheld : w'.held = w.held := by
    have e := s.run
    simp only [World.exec, bind, Except.bind, pure, Except.pure] at e
    split at e
    · cases e
    split at e
    · cases e
    cases e; rfl
  have hna' : w'.heap.alive n = true := W'.held_alive (k := a.kind) (by rw [hheld]; exact hk0)
  have C := W.coherent
  cases st with
  | detachRoot _ htop =>
    exfalso
    have : w.heap.parentLink n = none := by
      cases e : w.heap.parentLink n with
      | none => rfl
      | some q => exact absurd ((C.parent q n hna).1 e) (by have := htop q; exact this)
    simp [Heap.isRoot, this] at hroot
  | detach _ _ =>
    have key : ∀ x, w'.heap.alive x = true → w'.heap.memTree x = (w.view ch |>.rehome (Desc ch n) w.heap.nTree).tree x := by
      intro x hx
      have h2 := S'.tree x
      rw [if_pos hx] at h2
      rw [← h2]
      simp only [Forest.sweep]
      split
      · rfl
      · rename_i hc
        exfalso
        obtain ⟨u, hu, -⟩ := W'.fwd.tree.live x hx
        rw [hu] at h2
        simp only [Forest.sweep] at h2
        rw [if_neg hc] at h2; cases h2
    refine ⟨?_, fun x hx ht => ?_, S'.newNode.symm⟩
    · rw [key n hna']
      simp [Forest.rehome, Desc.refl, World.view]
    · rw [key x hx] at ht
      simp only [Forest.rehome] at ht
      split at ht
      · rename_i hd
        exact ⟨W.shape.desc_alive hna hd, W.fwd.tree.desc_memTree W.shape hd⟩
      · exfalso
        simp only [World.view] at ht
        split at ht
        · rename_i hxa
          obtain ⟨u, hu, hua⟩ := W.fwd.tree.live x hxa
          rw [hu] at ht
          obtain rfl : u = w.heap.nTree := by simpa using ht
          exact absurd (W.fwd.tree.bound _ hua) (Nat.lt_irrefl _)
        · cases ht

theorem detach_counts (s : w.StepW (.detach a n) w' .unit) :
    w'.held = w.held ∧ w'.trees = w.trees ∧ w'.grantTok = w.grantTok ∧ w'.prohTok = w.prohTok ∧
      w.heap.detachSubtree n = .ok w'.heap := by
  have e := s.run
  simp only [World.exec, bind, Except.bind, pure, Except.pure] at e
  split at e
  · cases e
  split at e
  · cases e
  rename_i h e1
  cases e
  exact ⟨rfl, rfl, rfl, rfl, e1⟩

theorem treeOf_counts (s : w.StepW (.treeOf k n) w' (.tree (some t))) :
    w.heap.nodeTree n = .ok t ∧ w'.heap = w.heap.acqTree t ∧ w'.held = w.held ∧
      w'.trees = upd w.trees t (w.trees t + 1) ∧ w'.grantTok = w.grantTok ∧ w'.prohTok = w.prohTok := by
  have e := s.run
  simp only [World.exec, bind, Except.bind, pure, Except.pure] at e
  split at e
  · cases e
  rename_i u e1
  cases e
  exact ⟨e1, rfl, rfl, rfl, rfl, rfl⟩

/-- While there is a `Tree` of the tree, `detach_subtree` destroys nothing. -/
theorem detach_lives (hr : ReachW w) (s : w.StepW (.detach a n) w' .unit) (ht : w.heap.memTree n = some t)
    (htr : 0 < w.trees t) : Lives w.heap w'.heap := by
  obtain ⟨v, ch, v', ch', W, W', K⟩ := hr.step_wide s
  obtain ⟨c1, c2, -⟩ := detach_counts s
  have trees : ∀ u, w.heap.treeAlive u = true → w'.heap.treeAlive u = true := by
    intro u hu
    rcases W.treeHeld_iff.2 hu with h1 | ⟨k, x, h1, h2⟩
    · exact W'.treesAlive u (by rw [c2]; exact h1)
    · by_cases e : u = t
      · subst e; exact W'.treesAlive u (by rw [c2]; exact htr)
      · have hx := W.held_alive h1
        have hx' := W'.held_alive (k := k) (n := x) (by rw [c1]; exact h1)
        have h3 := (W.fwd.tree.treeCore_iff hx).1 h2
        have h4 := (K.stay x u hx h3 (fun hE => e (by
          have : w.heap.memTree n = some u := hE
          rw [ht] at this; exact (Option.some.inj this).symm)) hx').1
        exact W'.fwd.tree_alive hx' h4
  refine ⟨fun x hx => ?_, trees⟩
  cases e : w'.heap.alive x with
  | true => rfl
  | false =>
    obtain ⟨u, hu, hua⟩ := W.fwd.tree.live x hx
    have := K.died x u hx e hu
    rw [trees u hua] at this; cases this

theorem exists_of_lt {a b c a' b' c' : Nat} (h : a' + b' + c' < a + b + c) : a' < a ∨ b' < b ∨ c' < c := by omega

theorem setTreeRc_setTreeRc {v v' : Nat} : (h.setTreeRc t v).setTreeRc t v' = h.setTreeRc t v' := by
  unfold Heap.setTreeRc
  simp only
  congr 1
  funext u
  by_cases e : u = t
  · subst e; simp
  · simp [upd_ne _ _ e]

theorem setTreeRc_self : h.setTreeRc t (h.treeRc t) = h := by
  have : upd h.treeRc t (h.treeRc t) = h.treeRc := by
    funext u
    by_cases e : u = t
    · subst e; simp
    · simp [upd_ne _ _ e]
  unfold Heap.setTreeRc
  rw [this]

/-- The stages of `detach_subtree` while there is one more `Tree` of the old tree. -/
theorem detach_stages (hr : ReachW w1) (s2 : w1.StepW (.detach a n) w2 .unit) (s3 : w2.StepW (.treeOf k n) w3 (.tree (some u)))
    (hroot : w1.heap.isRoot n = false) (ht : w1.heap.memTree n = some t) (htr : 0 < w1.trees t) :
    ∃ g b, w1.heap.newByUnlink [] n = .ok (g, b) ∧ u = g.nTree ∧ u = w1.heap.nTree ∧ Sub w1.heap g ∧
      (g.allocTree n).1.setMembLoop (2 * g.nNode + 2) n u (some (.opn n)) = .ok (some w3.heap) ∧
      Lives (g.allocTree n).1 w3.heap := by
  have L := detach_lives hr s2 ht htr
  obtain ⟨-, -, -, -, e⟩ := detach_counts s2
  obtain ⟨t1, t2, -⟩ := treeOf_counts s3
  obtain ⟨f1, f2, -⟩ := detach_facts hr s2 hroot
  have hr2 : ReachW w2 := .step hr s2
  obtain ⟨v2, ch2, W2⟩ := hr2.wide
  have hna2 : w2.heap.alive n = true := W2.held_alive s3.allowed
  have hu : u = w1.heap.nTree := by
    have := (W2.fwd.tree.treeCore_iff hna2).1 t1
    rw [f1] at this; exact (Option.some.inj this).symm
  have hua : w2.heap.treeAlive u = true := by rw [hu]; exact W2.fwd.tree_alive hna2 f1
  unfold Heap.detachSubtree at e
  rw [if_neg (by simp [hroot])] at e
  simp only [bind, Except.bind] at e
  split at e
  · cases e
  rename_i vv hv
  obtain ⟨g, b⟩ := vv
  have K := (Sub.refl w1.heap).newByUnlink _ hv
  have hT : g.nTree = w1.heap.nTree := K.nTree
  simp only at e
  unfold Heap.createNewTree Heap.setMemberships at e
  simp only at e
  split at e
  · cases e
  · cases e
  · rename_i h2 e2
    have R := relTree_rf e
    have hd := setMembLoop_rf e2
    have lv : ∀ z, (g.allocTree n).1.treeAlive z = true → w2.heap.treeAlive z = true := by
      intro z hz
      by_cases ez : z = g.nTree
      · subst ez; rw [hT, ← hu]; exact hua
      · refine L.tree z (K.tree z ?_)
        simpa [Heap.treeAlive, Heap.allocTree, ez] using hz
    have L2 : Lives (g.allocTree n).1 h2 :=
      ⟨fun x hx => R.node x (L.node x (K.node x hx)), fun u hu => R.tree u (lv u hu)⟩
    have L3 : Lives h2 w2.heap := ⟨fun x hx => L.node x (K.node x (hd.1 x hx)), fun u hu => lv u (hd.2 u hu)⟩
    have hSW := setMembLoop_walk e2 L2
    have e3 : h2 = w3.heap := by
      unfold Heap.relTree at e
      obtain ⟨e4, -⟩ := maybeDropTree_kept (dt := fun _ _ h => .ok h) (c := Nest.start) (pins' := []) e
        (L3.pre (fun _ => rfl) (fun _ => rfl))
      have hone : h2.treeRc u = 1 := by rw [hSW.treeRc, hu, ← hT]; simp [Heap.allocTree]
      have hal : (g.allocTree n).2 = u := by rw [hu, ← hT]; rfl
      rw [hal] at e4
      rw [t2, e4]
      unfold Heap.acqTree
      rw [setTreeRc_setTreeRc]
      have : (h2.setTreeRc u (h2.treeRc u - 1)).treeRc u + 1 = h2.treeRc u := by
        simp [Heap.setTreeRc, hone]
      rw [this, setTreeRc_self]
    subst e3
    have hal : (g.allocTree n).2 = u := by rw [hu, ← hT]; rfl
    rw [hal] at e2
    exact ⟨g, b, hv, by rw [hT]; exact hu, hu, K, e2, L2⟩

/-- `detach_subtree`, compared with the ordinary calls. -/
theorem ReachW.detach_late (hr : ReachW w) (hS : OwnsAll own w []) (hp : w.heap.parentLink n = some p)
    (s1 : w.StepW (.treeOf k n) w1 (.tree (some t))) (s2 : w1.StepW (.detach a n) w2 .unit)
    (s3 : w2.StepW (.treeOf k n) w3 (.tree (some u))) (F : FShape w3.heap ch) {T : RTree NodeId} (hT : SubtreeAt ch n T) :
    ∃ w4 w5 m D E, Drops own [.tree t] w3 w4 ∧ Drops own [.tree u] w4 w5 ∧ T.nodes = D ++ m :: E ∧
      (∃ k, 0 < w3.held k m) ∧ (∀ x ∈ E, ∀ k, w3.held k x = 0) ∧ ∀ f, w.heap.nNode ≤ f →
        ((∀ k, w4.held k m = w3.held k m) → w.heap.detachSubtreeC (Heap.dtor own f) Nest.start n = .ok w5.heap) ∧
        (∀ k, w4.held k m < w3.held k m → w.heap.detachSubtreeC (Heap.dtor own f) Nest.start n = .error Nest.nested) := by
  have hr1 : ReachW w1 := .step hr s1
  have hr2 : ReachW w2 := .step hr1 s2
  have hr3 : ReachW w3 := .step hr2 s3
  obtain ⟨v0, ch0, W0⟩ := hr.wide
  obtain ⟨v1, ch1, W1⟩ := hr1.wide
  obtain ⟨v3, ch3, W3⟩ := hr3.wide
  obtain rfl := W3.shape.unique F
  obtain ⟨a1, a2, a3, a4, a5, a6⟩ := treeOf_counts s1
  obtain ⟨b1, b2, b3, b4, b5, b6⟩ := treeOf_counts s3
  obtain ⟨c1, c2, c3, c4, -⟩ := detach_counts s2
  have hna : w.heap.alive n = true := W0.held_alive s1.allowed
  have ht0 : w.heap.memTree n = some t := (W0.fwd.tree.treeCore_iff hna).1 a1
  have hroot : w.heap.isRoot n = false := by simp [Heap.isRoot, hp]
  have ht1 : w1.heap.memTree n = some t := by rw [a2]; exact ht0
  have hroot1 : w1.heap.isRoot n = false := by rw [a2]; exact hroot
  have htr1 : 0 < w1.trees t := by rw [a4]; simp
  obtain ⟨g, b, d1, d2, d3, d4, d5, d6⟩ := detach_stages hr1 s2 s3 hroot1 ht1 htr1
  have SW := setMembLoop_walk d5 d6
  have LV := detach_lives hr1 s2 ht1 htr1
  -- what is owned
  have hheld : w3.held = w.held := by rw [b3, c1, a3]
  have htrees : ∀ z, w3.trees z = w.trees z + ([Asset.tree t, .tree u].count (.tree z)) := by
    intro z
    rw [b4, c2, a4]
    simp only [upd_apply, List.count_cons, List.count_nil, beq_iff_eq, Asset.tree.injEq]
    by_cases e1 : z = u <;> by_cases e2 : z = t <;> simp [e1, e2, eq_comm]
    all_goals grind
  have hcount : ∀ z, w3.count z = w.count z + [Asset.tree t, .tree u].count z := by
    intro z
    cases z with
    | node k x => simp [World.count, hheld]
    | tree z => exact htrees z
    | token gr z => cases gr <;> simp [World.count, b5, b6, c3, c4, a5, a6]
  have hal3 : ∀ x, w3.heap.alive x = true → w.heap.alive x = true := by
    intro x hx
    have h1 : w.heap.nNode = w1.heap.nNode := by rw [a2]; rfl
    have h3 := (setMembLoop_rf d5).1 x hx
    have h4 := d4.node x h3
    rw [a2] at h4; exact h4
  have hS3 : OwnsAll own w3 [.tree t, .tree u] := by
    intro L hL hLa z
    have := hS L hL (fun x hx => hal3 x (hLa x hx)) z
    rw [hcount, List.count_append]
    simp only [List.nil_append] at this
    omega
  have hroom3 : Room w3.heap := by rw [b2]; exact s3.room
  obtain ⟨w4, e4, D4, R4⟩ := hr3.dropAll_any_room (P := [.tree t]) (own := own) hroom3 (by
    intro L hL hLa z
    have := hS3 L hL hLa z
    simp only [List.count_append, List.count_cons, List.count_nil] at this ⊢
    omega)
  have hr4 := D4.reach hr3
  have hS4 : OwnsAll own w4 [.tree u] := D4.stored hr3 hS3
  obtain ⟨w5, e5, D5⟩ := hr4.dropAll_any R4 hS4
  obtain ⟨v4, ch4, W4⟩ := hr4.wide
  have hu4 : w4.heap.treeAlive u = true := W4.treesAlive u (by
    have := hS4 [] .nil (by simp) (.tree u)
    simp [World.count] at this; exact this)
  have hna3 : w3.heap.alive n = true := W3.held_alive (k := k) (by rw [hheld]; exact s1.allowed)
  have hn3 : w3.heap.memTree n = some u := by
    have hr2' := hr2.wide
    obtain ⟨v2, ch2, W2⟩ := hr2'
    have : w2.heap.alive n = true := W2.held_alive s3.allowed
    rw [b2]; exact (W2.fwd.tree.treeCore_iff this).1 b1
  have hnT : n ∈ T.nodes := by have := label_mem_nodes T; rwa [hT.1] at this
  have hK3 : ∀ x ∈ T.nodes, w3.heap.alive x = true ∧ w3.heap.memTree x = some u := by
    intro x hx
    have hd := (hT.mem_nodes_iff x).1 hx
    exact ⟨F.desc_alive hna3 hd, (W3.fwd.tree.desc_memTree F hd).trans hn3⟩
  have hK4 : ∀ x ∈ T.nodes, w4.heap.alive x = true := fun x hx =>
    D4.saved hr3 x u (hK3 x hx).1 (hK3 x hx).2 hu4
  have hT4 : SubtreeAt ch4 n T := ⟨hT.1, Hier.congr (fun x hx => D4.children hr3 _ _ F W4.shape x (hK4 x hx)) hT.2⟩
  have hnd := hT.nodup F
  have hlen : T.events.length ≤ 2 * g.nNode + 2 := by
    rw [events_length]
    have h1 := hT.size_le F hna3
    have h2 : w3.heap.nNode = g.nNode := SW.nNode
    omega
  have hch3 : EvChain w3.heap.evNext T.events := F.evChain T hT.2 (by rw [hT.1]; exact hna3)
  have hch4 : EvChain w4.heap.evNext T.events := W4.shape.evChain T hT4.2 (by rw [hT.1]; exact hK4 n hnT)
  have hchG : EvChain (g.allocTree n).1.evNext T.events := by rw [← SW.evNext]; exact hch3
  have hlast : T.events.getLast? = some (.cls n) := by rw [events_last, hT.1]
  have hhead : T.events.head? = some (.opn n) := by rw [events_head, hT.1]
  have hevn := events_nodup T hnd
  have hop : opens T.events = T.nodes := opens_events T
  obtain ⟨m1, m2⟩ := loop_memb T.events (2 * g.nNode + 2) (g.allocTree n).1 hchG hlast hevn (by rw [hop]; exact hnd)
    (by rw [hhead]; exact d5) d6
  rw [hop] at m1
  have hpos : ∀ x k, 0 < w3.held k x → ∃ t rc l, w3.heap.mem x = .strong t rc l := by
    intro x k hk
    cases e : w3.heap.mem x with
    | strong t rc l => exact ⟨t, rc, l, rfl⟩
    | weak o => rw [W3.weak x o e k] at hk; exact absurd hk (Nat.lt_irrefl _)
  obtain ⟨D, m, E, hDE, ⟨tm, rc, l, hm⟩, hE⟩ := last_strong (g.allocTree n).1 T.nodes (by
    refine ⟨n, hnT, ?_⟩
    obtain ⟨t0, rc, l, h3⟩ := hpos n k (by rw [hheld]; exact s1.allowed)
    rw [← m1 n hnT] at h3
    cases e : (g.allocTree n).1.mem n with
    | strong t rc l => exact ⟨t, rc, l, rfl⟩
    | weak o => rw [e] at h3; cases h3)
  have hmT : m ∈ T.nodes := by rw [hDE]; simp
  have hET : ∀ x ∈ E, x ∈ T.nodes := fun x hx => by rw [hDE]; simp [hx]
  -- the old tree
  have hGt : ∀ x ∈ T.nodes, (g.allocTree n).1.memTree x = some t := by
    intro x hx
    have hx2 : w2.heap.alive x = true := by
      have := (hK3 x hx).1
      rw [b2] at this; exact this
    have hx2t : w2.heap.memTree x = some w1.heap.nTree := by
      have := (hK3 x hx).2
      rw [b2, d3] at this; exact this
    obtain ⟨-, f2, -⟩ := detach_facts hr1 s2 hroot1
    have h1 := (f2 x hx2 hx2t).2
    have hga : g.alive x = true := (setMembLoop_rf d5).1 x (hK3 x hx).1
    show g.memTree x = some t
    rw [d4.memb x hga, h1, ht1]
  have hmt : tm = t := by
    have := hGt m hmT
    simp only [Heap.memTree, hm] at this
    exact Option.some.inj this
  subst hmt
  have hEw : ∀ x ∈ E, (g.allocTree n).1.mem x = .weak (some tm) := by
    intro x hx
    obtain ⟨o, ho⟩ := hE x hx
    have := hGt x (hET x hx)
    simp only [Heap.memTree, ho] at this
    rw [ho, this]
  have hm3 : w3.heap.mem m = .strong u rc l := by rw [← m1 m hmT, hm]; rfl
  have hE3 : ∀ x ∈ E, ∀ k, w3.held k x = 0 := by
    intro x hx k
    refine W3.weak x (some u) ?_ k
    rw [← m1 x (hET x hx), hEw x hx]; rfl
  have hrcm := (W3.strong m _ _ _ hm3).1
  have hrc : 0 < rc := (W3.fwd.refs.pos _ _ _ _ hm3).1
  have hheldm : ∃ k, 0 < w3.held k m := by
    have : 0 < w3.held .plain m ∨ 0 < w3.held .hot m ∨ 0 < w3.held .frozen m := by omega
    rcases this with h | h | h
    · exact ⟨_, h⟩
    · exact ⟨_, h⟩
    · exact ⟨_, h⟩
  have hmb : m < (g.allocTree n).1.nNode := by
    have := F.bound m (hK3 m hmT).1
    rw [SW.nNode] at this; exact this
  have hut : tm ≠ u := by
    rintro rfl
    have := W1.fwd.tree.bound tm (W1.fwd.tree_alive (W1.held_alive (k := k) (by rw [a3]; exact s1.allowed)) ht1)
    rw [← d3] at this; exact absurd this (Nat.lt_irrefl _)
  have hvG : w3.heap.treeRc tm - 1 = w.heap.treeRc tm := by
    rw [W3.treeRc, W0.treeRc, htrees]
    simp [List.count_cons, Ne.symm hut]
  refine ⟨w4, w5, m, D, E, D4, D5, hDE, hheldm, hE3, fun f hf => ?_⟩
  have hN3 : w3.heap.nNode ≤ f := by
    have h1 : w3.heap.nNode = w2.heap.nNode := by rw [b2]; rfl
    have h2 := (detach_facts hr1 s2 hroot1).2.2
    have h3 : w1.heap.nNode = w.heap.nNode := by rw [a2]; rfl
    omega
  have A : Aftermath (· ∈ T.nodes) (Heap.dtor own f) tm u w3.heap w4.heap := by
    refine ⟨?_, hK4, fun x hx => (D4.members hr3 x (hK4 x hx)).trans (hK3 x hx).2, ?_⟩
    · have := e4 f hN3
      simp only [Heap.dropAllC, Heap.dropAssetC] at this
      split at this
      · cases this
      · rename_i h1 e1
        cases this; exact e1
    · exact W4.refs
  have main := loop_late A hrc T.events (2 * g.nNode + 2) (g.allocTree n).1 D hchG hch4 hlast hevn
    (by rw [hop]; exact hnd) hlen (fun e he => mem_events_value T e he) (by rw [hop]; exact hDE) hm hmb
    (by rw [hop]; exact hGt) hEw (by rw [hhead]; exact d5) d6
  rw [hvG, hhead] at main
  have hw : w.heap = w1.heap.setTreeRc tm (w.heap.treeRc tm) := by
    rw [a2]
    unfold Heap.acqTree
    rw [setTreeRc_setTreeRc, setTreeRc_self]
  have hun : w.heap.newByUnlink [] n = .ok (g.setTreeRc tm (w.heap.treeRc tm), b) := by
    rw [hw]
    have := newByUnlink_low (t := tm) (v := w.heap.treeRc tm) g b d1
    rw [← hw] at this ⊢
    exact this
  have hal : (g.setTreeRc tm (w.heap.treeRc tm)).allocTree n = ((g.allocTree n).1.setTreeRc tm (w.heap.treeRc tm), u) := by
    rw [d2] at hut ⊢
    unfold Heap.allocTree Heap.setTreeRc
    simp only
    congr 2
    funext z
    simp only [upd_apply]
    by_cases e1 : z = tm
    · subst e1; simp [hut]
    · by_cases e2 : z = g.nTree <;> simp [e1, e2, Ne.symm hut]
  have run : w.heap.detachSubtreeC (Heap.dtor own f) Nest.start n =
      (match ((g.allocTree n).1.setTreeRc tm (w.heap.treeRc tm)).setMembLoopC (Heap.dtor own f) Nest.start
          (2 * g.nNode + 2) n u (some (.opn n)) with
        | .error e => .error e
        | .ok none => .error (.panic "brand-new tree hierarchy can be locked by any types of lock")
        | .ok (some h2) => h2.relTreeC (Heap.dtor own f) Nest.start u) := by
    unfold Heap.detachSubtreeC
    rw [if_neg (by simp [hroot])]
    simp only [bind, Except.bind, hun]
    unfold Heap.createNewTreeC
    rw [hal]
    rfl
  have r3 := W3.rcOf m
  have r4 := W4.rcOf m
  have le : ∀ k, w4.held k m ≤ w3.held k m := fun k => D4.count_le hr3 (.node k m)
  have l1 := le .plain
  have l2 := le .hot
  have l3 := le .frozen
  refine ⟨fun hs => ?_, fun k hk => ?_⟩
  · have q1 := hs .plain
    have q2 := hs .hot
    have q3 := hs .frozen
    rcases main with ⟨-, m3⟩ | ⟨m3, -⟩
    · rw [run, m3]
      simp only
      have := e5 f (by rw [(D4.fade hr3).nNode]; exact hN3)
      simp only [Heap.dropAllC, Heap.dropAssetC] at this
      split at this
      · cases this
      · rename_i h1 e1
        cases this; exact e1
    · omega
  · rcases main with ⟨m3, -⟩ | ⟨-, m3⟩
    · exfalso
      cases k <;> omega
    · rw [run, m3]

end Dendron
