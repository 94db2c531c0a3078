import Verif.Proofs.WideTree
import Verif.Model.Macro
import Verif.Spec.Macro

/-! The macros in the wider histories (C50). -/

set_option linter.unusedSimpArgs false
set_option linter.unusedVariables false

set_option autoImplicit false

namespace Dendron
open RTree
variable {α : Type} {w w' w0 w1 : World α} {a a' a0 : Forest α} {r x m p n : NodeId} {L P : List NodeId}
  {E : List (Option α)} {i : Nat} {ks : List (RTree NodeId)} {fs : List (Frame NodeId)} {t : TreeId} {d : α}

/-- A new node below the innermost open one is open. -/
theorem OpenF.child (O : OpenF a r E x ks fs) (S : Shows w a) (ht : a.IsTop r) (d : α) (t : TreeId)
    (hd : a'.data = upd a.data a.newNode (some d)) (hc : a'.children = upd a.children x (a.children x ++ [a.newNode])) :
    OpenF a' r (E ++ [some d]) a.newNode [] ((x, ks) :: fs) ∧ a'.IsTop r := by
  have dead : a.data a.newNode = none := S.dead_new
  have nochild : a.children a.newNode = [] := by
    have := S.children.fresh_not_alive
    rw [← S.newNode] at this
    exact S.children.dead _ this
  have hne : ∀ y, a.data y ≠ none → y ≠ a.newNode := by
    rintro y hy rfl; exact hy dead
  have hnd := O.nodup
  simp only [nodesF, List.nodup_append, List.nodup_cons, List.mem_cons] at hnd
  obtain ⟨nd1, ⟨nd2, nd3⟩, nd4⟩ := hnd
  have hxn : x ≠ a.newNode := hne x (O.alive x (by simp [nodesF]))
  have hrn : r ≠ a.newNode := hne r (O.alive r (Bottom.mem O.bottom))
  refine ⟨⟨⟨?_, trivial, ?_, ?_, ?_⟩, O.bottom, ?_, ?_, ?_⟩, ?_⟩
  · rw [hc, upd_ne _ _ (Ne.symm hxn), nochild]; rfl
  · rw [hc, upd_same, O.ok.1]; simp
  · refine HierL.congr ?_ O.ok.2.1
    intro z hz
    rw [hc, upd_ne]; rintro rfl; exact nd2 hz
  · refine O.ok.2.2.congr ?_
    intro z hz
    rw [hc, upd_ne]; rintro rfl; exact nd4 z hz z (.inl rfl) rfl
  · rw [nodesF, nodesL, List.nodup_append]
    refine ⟨O.nodup, by simp, ?_⟩
    intro z hz z' hz'
    simp only [List.mem_singleton] at hz'
    subst hz'
    exact hne z (O.alive z hz)
  · intro z hz
    rw [nodesF, nodesL, List.mem_append] at hz
    rw [hd]
    rcases hz with hz | hz
    · rw [upd_ne _ _ (hne z (O.alive z hz))]; exact O.alive z hz
    · simp only [List.mem_singleton] at hz; subst hz; rw [upd_same]; simp
  · rw [enc, stepsL_nil]
    refine Matches.append (O.dat.congr ?_) (.some ?_)
    · intro z hz
      rw [hd, upd_ne _ _ (hne z (O.alive z (mem_enc.1 hz)))]
    · rw [hd, upd_same]
  · intro p hp
    rw [hc] at hp
    by_cases hpx : p = x
    · subst hpx
      rw [upd_same, List.mem_append] at hp
      rcases hp with hp | hp
      · exact ht _ hp
      · exact hrn (by simpa using hp)
    · rw [upd_ne _ _ hpx] at hp; exact ht p hp

/-- Hot handles to the nodes `L` and plain ones to the nodes `P`. -/
def given (L P : List NodeId) : Kind → NodeId → Nat
  | .hot, x => L.count x
  | .plain, x => P.count x
  | .frozen, _ => 0

/-- The macro has been at work since `w0`: the nodes that are not in `a0` belong to its tree; it holds hot
handles to the nodes `L` and plain ones to the nodes `P`. -/
structure Sown (w0 : World α) (a0 : Forest α) (w : World α) (a : Forest α) (L P : List NodeId) (i : Nat) : Prop where
  reach : ReachW w
  shows : Shows w a
  data : ∀ x, a0.data x ≠ none → a.data x = a0.data x
  borrowed : ∀ x, a0.data x ≠ none → a.borrowed x = a0.borrowed x
  tree : ∀ x, a0.data x ≠ none → a.tree x = a0.tree x
  children : ∀ x, a0.data x ≠ none → a.children x = a0.children x
  newB : ∀ x, a.data x ≠ none → a0.data x = none → a.borrowed x = false
  newT : ∀ x, a.data x ≠ none → a0.data x = none → a.tree x = some a0.newTree
  trees : a.trees = a0.trees
  grantTok : a.grantTok = a0.grantTok
  prohTok : a.prohTok = a0.prohTok
  held : ∀ k x, a.held k x = a0.held k x + given L P k x
  mine : ∀ x ∈ L ++ P, a.tree x = some a0.newTree
  last : ∀ p, a.data p ≠ none → a0.data p = none → LastRight w.heap a.children p
  few : a.newNode ≤ a0.newNode + i

theorem Sown.roomy (A : Sown w0 a0 w a L P i) (S0 : Shows w0 a0) (R : w0.RoomFor i) : a.Roomy := by
  intro t
  have h1 := R t
  have h2 := A.few
  rw [A.grantTok, A.prohTok, S0.grantTok, S0.prohTok]
  rw [S0.newNode] at h2
  have key : ∀ x y g p : Nat, x ≤ y + i → g + p + y + i + 1 < 2 ^ 62 → g + p + x < 2 ^ 62 := by omega
  exact key _ _ _ _ h2 h1

theorem Sown.hot (A : Sown w0 a0 w a L P i) (hx : x ∈ L) : 0 < a.held .hot x := by
  rw [A.held]
  have := List.count_pos_iff.2 hx
  simp only [given]; omega

theorem Sown.isNew (A : Sown w0 a0 w a L P i) (hr0 : ReachW w0) (S0 : Shows w0 a0) (hx : x ∈ L) : a0.data x = none := by
  apply Classical.byContradiction
  intro h
  have := A.mine x (List.mem_append_left _ hx)
  rw [A.tree x h] at this
  exact hr0.tree_old S0 h this

/-- One more node. -/
theorem Sown.create (A : Sown w0 a0 w a (p :: L) P i) (hr0 : ReachW w0) (S0 : Shows w0 a0) (R : w0.RoomFor i)
    (O : OpenF a r E p ks fs) (ht : a.IsTop r) (d : α) :
    ∃ w' a' m, w.exec (.create .hot p d .lastChild) = .ok (w', .node (some m)) ∧ Sown w0 a0 w' a' (m :: p :: L) P (i + 1) ∧
      OpenF a' r (E ++ [some d]) m [] ((p, ks) :: fs) ∧ a'.IsTop r := by
  have S := A.shows
  have R0 := A.roomy S0 R
  have hk := A.hot (x := p) (by simp)
  have htp := A.mine p (by simp)
  have hp0 := A.isNew hr0 S0 (x := p) (by simp)
  have hpa := A.reach.held_live S hk
  have dead : a.data a.newNode = none := S.dead_new
  have nochild : a.children a.newNode = [] := by
    have := S.children.fresh_not_alive
    rw [← S.newNode] at this
    exact S.children.dead _ this
  have hne : ∀ x, a.data x ≠ none → x ≠ a.newNode := by rintro x hx rfl; exact hx dead
  have hlive : ∀ x, a0.data x ≠ none → a.data x ≠ none := fun x hx => by rw [A.data x hx]; exact hx
  obtain ⟨w1, e1, hr1, S1, C1⟩ := A.reach.playC (op := .create .hot p d .lastChild) S R0 hk trivial
    (by
      rintro q ⟨l1, l2, hs, -⟩
      cases hs; exact A.last p hpa hp0)
    (.create (au := .hot) (as := .lastChild) trivial htp (.last p)) (fun _ _ h => h)
    (by
      intro q h1 h2
      replace h1 : upd a.data a.newNode (some d) q ≠ none := h1
      by_cases hp : q = a.newNode
      · subst hp
        show upd a.children p _ a.newNode = []
        rw [upd_ne _ _ (Ne.symm (hne p hpa))]; exact nochild
      · rw [upd_ne _ _ hp] at h1; exact absurd h2 h1)
  obtain ⟨O1, ht1⟩ := O.child S ht d a0.newTree
    (a' := ((a.addNode d a0.newTree).setChildren p (a.children p ++ a.newNode :: [])).give .hot a.newNode) rfl rfl
  refine ⟨w1, _, a.newNode, e1, ?_, O1, ht1⟩
  refine ⟨hr1, S1, fun x hx => ?_, fun x hx => ?_, fun x hx => ?_, fun x hx => ?_, fun x h1 h2 => ?_, fun x h1 h2 => ?_,
    A.trees, A.grantTok, A.prohTok, fun k x => ?_, fun x hx => ?_, fun q h1 h2 => ?_, Nat.succ_le_succ A.few⟩
  · rw [← A.data x hx]; exact upd_ne _ _ (hne x (hlive x hx))
  · rw [← A.borrowed x hx]; exact upd_ne _ _ (hne x (hlive x hx))
  · rw [← A.tree x hx]; exact upd_ne _ _ (hne x (hlive x hx))
  · rw [← A.children x hx]
    refine upd_ne _ _ ?_
    rintro rfl; exact hx hp0
  · show upd a.borrowed a.newNode false x = false
    by_cases hx : x = a.newNode
    · subst hx; exact upd_same ..
    · replace h1 : upd a.data a.newNode (some d) x ≠ none := h1
      rw [upd_ne _ _ hx] at h1 ⊢; exact A.newB x h1 h2
  · show upd a.tree a.newNode _ x = _
    by_cases hx : x = a.newNode
    · subst hx; exact upd_same ..
    · replace h1 : upd a.data a.newNode (some d) x ≠ none := h1
      rw [upd_ne _ _ hx] at h1 ⊢; exact A.newT x h1 h2
  · have g := A.held k x
    simp only [Forest.give, Forest.setChildren, Forest.addNode, Auth.kind]
    cases k with
    | hot =>
      by_cases hx : x = a.newNode
      · subst hx; simp [g, given, List.count_cons]; omega
      · have : ¬ a.newNode = x := fun h => hx h.symm
        simp [g, given, List.count_cons, hx, this]
    | plain => simpa [given] using g
    | frozen => simpa [given] using g
  · show upd a.tree a.newNode _ x = _
    by_cases hx' : x = a.newNode
    · subst hx'; exact upd_same ..
    · rw [upd_ne _ _ hx']
      refine A.mine x ?_
      simp only [List.cons_append, List.mem_cons, hx', false_or] at hx ⊢
      exact hx
  · exact C1 _ _ S.children S1.children q (S1.alive.2 h1) fun ha => A.last q (S.alive.1 ha) h2

/-- A handle to a node is dropped while its tree is held. -/
theorem ReachW.dropC {k : Kind} (hr : ReachW w) (S : Shows w a) (R : a.Roomy) (hk : 0 < a.held k n) (ht : a.tree n = some t)
    (hh : (a.take k n).Holds t) :
    ∃ w', w.exec (.drop k n) = .ok (w', .unit) ∧ ReachW w' ∧ Shows w' (a.take k n) ∧ Calms w w' := by
  obtain ⟨w', e, h1, h2, h3⟩ := hr.playC (op := .drop k n) S R hk trivial (fun _ h => h.elim) (.drop k n) (fun _ _ h => h)
    (fun p h1 h2 => Forest.sweep_old p h1 h2)
  obtain ⟨w2, e', -, h4⟩ := hr.drop_quiet S R hk ht hh
  rw [e] at e'; cases e'
  exact ⟨w', e, h1, h4, h3⟩

/-- The handle to the node just processed is dropped. -/
theorem Sown.drop {ks' : List (RTree NodeId)} (A : Sown w0 a0 w a (m :: p :: L) P i) (S0 : Shows w0 a0) (R : w0.RoomFor i)
    (O : OpenF a r E m ks' ((p, ks) :: fs)) (ht : a.IsTop r) :
    ∃ w' a', w.exec (.drop .hot m) = .ok (w', .unit) ∧ Sown w0 a0 w' a' (p :: L) P i ∧
      OpenF a' r (E ++ [none]) p (ks ++ [.node m ks']) fs ∧ a'.IsTop r := by
  have hm := A.hot (x := m) (by simp)
  have hp : 0 < (a.take .hot m).held .hot p := by
    simp only [Forest.take]
    have := A.held .hot p
    simp only [given, List.count_cons] at this
    split
    · rename_i h
      obtain ⟨-, rfl⟩ := h
      simp at this
      omega
    · simp at this; omega
  obtain ⟨w1, e1, hr1, S1, C1⟩ := A.reach.dropC A.shows (A.roomy S0 R) hm (A.mine m (by simp))
    (.inr ⟨.hot, p, hp, A.mine p (by simp)⟩)
  refine ⟨w1, _, e1, ⟨hr1, S1, A.data, A.borrowed, A.tree, A.children, A.newB, A.newT, A.trees, A.grantTok, A.prohTok,
    fun k x => ?_, fun x hx => A.mine x (List.mem_cons_of_mem _ hx), fun q h1 h2 => ?_, A.few⟩,
    (O.pop).2.2.congr (fun _ _ => rfl) (fun _ _ => rfl), ht⟩
  · have g := A.held k x
    simp only [Forest.take]
    cases k with
    | hot =>
      by_cases hx : x = m
      · subst hx; simp [given, List.count_cons] at g ⊢; omega
      · have : ¬ m = x := fun h => hx h.symm
        simp [given, List.count_cons, hx, this] at g ⊢; exact g
    | plain => simpa [given] using g
    | frozen => simpa [given] using g
  · exact C1 _ _ A.shows.children S1.children q (S1.alive.2 h1) fun ha => A.last q (A.shows.alive.1 ha) h2

/-- The number of nodes of a list of trees. -/
theorem sizeL_cons (s : RTree α) (l : List (RTree α)) : (nodesL (s :: l)).length = s.size + (nodesL l).length := by
  simp [nodesL, size]

mutual
theorem Lit.child_sown (hr0 : ReachW w0) (S0 : Shows w0 a0) : (c : Lit α) → ∀ {w : World α} {a : Forest α} {p : NodeId}
    {L : List NodeId} {i : Nat} {E : List (Option α)} {ks : List (RTree NodeId)} {fs : List (Frame NodeId)},
    Sown w0 a0 w a (p :: L) P i → OpenF a r E p ks fs → a.IsTop r → w0.RoomFor (i + c.tree.size) →
    ∃ w' a' ks', Lit.child w p c = .ok w' ∧ Sown w0 a0 w' a' (p :: L) P (i + c.tree.size) ∧
      OpenF a' r (E ++ c.tree.steps) p ks' fs ∧ a'.IsTop r
  | .leaf d, w, a, p, L, i, E, ks, fs, A, O, ht, R => by
    have hsz : (Lit.leaf d).tree.size = 1 := rfl
    rw [hsz] at R ⊢
    obtain ⟨w1, a1, m, e1, A1, O1, ht1⟩ := A.create hr0 S0 (fun t => by have := R t; omega) O ht d
    obtain ⟨w2, a2, e2, A2, O2, ht2⟩ := A1.drop S0 R O1 ht1
    refine ⟨w2, a2, ks ++ [.node m []], ?_, A2, ?_, ht2⟩
    · simp only [Lit.child, e1, e2, bind, Except.bind, pure, Except.pure]
    · have : (Lit.leaf d).tree.steps = [some d] ++ [none] := by simp [Lit.tree, steps_node, stepsL_nil]
      rw [this, ← List.append_assoc]; exact O2
  | .branch d cs, w, a, p, L, i, E, ks, fs, A, O, ht, R => by
    have hsz : (Lit.branch d cs).tree.size = 1 + (nodesL (Lit.trees cs)).length := by
      simp [Lit.tree, size, nodes]; omega
    rw [hsz] at R ⊢
    rw [← Nat.add_assoc] at R ⊢
    obtain ⟨w1, a1, m, e1, A1, O1, ht1⟩ := A.create hr0 S0 (fun t => by have := R t; omega) O ht d
    obtain ⟨w2, a2, ks2, e2, A2, O2, ht2⟩ := Lit.children_sown hr0 S0 cs A1 O1 ht1 R
    obtain ⟨w3, a3, e3, A3, O3, ht3⟩ := A2.drop S0 R O2 ht2
    refine ⟨w3, a3, ks ++ [.node m ks2], ?_, A3, ?_, ht3⟩
    · simp only [Lit.child, e1, e2, e3, bind, Except.bind, pure, Except.pure]
    · have : (Lit.branch d cs).tree.steps = [some d] ++ stepsL (Lit.trees cs) ++ [none] := by
        simp [Lit.tree, steps_node]
      rw [this, ← List.append_assoc, ← List.append_assoc]; exact O3
theorem Lit.children_sown (hr0 : ReachW w0) (S0 : Shows w0 a0) : (cs : List (Lit α)) → ∀ {w : World α} {a : Forest α}
    {p : NodeId} {L : List NodeId} {i : Nat} {E : List (Option α)} {ks : List (RTree NodeId)} {fs : List (Frame NodeId)},
    Sown w0 a0 w a (p :: L) P i → OpenF a r E p ks fs → a.IsTop r →
    w0.RoomFor (i + (nodesL (Lit.trees cs)).length) →
    ∃ w' a' ks', Lit.children w p cs = .ok w' ∧ Sown w0 a0 w' a' (p :: L) P (i + (nodesL (Lit.trees cs)).length) ∧
      OpenF a' r (E ++ stepsL (Lit.trees cs)) p ks' fs ∧ a'.IsTop r
  | [], w, a, p, L, i, E, ks, fs, A, O, ht, R => by
    refine ⟨w, a, ks, by simp only [Lit.children], A, ?_, ht⟩
    rw [Lit.trees, stepsL_nil, List.append_nil]; exact O
  | c :: cs, w, a, p, L, i, E, ks, fs, A, O, ht, R => by
    have hl : (nodesL (Lit.trees (c :: cs))).length = c.tree.size + (nodesL (Lit.trees cs)).length := by
      rw [Lit.trees, sizeL_cons]
    rw [hl, ← Nat.add_assoc] at R ⊢
    obtain ⟨w1, a1, ks1, e1, A1, O1, ht1⟩ := Lit.child_sown hr0 S0 c A O ht (fun t => by have := R t; omega)
    obtain ⟨w2, a2, ks2, e2, A2, O2, ht2⟩ := Lit.children_sown hr0 S0 cs A1 O1 ht1 R
    refine ⟨w2, a2, ks2, ?_, A2, ?_, ht2⟩
    · simp only [Lit.children, e1, e2, bind, Except.bind]
    · rw [Lit.trees, stepsL_cons, ← List.append_assoc]; exact O2
end

/-- The tree is a single node. -/
theorem ReachW.sow (hr : ReachW w) (S : Shows w a) (R : w.RoomFor 1) (hot : Bool) (d : α) :
    ∃ w' a' n, w.exec (.newTree hot d) = .ok (w', .node (some n)) ∧
      OpenF a' n [some d] n [] [] ∧ a'.IsTop n ∧
      Sown w a w' a' (if hot then [n] else []) (if hot then [] else [n]) 1 := by
  have R0 : a.Roomy := by
    intro t
    have := R t
    rw [S.grantTok, S.prohTok, S.newNode]
    have key : ∀ y g p : Nat, g + p + y + 1 + 1 < 2 ^ 62 → g + p + y < 2 ^ 62 := by omega
    exact key _ _ _ this
  have dead : a.data a.newNode = none := S.dead_new
  have L := S.children.fresh_not_alive
  rw [← S.newNode] at L
  have nochild : a.children a.newNode = [] := S.children.dead _ L
  have noparent : ∀ p, a.newNode ∉ a.children p := by
    intro p hp
    have := S.children.alive_of_mem hp
    rw [L] at this; cases this
  have hne : ∀ x, a.data x ≠ none → x ≠ a.newNode := by rintro x hx rfl; exact hx dead
  obtain ⟨w1, e1, hr1, S1, C1⟩ := hr.playC (op := .newTree hot d) S R0 trivial trivial (fun _ h => h.elim) (.newTree hot d)
    (fun _ _ h => h)
    (by
      intro p h1 h2
      replace h1 : upd a.data a.newNode (some d) p ≠ none := h1
      by_cases hp : p = a.newNode
      · subst hp; exact nochild
      · rw [upd_ne _ _ hp] at h1; exact absurd h2 h1)
  refine ⟨w1, ((a.addNode d a.newTree).addTree a.newNode).give (if hot then .hot else .plain) a.newNode, a.newNode, e1,
    ⟨⟨nochild, trivial, trivial⟩, rfl, by simp [nodesF, nodesL], ?_, ?_⟩, noparent, ?_⟩
  · intro y hy
    simp only [nodesF, nodesL, List.nil_append, List.mem_singleton] at hy
    subst hy
    show upd a.data a.newNode (some d) a.newNode ≠ none
    rw [upd_same]; simp
  · refine Matches.some ?_
    show upd a.data a.newNode (some d) a.newNode = _
    rw [upd_same]
  · refine ⟨hr1, S1, fun x hx => upd_ne _ _ (hne x hx), fun x hx => upd_ne _ _ (hne x hx), fun x hx => upd_ne _ _ (hne x hx),
      fun _ _ => rfl, fun x h1 h2 => ?_, fun x h1 h2 => ?_, rfl, rfl, rfl, fun k x => ?_, fun x hx => ?_,
      fun q h1 h2 => C1 _ _ S.children S1.children q (S1.alive.2 h1) fun ha => absurd h2 (S.alive.1 ha), Nat.le_refl _⟩
    · show upd a.borrowed a.newNode false x = false
      by_cases hx : x = a.newNode
      · subst hx; exact upd_same ..
      · replace h1 : upd a.data a.newNode (some d) x ≠ none := h1
        rw [upd_ne _ _ hx] at h1; exact absurd h2 h1
    · show upd a.tree a.newNode _ x = _
      by_cases hx : x = a.newNode
      · subst hx; exact upd_same ..
      · replace h1 : upd a.data a.newNode (some d) x ≠ none := h1
        rw [upd_ne _ _ hx] at h1; exact absurd h2 h1
    · cases hot <;> cases k <;> by_cases hx : x = a.newNode <;>
        simp [Forest.give, Forest.addTree, Forest.addNode, given, hx, eq_comm, List.count_cons] <;> grind
    · have : x = a.newNode := by cases hot <;> simp_all
      subst this
      exact upd_same ..

/-- `plain` of the root, and the hot handle is dropped. -/
theorem Sown.plain (A : Sown w0 a0 w a [n] [] i) (S0 : Shows w0 a0) (R : w0.RoomFor i)
    (O : OpenF a n E n ks []) (ht : a.IsTop n) :
    ∃ w1 w2 a2, w.exec (.plainOf .hot n) = .ok (w1, .unit) ∧ w1.exec (.drop .hot n) = .ok (w2, .unit) ∧
      Sown w0 a0 w2 a2 [] [n] i ∧ OpenF a2 n E n ks [] ∧ a2.IsTop n := by
  have hn := A.hot (x := n) (by simp)
  have htr := A.mine n (by simp)
  have R0 := A.roomy S0 R
  obtain ⟨w1, e1, hr1, S1, C1⟩ := A.reach.playC (op := .plainOf .hot n) A.shows R0
    ⟨by decide, hn⟩ trivial (fun _ h => h.elim) (.plainOf _ _) (fun _ _ h => h)
    (fun _ h1 h2 => absurd h2 h1)
  obtain ⟨w2, e2, hr2, S2, C2⟩ := hr1.dropC (k := .hot) (n := n) (t := a0.newTree) S1 ((Forest.same_give a .plain n).roomy R0)
    (by simpa [Forest.give] using hn) htr
    (.inr ⟨.plain, n, by simp [Forest.take, Forest.give], htr⟩)
  refine ⟨w1, w2, _, e1, e2, ⟨hr2, S2, A.data, A.borrowed, A.tree, A.children, A.newB, A.newT, A.trees, A.grantTok, A.prohTok,
    fun k x => ?_, fun x hx => A.mine x (by simpa using hx), fun q h1 h2 => ?_, A.few⟩, O.congr (fun _ _ => rfl) (fun _ _ => rfl), ht⟩
  · have g := A.held k x
    simp only [Forest.take, Forest.give]
    by_cases hx : x = n
    · subst hx
      cases k <;> simp [given] at g ⊢ <;> omega
    · have : ¬ n = x := fun h => hx h.symm
      cases k <;> simp [given, hx, this, List.count_cons] at g ⊢ <;> omega
  · exact C2 _ _ S1.children S2.children q (S2.alive.2 h1) fun ha =>
      C1 _ _ A.shows.children S1.children q ha fun ha => A.last q (A.shows.alive.1 ha) h2

/-- What the macro has made. -/
theorem Sown.made (A : Sown w0 a0 w a [] [n] i) (hr0 : ReachW w0) (S0 : Shows w0 a0) (R : w0.RoomFor i)
    (O : OpenF a n E n ks []) (ht : a.IsTop n) {u : RTree α} (hu : E ++ [none] = u.steps) :
    NewTree w0 w a.children n u ∧ GotPlain w0 w n ∧ Untouched w0 w a0.children a.children none := by
  have hn : 0 < a.held .plain n := by rw [A.held]; simp [given]
  have G : Grown a0 a ⟨some n, none⟩ := by
    refine ⟨A.data, A.borrowed, A.tree, A.children, A.newB, A.newT, A.trees, A.grantTok, A.prohTok, fun k x => ?_⟩
    rw [A.held]
    cases k <;> simp [Builder.share, given, List.count_cons, List.countP_cons]
  have W : AtWork w0 a0 w a ⟨some n, none⟩ i := by
    refine ⟨A.reach, A.shows, G, ⟨fun h => (by cases h), fun h => (by cases h), fun r h => ?_, fun r h => (by cases h)⟩,
      A.last, A.few⟩
    cases h
    exact A.mine n (by simp)
  obtain ⟨w', a', n', j, v, e, hr', S', hd, N, GP, U, -⟩ := W.finish hr0 S0 R (.closed O.zip ht) (by simp)
  have e' : Builder.finish w ⟨some n, none⟩ = .ok (w, .ok n) := rfl
  rw [e'] at e
  cases e
  obtain rfl := S'.unique A.shows
  have hd2 : Describes u.steps 0 u := by simp [Describes]
  have : E ++ List.replicate (([] : List (Frame NodeId)).length + 1) none = u.steps := hu
  rw [this] at hd
  obtain ⟨-, rfl⟩ := hd.unique hd2
  exact ⟨N, GP, U⟩

/-- `tree_node!`. -/
theorem Lit.treeNode_sown (l : Lit α) (hr : ReachW w) (S : Shows w a) (R : w.RoomFor l.tree.size) :
    ∃ w' a' n ks E, l.treeNode w = .ok (w', n) ∧ Sown w a w' a' [] [n] l.tree.size ∧ OpenF a' n E n ks [] ∧ a'.IsTop n ∧
      E ++ [none] = l.tree.steps := by
  cases l with
  | leaf d =>
    have hsz : (Lit.leaf d).tree.size = 1 := rfl
    rw [hsz] at R ⊢
    obtain ⟨w1, a1, n, e1, O1, ht1, A1⟩ := hr.sow S R false d
    refine ⟨w1, a1, n, [], _, ?_, A1, O1, ht1, by simp [Lit.tree, steps_node, stepsL_nil]⟩
    simp only [Lit.treeNode, e1, bind, Except.bind, pure, Except.pure]
  | branch d cs =>
    have hsz : (Lit.branch d cs).tree.size = 1 + (nodesL (Lit.trees cs)).length := by
      simp [Lit.tree, size, nodes]; omega
    rw [hsz] at R ⊢
    obtain ⟨w1, a1, n, e1, O1, ht1, A1⟩ := hr.sow S (fun t => by have := R t; omega) true d
    obtain ⟨w2, a2, ks2, e2, A2, O2, ht2⟩ := Lit.children_sown hr S cs A1 O1 ht1 R
    obtain ⟨w3, w4, a4, e3, e4, A4, O4, ht4⟩ := A2.plain S R O2 ht2
    refine ⟨w4, a4, n, ks2, _, ?_, A4, O4, ht4, by simp [Lit.tree, steps_node]⟩
    simp only [Lit.treeNode, e1, e2, e3, e4, bind, Except.bind, pure, Except.pure]

end Dendron
