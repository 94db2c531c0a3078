import Verif.Proofs.BuildEnd
import Verif.Proofs.CloneTree
import Verif.Spec.Macro

/-! The macros. -/

set_option linter.unusedSimpArgs false
set_option linter.unusedVariables false

set_option autoImplicit false

namespace Dendron
open RTree
variable {α β : Type} {w w' w0 : World α} {ch ch' ch0 : NodeId → List NodeId}
  {r c x p : NodeId} {T : TreeId} {ps cs : List NodeId}

theorem Fits.mono {m n : Nat} (h : Fits w0 T n) (hm : m ≤ n) : Fits w0 T m := by
  rcases h with h | ⟨L, h1, h2⟩
  · exact .inl (by omega)
  · exact .inr ⟨L, h1, by omega⟩

/-- What processing descendants of `p` does: new subtrees `ss` are added behind the children of `p`. -/
structure Added (w w' : World α) (ch ch' : NodeId → List NodeId) (p : NodeId) (ss : List (RTree NodeId))
    (us : List (RTree α)) : Prop where
  grow : Grow w.heap w'.heap
  child : ch' p = ch p ++ ss.map RTree.label
  keep : ∀ x, w.heap.alive x = true → x ≠ p → ch' x = ch x
  hier : HierL ch' ss
  data : mapL w'.heap.data ss = mapL some us
  fresh : ∀ x ∈ nodesL ss, w.heap.alive x = false ∧ w'.heap.alive x = true ∧ w'.heap.mutB x = false

theorem mapL_congr {f g : NodeId → β} : ∀ {ss : List (RTree NodeId)}, (∀ x ∈ nodesL ss, f x = g x) →
    mapL f ss = mapL g ss := by
  intro ss
  induction ss using RTree.rec_1 (motive_1 := fun t => (∀ x ∈ t.nodes, f x = g x) → t.map f = t.map g) with
  | node v cs ih =>
    rename_i h
    simp only [nodes, List.mem_cons] at h
    simp only [map]
    rw [h v (.inl rfl), ih (fun x hx => h x (.inr hx))]
  | nil => intro _; rfl
  | cons t ts h1 h2 =>
    intro h
    simp only [nodesL, List.mem_append] at h
    simp only [mapL]
    rw [h1 (fun x hx => h x (.inl hx)), h2 (fun x hx => h x (.inr hx))]

theorem Added.refl : Added w w ch ch p [] [] where
  grow := Grow.refl _
  child := by simp
  keep _ _ _ := rfl
  hier := trivial
  data := rfl
  fresh _ hx := by simp [nodesL] at hx

theorem Added.append {w'' : World α} {ch'' : NodeId → List NodeId} {ss ss' : List (RTree NodeId)}
    {us us' : List (RTree α)} (A : Added w w' ch ch' p ss us) (B : Added w' w'' ch' ch'' p ss' us')
    (hp : w.heap.alive p = true) : Added w w'' ch ch'' p (ss ++ ss') (us ++ us') := by
  have hne : ∀ x ∈ nodesL ss, x ≠ p := by
    rintro x hx rfl; rw [(A.fresh x hx).1] at hp; cases hp
  have hnl : ∀ a b : List (RTree NodeId), nodesL (a ++ b) = nodesL a ++ nodesL b := by
    intro a b; induction a with
    | nil => rfl
    | cons t a ih => simp [nodesL, ih]
  have hml : ∀ {γ δ : Type} (f : γ → δ) (a b : List (RTree γ)), mapL f (a ++ b) = mapL f a ++ mapL f b := by
    intro γ δ f a b; induction a with
    | nil => rfl
    | cons t a ih => simp [mapL, ih]
  refine ⟨A.grow.trans B.grow, by rw [B.child, A.child]; simp, ?_, ?_, ?_, ?_⟩
  · intro x hx hxp
    rw [B.keep x (A.grow.alive x hx) hxp, A.keep x hx hxp]
  · refine HierL.append (HierL.congr ?_ A.hier) B.hier
    intro x hx; exact B.keep x (A.fresh x hx).2.1 (hne x hx)
  · rw [hml, hml, B.data, ← A.data]
    congr 1
    exact mapL_congr fun x hx => B.grow.data x (A.fresh x hx).2.1
  · intro x hx
    rw [hnl, List.mem_append] at hx
    rcases hx with hx | hx
    · obtain ⟨h1, h2, h3⟩ := A.fresh x hx
      exact ⟨h1, B.grow.alive x h2, by rw [B.grow.mutB x h2]; exact h3⟩
    · obtain ⟨h1, h2, h3⟩ := B.fresh x hx
      refine ⟨?_, h2, h3⟩
      cases e : w.heap.alive x with
      | false => rfl
      | true => rw [A.grow.alive x e] at h1; cases h1

/-- A node with its descendants, from its creation to the drop of its handle. -/
theorem Added.wrap {w1 w2 w3 : World α} {ch2 : NodeId → List NodeId} {ss : List (RTree NodeId)}
    {us : List (RTree α)} {d : α} (W : WF w.heap ch) (hp : w.heap.alive p = true) (F : Fresh w w1 d T)
    (A : Added w1 w2 (upd ch p (ch p ++ [w.heap.nNode])) ch2 w.heap.nNode ss us)
    (S : Still w2.heap w3.heap) :
    Added w w3 ch ch2 p [.node w.heap.nNode ss] [.node d us] := by
  have hfresh := W.toFShape.fresh_not_alive
  have hpn : p ≠ w.heap.nNode := by rintro rfl; rw [hfresh] at hp; cases hp
  have hnil : ch w.heap.nNode = [] := by
    cases e : ch w.heap.nNode with
    | nil => rfl
    | cons a l =>
      have := W.alive_parent (p := w.heap.nNode) (c := a) (by rw [e]; simp)
      rw [hfresh] at this; cases this
  have hn1 := F.alive_new
  have hn2 := A.grow.alive _ hn1
  refine ⟨F.grow.trans (A.grow.trans S.grow), ?_, ?_, ?_, ?_, ?_⟩
  · rw [A.keep p (F.grow.alive p hp) hpn]; simp [RTree.label]
  · intro x hx hxp
    have hxn : x ≠ w.heap.nNode := by rintro rfl; rw [hfresh] at hx; cases hx
    rw [A.keep x (F.grow.alive x hx) hxn, upd_ne _ _ hxp]
  · simp only [HierL, Hier, and_true]
    refine ⟨?_, A.hier⟩
    rw [A.child, upd_ne _ _ (Ne.symm hpn), hnil]; simp
  · simp only [mapL, map, S.data]
    rw [A.data, A.grow.data _ hn1, F.data]
  · intro x hx
    simp only [nodesL, nodes, List.append_nil, List.mem_cons] at hx
    rcases hx with rfl | hx
    · exact ⟨hfresh, by rw [S.alive]; exact hn2, by rw [S.mutB, A.grow.mutB _ hn1]; exact F.mutB⟩
    · obtain ⟨h1, h2, h3⟩ := A.fresh x hx
      refine ⟨?_, by rw [S.alive]; exact h2, by rw [S.mutB]; exact h3⟩
      cases e : w.heap.alive x with
      | false => rfl
      | true => rw [F.grow.alive x e] at h1; cases h1

mutual
theorem Lit.child_spec : ∀ (l : Lit α) {w : World α} {ch : NodeId → List NodeId} {p : NodeId} {cs : List NodeId},
    Run w0 ch0 w ch r T ps (p :: cs) → Fits w0 T (cs.length + 1 + l.tree.size) →
    (p = r ∨ w0.heap.alive p = false) →
    ∃ w' ch' ss, l.child w p = .ok w' ∧ Run w0 ch0 w' ch' r T ps (p :: cs) ∧ Added w w' ch ch' p ss [l.tree]
  | .leaf d, w, ch, p, cs, R, hf, hp => by
    obtain ⟨w1, e1, F, R1⟩ := R.create (d := d) (c := p) (hf.mono (by simp)) (by simp) hp
    obtain ⟨w2, e2, S2, R2⟩ := R1.dropHot (c := w.heap.nNode)
      (hf.mono (by simp [Lit.tree, size, nodes])) (by simp) (.inr (by simp))
    rw [List.erase_cons_head] at R2
    have ha := R.inv.held_alive (R.held_of_cs (c := p) (by simp))
    refine ⟨w2, _, _, ?_, R2, Added.wrap R.inv.wf ha F (Added.refl (w := w1)) S2⟩
    simp only [Lit.child, bind, Except.bind, pure, Except.pure, e1, e2]
  | .branch d ls, w, ch, p, cs, R, hf, hp => by
    obtain ⟨w1, e1, F, R1⟩ := R.create (d := d) (c := p) (hf.mono (by simp)) (by simp) hp
    have hsz : (Lit.branch d ls).tree.size = (nodesL (Lit.trees ls)).length + 1 := by
      simp [Lit.tree, size, nodes]
    rw [hsz] at hf
    have hn0 : w0.heap.alive w.heap.nNode = false := by
      have hfresh := R.inv.wf.toFShape.fresh_not_alive
      cases hx : w0.heap.alive w.heap.nNode with
      | false => rfl
      | true => rw [R.grow.alive _ hx] at hfresh; cases hfresh
    obtain ⟨w2, ch2, ss, e2, R2, A⟩ := Lit.children_spec ls R1 (hf.mono (by simp; omega)) (.inr hn0)
    obtain ⟨w3, e3, S3, R3⟩ := R2.dropHot (c := w.heap.nNode)
      (hf.mono (by simp)) (by simp) (.inr (by simp))
    rw [List.erase_cons_head] at R3
    have ha := R.inv.held_alive (R.held_of_cs (c := p) (by simp))
    refine ⟨w3, _, _, ?_, R3, Added.wrap R.inv.wf ha F A S3⟩
    simp only [Lit.child, bind, Except.bind, pure, Except.pure, e1, e2, e3]
theorem Lit.children_spec : ∀ (ls : List (Lit α)) {w : World α} {ch : NodeId → List NodeId} {p : NodeId}
    {cs : List NodeId}, Run w0 ch0 w ch r T ps (p :: cs) →
    Fits w0 T (cs.length + 1 + (nodesL (Lit.trees ls)).length) → (p = r ∨ w0.heap.alive p = false) →
    ∃ w' ch' ss, Lit.children w p ls = .ok w' ∧ Run w0 ch0 w' ch' r T ps (p :: cs) ∧
      Added w w' ch ch' p ss (Lit.trees ls)
  | [], w, ch, p, cs, R, hf, hp => ⟨w, ch, [], rfl, R, Added.refl⟩
  | l :: ls, w, ch, p, cs, R, hf, hp => by
    have hsz : (nodesL (Lit.trees (l :: ls))).length = l.tree.size + (nodesL (Lit.trees ls)).length := by
      simp [Lit.trees, nodesL, size]
    rw [hsz] at hf
    obtain ⟨w1, ch1, ss1, e1, R1, A1⟩ := Lit.child_spec l R (hf.mono (by omega)) hp
    obtain ⟨w2, ch2, ss2, e2, R2, A2⟩ := Lit.children_spec ls R1 (hf.mono (by omega)) hp
    have ha := R.inv.held_alive (R.held_of_cs (c := p) (by simp))
    refine ⟨w2, ch2, ss1 ++ ss2, ?_, R2, A1.append A2 ha⟩
    simp only [Lit.children, bind, Except.bind, e1, e2]
end

/-- A new tree with a plain root. -/
theorem Run.startPlain {d : α} (I : Inv w ch) (hr : Reach w) (hroom : Room w.heap) :
    ∃ w', w.exec (.newTree false d) = .ok (w', .node (some w.heap.nNode)) ∧
      w'.heap.data w.heap.nNode = some d ∧ w'.heap.mutB w.heap.nNode = false ∧
      Run w ch w' ch w.heap.nNode w.heap.nTree [w.heap.nNode] [] := by
  obtain ⟨h', e, I1, -, hmn, hg⟩ := I.newTreePlain (d := d)
  obtain ⟨h1, e1, W, hdata, hmtn, hroot, hmem, hgr, hrc, hnn, hnt, hpar, hmb⟩ :=
    newTreeRoot_wf I.wf d I.wf.tree.fresh_tree
  obtain rfl : h1 = h' := by rw [e] at e1; simpa using e1.symm
  have hfresh := I.wf.toFShape.fresh_not_alive
  have hne : ∀ x, w.heap.alive x = true → x ≠ w.heap.nNode := by
    rintro x hx rfl; rw [hfresh] at hx; cases hx
  have hmo : ∀ x, x ≠ w.heap.nNode → h1.memTree x = w.heap.memTree x := by
    intro x hx; simp [Heap.memTree, hmem, hx]
  have hao : ∀ x, x ≠ w.heap.nNode → h1.alive x = w.heap.alive x := by
    intro x hx; simp [Heap.alive, hdata, hx]
  have hta : ∀ u, u ≠ w.heap.nTree → h1.treeAlive u = w.heap.treeAlive u := by
    intro u hu; simp [Heap.treeAlive, hroot, hu]
  have G : Grow w.heap h1 := by
    constructor
    · intro x hx; rw [hao x (hne x hx)]; exact hx
    · intro x hx; simp [hdata, hne x hx]
    · intro x hx; simp [hmb, hne x hx]
    · intro x hx; exact hmo x (hne x hx)
    · intro x hx ha
      rw [hao x (Nat.ne_of_lt hx)] at ha; exact ha
    · rw [hnn]; exact Nat.le_succ _
    · rw [hnt]; exact Nat.le_succ _
    · intro u hu; simp [hroot, Nat.ne_of_lt hu]
  have hnot : ∀ x, w.heap.alive x = true → w.heap.memTree x ≠ some w.heap.nTree := by
    intro x hx hm
    have := I.wf.tree_alive hx hm
    rw [I.wf.tree.fresh_tree] at this; cases this
  obtain ⟨z1, z2, z3⟩ := I.fresh_tok (t := w.heap.nTree) (Nat.le_refl _)
  have ex : w.exec (.newTree false d) =
      .ok (({ w with heap := h1 }).give .plain w.heap.nNode, .node (some w.heap.nNode)) := by
    simp only [World.exec, e]; rfl
  refine ⟨_, ex, by simp [hdata], by simp [hmb], ?_⟩
  constructor
  · constructor
    · intro k x hx; exact I.held_alive hx
    · exact I.wf.bound
    · intro x hx hm; exact absurd hm (hnot x hx)
    · exact z2
    · refine ⟨[], fun x hx hm => absurd hm (hnot x hx), ?_⟩
      rw [z1]; decide
  · exact I1
  · exact .step (op := .newTree false d) hr ⟨trivial, fun _ _ => trivial, hroom, ex⟩
  · intro u hu ha'
    have ha0 : w.heap.treeAlive u = true := by rw [← hta u hu]; exact ha'
    rw [I.grants_same I1 ha0 ha' (by simp) (by simp)]
    · exact hroom u ha0
    · intro x hx hx'
      have hxn := hne x hx
      refine ⟨by simp only [give_heap]; rw [hmo x hxn]; exact hx', ?_, ?_⟩ <;> simp [hxn]
    · intro x hx hx'
      simp only [give_heap] at hx hx'
      have hxn : x ≠ w.heap.nNode := by
        rintro rfl; rw [hmn] at hx'; exact hu (by simpa using hx'.symm)
      rw [hmo x hxn] at hx'
      refine ⟨hx', ?_, ?_⟩ <;> simp [hxn]
  · exact G
  · intro x hx hx0
    by_cases hxn : x = w.heap.nNode
    · rw [hxn]; exact hmn
    · simp only [give_heap] at hx; rw [hao x hxn, hx0] at hx; cases hx
  · intro x _ _; rfl
  · exact List.prefix_refl _
  · intro x
    simp only [give_held, true_and, List.count_cons, beq_iff_eq, List.count_nil]
    by_cases e : x = w.heap.nNode
    · subst e; simp
    · have e' : ¬ w.heap.nNode = x := fun h => e h.symm
      simp [e, e']
  · intro x; simp
  · intro x; simp
  · rfl
  · rfl
  · rfl
  · intro x hx; simp only [List.mem_singleton] at hx; subst hx; exact hmn
  · intro x hx; cases hx

/-- A root stays the root of its tree. -/
theorem Run.rootLink {cs' ps' : List NodeId} (R : Run w0 ch0 w ch r T ps cs) (G : Grow w.heap w'.heap)
    (R' : Run w0 ch0 w' ch' r T ps' cs') (ha : w.heap.alive r = true) (hm : w.heap.memTree r = some T)
    (hr : ∀ p, r ∉ ch p) : w'.heap.nodeTree r = .ok T ∧ w'.heap.rootLink T = .ok r := by
  have hp : w.heap.parent r = none := by
    cases hp : w.heap.parent r with
    | none => rfl
    | some p => exact absurd ((R.inv.wf.toFShape.mem p r).2 ⟨ha, hp⟩) (hr p)
  have h1 := R.inv.wf.tree.top r T ha hp hm
  have h2 := R.inv.memTree_lt ha hm
  refine ⟨(R'.inv.wf.tree.treeCore_iff (G.alive r ha)).2 (by rw [G.memTree r ha]; exact hm), ?_⟩
  simp [Heap.rootLink, G.root T h2, h1]

theorem Lit.treeNode_spec (l : Lit α) (I : Inv w ch) (hr : Reach w) (hroom : Room w.heap)
    (hs : l.tree.size + 3 ≤ 2 ^ 62) :
    ∃ w' ch', l.treeNode w = .ok (w', w.heap.nNode) ∧
      Run w ch w' ch' w.heap.nNode w.heap.nTree [w.heap.nNode] [] ∧
      NewTree w w' ch' w.heap.nNode l.tree := by
  have hfresh := I.wf.toFShape.fresh_not_alive
  have hroot : ∀ p, w.heap.nNode ∉ ch p := by
    intro p hp
    have := I.wf.toFShape.mem p w.heap.nNode
    rw [this] at hp
    rw [hfresh] at hp; cases hp.1
  have hnil : ch w.heap.nNode = [] := by
    cases e : ch w.heap.nNode with
    | nil => rfl
    | cons a l =>
      have := I.wf.alive_parent (p := w.heap.nNode) (c := a) (by rw [e]; simp)
      rw [hfresh] at this; cases this
  cases l with
  | leaf d =>
    obtain ⟨w1, e1, hd, hb, R⟩ := Run.startPlain (d := d) I hr hroom
    have ha := R.inv.held_alive (R.held_of_ps (c := w.heap.nNode) (by simp))
    obtain ⟨q1, q2⟩ := R.rootLink (Grow.refl _) R ha (R.psT _ (by simp)) hroot
    refine ⟨w1, ch, ?_, R, ⟨_, q1, Nat.le_refl _, q2⟩, .node w.heap.nNode [], ⟨rfl, ?_⟩, ?_, ?_⟩
    · simp only [Lit.treeNode, bind, Except.bind, e1]; rfl
    · simp [Hier, HierL, hnil]
    · simp [HasData, Lit.tree, map, mapL, hd]
    · intro x hx
      simp only [nodes, nodesL, List.mem_singleton] at hx
      subst hx; exact ⟨hfresh, ha, hb⟩
  | branch d ls =>
    obtain ⟨w1, e1, F, R1⟩ := Run.start (d := d) I hr hroom
    obtain ⟨z1, -, -⟩ := I.fresh_tok (t := w.heap.nTree) (Nat.le_refl _)
    have hF : Fits w w.heap.nTree (0 + 1 + (nodesL (Lit.trees ls)).length) := by
      refine .inr ⟨[], fun x hx hm => ?_, ?_⟩
      · have := I.wf.tree_alive hx hm
        rw [I.wf.tree.fresh_tree] at this; cases this
      · rw [z1]
        simp only [Lit.tree, size, nodes, List.length_cons] at hs
        simp only [List.length_nil]; omega
    obtain ⟨w2, ch2, ss, e2, R2, A⟩ := Lit.children_spec ls R1 hF (.inl rfl)
    obtain ⟨w3, e3, S3, R3⟩ := R2.plainOf (c := w.heap.nNode) (by simp) (by simp)
    obtain ⟨w4, e4, S4, R4⟩ := R3.dropHot (c := w.heap.nNode) (by simp) (by simp) (.inl (by simp))
    rw [List.erase_cons_head] at R4
    have S := S3.trans S4
    have ha1 := F.alive_new
    have ha2 := A.grow.alive _ ha1
    obtain ⟨q1, q2⟩ := R1.rootLink (A.grow.trans S.grow) R4 ha1 F.memTree hroot
    refine ⟨w4, ch2, ?_, R4, ⟨_, q1, Nat.le_refl _, q2⟩, .node w.heap.nNode ss, ⟨rfl, ?_, A.hier⟩, ?_, ?_⟩
    · simp only [Lit.treeNode, bind, Except.bind, pure, Except.pure, e1, e2, e3, e4]
    · rw [A.child, hnil]; simp
    · simp only [HasData, Lit.tree, map, S.data, A.data]
      rw [A.grow.data _ ha1, F.data]
    · intro x hx
      simp only [nodes, List.mem_cons] at hx
      rcases hx with rfl | hx
      · exact ⟨hfresh, by rw [S.alive]; exact ha2, by rw [S.mutB, A.grow.mutB _ ha1]; exact F.mutB⟩
      · obtain ⟨h1, h2, h3⟩ := A.fresh x hx
        refine ⟨?_, by rw [S.alive]; exact h2, by rw [S.mutB]; exact h3⟩
        cases e : w.heap.alive x with
        | false => rfl
        | true => rw [F.grow.alive x e] at h1; cases h1

end Dendron
