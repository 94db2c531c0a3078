import Verif.Proofs.Reentry
import Verif.Proofs.DropLink

/-! The moments of the last drop of a handle of a tree. -/

set_option autoImplicit false

namespace Dendron
open RTree
variable {α : Type} {h h' h1 h2 : Heap α} {ch : NodeId → List NodeId} {n p x r : NodeId} {t u : TreeId}
  {d : Option TreeId} {c : Option NodeId} {ms ms1 ms2 l1 l2 : List (Moment α)} {m : Moment α} {R : RTree NodeId}

mutual
theorem mem_post : ∀ (T : RTree NodeId) (x : NodeId), x ∈ T.post ↔ x ∈ T.nodes
  | .node v cs, x => by
    simp only [post, nodes, List.mem_append, List.mem_cons, List.not_mem_nil, or_false, mem_postL cs x]
    exact ⟨Or.symm, Or.symm⟩
theorem mem_postL : ∀ (cs : List (RTree NodeId)) (x : NodeId), x ∈ postL cs ↔ x ∈ nodesL cs
  | [], x => by simp [postL, nodesL]
  | c :: cs, x => by simp only [postL, nodesL, List.mem_append, mem_post c x, mem_postL cs x]
end

theorem maybeDropTreeT_order {E : NodeId → Prop} {pins : List NodeId} (F : FShape h ch)
    (W : TreeWFe h E) (hsa : ∀ x u rc l, h.mem x = .strong u rc l → h.alive x = true)
    (hr : h.root t = some r) (hR : SubtreeAt ch r R) (hl : Loose h t) :
    ∃ ms, h.maybeDropTreeT c pins t = .ok (((h.wipe R.nodes pins).setRoot t none).setGrants t 0, ms) ∧
      ms.map (·.node) = R.post.filter (fun x => x ∉ pins) := by
  have hta : h.treeAlive t = true := by simp [Heap.treeAlive, hr]
  have hra := (W.root t r hr).1
  have hRm : ∀ x ∈ R.nodes, h.memTree x = some t := by
    intro x hx
    have hd := (hR.mem_nodes_iff x).1 hx
    clear hx
    induction hd with
    | refl => exact (W.root t r hr).2.1
    | @step a b _ hb ih =>
      rw [W.child b a (F.alive_of_mem hb) (F.parent_of_mem hb)]; exact ih
  have hns : ∀ x ∈ R.nodes, ∀ u rc l, h.mem x ≠ .strong u rc l := by
    intro x hx u rc l hm
    have := hRm x hx
    simp only [Heap.memTree, hm, Option.some.injEq] at this
    subst this
    exact hl.2 x rc l hm
  have hrr : ∀ x ∈ R.nodes, ∀ u, h.root u = some x → u = t := by
    intro x hx u hu
    have := (W.root u x hu).2.1
    rw [hRm x hx] at this
    simpa using this.symm
  have hrR : r ∈ R.nodes := (hR.mem_nodes_iff r).2 (.refl r)
  unfold Heap.maybeDropTreeT
  rw [if_pos ((loose_iff (fun x u rc l hx => F.bound x (hsa _ _ _ _ hx)) hta).2 hl)]
  refine dropTreeT_order F.dropShape (W.bound t hta) hr hra (W.root t r hr).2.2 hR (hR.nodup F)
    (hR.size_le F hra) ?_ (hns r hrR) (fun u hu hur => hu (hrr r hrR u hur))
  intro x hx hxr
  refine ⟨hns x hx, fun u hu => ?_⟩
  have := hrr x hx u hu
  subst this
  rw [hr] at hu; exact hxr (by simpa using hu.symm)

/-- Dropping the last `Tree`. -/
theorem relTreeT_last (W : FWF h ch) (hrc : h.treeRc t = 1)
    (ho : ∀ x rc l, h.mem x ≠ .strong t rc l) (hr : h.root t = some r) (hR : SubtreeAt ch r R) :
    ∃ h' ms, h.relTreeT t = .ok (h', ms) ∧ h.relTree [] t = .ok h' ∧ ms.map (·.node) = R.post ∧
      FreesT t h ms h' ∧ ∀ m ∈ ms, m.dying = some t ∧ m.cell = none := by
  obtain ⟨h1, hh1⟩ : ∃ h1, h1 = h.setTreeRc t 0 := ⟨_, rfl⟩
  have F1 : FShape h1 ch := by
    subst hh1
    exact ⟨W.dead, W.first, W.nodup, W.mem, W.seg, W.rootNext, W.acyc, W.bound⟩
  have E1 : TreeWFe h1 (fun _ => False) := by
    subst hh1
    exact ⟨W.tree.live, W.tree.root, W.tree.child, fun n t _ => W.tree.top n t, W.tree.bound⟩
  have hl1 : Loose h1 t := by subst hh1; exact ⟨by simp [Heap.setTreeRc], ho⟩
  obtain ⟨ms, e1, e2⟩ := maybeDropTreeT_order (c := none) (pins := []) F1 E1 (by subst hh1; exact W.refs.alive)
    (by subst hh1; exact hr) hR hl1
  have e : h.relTreeT t = .ok (((h1.wipe R.nodes []).setRoot t none).setGrants t 0, ms) := by
    unfold Heap.relTreeT
    rw [hrc, ← e1, hh1]
  obtain ⟨a, b⟩ := maybeDropTreeT_frees e1
  refine ⟨_, ms, e, ?_, by rw [e2]; simp, FreesT.pre ?_ a, b⟩
  · rw [← relTreeT_fst, e]; rfl
  · subst hh1; exact ⟨fun _ => rfl, rfl, fun _ _ => rfl⟩

/-- Dropping the last handle, a node handle. -/
theorem dropLinkT_last (W : FWF h ch) (hm : h.mem n = .strong t 1 0) (hrc : h.treeRc t = 0)
    (ho : ∀ x rc l, x ≠ n → h.mem x ≠ .strong t rc l) (hr : h.root t = some r)
    (hR : SubtreeAt ch r R) :
    ∃ h' ms l, h.dropLinkT n = .ok (h', ms ++ [l]) ∧ h.dropLink n = .ok h' ∧
      ms.map (·.node) = R.post.filter (fun x => x ≠ n) ∧ l.node = n ∧
      FreesT t (h.setMem n (.weak (some t))) (ms ++ [l]) h' ∧
      (∀ m ∈ ms, m.dying = some t ∧ m.cell = some n) ∧ l.heap.root t = none ∧ l.cell = none ∧ l.dying = none := by
  have ha := W.refs.alive _ _ _ _ hm
  have hmt : h.memTree n = some t := by simp [Heap.memTree, hm]
  have hnR : n ∈ R.nodes := by
    rw [hR.mem_nodes_iff, (W.tree.toE (fun _ => False)).mem_iff W.toFShape hr (by simp) ha]
    exact hmt
  obtain ⟨h1, hh1⟩ : ∃ h1, h1 = h.setMem n (.weak (some t)) := ⟨_, rfl⟩
  have m1 : ∀ x, h1.mem x = if x = n then .weak (some t) else h.mem x := by
    intro x; subst hh1; rfl
  have mt1 : ∀ x, h1.memTree x = h.memTree x := by
    intro x
    simp only [Heap.memTree, m1]
    by_cases e : x = n
    · subst e; simp [hm]
    · simp [e]
  have F1 : FShape h1 ch := by
    subst hh1
    exact ⟨W.dead, W.first, W.nodup, W.mem, W.seg, W.rootNext, W.acyc, W.bound⟩
  have E1 : TreeWFe h1 (fun _ => False) := by
    have d1 : h1.alive = h.alive := by subst hh1; rfl
    have d2 : h1.root = h.root := by subst hh1; rfl
    have d3 : h1.parent = h.parent := by subst hh1; rfl
    have d4 : h1.nTree = h.nTree := by subst hh1; rfl
    have d5 : h1.treeAlive = h.treeAlive := by subst hh1; rfl
    constructor
    · intro x hx; rw [mt1, d5]; rw [d1] at hx; exact W.tree.live x hx
    · intro u x hx; rw [mt1, d1, d3]; rw [d2] at hx; exact W.tree.root u x hx
    · intro c q hc hq; rw [mt1, mt1]; rw [d1] at hc; rw [d3] at hq; exact W.tree.child c q hc hq
    · intro x u _ hx hp hmx
      rw [mt1] at hmx; rw [d1] at hx; rw [d3] at hp; rw [d2]; exact W.tree.top x u hx hp hmx
    · intro u hu; rw [d5] at hu; rw [d4]; exact W.tree.bound u hu
  have A1 : ∀ x u rc l, h1.mem x = .strong u rc l → h1.alive x = true := by
    intro x u rc l hx
    rw [m1] at hx
    by_cases e : x = n
    · simp [e] at hx
    · simp only [e, if_false] at hx
      have := W.refs.alive _ _ _ _ hx
      subst hh1; exact this
  have hl1 : Loose h1 t := by
    refine ⟨by subst hh1; exact hrc, ?_⟩
    intro x rc l hx
    rw [m1] at hx
    by_cases e : x = n
    · simp [e] at hx
    · simp only [e, if_false] at hx; exact ho x rc l e hx
  obtain ⟨ms, e1, e2⟩ := maybeDropTreeT_order (c := some n) (pins := [n]) F1 E1 A1
    (by subst hh1; exact hr) hR hl1
  obtain ⟨h2, hh2⟩ : ∃ h2, h2 = ((h1.wipe R.nodes [n]).setRoot t none).setGrants t 0 := ⟨_, rfl⟩
  rw [← hh2] at e1
  have hdec : h.decRefT n = .ok (h2, ms) := by
    unfold Heap.decRefT
    simp only [hm, Nat.sub_self, if_true, ne_eq, not_true, if_false]
    rw [← hh1]; exact e1
  obtain ⟨⟨e3, -⟩, g, e4, e5⟩ := dropLink_last' W hm hrc ho hr hR
  have hfc : h2.firstChild n = none := by
    subst hh2; simp [Heap.wipe, Heap.setRoot, Heap.setGrants, hnR]
  have hnx : h2.next n = none := by
    subst hh2; simp [Heap.wipe, Heap.setRoot, Heap.setGrants, hnR]
  have al2 : h2.alive n = true := by
    have : h2.alive n = (h1.wipe R.nodes [n]).alive n := by subst hh2; rfl
    rw [this, Heap.wipe_alive]
    have : h1.alive n = h.alive n := by subst hh1; rfl
    simp [this, ha]
  have hd := dropLinkT_fst h n
  rw [e3] at hd
  unfold Heap.dropLinkT at hd
  simp only [hdec, bind, Except.bind, pure, Except.pure, Heap.relFuel] at hd
  obtain ⟨h3, l3, er⟩ : ∃ h3 l3, Heap.releaseT none none (h2.nNode + 2) [] n h2 = .ok (h3, l3) := by
    cases er : Heap.releaseT none none (h2.nNode + 2) [] n h2 with
    | error e => rw [er] at hd; cases hd
    | ok a => exact ⟨a.1, a.2, rfl⟩
  rw [er] at hd
  simp only [Except.map, Except.ok.injEq] at hd
  have hFr := (releaseT_frees t _ er).1
  have hl3 : l3 = [⟨h2, n, none, none⟩] := by
    have hdead := hFr.dead n
    rw [hd, al2] at hdead
    have : (h.dropped t R.nodes).alive n = (h.wipe R.nodes []).alive n := rfl
    rw [this, Heap.wipe_alive] at hdead
    rw [Heap.releaseT, hfc, hnx] at er
    split at er
    · simp only [Except.ok.injEq, Prod.mk.injEq] at er
      rw [← er.2] at hdead
      simp [hnR] at hdead
    · simp only [Except.ok.injEq, Prod.mk.injEq] at er
      exact er.2.symm
  subst hl3
  obtain ⟨a, b⟩ := maybeDropTreeT_frees e1
  refine ⟨h3, ms, ⟨h2, n, none, none⟩, ?_, by rw [e3, hd], ?_, rfl, ?_, b, ?_, rfl, rfl⟩
  · unfold Heap.dropLinkT
    simp only [hdec, bind, Except.bind, pure, Except.pure, Heap.relFuel, er]
  · rw [e2]; simp
  · rw [← hh1]; exact a.append hFr
  · subst hh2; simp [Heap.setRoot, Heap.setGrants]

end Dendron
