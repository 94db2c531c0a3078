import Verif.Proofs.Cost
import Verif.Proofs.CostEdit
import Verif.Props.Build
import Verif.Props.Move
import Verif.Props.Traverse

/-!
# C67: documented costs

The documentation promises that the non-allocating breadth-first traversal is quadratic in the worst
case and the allocating one linear (`src/traverse/breadth_first.rs` 15, 135, `src/node/frozen.rs`
973, 1052), that detaching a subtree and moving it to another tree takes a number of steps
proportional to its number of nodes, and that moving it inside its tree takes a constant number of
steps (`src/node/plain.rs` 1617, 2526, 2620).

`YieldsIn next s l c` (`Verif.Spec.Cost`): the iterator yields `l` and then `None`, and all these calls
together cost `c` units.  The counting functions are in `Verif.Model.Cost`.
-/

set_option linter.unusedSimpArgs false
set_option linter.unusedVariables false

set_option autoImplicit false

namespace Dendron
open RTree

variable {α : Type} {h : Heap α} {ch : NodeId → List NodeId} {n p q : NodeId} {t t' : TreeId}
  {T : RTree NodeId} {l1 l2 m1 m2 : List NodeId} {rc lk : Nat} {dest : InsertAs NodeId}

/-- C67: the counting versions of the traversers do what the traversers do, in every state. -/
theorem C67_counting_faithful (h : Heap α) :
    (∀ s, Counts (NaBfs.next h s) (NaBfs.nextC h s)) ∧
    (∀ n d, Counts (AlBfs.start h n d) (AlBfs.startC h n d)) ∧
    (∀ s, Counts (AlBfs.next h s) (AlBfs.nextC h s)) :=
  ⟨NaBfs.nextC_erase h, AlBfs.startC_erase h, AlBfs.nextC_erase h⟩

/-- A traversal has only one cost. -/
theorem YieldsIn.unique {σ ι : Type} {next : σ → Except Fault ((Option ι × σ) × Nat)} {s : σ} {l l' : List ι}
    {c c' : Nat} (h1 : YieldsIn next s l c) (h2 : YieldsIn next s l' c') : l' = l ∧ c' = c := by
  induction h1 generalizing l' c' with
  | done e =>
    cases h2 with
    | done e' => rw [e] at e'; cases e'; exact ⟨rfl, rfl⟩
    | more e' _ => rw [e] at e'; cases e'
  | more e _ ih =>
    cases h2 with
    | done e' => rw [e] at e'; cases e'
    | more e' h3 =>
      rw [e] at e'
      cases e'
      obtain ⟨rfl, rfl⟩ := ih h3
      exact ⟨rfl, rfl⟩

/-- C67: the non-allocating breadth-first traversal of a subtree with `N` nodes takes at most
`(height + 2) * (2 * N + 1)` steps, which is less than `2 * (N + 1)²`. -/
theorem C67_non_allocating_quadratic (W : WF h ch) (ha : h.alive n = true) (hT : SubtreeAt ch n T) (d : Nat) :
    ∃ c, YieldsIn (NaBfs.nextC h) (NaBfs.start n d) (T.bfs d) c ∧
      c ≤ (T.height + 2) * (2 * T.nodes.length + 1) ∧
      c < 2 * ((T.nodes.length + 1) * (T.nodes.length + 1)) := by
  have hb := scans_le T (T.height - d + 1) d
  have h1 : (T.height - d + 1 + 1) * (2 * T.nodes.length + 1) ≤ (T.height + 2) * (2 * T.nodes.length + 1) :=
    Nat.mul_le_mul_right _ (by omega)
  have h2 : (T.height + 2) * (2 * T.nodes.length + 1) ≤ (T.nodes.length + 1) * (2 * T.nodes.length + 1) :=
    Nat.mul_le_mul_right _ (by have := height_lt T; omega)
  have h3 : (T.nodes.length + 1) * (2 * T.nodes.length + 1) + (T.nodes.length + 1) =
      2 * ((T.nodes.length + 1) * (T.nodes.length + 1)) := by
    rw [← Nat.mul_succ, Nat.mul_left_comm]
    congr 1
  exact ⟨_, W.nabfs_cost ha hT d, by omega, by omega⟩

/-- C67: from the root of a subtree of height `H` it takes at least `(H + 1)²` steps; so if the nodes
form a path, `N²`. -/
theorem C67_non_allocating_at_least (W : WF h ch) (ha : h.alive n = true) (hT : SubtreeAt ch n T)
    {l : List (NodeId × Nat)} {c : Nat} (hc : YieldsIn (NaBfs.nextC h) (NaBfs.start n 0) l c) :
    (T.height + 1) * (T.height + 1) ≤ c := by
  obtain ⟨rfl, rfl⟩ := (W.nabfs_cost ha hT 0).unique hc
  have := scans_ge T (T.height + 1) 0 (by omega)
  simpa using this

/-- A path of `k + 1` nodes. -/
def path (d : α) : Nat → RTree α
  | 0 => .node d []
  | k + 1 => .node d [path d k]

theorem path_facts (d : α) : ∀ k, (path d k).height = k ∧ (path d k).nodes.length = k + 1
  | 0 => by simp [path, height, heightL, nodes, nodesL]
  | k + 1 => by
    obtain ⟨h1, h2⟩ := path_facts d k
    simp [path, height, heightL, nodes, nodesL, h1, h2]

mutual
theorem height_map {β γ : Type} (f : β → γ) : ∀ t : RTree β, (t.map f).height = t.height
  | .node v cs => by simp [map, height, heightL_map f cs]
theorem heightL_map {β γ : Type} (f : β → γ) : ∀ cs : List (RTree β), heightL (mapL f cs) = heightL cs
  | [] => by simp [mapL, heightL]
  | c :: cs => by simp [mapL, heightL, height_map f c, heightL_map f cs]
end

/-- C67: the worst case is attained: for every `k` a program can build a tree of `k + 1` nodes on which
the non-allocating breadth-first traversal yields the `k + 1` nodes in at least `(k + 1)²` steps. -/
theorem C67_quadratic_attained (d : α) (k : Nat) :
    ∃ (w : World α) (n : NodeId) (l : List (NodeId × Nat)) (c : Nat), Reach w ∧ w.heap.alive n = true ∧
      l.length = k + 1 ∧ YieldsIn (NaBfs.nextC w.heap) (NaBfs.start n 0) l c ∧ (k + 1) * (k + 1) ≤ c := by
  obtain ⟨ch, I⟩ := (Reach.init (α := α)).inv
  obtain ⟨l, hc, -⟩ := C29_canonical (path d k)
  have hdesc : Describes (Event.expand l) 0 (path d k) := by
    rw [Describes, List.replicate_zero, List.append_nil]; exact hc.same
  obtain ⟨w', m, ch', e, hr, W, hN, -, -⟩ := (C31_from_events .init (by
    intro t ht; cases ht) I.wf l).1 0 _ hdesc
  obtain ⟨s, g1, g2, g3⟩ := hN.shape
  have hm : m ∈ s.nodes := (g1.mem_nodes_iff m).2 (.refl _)
  have ha := (g3 m hm).2.1
  obtain ⟨p1, p2⟩ := path_facts d k
  have e1 : s.height = k := by
    have := congrArg height g2
    rwa [height_map, height_map, p1] at this
  have e2 : s.nodes.length = k + 1 := by
    have := congrArg (fun t => t.nodes.length) g2
    simpa [nodes_map, p2] using this
  obtain ⟨c, hy, -, -⟩ := C67_non_allocating_quadratic W ha g1 0
  refine ⟨w', m, _, c, hr, ha, ?_, hy, ?_⟩
  · rw [(C24_every_node_once g1).2, e2]
  · have := C67_non_allocating_at_least W ha g1 hy
    rwa [e1] at this

/-- C67: the allocating breadth-first traversal of a subtree with `N` nodes, including its creation at
any depth, takes at most `7 * N + 2` steps. -/
theorem C67_allocating_linear (W : WF h ch) (ha : h.alive n = true) (hT : SubtreeAt ch n T) (d : Nat) :
    ∃ s c k, AlBfs.startC h n d = .ok (s, c) ∧ YieldsIn (AlBfs.nextC h) s (T.bfs d) k ∧
      c + k ≤ 7 * T.nodes.length + 2 := by
  obtain ⟨s, c, k, e, hc, -, hy, hk⟩ := W.albfs_cost ha hT d
  have hle : ∀ d, (T.bfs d).length ≤ (T.bfs 0).length := by
    intro d
    induction d with
    | zero => exact Nat.le_refl _
    | succ d ih =>
      have := congrArg List.length (bfs_unfold d T)
      simp only [List.length_append] at this
      omega
  have := hle d
  rw [(C24_every_node_once hT).2] at this
  exact ⟨s, c, k, e, hy, by omega⟩

/-- C67: detaching a subtree with `N` nodes takes exactly `2 * N` iterations of the loop that changes the
memberships: with a budget of `2 * N` or more the result is that of the unlimited operation, with any
smaller budget the loop does not finish. -/
theorem C67_detach_linear (W : WF h ch) (hs : ch p = l1 ++ n :: l2) (hT : SubtreeAt ch n T)
    (hhandle : h.mem n = .strong t rc lk) (hlocks : LocksCounted h t)
    (hmax : h.grants t ≤ Lock.isizeMax) (f : Nat) :
    h.detachSubtreeF f n = if 2 * T.nodes.length ≤ f then h.detachSubtree n else .error .diverge := by
  have hm : n ∈ ch p := by simp [hs]
  have ha := W.alive_of_mem hm
  have ht : h.memTree n = some t := by simp [Heap.memTree, hhandle]
  have g1 := hlocks.subtree W ha hT ht
  have := detach_exact W hs hT hhandle g1 (Int.le_trans g1 hmax) f
  split
  · rename_i hc; exact this.1 hc
  · rename_i hc; exact this.2 (by omega)

/-- C67: moving a subtree with `N` nodes to another tree takes exactly `2 * N` iterations. -/
theorem C67_move_other_linear (W : WF h ch) (hs : ch p = l1 ++ n :: l2) (hT : SubtreeAt ch n T)
    (ht : h.memTree n = some t)
    (hd : DestSplit ch dest q m1 m2) (hq : h.alive q = true) (ht' : h.memTree q = some t')
    (hne : t ≠ t') (hlocks : LocksCounted h t) (hgrant : 0 ≤ h.grants t')
    (hmax : h.grants t' + h.grants t ≤ Lock.isizeMax) (f : Nat) :
    h.detachInsertF f n dest = if 2 * T.nodes.length ≤ f then h.detachInsert n dest else .error .diverge := by
  have hm : n ∈ ch p := by simp [hs]
  have ha := W.alive_of_mem hm
  have g1 := hlocks.subtree W ha hT ht
  have := moveOther_exact W hs hT ht hd hq ht' hne g1 hgrant (Int.le_trans (Int.add_le_add_left g1 _) hmax) f
  split
  · rename_i hc; exact this.1 hc
  · rename_i hc; exact this.2 (by omega)

/-- C67: moving a subtree inside its tree takes no iteration of any loop, in every state whatsoever. -/
theorem C67_move_same_constant (hsame : h.belongsToSameTree n dest.anchor = true) (f : Nat) :
    h.detachInsertF f n dest = h.detachInsert n dest := by
  simp only [Heap.detachInsertF, Heap.detachInsert, hsame, if_true]
  exact moveSameF_eq f h [] n dest

/-- the hypotheses of the traversal theorems: a subtree with six nodes and three levels, whose
non-allocating traversal takes 38 steps -/
example : WF Demo.heap Demo.ch ∧ Demo.heap.alive 0 = true ∧ SubtreeAt Demo.ch 0 Demo.tree ∧
    Demo.tree.nodes.length = 6 ∧ Demo.tree.height = 2 ∧
    YieldsIn (NaBfs.nextC Demo.heap) (NaBfs.start 0 0) (Demo.tree.bfs 0) (3 + 9 + 13 + 13) :=
  ⟨Demo.wf, rfl, Demo.subtree, rfl, rfl, Demo.wf.nabfs_cost rfl Demo.subtree 0⟩

/-- the hypotheses of `C67_detach_linear`; the budget 6 is the smallest -/
example : WF Demo.heap Demo.ch ∧ Demo.ch 0 = [1] ++ 2 :: [3] ∧
    SubtreeAt Demo.ch 2 (.node 2 [.node 4 [], .node 5 []]) ∧ Demo.heap.mem 2 = .strong 0 1 0 ∧
    LocksCounted Demo.heap 0 ∧ Demo.heap.grants 0 ≤ Lock.isizeMax ∧
    Demo.heap.detachSubtreeF 6 2 = Demo.heap.detachSubtree 2 ∧
    Demo.heap.detachSubtreeF 5 2 = .error .diverge := by
  have hT : SubtreeAt Demo.ch 2 (.node 2 [.node 4 [], .node 5 []]) :=
    ⟨rfl, rfl, ⟨rfl, trivial⟩, ⟨rfl, trivial⟩, trivial⟩
  have key := C67_detach_linear (l1 := [1]) (l2 := [3]) (p := 0) Demo.wf rfl hT rfl (Demo.locksCounted 0) (by decide)
  exact ⟨Demo.wf, rfl, hT, rfl, Demo.locksCounted 0, by decide, key 6, key 5⟩

/-- the hypotheses of `C67_move_other_linear` and `C67_move_same_constant`: node 2 goes below node 6 of
the other tree, or in front of its sibling 1 -/
example : WF Demo.heap Demo.ch ∧ Demo.ch 0 = [1] ++ 2 :: [3] ∧
    SubtreeAt Demo.ch 2 (.node 2 [.node 4 [], .node 5 []]) ∧ Demo.heap.memTree 2 = some 0 ∧
    DestSplit Demo.ch (.lastChildOf 6) 6 [7] [] ∧ Demo.heap.alive 6 = true ∧
    Demo.heap.memTree 6 = some 1 ∧ LocksCounted Demo.heap 0 ∧ 0 ≤ Demo.heap.grants 1 ∧
    Demo.heap.grants 1 + Demo.heap.grants 0 ≤ Lock.isizeMax ∧
    Demo.heap.belongsToSameTree 2 (InsertAs.previousSiblingOf 1).anchor = true :=
  ⟨Demo.wf, rfl, ⟨rfl, rfl, ⟨rfl, trivial⟩, ⟨rfl, trivial⟩, trivial⟩, rfl, .last 6, rfl, rfl,
    Demo.locksCounted 0, by decide, by decide, rfl⟩

end Dendron
