import Verif.Proofs.CloneInsert

/-! A builder whose start node has a parent, after the start node has been closed. -/

set_option autoImplicit false

namespace Dendron
open RTree
variable {α : Type} {w w0 : World α} {ch ch0 : NodeId → List NodeId} {r p : NodeId} {T : TreeId}
  {N : List NodeId} {E : List (Option α)}

/-- `open` after the start node has been closed: the node goes to the parent of the start node. -/
theorem Complete.escape {s : RTree NodeId} (C : Complete w0 ch0 w ch r T N E s (some p)) (d : α) :
    ∃ w', Builder.opn w ⟨some r, some p⟩ d = .ok (w', ⟨some r, some w.heap.nNode⟩, .ok ()) ∧
      Reach w' ∧ Inv w' (upd ch p (ch p ++ [w.heap.nNode])) ∧ w.heap.alive w.heap.nNode = false ∧
      w'.heap.data w.heap.nNode = some d := by
  have R := C.run
  have I := R.inv
  have hp : 0 < w.held .hot p := R.held_of_cs (by simp)
  have hT := R.csT p (by simp)
  have ha := I.held_alive hp
  obtain ⟨w1, e1, I1, F⟩ := I.exec_create (d := d) (as := .lastChild) hp (.last p) hT
    (R.lockable (I.wf.tree_alive ha hT) (by simp)).2
  have hr1 : Reach w1 := .step (op := .create .hot p d .lastChild) R.reach
    ⟨hp, fun _ _ => trivial, R.isRoom (by simp), e1⟩
  have hfresh := I.wf.toFShape.fresh_not_alive
  have hpn : p ≠ w.heap.nNode := by rintro rfl; rw [hfresh] at ha; cases ha
  have hta := I.wf.tree_alive ha hT
  have hrm : Room w1.heap := F.room I I1 hp hT (R.isRoom (by simp)) (by
    obtain ⟨-, b⟩ := R.grants_fit hta (by simp)
    omega)
  have hp1 : 0 < w1.held .hot p := by rw [F.held]; simp [hpn]; exact hp
  have hm1 : 0 < w1.held .hot w.heap.nNode := by rw [F.held]; simp
  obtain ⟨h', e2, I2, S⟩ := I1.dropHandle_keep hp1 (by rw [F.grow.memTree p ha]; exact hT)
    (.inr ⟨.hot, w.heap.nNode, hpn.symm, hm1, F.memTree⟩)
  have ex : w1.exec (.drop .hot p) = .ok (({ w1 with heap := h' }).take .hot p, .unit) := by
    simp only [World.exec, bind, Except.bind, e2]; rfl
  refine ⟨_, ?_, .step (op := .drop .hot p) hr1 ⟨hp1, fun _ _ => trivial, hrm, ex⟩, I2, hfresh, ?_⟩
  · simp only [Builder.opn, bind, Except.bind, e1, ex, pure, Except.pure]
  · show h'.data _ = _
    rw [S.data]; exact F.data

/-- The node that `open` adds is a child of the innermost open node. -/
theorem Opened.opn_parent {x : NodeId} {ks : List (RTree NodeId)} {fs : List (Frame NodeId)}
    (O : Opened w0 ch0 w ch r T N E x ks fs) (d : α) :
    ∃ w' b', Builder.opn w ⟨some r, some x⟩ d = .ok (w', b', .ok ()) ∧
      w'.heap.parentLink w.heap.nNode = some x := by
  obtain ⟨w', ch', e, O', -⟩ := O.opn d
  refine ⟨w', _, e, ?_⟩
  have hm : w.heap.nNode ∈ ch' x := by rw [O'.ok.2.2.1]; simp
  have S := O'.run.inv.wf.toFShape
  rw [S.parentLink (S.alive_of_mem hm), S.parent_of_mem hm]

/-- A failing `close` while at least two nodes are open moves the builder to its root. -/
theorem Opened.close_moves {x : NodeId} {ks : List (RTree NodeId)} {fs : List (Frame NodeId)}
    (O : Opened w0 ch0 w ch r T N E x ks fs) {n : Nat} (hn : fs.length + 1 < n) :
    ∃ w', Builder.close w ⟨some r, some x⟩ n = .ok (w', ⟨some r, some r⟩, .error .rootClosed) ∧
      (fs = [] → w' = w ∧ x = r) ∧
      (fs ≠ [] → x ≠ r ∧ ∀ d, ∃ w3 b3 w4 b4,
        Builder.opn w ⟨some r, some x⟩ d = .ok (w3, b3, .ok ()) ∧
        Builder.opn w' ⟨some r, some r⟩ d = .ok (w4, b4, .ok ()) ∧
        w.heap.alive w.heap.nNode = false ∧
        w3.heap.parentLink w.heap.nNode = some x ∧ w4.heap.parentLink w.heap.nNode = some r) := by
  obtain ⟨k, rfl⟩ : ∃ k, n = k + 1 := ⟨n - 1, by omega⟩
  obtain ⟨w2, e1, e2⟩ := O.close_fail hn
  rcases O.close k with ⟨h, -⟩ | ⟨h, -⟩ | ⟨-, w', ks', e, S, O'⟩
  · omega
  · omega
  rw [e] at e1
  obtain rfl : w' = w2 := by simpa using e1
  refine ⟨w', e, ?_, ?_⟩
  · rintro rfl
    simp only [Builder.close, List.length_nil, if_true, Except.ok.injEq, Prod.mk.injEq, Builder.mk.injEq,
      Option.some.injEq, true_and, and_true] at e2
    exact ⟨e2.1.symm, e2.2⟩
  · intro hfs
    have hxr : x ≠ r := by
      cases fs with
      | nil => exact absurd rfl hfs
      | cons g fs => obtain ⟨y, ks'⟩ := g; exact O.pop.1
    refine ⟨hxr, fun d => ?_⟩
    obtain ⟨w3, b3, f1, f2⟩ := O.opn_parent d
    obtain ⟨w4, b4, g1, g2⟩ := O'.opn_parent d
    rw [S.nNode] at g2
    exact ⟨w3, b3, w4, b4, f1, g1, O.run.inv.wf.toFShape.fresh_not_alive, f2, g2⟩

end Dendron
