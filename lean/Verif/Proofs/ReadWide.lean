import Verif.Proofs.WideRead
import Verif.Proofs.ReadAll
import Verif.Spec.Reads

/-! Calls that change nothing, in the wider histories. -/

set_option linter.unusedSimpArgs false
set_option linter.unusedVariables false

set_option autoImplicit false

namespace Dendron
variable {α : Type} {w w' v : World α} {ch : NodeId → List NodeId}

/-- What such calls leave alone. -/
structure SameW (w w' v v' : World α) (ch ch' : NodeId → List NodeId) (n : NodeId) : Prop where
  data : w'.heap.data n = w.heap.data n
  memTree : w'.heap.memTree n = w.heap.memTree n
  kids : ch' n = ch n
  place : ∀ p, n ∈ ch' p ↔ n ∈ ch p
  nav : ∀ q, v'.heap.navTo n q = v.heap.navTo n q
  last : LastRight w.heap ch n → LastRight w'.heap ch' n

theorem ReadsW.same (rd : ReadsW w w') (W : Wide w v ch) :
    ∃ v' ch', Wide w' v' ch' ∧ w.heap.nNode ≤ w'.heap.nNode ∧
      ∀ n, w.heap.alive n = true → w'.heap.alive n = true → SameW w w' v v' ch ch' n := by
  induction rd with
  | refl => exact ⟨v, ch, W, Nat.le_refl _, fun n _ _ => ⟨rfl, rfl, rfl, fun _ => .rfl, fun _ => rfl, id⟩⟩
  | @step w1 w2 op r rd hop s ih =>
    obtain ⟨v1, ch1, W1, hle, H⟩ := ih
    obtain ⟨v2, ch2, W2, K, hlast, -⟩ := s.wide W1
    refine ⟨v2, ch2, W2, Nat.le_trans hle ?_, fun n ha ha2 => ?_⟩
    · have := K.nodes; rw [W1.sim.heap.nNode, W2.sim.heap.nNode] at this; exact this
    · have hb : n < v1.heap.nNode := by
        rw [W1.sim.heap.nNode]
        refine Nat.lt_of_lt_of_le ?_ hle
        rw [← W.sim.heap.nNode]
        exact W.inv.wf.bound n (by rw [W.sim.heap.alive]; exact ha)
      have hv2 : v2.heap.alive n = true := by rw [W2.sim.heap.alive]; exact ha2
      have hv1 : v1.heap.alive n = true := by
        cases e : v1.heap.alive n with
        | true => rfl
        | false => rw [K.fresh n hb e] at hv2; cases hv2
      have ha1 : w1.heap.alive n = true := by rw [← W1.sim.heap.alive]; exact hv1
      obtain ⟨i1, i2, i3, i4, i5, i6⟩ := H n ha ha1
      obtain ⟨t, ht, -⟩ := W1.inv.wf.tree.live n hv1
      obtain ⟨k1, k2, k3, k4⟩ := K.navTo W1.inv.wf W2.inv.wf (hop.not_edits _ t) hv1 ht hv2
      have hw : ¬ Writes op n := by
        intro hx
        cases op <;> first | exact absurd hop id | exact hx
      have hd : ∀ p, ¬ DropsLast ch1 op p := by
        intro p hx
        cases op <;> first | exact absurd hop id | exact hx
      refine ⟨?_, ?_, k2.trans i3, fun p => (k3 p).trans (i4 p), fun q => (k4 q).trans (i5 q), fun hl => ?_⟩
      · rw [← i1, ← W2.sim.heap.data, ← W1.sim.heap.data]; exact K.data n hv1 hv2 hw
      · rw [← i2, ← W2.sim.heap.memTree, ← W1.sim.heap.memTree, k1, ht]
      · exact hlast n ha1 ha2 (i6 hl) (hd n)

theorem ReadsW.keeps {n : NodeId} (hr : ReachW w) (rd : ReadsW w w') (ha : w.heap.alive n = true)
    (ha' : w'.heap.alive n = true) :
    w'.heap.data n = w.heap.data n ∧ w'.heap.nodeTree n = w.heap.nodeTree n ∧
      ∀ ch, FShape w.heap ch → ∀ q, (∀ p, UsesLast ch (.nav .plain q n : Op α) p → LastRight w.heap ch p) →
        w'.heap.navTo n q = w.heap.navTo n q := by
  obtain ⟨v, ch, W⟩ := hr.wide
  obtain ⟨v', ch', W', hle, H⟩ := rd.same W
  have E := H n ha ha'
  refine ⟨E.data, ?_, ?_⟩
  · obtain ⟨t, ht, -⟩ := W.fwd.tree.live n ha
    show w'.heap.treeCore n = w.heap.treeCore n
    rw [(W.fwd.tree.treeCore_iff ha).2 ht, (W'.fwd.tree.treeCore_iff ha').2 (E.memTree.trans ht)]
  · intro c S q hq
    obtain rfl : c = ch := S.unique W.shape
    rw [W.navTo (kd := .plain) ha hq, W'.navTo (kd := .plain) ha' ?_, E.nav]
    intro p hp
    have key : ∀ x, w'.heap.alive x = true → w.heap.alive x = true → LastRight w.heap c x → LastRight w'.heap ch' x :=
      fun x h1 h2 => (H x h2 h1).last
    cases q with
    | lastChild =>
      obtain rfl : p = n := hp
      exact E.last (hq _ rfl)
    | lastSibling =>
      have hp : n ∈ ch' p := hp
      have hp0 := (E.place p).1 hp
      exact key p (W'.shape.alive_parent hp) (W.shape.alive_parent hp0) (hq p hp0)
    | prevSibling =>
      have hp : (ch' p).head? = some n := hp
      have hm := List.mem_of_head? hp
      have hp0 := (E.place p).1 hm
      have h1 := W'.shape.alive_parent hm
      have h2 := W.shape.alive_parent hp0
      refine key p h1 h2 (hq p ?_)
      show (c p).head? = some n
      rw [← (H p h2 h1).kids]; exact hp
    | _ => exact hp.elim

end Dendron
