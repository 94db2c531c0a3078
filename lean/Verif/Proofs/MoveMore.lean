import Verif.Proofs.ReplaceSpec
import Verif.Proofs.Demo

/-! Consequences of `Rehomed` and the moves inside one tree. -/

set_option linter.unusedSimpArgs false
set_option linter.unusedVariables false

set_option autoImplicit false

namespace Dendron
open RTree
variable {α : Type} {h h1 h2 h' : Heap α} {ch ch1 ch' : NodeId → List NodeId} {n p r q c : NodeId}
  {t t' : TreeId} {T R : RTree NodeId} {l1 l2 m1 m2 : List NodeId}

theorem LocksCounted.subtree (L : LocksCounted h t) (W : WF h ch) (ha : h.alive n = true)
    (hT : SubtreeAt ch n T) (ht : h.memTree n = some t) : (h.lockedIn T.nodes : Int) ≤ h.grants t := by
  refine L _ (hT.nodup W.toFShape) ?_
  intro x hx
  rw [W.tree.desc_memTree W.toFShape ((hT.mem_nodes_iff x).1 hx)]; exact ht

theorem ForwardWF.toWF (F : ForwardWF h ch) (B : BackOK h ch) : WF h ch :=
  { toFShape := F.toFShape, num := F.num, back := B, tree := F.tree, refs := F.refs }

theorem Seg.unique {nx : NodeId → Option NodeId} : ∀ {l l' : List NodeId}, Seg nx l none →
    Seg nx l' none → l.head? = l'.head? → l = l'
  | [], [], _, _, _ => rfl
  | [], _ :: _, _, _, h => by simp at h
  | _ :: _, [], _, _, h => by simp at h
  | a :: l, b :: l', h1, h2, h => by
    obtain rfl : a = b := by simpa using h
    have : l.head? = l'.head? := by simpa using h1.1.symm.trans h2.1
    rw [Seg.unique h1.2 h2.2 this]

/-- The memory determines the child lists. -/
theorem FShape.unique (F : FShape h ch) (F' : FShape h ch') : ch = ch' := by
  funext x
  cases e : h.alive x with
  | false => rw [F.dead x e, F'.dead x e]
  | true => exact Seg.unique (F.seg x) (F'.seg x) ((F.first x e).symm.trans (F'.first x e))

/-- The moved subtree keeps its shape. -/
theorem Rehomed.subtree {g : Int} (R : Rehomed h h' ch1 ch' T.nodes t t' g)
    (hT : SubtreeAt ch1 n T) : SubtreeAt ch' n T := by
  refine ⟨hT.1, hT.2.congr ?_⟩
  intro x hx
  exact R.children x (fun e => e.2.2 hx)

/-- The members of the destination tree. -/
theorem Rehomed.memTree {g : Int} {D : List NodeId} (R : Rehomed h h' ch1 ch' D t t' g)
    (x : NodeId) (ha : h'.alive x = true) :
    h'.memTree x = if x ∈ D then some t' else h.memTree x := by
  by_cases e : x ∈ D
  · simp only [e, if_true]
    have := R.moved x e
    simp only [Heap.memTree, this]
    cases h.mem x <;> rfl
  · simp only [e, if_false]
    have hna : ¬ Abandoned h D t x := by
      intro hab; rw [R.freed x hab] at ha; simp at ha
    simp only [Heap.memTree, R.others x e hna]

theorem moveSame_wideSpec {dest : InsertAs NodeId} (W : WF h ch) (hs : ch p = l1 ++ n :: l2)
    (hend : l2 = [] → l1 ≠ [] → q = p → m1 ≠ [] ∧ m2 ≠ [])
    (hd : DestSplit (upd ch p (l1 ++ l2)) dest q m1 m2) (hq : h.alive q = true)
    (hnd : ¬ Desc ch n q) (hmt : h.memTree n = h.memTree q) :
    ∃ h0 h', h.detachInsert n dest = .ok (h0, .ok ()) ∧ Sim (StaleHead l1 l2) h0 h' ∧ SameNonLink h h' ∧
      WF h' (upd (upd ch p (l1 ++ l2)) q (m1 ++ n :: m2)) := by
  have hm : n ∈ ch p := by simp [hs]
  have ha := W.alive_of_mem hm
  obtain ⟨h0, h', e, sim, s, S, hp⟩ := moveSame_wide W.toShape hs hend hd hq hnd
  have hanc : h.memTree dest.anchor = h.memTree q := by
    rcases hd.anchor with e | e
    · rw [e]
    · have e' : dest.anchor ∈ ch q := by
        rw [upd_apply] at e
        split at e
        · rename_i hqp
          subst hqp; rw [hs]
          simp only [List.mem_append, List.mem_cons] at e ⊢
          rcases e with e | e <;> simp [e]
        · exact e
      exact W.tree.child _ q (W.alive_of_mem e') (W.parent_of_mem e')
  refine ⟨h0, h', ?_, sim, s, ?_⟩
  · have : h.belongsToSameTree n dest.anchor = true := by
      simp [Heap.belongsToSameTree, hanc, hmt]
    have hda : h.alive dest.anchor = true := by
      rcases hd.anchor with e | e
      · rw [e]; exact hq
      · rw [upd_apply] at e
        split at e
        · rename_i hqp
          refine W.alive_of_mem (p := p) ?_
          rw [hs]
          simp only [List.mem_append, List.mem_cons] at e ⊢
          rcases e with e | e <;> simp [e]
        · exact W.alive_of_mem e
    rw [W.detachInsert_same ha hda this]
    unfold Heap.detachInsertL
    rw [if_pos this]; exact e
  · refine { toShape := S, tree := W.tree.relink s ?_ ?_, refs := W.refs.relink s }
    · intro x hx
      rw [hp]
      by_cases e : x = n
      · subst e; simp [W.parent_of_mem hm]
      · simp [e]
    · intro x u hx hu
      rw [hp] at hu
      by_cases e : x = n
      · subst e; simp only [if_true, Option.some.injEq] at hu; subst hu; exact hmt
      · simp only [e, if_false] at hu; exact W.tree.child x u hx hu

theorem moveSame_spec {dest : InsertAs NodeId} (W : WF h ch) (hs : ch p = l1 ++ n :: l2)
    (hpos : l1 = [] ∨ l2 ≠ [])
    (hd : DestSplit (upd ch p (l1 ++ l2)) dest q m1 m2) (hq : h.alive q = true)
    (hnd : ¬ Desc ch n q) (hmt : h.memTree n = h.memTree q) :
    ∃ h', h.detachInsert n dest = .ok (h', .ok ()) ∧ SameNonLink h h' ∧
      WF h' (upd (upd ch p (l1 ++ l2)) q (m1 ++ n :: m2)) := by
  obtain ⟨h0, h', e, s, r⟩ := moveSame_wideSpec W hs (by
    intro e1 e2
    rcases hpos with h1 | h1
    · exact absurd h1 e2
    · exact absurd e1 h1) hd hq hnd hmt
  obtain rfl := s.eq_of_not (fun x hx => hx.elim hpos)
  exact ⟨h', e, r⟩

end Dendron
