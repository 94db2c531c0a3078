import Verif.Proofs.Cascade

/-! Dropping something in the presence of destructors that drop things. -/

set_option linter.unusedSimpArgs false
set_option linter.unusedVariables false
set_option autoImplicit false

namespace Dendron
open RTree
variable {α : Type} {h h' k H H1 H' c c' : Heap α} {b b1 r r' r'' v : World α} {x y n m : NodeId} {t u : TreeId}
  {own : NodeId → List Asset} {V V2 : NodeId → Prop} {TV : TreeId → Prop} {ch : NodeId → List NodeId}
  {dt : Dtor α} {e : Nest} {N : Nat} {a : Asset} {rest : List Asset} {kd : Kind} {R : RTree NodeId}

/-- `AssetOK`: dropping one thing works, as long as at most `N` nodes are alive. -/
def AssetOK (own : NodeId → List Asset) (dt : Dtor α) (N : Nat) : Prop :=
  ∀ (V : NodeId → Prop) (TV : TreeId → Prop) (H : Heap α) (b : World α) (a : Asset) (rest : List Asset)
    (e : Nest), ReachW b → Room b.heap → Ctx V TV H b.heap → e.In V TV H → OwnsAll own b (a :: rest) →
    Few N b.heap → ∃ H' b', H.dropAssetC dt e a = .ok H' ∧ Ran own [a] rest V TV H b H' b'

theorem OwnsAll.next {L0 : List NodeId} (S : OwnsAll own b (a :: rest))
    (hc : ∀ a', b.count a' ≤ b1.count a' + (if a = a' then 1 else 0))
    (hL : L0.Nodup) (h1 : ∀ x ∈ L0, b.heap.alive x = true ∧ b1.heap.alive x = false)
    (h2 : ∀ x, b1.heap.alive x = true → b.heap.alive x = true) : OwnsAll own b1 (L0.flatMap own ++ rest) := by
  intro L hd hl a'
  have := S (L0 ++ L) (by
    rw [List.nodup_append]
    refine ⟨hL, hd, ?_⟩
    rintro x hx y hy rfl
    have e1 := (h1 x hx).2
    rw [hl x hy] at e1; cases e1) (by
    intro x hx
    rcases List.mem_append.1 hx with hx | hx
    · exact (h1 x hx).1
    · exact h2 x (hl x hx)) a'
  have h3 := hc a'
  rw [List.cons_append, List.count_cons, List.flatMap_append] at this
  simp only [List.count_append, beq_iff_eq] at this ⊢
  omega

theorem OwnsAll.pos (S : OwnsAll own b (a :: rest)) : 0 < b.count a := by
  have := S [] (by simp) (by simp) a
  simp at this
  omega

theorem Asset.step (ha : 0 < b.count a) (hr : Room b.heap) (hx : b.exec a.op = .ok (b1, .unit)) :
    b.StepW a.op b1 .unit := by
  refine ⟨?_, ?_, hr, hx⟩
  · cases a with
    | node k n => exact ha
    | tree t => exact ha
    | token g t => cases g <;> simpa [World.count, World.Allowed, Asset.op] using ha
  · intro ch _
    cases a <;> exact ⟨trivial, fun _ h => h.elim⟩

/-! ### The tree goes -/

theorem wipe_cell {A : List NodeId} (hx : x ∉ A) : (h.wipe A []).cell x = h.cell x := by
  simp [Heap.cell, Heap.wipe, hx]

theorem dropped_cell {A : List NodeId} (hx : x ∉ A) : (h.dropped t A).cell x = h.cell x := by
  simp [Heap.cell, Heap.dropped, Heap.setRoot, Heap.setGrants, Heap.wipe, hx]

theorem dropped_tcell {A : List NodeId} (hu : u ≠ t) : (h.dropped t A).tcell u = h.tcell u := by
  simp [Heap.tcell, Heap.dropped, Heap.setRoot, Heap.setGrants, Heap.wipe, hu]

theorem dropped_dead {A : List NodeId} (hx : x ∈ A) : (h.dropped t A).alive x = false := by
  simp [Heap.alive, Heap.dropped, Heap.setRoot, Heap.setGrants, Heap.wipe, hx]

theorem dropped_deadT {A : List NodeId} : (h.dropped t A).treeAlive t = false := by
  simp [Heap.treeAlive, Heap.dropped, Heap.setRoot, Heap.setGrants]

/-- What is known when the last strong reference to tree `t` has just gone. -/
structure Dying (H0 c : Heap α) (b b1 : World α) (ch : NodeId → List NodeId) (t : TreeId) (R : List NodeId)
    (V : NodeId → Prop) (TV : TreeId → Prop) : Prop where
  ctx : Ctx V TV H0 c
  shape : FShape c ch
  tree : TreeWF c
  live : c.treeAlive t = true
  nodes : ∀ x, x ∈ R ↔ c.alive x = true ∧ c.memTree x = some t
  nodup : R.Nodup
  noStrong : ∀ x rc l, c.mem x ≠ .strong t rc l
  strongAlive : ∀ x u rc l, c.mem x = .strong u rc l → c.alive x = true
  heap : b1.heap = c.dropped t R
  alive : ∀ x, c.alive x = b.heap.alive x
  treeAlive : ∀ u, c.treeAlive u = b.heap.treeAlive u
  dead : ∀ x, b.heap.alive x = false → c.cell x = b.heap.cell x
  deadT : ∀ u, b.heap.treeAlive u = false → c.tcell u = b.heap.tcell u
  nNode : c.nNode = b.heap.nNode
  nTree : c.nTree = b.heap.nTree

theorem Dying.sub {A : List NodeId} (D : Dying H1 c b b1 ch t A V TV) (hx : x ∈ A) (hy : c.memTree y = c.memTree x)
    (ha : c.alive y = true) : y ∈ A := by
  rw [D.nodes] at hx ⊢
  exact ⟨ha, hy.trans hx.2⟩

theorem Dying.fade {A : List NodeId} (D : Dying H1 c b b1 ch t A V TV) : Fade b.heap b1.heap := by
  refine ⟨?_, ?_, ?_, ?_⟩
  · intro x hx
    have : x ∉ A := fun h => by
      have := ((D.nodes x).1 h).1
      rw [D.alive, hx] at this; cases this
    rw [D.heap, dropped_cell this, D.dead x hx]
  · intro u hu
    have : u ≠ t := fun h => by
      have := D.live
      rw [D.treeAlive, ← h, hu] at this; cases this
    rw [D.heap, dropped_tcell this, D.deadT u hu]
  · rw [D.heap]; exact D.nNode
  · rw [D.heap]; exact D.nTree

theorem Dying.start {A : List NodeId} (D : Dying H1 c b b1 ch t A V TV) (hb : ReachW b) (hr : Room b1.heap)
    (hs : b.StepW a.op b1 .unit) (hS : OwnsAll own b (a :: rest))
    (hc : ∀ a', b.count a' ≤ b1.count a' + (if a = a' then 1 else 0)) (hf : Few (N + 1) b.heap) :
    QI own V (· ∈ A) TV t H1 rest N H1 c b1 := by
  have C := D.ctx
  have hcl : ∀ x y, x ∈ A → (c.firstChild x = some y ∨ c.next x = some y ∨ c.parent x = some y) → y ∈ A := by
    intro x y hx h
    have ha := ((D.nodes x).1 hx).1
    rcases h with h | h | h
    · rw [D.shape.first x ha] at h
      have hm := List.mem_of_head? h
      exact D.sub hx (D.tree.child y x (D.shape.alive_of_mem hm) (D.shape.parent_of_mem hm))
        (D.shape.alive_of_mem hm)
    · obtain ⟨p, h1, h2⟩ := D.shape.dropShape.nextRef x y ha h
      refine D.sub hx ?_ (D.shape.alive_of_mem h2)
      rw [D.tree.child y p (D.shape.alive_of_mem h2) (D.shape.parent_of_mem h2),
        D.tree.child x p ha (D.shape.parent_of_mem h1)]
    · have hm := (D.shape.mem y x).2 ⟨ha, h⟩
      exact D.sub hx (D.tree.child x y ha h).symm (D.shape.alive_parent hm)
  have haway : ∀ m y, m ∉ A → c.alive m = true → (c.firstChild m = some y ∨ c.next m = some y) → y ∉ A := by
    intro m y hm ha h hy
    apply hm
    rcases h with h | h
    · rw [D.shape.first m ha] at h
      have hx := List.mem_of_head? h
      exact D.sub hy (D.tree.child y m (D.shape.alive_of_mem hx) (D.shape.parent_of_mem hx)).symm ha
    · obtain ⟨p, h1, h2⟩ := D.shape.dropShape.nextRef m y ha h
      refine D.sub hy ?_ ha
      rw [D.tree.child y p (D.shape.alive_of_mem h2) (D.shape.parent_of_mem h2),
        D.tree.child m p ha (D.shape.parent_of_mem h1)]
  have hVA : ∀ x, V x → x ∉ A := by
    intro x hv hx
    have := ((D.nodes x).1 hx).1
    rw [C.dead x hv] at this; cases this
  have hTV : ¬ TV t := fun h => by
    have := D.live
    rw [C.deadT t h] at this; cases this
  have hsame : ∀ x, x ∈ A → H1.cell x = c.cell x := fun x hx => C.out x (fun hv => hVA x hv hx)
  have hsameT : H1.tcell t = c.tcell t := C.outT t hTV
  have hinR : ∀ y, c.root t = some y → y ∈ A := by
    intro y hy
    obtain ⟨h1, h2, -⟩ := D.tree.root t y hy
    exact (D.nodes y).2 ⟨h1, h2⟩
  have hweak : ∀ x u rc l, x ∈ A → c.mem x ≠ .strong u rc l := by
    intro x u rc l hx hm
    have := ((D.nodes x).1 hx).2
    simp only [Heap.memTree, hm, Option.some.injEq] at this
    subst this
    exact D.noStrong x rc l hm
  have F := D.fade
  have hdead1 : ∀ x, x ∈ A → b.heap.alive x = true ∧ b1.heap.alive x = false := by
    intro x hx
    exact ⟨by rw [← D.alive]; exact ((D.nodes x).1 hx).1, by rw [D.heap]; exact dropped_dead hx⟩
  refine { ctx := ?_, same := hsame, sameT := hsameT, nNode := C.nNode, nTree := C.nTree,
           awayF := fun m y h1 h2 h3 => haway m y h1 h2 (.inl h3),
           awayN := fun m y h1 h2 h3 => haway m y h1 h2 (.inr h3), awayR := ?_,
           inF := fun m y h1 h2 => hcl m y h1 (.inl h2), inN := fun m y h1 h2 => hcl m y h1 (.inr (.inl h2)),
           inP := fun m y h1 h2 => hcl m y h1 (.inr (.inr h2)), inR := hinR,
           keep := fun _ _ => rfl, keepT := fun _ _ => rfl, reach := .step hb hs, room := hr,
           stored := ⟨A, D.nodup, fun x => ⟨fun hx => ⟨hx, ((D.nodes x).1 hx).1⟩, fun hx => hx.1⟩,
             hS.next hc D.nodup hdead1 fun x hx => F.alive hx⟩, few := ?_ }
  · refine { nNode := by rw [C.nNode, D.heap]; rfl, nTree := by rw [C.nTree, D.heap]; rfl, out := ?_, outT := ?_,
             dead := ?_, deadT := ?_, weak := ?_, first := ?_, next := ?_, parent := ?_, root := ?_ }
    · intro x hx
      have h1 : ¬ V x := fun h => hx (.inl h)
      have h2 : x ∉ A := fun h => hx (.inr h)
      rw [D.heap, dropped_cell h2, C.out x h1]
    · intro u hu
      have h1 : ¬ TV u := fun h => hu (.inl h)
      have h2 : u ≠ t := fun h => hu (.inr h)
      rw [D.heap, dropped_tcell h2, C.outT u h1]
    · rintro x (hx | hx)
      · exact F.dead (by rw [← D.alive]; exact C.dead x hx)
      · exact (hdead1 x hx).2
    · rintro u (hu | rfl)
      · exact F.deadT (by rw [← D.treeAlive]; exact C.deadT u hu)
      · rw [D.heap]; exact dropped_deadT
    · rintro x u rc l (hx | hx)
      · exact C.weak x u rc l hx
      · rw [cell_mem (hsame x hx)]; exact hweak x u rc l hx
    · rintro x y (hx | hx) e
      · exact .inl (C.first x y hx e)
      · rw [cell_first (hsame x hx)] at e; exact .inr (hcl x y hx (.inl e))
    · rintro x y (hx | hx) e
      · exact .inl (C.next x y hx e)
      · rw [cell_next (hsame x hx)] at e; exact .inr (hcl x y hx (.inr (.inl e)))
    · rintro x y (hx | hx) e
      · exact .inl (C.parent x y hx e)
      · rw [cell_parent (hsame x hx)] at e; exact .inr (hcl x y hx (.inr (.inr e)))
    · rintro u y (hu | rfl) e
      · exact .inl (C.root u y hu e)
      · rw [tcell_root hsameT] at e; exact .inr (hinR y e)
  · intro u y hu e hy
    obtain ⟨h1, h2, -⟩ := D.tree.root u y e
    rw [((D.nodes y).1 hy).2] at h2
    exact hu (by simpa using h2.symm)
  · intro L hd hl
    obtain ⟨z, hz⟩ := Option.isSome_iff_exists.1 D.live
    have hzA := hinR z hz
    have := hf (z :: L) (by
      rw [List.nodup_cons]
      refine ⟨fun hz' => ?_, hd⟩
      have := (hdead1 z hzA).2
      rw [hl z hz'] at this; cases this) (by
      intro x hx
      rcases List.mem_cons.1 hx with rfl | hx
      · exact (hdead1 x hzA).1
      · exact F.alive (hl x hx))
    simp only [List.length_cons] at this
    omega

theorem Dying.finish {A : List NodeId} (D : Dying H1 c b b1 ch t A V TV) (hs : b.StepW a.op b1 .unit)
    (hV : ∀ x, V x → H1.cell x = H.cell x) (hT : ∀ t, TV t → H1.tcell t = H.tcell t)
    (Q : QI own V (· ∈ A) TV t H1 rest N H' b1.heap r') (T : Tr own (· ∈ A) c b1.heap b1 r') :
    Ran own [a] rest V TV H b H' r' := by
  have C := D.ctx
  have F := D.fade
  have Z := Q.ctx
  have hdead1 : ∀ x, x ∈ A → b1.heap.alive x = false := by
    intro x hx; rw [D.heap]; exact dropped_dead hx
  refine { ctx := ?_, node := fun x hx => (Q.keep x hx).trans (hV x hx),
           tree := fun u hu => (Q.keepT u hu).trans (hT u hu), drops := ?_, stored := ?_, room := Q.room,
           fade := F.trans T.fade }
  · refine { nNode := Z.nNode, nTree := Z.nTree, out := ?_, outT := ?_, dead := fun x hx => Z.dead x (.inl hx),
             deadT := fun u hu => Z.deadT u (.inl hu), weak := fun x u rc l hx => Z.weak x u rc l (.inl hx),
             first := ?_, next := ?_, parent := ?_, root := ?_ }
    · intro x hx
      by_cases h2 : x ∈ A
      · rw [Q.same x h2, T.fade.node x (hdead1 x h2)]
      · exact Z.out x (fun h => h.elim hx h2)
    · intro u hu
      by_cases h2 : u = t
      · subst h2
        rw [Q.sameT, T.fade.tree u (by rw [D.heap]; exact dropped_deadT)]
      · exact Z.outT u (fun h => h.elim hu h2)
    · intro x y hx e
      rw [cell_first (Q.keep x hx)] at e; exact C.first x y hx e
    · intro x y hx e
      rw [cell_next (Q.keep x hx)] at e; exact C.next x y hx e
    · intro x y hx e
      rw [cell_parent (Q.keep x hx)] at e; exact C.parent x y hx e
    · intro u y hu e
      rw [tcell_root (Q.keepT u hu)] at e; exact C.root u y hu e
  · obtain ⟨ms, h1, h2, h3⟩ := T.drops
    refine .cons hs h1 (fun x => ?_) (by rw [List.append_nil]; exact h3)
    rw [h2, D.alive]
    constructor
    · rintro ⟨-, h⟩; exact h
    · rintro ⟨h4, h5⟩
      refine ⟨?_, h4, h5⟩
      refine Classical.byContradiction fun hx => ?_
      rw [D.heap, cell_alive (dropped_cell hx), D.alive, h4] at h5; cases h5
  · obtain ⟨L, h1, h2, h3⟩ := Q.stored
    have : L = [] := by
      cases L with
      | nil => rfl
      | cons z L =>
        have := (h2 z).1 (by simp)
        rw [hdead1 z this.1] at this; cases this.2
    subst this
    simpa using h3

end Dendron
