import Verif.Proofs.Memb
import Verif.Proofs.Interrupt

/-! Consistency after a tree has been destroyed. -/

set_option linter.unusedSimpArgs false
set_option linter.unusedVariables false

set_option autoImplicit false

namespace Dendron
open RTree
variable {α : Type} {h h' : Heap α} {ch : NodeId → List NodeId} {n p r : NodeId} {t t' : TreeId}
  {T R : RTree NodeId} {A : List NodeId}

/-- `A` is a union of whole connected parts of the hierarchy. -/
def Closed (ch : NodeId → List NodeId) (A : List NodeId) : Prop :=
  ∀ p c, c ∈ ch p → (c ∈ A ↔ p ∈ A)

/-- `TreeWF`, except that the nodes satisfying `E` may lack a parent without being a root. -/
structure TreeWFe (h : Heap α) (E : NodeId → Prop) : Prop where
  live : ∀ n, h.alive n = true → ∃ t, h.memTree n = some t ∧ h.treeAlive t = true
  root : ∀ t r, h.root t = some r → h.alive r = true ∧ h.memTree r = some t ∧ h.parent r = none
  child : ∀ c p, h.alive c = true → h.parent c = some p → h.memTree c = h.memTree p
  top : ∀ n t, ¬ E n → h.alive n = true → h.parent n = none → h.memTree n = some t →
    h.root t = some n
  bound : ∀ t, h.treeAlive t = true → t < h.nTree

theorem TreeWF.toE (W : TreeWF h) (E : NodeId → Prop) : TreeWFe h E :=
  ⟨W.live, W.root, W.child, fun n t _ => W.top n t, W.bound⟩

theorem TreeWFe.toTreeWF {E : NodeId → Prop} (W : TreeWFe h E) (hE : ∀ x, ¬ E x) : TreeWF h :=
  ⟨W.live, W.root, W.child, fun n t => W.top n t (hE n), W.bound⟩

/-- The members of a tree are the descendants of its root. -/
theorem TreeWFe.mem_iff {E : NodeId → Prop} (W : TreeWFe h E) (S : FShape h ch)
    (hr : h.root t = some r) (hE : ∀ x, E x → h.memTree x ≠ some t) {x : NodeId}
    (hx : h.alive x = true) : Desc ch r x ↔ h.memTree x = some t := by
  constructor
  · intro hd
    induction hd with
    | refl => exact (W.root t r hr).2.1
    | @step m d hm hc ih =>
      rw [W.child d m (S.alive_of_mem hc) (S.parent_of_mem hc)]
      exact ih (S.alive_parent hc)
  · obtain ⟨l, hl⟩ := S.exists_anc hx
    intro hm
    induction hl with
    | @root n hn =>
      have hp : h.parent n = none := by
        cases hp : h.parent n with
        | none => rfl
        | some q => exact absurd (S.mem_of_parent hx hp) (hn q)
      have := W.top n t (fun e => hE n e hm) hx hp hm
      rw [hr] at this
      obtain rfl : r = n := by simpa using this
      exact .refl _
    | @step n q l hq _ ih =>
      refine .step (ih (S.alive_parent hq) ?_) hq
      rw [← W.child n q hx (S.parent_of_mem hq)]; exact hm

theorem dropped_alive {x : NodeId} :
    (h.dropped t A).alive x = if x ∈ A then false else h.alive x := by
  have : (h.dropped t A).alive x = (h.wipe A []).alive x := rfl
  rw [this, Heap.wipe_alive]; simp

theorem dropped_parent {x : NodeId} :
    (h.dropped t A).parent x = if x ∈ A then none else h.parent x := by
  simp [Heap.dropped, Heap.wipe, Heap.setRoot, Heap.setGrants]

theorem dropped_first {x : NodeId} :
    (h.dropped t A).firstChild x = if x ∈ A then none else h.firstChild x := by
  simp [Heap.dropped, Heap.wipe, Heap.setRoot, Heap.setGrants]

theorem dropped_next {x : NodeId} :
    (h.dropped t A).next x = if x ∈ A then none else h.next x := by
  simp [Heap.dropped, Heap.wipe, Heap.setRoot, Heap.setGrants]

theorem dropped_prev {x : NodeId} :
    (h.dropped t A).prevCyc x = if x ∈ A then none else h.prevCyc x := by
  simp [Heap.dropped, Heap.wipe, Heap.setRoot, Heap.setGrants]

theorem dropped_num {x : NodeId} :
    (h.dropped t A).numCh x = if x ∈ A then 0 else h.numCh x := by
  simp [Heap.dropped, Heap.wipe, Heap.setRoot, Heap.setGrants]

theorem dropped_mem {x : NodeId} :
    (h.dropped t A).mem x = if x ∈ A then .weak none else h.mem x := by
  simp [Heap.dropped, Heap.wipe, Heap.setRoot, Heap.setGrants]

theorem dropped_memTree {x : NodeId} :
    (h.dropped t A).memTree x = if x ∈ A then none else h.memTree x := by
  simp only [Heap.memTree, dropped_mem]
  by_cases e : x ∈ A <;> simp [e]

theorem dropped_root : (h.dropped t A).root = upd h.root t none := rfl

/-- The child lists after the nodes of `A` have gone. -/
def without (ch : NodeId → List NodeId) (A : List NodeId) : NodeId → List NodeId :=
  fun x => if x ∈ A then [] else ch x

theorem mem_without (hA : Closed ch A) {q c : NodeId} (hc : c ∈ without ch A q) :
    c ∈ ch q ∧ q ∉ A ∧ c ∉ A := by
  unfold without at hc
  split at hc
  · simp at hc
  · next hq => exact ⟨hc, hq, fun e => hq ((hA q c hc).1 e)⟩

theorem FShape.dropped (S : FShape h ch) (hA : Closed ch A) (t : TreeId) :
    FShape (h.dropped t A) (without ch A) := by
  constructor
  · intro q hq
    rw [dropped_alive] at hq
    unfold without
    split
    · rfl
    · next e => rw [if_neg e] at hq; exact S.dead q hq
  · intro q hq
    rw [dropped_alive] at hq
    rw [dropped_first]
    unfold without
    by_cases e : q ∈ A
    · simp [e]
    · simp only [e, if_false] at hq ⊢; exact S.first q hq
  · intro q; unfold without; split
    · simp
    · exact S.nodup q
  · intro q c
    rw [dropped_alive, dropped_parent]
    constructor
    · intro hc
      obtain ⟨h1, h2, h3⟩ := mem_without hA hc
      simp only [h3, if_false]
      exact (S.mem q c).1 h1
    · intro hc
      by_cases e : c ∈ A
      · simp [e] at hc
      · simp only [e, if_false] at hc
        have := (S.mem q c).2 hc
        unfold without
        rw [if_neg (fun hq => e ((hA q c this).2 hq))]
        exact this
  · intro q
    unfold without
    split
    · simp [Seg]
    · next hq =>
      refine (Seg.congr ?_).1 (S.seg q)
      intro x hx
      rw [dropped_next, if_neg (fun e => hq ((hA q x hx).1 e))]
  · intro c hc hp
    rw [dropped_alive] at hc
    rw [dropped_parent] at hp
    rw [dropped_next]
    by_cases e : c ∈ A
    · simp [e]
    · simp only [e, if_false] at hc hp ⊢; exact S.rootNext c hc hp
  · exact acyc_sub S.acyc (fun q c hc => (mem_without hA hc).1)
  · intro x hx
    rw [dropped_alive] at hx
    by_cases e : x ∈ A
    · simp [e] at hx
    · simp only [e, if_false] at hx; exact S.bound x hx

theorem NumOK.dropped (S : NumOK h ch) (t : TreeId) : NumOK (h.dropped t A) (without ch A) := by
  intro q hq
  rw [dropped_alive] at hq
  rw [dropped_num]
  unfold without
  by_cases e : q ∈ A
  · simp [e]
  · simp only [e, if_false] at hq ⊢; exact S q hq

theorem BackOK.dropped (S : BackOK h ch) (hA : Closed ch A) (t : TreeId) :
    BackOK (h.dropped t A) (without ch A) := by
  constructor
  · intro q
    unfold without
    split
    · simp [PSeg]
    · next hq =>
      refine (PSeg.congr ?_).1 (S.pseg q)
      intro x hx
      rw [dropped_prev, if_neg (fun e => hq ((hA q x hx).1 e))]
  · intro c hc hp
    rw [dropped_alive] at hc
    rw [dropped_parent] at hp
    rw [dropped_prev]
    by_cases e : c ∈ A
    · simp [e] at hc
    · simp only [e, if_false] at hc hp ⊢; exact S.rootPrev c hc hp

/-- Memberships after a tree has been destroyed with all its nodes. -/
theorem TreeWFe.dropped {E : NodeId → Prop} (W : TreeWFe h E) (S : FShape h ch)
    (hA : ∀ x, h.alive x = true → (x ∈ A ↔ h.memTree x = some t)) :
    TreeWFe (h.dropped t A) E := by
  have hta : ∀ u, (h.dropped t A).treeAlive u = if u = t then false else h.treeAlive u := by
    intro u; simp only [Heap.treeAlive, dropped_root, upd_apply]; split <;> rfl
  have hal : ∀ x, (h.dropped t A).alive x = true → x ∉ A ∧ h.alive x = true := by
    intro x hx
    rw [dropped_alive] at hx
    by_cases e : x ∈ A
    · simp [e] at hx
    · simpa [e] using hx
  constructor
  · intro x hx
    obtain ⟨hxA, hxa⟩ := hal x hx
    obtain ⟨u, h1, h2⟩ := W.live x hxa
    refine ⟨u, by rw [dropped_memTree, if_neg hxA]; exact h1, ?_⟩
    rw [hta, if_neg ?_]
    · exact h2
    · intro e; exact hxA ((hA x hxa).2 (e ▸ h1))
  · intro u r hr
    rw [dropped_root, upd_apply] at hr
    by_cases e : u = t
    · simp [e] at hr
    · simp only [e, if_false] at hr
      obtain ⟨h1, h2, h3⟩ := W.root u r hr
      have : r ∉ A := by
        intro hrA
        rw [(hA r h1).1 hrA] at h2
        exact e (by simpa using h2.symm)
      rw [dropped_alive, dropped_memTree, dropped_parent]
      simp [this, h1, h2, h3]
  · intro c q hc hq
    obtain ⟨hcA, hc⟩ := hal c hc
    rw [dropped_parent, if_neg hcA] at hq
    have hqa := S.alive_parent (S.mem_of_parent hc hq)
    have hm := W.child c q hc hq
    have hqA : q ∉ A := by
      intro e
      exact hcA ((hA c hc).2 (by rw [hm]; exact (hA q hqa).1 e))
    rw [dropped_memTree, dropped_memTree, if_neg hcA, if_neg hqA]
    exact hm
  · intro x u hE hx hp hm
    obtain ⟨hxA, hxa⟩ := hal x hx
    rw [dropped_parent, if_neg hxA] at hp
    rw [dropped_memTree, if_neg hxA] at hm
    rw [dropped_root, upd_apply, if_neg ?_]
    · exact W.top x u hE hxa hp hm
    · intro e; exact hxA ((hA x hxa).2 (e ▸ hm))
  · intro u hu
    rw [hta] at hu
    by_cases e : u = t
    · simp [e] at hu
    · simp only [e, if_false] at hu; exact W.bound u hu

/-- Reference counts are sane; only the tree `t` may be without owner. -/
structure RefWFe (h : Heap α) (t : TreeId) : Prop where
  alive : ∀ n t rc l, h.mem n = .strong t rc l → h.alive n = true
  pos : ∀ n t rc l, h.mem n = .strong t rc l → 0 < rc ∧ l ≤ rc
  held : ∀ u, u ≠ t → h.treeAlive u = true → 0 < h.treeRc u ∨ ∃ n rc l, h.mem n = .strong u rc l

theorem RefWF.toE (R : RefWF h) (t : TreeId) : RefWFe h t := ⟨R.alive, R.pos, fun u _ => R.held u⟩

theorem RefWFe.dropped (W : RefWFe h t) (T : ∀ x ∈ A, ∀ u rc l, h.mem x ≠ .strong u rc l) :
    RefWF (h.dropped t A) := by
  have hm : ∀ x u rc l, (h.dropped t A).mem x = .strong u rc l → x ∉ A ∧ h.mem x = .strong u rc l := by
    intro x u rc l hx
    rw [dropped_mem] at hx
    by_cases e : x ∈ A
    · simp [e] at hx
    · simpa [e] using hx
  constructor
  · intro x u rc l hx
    obtain ⟨h1, h2⟩ := hm x u rc l hx
    rw [dropped_alive, if_neg h1]; exact W.alive _ _ _ _ h2
  · intro x u rc l hx; exact W.pos _ _ _ _ (hm x u rc l hx).2
  · intro u hu
    simp only [Heap.treeAlive, dropped_root, upd_apply] at hu
    by_cases e : u = t
    · simp [e] at hu
    · simp only [e, if_false] at hu
      rcases W.held u e hu with h1 | ⟨x, rc, l, hx⟩
      · exact .inl h1
      · refine .inr ⟨x, rc, l, ?_⟩
        rw [dropped_mem, if_neg (fun hxA => T x hxA _ _ _ hx)]; exact hx

theorem RefWFe.settled (W : RefWFe h t) (hh : h.treeAlive t = true → Held h t) : RefWF h := by
  refine ⟨W.alive, W.pos, fun u hu => ?_⟩
  by_cases e : u = t
  · subst e
    rcases hh hu with h1 | ⟨x, rc, l, hx, _⟩
    · exact .inl h1
    · exact .inr ⟨x, rc, l, hx⟩
  · exact W.held u e hu

/-- The child lists after `settle`. -/
def settledCh (h : Heap α) (t : TreeId) (A : List NodeId) (ch : NodeId → List NodeId) :
    NodeId → List NodeId :=
  if h.treeAlive t && h.treeRc t == 0 && !h.hasStrongMember t then without ch A else ch

/-- What a (possibly incomplete) consistency of the memory means after `settle`. -/
theorem settle_wf {E : NodeId → Prop} (S : FShape h ch) (W : TreeWFe h E) (Q : RefWFe h t)
    (hr : h.root t = some r) (hR : SubtreeAt ch r R) (hE : ∀ x, E x → h.memTree x ≠ some t) :
    FShape (h.settle t R.nodes) (settledCh h t R.nodes ch) ∧
    (NumOK h ch → NumOK (h.settle t R.nodes) (settledCh h t R.nodes ch)) ∧
    (BackOK h ch → BackOK (h.settle t R.nodes) (settledCh h t R.nodes ch)) ∧
    TreeWFe (h.settle t R.nodes) E ∧ RefWF (h.settle t R.nodes) := by
  have hra := (W.root t r hr).1
  have hA : ∀ x, h.alive x = true → (x ∈ R.nodes ↔ h.memTree x = some t) := by
    intro x hx
    rw [hR.mem_nodes_iff, W.mem_iff S hr hE hx]
  have hcl : Closed ch R.nodes := by
    intro q c hc
    rw [hA c (S.alive_of_mem hc), hA q (S.alive_parent hc),
      W.child c q (S.alive_of_mem hc) (S.parent_of_mem hc)]
  unfold Heap.settle settledCh
  split
  · next hc =>
    simp only [Bool.and_eq_true, beq_iff_eq, Bool.not_eq_true'] at hc
    refine ⟨S.dropped hcl t, fun N => N.dropped t, fun B => B.dropped hcl t, W.dropped S hA,
      Q.dropped ?_⟩
    intro x hx u rc l hm
    have hxa := Q.alive _ _ _ _ hm
    have := (hA x hxa).1 hx
    simp only [Heap.memTree, hm, Option.some.injEq] at this
    subst this
    have := hasStrongMember_iff.2 ⟨x, S.bound x hxa, rc, l, hm⟩
    rw [hc.2] at this; simp at this
  · next hc =>
    refine ⟨S, id, id, W, Q.settled ?_⟩
    intro hta
    simp only [Bool.and_eq_true, beq_iff_eq, Bool.not_eq_true', not_and, hta, true_implies] at hc
    by_cases e : h.treeRc t = 0
    · have := hc ⟨trivial, e⟩
      obtain ⟨x, hx, rc, l, hm⟩ := hasStrongMember_iff.1 (by simpa using this)
      exact .inr ⟨x, rc, l, hm, hx⟩
    · exact .inl (by omega)

end Dendron
