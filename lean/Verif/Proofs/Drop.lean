import Verif.Proofs.Own
import Verif.Proofs.Rose

/-! Destruction of trees: the loop of `Drop for TreeCore`. -/

set_option linter.unusedSimpArgs false
set_option linter.unusedVariables false

set_option autoImplicit false

namespace Dendron
open RTree
variable {α : Type} {h h' : Heap α} {ch : NodeId → List NodeId} {n p : NodeId} {t : TreeId}

/-- The part of the forward structure that survives while a tree is being dismantled: nodes still
held by a local variable stay behind, outside of all child lists. -/
structure DropShape (h : Heap α) (ch : NodeId → List NodeId) : Prop where
  first : ∀ p, h.alive p = true → h.firstChild p = (ch p).head?
  nodup : ∀ p, (ch p).Nodup
  mem : ∀ p c, c ∈ ch p → h.alive p = true ∧ h.alive c = true ∧ h.parent c = some p
  seg : ∀ p, Seg h.next (ch p) none
  nextRef : ∀ c d, h.alive c = true → h.next c = some d → ∃ p, c ∈ ch p ∧ d ∈ ch p
  bound : ∀ n, h.alive n = true → n < h.nNode

theorem FShape.dropShape (S : FShape h ch) : DropShape h ch where
  first := S.first
  nodup := S.nodup
  mem p c hm := ⟨S.alive_parent hm, S.alive_of_mem hm, S.parent_of_mem hm⟩
  seg := S.seg
  nextRef c d ha hd := by
    cases hp : h.parent c with
    | none => rw [S.rootNext c ha hp] at hd; simp at hd
    | some p =>
      have hm := S.mem_of_parent ha hp
      obtain ⟨l1, l2, hs⟩ := exists_split hm
      rw [S.next_at hs] at hd
      exact ⟨p, hm, by rw [hs]; simp [List.mem_of_mem_head? hd]⟩
  bound := S.bound

theorem DropShape.unique (S : DropShape h ch) {p q c : NodeId} (h1 : c ∈ ch p) (h2 : c ∈ ch q) :
    p = q := by
  have := (S.mem p c h1).2.2
  rw [(S.mem q c h2).2.2] at this
  simpa using this.symm

/-- All nodes of `A` are gone, except that those in `pins` only have lost their links. -/
def Heap.wipe (h : Heap α) (A pins : List NodeId) : Heap α :=
  { h with
    data := fun x => if x ∈ A ∧ x ∉ pins then none else h.data x
    mutB := fun x => if x ∈ A ∧ x ∉ pins then false else h.mutB x
    parent := fun x => if x ∈ A ∧ x ∉ pins then none else h.parent x
    firstChild := fun x => if x ∈ A then none else h.firstChild x
    next := fun x => if x ∈ A then none else h.next x
    prevCyc := fun x => if x ∈ A ∧ x ∉ pins then none else h.prevCyc x
    numCh := fun x => if x ∈ A ∧ x ∉ pins then 0 else h.numCh x
    mem := fun x => if x ∈ A ∧ x ∉ pins then .weak none else h.mem x }

theorem Heap.wipe_nil (h : Heap α) (pins : List NodeId) : h.wipe [] pins = h := by
  simp [Heap.wipe]

theorem Heap.wipe_alive {A pins : List NodeId} {x : NodeId} :
    (h.wipe A pins).alive x = if x ∈ A ∧ x ∉ pins then false else h.alive x := by
  simp only [Heap.alive, Heap.wipe]
  split <;> rfl

/-- Removing the first children `a` of `p` together with their subtrees `A`. -/
theorem DropShape.wipe (S : DropShape h ch) {A pins a rest : List NodeId}
    (hp : p ∉ A) (hs : ch p = a ++ rest) (ha : ∀ x ∈ a, x ∈ A) (hr : ∀ x ∈ rest, x ∉ A)
    (hcl : ∀ x ∈ A, ∀ c ∈ ch x, c ∈ A) (hout : ∀ q, q ∉ A → q ≠ p → ∀ c ∈ ch q, c ∉ A)  :
    DropShape ((h.wipe A pins).setFirst p rest.head?)
      (fun x => if x ∈ A then [] else upd ch p rest x) := by
  have hnd := S.nodup p
  rw [hs, List.nodup_append] at hnd
  have hal : ∀ x, ((h.wipe A pins).setFirst p rest.head?).alive x
      = if x ∈ A ∧ x ∉ pins then false else h.alive x := fun x => Heap.wipe_alive
  have hmem : ∀ q c, q ∉ A → c ∈ upd ch p rest q → c ∉ A ∧ c ∈ ch q := by
    intro q c hq hc
    by_cases e : q = p
    · subst e; rw [upd_same] at hc; exact ⟨hr c hc, by rw [hs]; simp [hc]⟩
    · rw [upd_ne _ _ e] at hc; exact ⟨hout q hq e c hc, hc⟩
  constructor
  · intro q hq
    rw [hal] at hq
    simp only [Heap.setFirst, Heap.wipe, upd_apply]
    by_cases e : q = p
    · subst e; simp [hp]
    · by_cases e2 : q ∈ A
      · simp [e, e2]
      · simp only [e, e2, false_and, if_false] at hq ⊢
        exact S.first q hq
  · intro q
    by_cases e2 : q ∈ A
    · simp [e2]
    · by_cases e : q = p
      · subst e; simp [e2, hnd.2.1]
      · simp [e, e2, S.nodup q]
  · intro q c hc
    by_cases e2 : q ∈ A
    · simp [e2] at hc
    · simp only [e2, if_false] at hc
      obtain ⟨h1, h2⟩ := hmem q c e2 hc
      obtain ⟨h3, h4, h5⟩ := S.mem q c h2
      rw [hal, hal]
      simp [e2, h1, h3, h4, h5, Heap.setFirst, Heap.wipe]
  · intro q
    by_cases e2 : q ∈ A
    · simp [e2, Seg]
    · simp only [e2, if_false]
      have key : ∀ c ∈ upd ch p rest q, h.next c = ((h.wipe A pins).setFirst p rest.head?).next c := by
        intro c hc
        have := (hmem q c e2 hc).1
        simp [Heap.setFirst, Heap.wipe, this]
      refine (Seg.congr key).1 ?_
      by_cases e : q = p
      · subst e; rw [upd_same]
        have := S.seg q
        rw [hs, Seg.append] at this; exact this.2
      · rw [upd_ne _ _ e]; exact S.seg q
  · intro c d hc hd
    rw [hal] at hc
    simp only [Heap.setFirst, Heap.wipe] at hd
    by_cases e : c ∈ A
    · simp [e] at hd
    · simp only [e, if_false, false_and] at hd hc
      obtain ⟨q, h1, h2⟩ := S.nextRef c d hc hd
      have hqA : q ∉ A := fun hq => e (hcl q hq c h1)
      refine ⟨q, ?_⟩
      simp only [hqA, if_false]
      by_cases eq : q = p
      · subst eq
        rw [upd_same]
        have hcr : c ∈ rest := by
          rw [hs, List.mem_append] at h1
          rcases h1 with h1 | h1
          · exact absurd (ha c h1) e
          · exact h1
        obtain ⟨m1, m2, hm⟩ := exists_split hcr
        have hsg := S.seg q
        rw [hs, hm, ← List.append_assoc] at hsg
        have := hsg.at
        rw [hd] at this
        refine ⟨hcr, ?_⟩
        rw [hm]
        simp only [Option.or_none] at this
        simp [List.mem_of_mem_head? this.symm]
      · rw [upd_ne _ _ eq]; exact ⟨h1, h2⟩
  · intro x hx
    rw [hal] at hx
    split at hx
    · cases hx
    · exact S.bound x hx

/-- Something in memory refers to the node: a tree core, its parent or its previous sibling. -/
def Kept (h : Heap α) (ch : NodeId → List NodeId) (p : NodeId) : Prop :=
  (∃ t, t < h.nTree ∧ h.root t = some p) ∨ ∃ q, p ∈ ch q

theorem Kept.referenced (S : DropShape h ch) (K : Kept h ch p) : h.referenced p = true := by
  rcases K with K | ⟨q, hq⟩
  · exact referenced_iff.2 (.inr (.inl K))
  · obtain ⟨l1, l2, hs⟩ := exists_split hq
    rcases List.eq_nil_or_concat l1 with rfl | ⟨l, x, rfl⟩
    · have hqa := (S.mem q p hq).1
      refine referenced_iff.2 (.inr (.inr ⟨q, S.bound q hqa, hqa, .inl ?_⟩))
      rw [S.first q hqa, hs]; rfl
    · have hx : x ∈ ch q := by rw [hs]; simp
      have hxa := (S.mem q x hx).2.1
      refine referenced_iff.2 (.inr (.inr ⟨x, S.bound x hxa, hxa, .inr ?_⟩))
      have := S.seg q
      rw [hs, List.concat_eq_append, List.append_assoc] at this
      simpa using this.at

theorem Kept.wipe {A pins a rest : List NodeId} {x : NodeId} {v : Option NodeId}
    (K : Kept h ch x) (hs : ch p = a ++ rest) (ha : ∀ y ∈ a, y ∈ A) (hx : x ∉ A)
    (hcl : ∀ y ∈ A, ∀ c ∈ ch y, c ∈ A) :
    Kept ((h.wipe A pins).setFirst p v) (fun y => if y ∈ A then [] else upd ch p rest y) x := by
  rcases K with K | ⟨q, hq⟩
  · exact .inl K
  · refine .inr ⟨q, ?_⟩
    have hqA : q ∉ A := fun h1 => hx (hcl q h1 x hq)
    simp only [hqA, if_false]
    by_cases e : q = p
    · subst e
      rw [upd_same]
      rw [hs, List.mem_append] at hq
      rcases hq with hq | hq
      · exact absurd (ha x hq) hx
      · exact hq
    · rw [upd_ne _ _ e]; exact hq

theorem wipe_append {A B pins : List NodeId} {a b : Option NodeId} (hA : p ∉ A) (hB : p ∉ B) :
    (((h.wipe A pins).setFirst p a).wipe B pins).setFirst p b
      = (h.wipe (A ++ B) pins).setFirst p b := by
  simp only [Heap.wipe, Heap.setFirst, List.mem_append]
  congr 1 <;> funext x <;>
    by_cases e1 : x ∈ A <;> by_cases e2 : x ∈ B <;> by_cases e3 : x ∈ pins <;>
    simp [e1, e2, e3, upd_apply] <;>
    (try (split <;> simp_all))

/-- No node handle and no tree core refers to the node. -/
def Quiet (h : Heap α) (x : NodeId) : Prop :=
  (∀ t rc l, h.mem x ≠ .strong t rc l) ∧ ∀ u, h.root u ≠ some x

theorem Quiet.wipe {A pins : List NodeId} {x q : NodeId} {v : Option NodeId} (hq : Quiet h x) :
    Quiet ((h.wipe A pins).setFirst q v) x := by
  refine ⟨?_, hq.2⟩
  intro t rc l
  simp only [Heap.wipe, Heap.setFirst]
  split
  · simp
  · exact hq.1 t rc l

theorem DropShape.next_at (S : DropShape h ch) {l1 l2 : List NodeId} (hs : ch p = l1 ++ n :: l2) :
    h.next n = l2.head? := by
  have := S.seg p
  rw [hs] at this
  simpa using this.at

theorem DropShape.not_referenced (S : DropShape h ch) (hq : Quiet h n) (hn : ∀ q, n ∉ ch q) :
    h.referenced n = false := by
  rw [Bool.eq_false_iff]
  intro hr
  rcases referenced_iff.1 hr with ⟨u, rc, l, hm⟩ | ⟨u, _, hr⟩ | ⟨m, _, hm, hr⟩
  · exact hq.1 u rc l hm
  · exact hq.2 u hr
  · rcases hr with hr | hr
    · rw [S.first m hm] at hr
      exact hn m (List.mem_of_mem_head? hr)
    · obtain ⟨q, _, h2⟩ := S.nextRef m n hm hr
      exact hn q h2

/-- Closing a childless first child removes it. -/
theorem dropStep_leaf {k : Nat} (S : DropShape h ch) {rest pins : List NodeId} (hs : ch p = n :: rest)
    (hl : ch n = []) (hq : Quiet h n) (hK : Kept h ch p) :
    Heap.dropStep (k + 1) h pins n = .ok ((h.wipe [n] pins).setFirst p rest.head?) := by
  have hm : n ∈ ch p := by simp [hs]
  obtain ⟨hpa, hna, hpar⟩ := S.mem p n hm
  have hnp : p ≠ n := by
    rintro rfl; rw [hl] at hm; simp at hm
  have hnr : n ∉ rest := by
    have := S.nodup p
    rw [hs, List.nodup_cons] at this; exact this.1
  have hpl : h.parentLink n = some p := by
    simp [Heap.parentLink, hpar, Heap.upgrade, Option.filter, hpa]
  have hnx : h.next n = rest.head? := S.next_at (l1 := []) (by simpa using hs)
  have hfc : h.firstChild n = none := by rw [S.first n hna, hl]; rfl
  have S1 : DropShape ((h.wipe [n] [n]).setFirst p rest.head?)
      (fun x => if x ∈ [n] then [] else upd ch p rest x) := by
    apply S.wipe (a := [n]) (by simpa using hnp) (by simpa using hs) (by simp)
    · intro x hx; simp only [List.mem_singleton]; rintro rfl; exact hnr hx
    · intro x hx c hc
      simp only [List.mem_singleton] at hx
      subst hx; rw [hl] at hc; simp at hc
    · intro q _ hqp c hc
      simp only [List.mem_singleton]
      rintro rfl
      exact hqp (S.unique hc hm)
  have e1 : (h.setNext n none).setFirst p rest.head? = (h.wipe [n] [n]).setFirst p rest.head? := by
    simp only [Heap.wipe, Heap.setFirst, Heap.setNext, List.mem_singleton, and_not_self, if_false]
    congr 1
    funext x
    simp only [upd_apply]
    by_cases e : x = n
    · subst e; simp [Ne.symm hnp, hfc]
    · simp [e]
  unfold Heap.dropStep
  have hfp : h.firstChild p = some n := by rw [S.first p hpa, hs]; rfl
  have hKr : ((h.wipe [n] [n]).setFirst p rest.head?).referenced p = true :=
    (hK.wipe (a := [n]) (by simpa using hs) (by simp) (by simpa using hnp) (by
      intro x hx c hc
      simp only [List.mem_singleton] at hx
      subst hx; rw [hl] at hc; simp at hc)).referenced S1
  simp only [hpl, hnx, e1, hfp, bind, Except.bind]
  rw [release_pinned (by simp)]
  simp only [release_referenced hKr]
  have hq1 : Quiet ((h.wipe [n] [n]).setFirst p rest.head?) n := hq.wipe
  have hnref := S1.not_referenced hq1 (n := n) (by
    intro q hc
    by_cases e : q = n
    · simp [e] at hc
    · simp only [List.mem_singleton, e, if_false, upd_apply] at hc
      by_cases e2 : q = p
      · simp only [e2, if_true] at hc; exact hnr hc
      · simp only [e2, if_false] at hc; exact e2 (S.unique hc hm))
  by_cases hpin : n ∈ pins
  · rw [release_pinned hpin]
    congr 1
    simp only [Heap.wipe, Heap.setFirst, List.mem_singleton, and_not_self, if_false]
    congr 1 <;> funext x <;> by_cases e : x = n <;> simp [e, hpin]
  · rw [release_leaf _ hnref hpin]
    · congr 1
      simp only [Heap.wipe, Heap.setFirst, Heap.kill, List.mem_singleton, and_not_self, if_false]
      congr 1 <;> funext x <;> by_cases e : x = n <;> simp [e, hpin, upd_apply, Ne.symm hnp]
    · simp [Heap.setFirst, Heap.wipe, Ne.symm hnp, upd_apply]
    · simp [Heap.setFirst, Heap.wipe]
    · have : ((h.wipe [n] [n]).setFirst p rest.head?).alive n = (h.wipe [n] [n]).alive n := rfl
      rw [this, Heap.wipe_alive]; simp [hna]

theorem Hier.congr : ∀ {T : RTree NodeId} {ch ch' : NodeId → List NodeId},
    (∀ x ∈ T.nodes, ch' x = ch x) → Hier ch T → Hier ch' T := by
  intro T
  induction T using RTree.rec (motive_2 := fun cs => ∀ {ch ch' : NodeId → List NodeId},
    (∀ x ∈ nodesL cs, ch' x = ch x) → HierL ch cs → HierL ch' cs) with
  | node v cs ih =>
    intro ch ch' hx hH
    simp only [Hier, nodes, List.mem_cons] at *
    exact ⟨by rw [hx v (.inl rfl)]; exact hH.1, ih (fun x h => hx x (.inr h)) hH.2⟩
  | nil => trivial
  | cons c cs ih1 ih2 =>
    rename_i ch ch' hx hH
    simp only [HierL, nodesL, List.mem_append] at *
    exact ⟨ih1 (fun x h => hx x (.inl h)) hH.1, ih2 (fun x h => hx x (.inr h)) hH.2⟩

theorem HierL.congr {cs : List (RTree NodeId)} {ch ch' : NodeId → List NodeId}
    (hx : ∀ x ∈ nodesL cs, ch' x = ch x) (hH : HierL ch cs) : HierL ch' cs := by
  rw [HierL_iff] at *
  intro c hc
  refine Hier.congr ?_ (hH c hc)
  intro x hxc
  apply hx
  rw [nodesL_eq]
  exact List.mem_flatMap.2 ⟨c, hc, hxc⟩

theorem Hier.parent_in {T : RTree NodeId} (hT : Hier ch T) {x : NodeId} (hx : x ∈ T.nodes) :
    x = T.label ∨ ∃ y ∈ T.nodes, x ∈ ch y := by
  have hS : SubtreeAt ch T.label T := ⟨rfl, hT⟩
  cases (hS.mem_nodes_iff x).1 hx with
  | refl => exact .inl rfl
  | @step m _ hd hc => exact .inr ⟨m, (hS.mem_nodes_iff m).2 hd, hc⟩

theorem HierL.parent_in {cs : List (RTree NodeId)} (hT : HierL ch cs) {x : NodeId}
    (hx : x ∈ nodesL cs) : x ∈ cs.map label ∨ ∃ y ∈ nodesL cs, x ∈ ch y := by
  rw [nodesL_eq, List.mem_flatMap] at hx
  obtain ⟨c, hc, hx⟩ := hx
  rcases Hier.parent_in (HierL_iff.1 hT c hc) hx with rfl | ⟨y, hy, hxy⟩
  · exact .inl (List.mem_map.2 ⟨c, hc, rfl⟩)
  · exact .inr ⟨y, by rw [nodesL_eq]; exact List.mem_flatMap.2 ⟨c, hc, hy⟩, hxy⟩

theorem label_mem_nodesL {cs : List (RTree NodeId)} {x : NodeId} (hx : x ∈ cs.map label) :
    x ∈ nodesL cs := by
  obtain ⟨c, hc, rfl⟩ := List.mem_map.1 hx
  rw [nodesL_eq]
  exact List.mem_flatMap.2 ⟨c, hc, label_mem_nodes c⟩

/-- Where the loop enters a list of siblings. -/
def enter (cs : List (RTree NodeId)) (p : NodeId) : DftEvent NodeId :=
  match cs with
  | [] => .cls p
  | c :: _ => .opn c.label

mutual
/-- The loop dismantles one subtree. -/
theorem drop_tree {k : Nat} : ∀ (T : RTree NodeId) {h : Heap α} {ch : NodeId → List NodeId} {p : NodeId}
    {rest pins : List NodeId} (f : Nat), DropShape h ch → Hier ch T → T.nodes.Nodup →
    p ∉ T.nodes → ch p = T.label :: rest → (∀ x ∈ rest, x ∉ T.nodes) →
    (∀ x ∈ T.nodes, Quiet h x) → Kept h ch p →
    Heap.dropLoop (k + 1) (f + 2 * T.nodes.length) pins (some (.opn T.label)) h
      = Heap.dropLoop (k + 1) f pins (h.evNext (.cls T.label)) ((h.wipe T.nodes pins).setFirst p rest.head?)
  | .node v cs, h, ch, p, rest, pins, f, S, hT, hnd, hp, hs, hr, hq, hK => by
    simp only [Hier, nodes, label, List.nodup_cons, List.mem_cons, not_or] at hT hnd hp hs hr hq ⊢
    have hm : v ∈ ch p := by simp [hs]
    obtain ⟨hpa, hva, hpar⟩ := S.mem p v hm
    have hlen : f + 2 * (v :: nodesL cs).length = (f + 1 + 2 * (nodesL cs).length) + 1 := by
      simp only [List.length_cons]; omega
    rw [hlen]
    simp only [Heap.dropLoop]
    have hev : h.evNext (.opn v) = some (enter cs v) := by
      simp only [Heap.evNext, Heap.firstChildLink, S.first v hva, ← hT.1]
      cases cs <;> rfl
    have hKv : Kept h ch v := .inr ⟨p, hm⟩
    simp only [release_referenced (hKv.referenced S)]
    rw [hev, drop_list cs (f + 1) S hT.2 hnd.2 hnd.1 hT.1.symm hva (fun x hx => hq x (.inr hx)) hKv]
    -- closing `v` itself
    have S1 : DropShape ((h.wipe (nodesL cs) pins).setFirst v none)
        (fun x => if x ∈ nodesL cs then [] else upd ch v [] x) := by
      apply S.wipe (a := ch v) (rest := []) hnd.1 (by simp)
      · intro x hx; rw [← hT.1] at hx; exact label_mem_nodesL hx
      · simp
      · intro x hx c hc; exact HierL.closed cs hT.2 x c hx hc
      · intro q hqA hqv c hc hcA
        rcases HierL.parent_in hT.2 hcA with h1 | ⟨y, hy, hcy⟩
        · rw [hT.1] at h1; exact hqv (S.unique hc h1)
        · exact hqA (S.unique hc hcy ▸ hy)
    have hvp : p ≠ v := hp.1
    have hs1 : (fun x => if x ∈ nodesL cs then [] else upd ch v [] x) p = v :: rest := by
      simp [hp.2, hvp, hs]
    have hl1 : (fun x => if x ∈ nodesL cs then [] else upd ch v [] x) v = [] := by
      simp [hnd.1]
    have hstep : ∀ pins', Heap.dropStep (k + 1) ((h.wipe (nodesL cs) pins).setFirst v none) pins' v
        = .ok ((((h.wipe (nodesL cs) pins).setFirst v none).wipe [v] pins').setFirst p rest.head?) :=
      fun pins' => dropStep_leaf (pins := pins') S1 hs1 hl1 (hq v (.inl rfl)).wipe
        (hK.wipe (a := ch v) (rest := []) (by simp)
          (by intro x hx; rw [← hT.1] at hx; exact label_mem_nodesL hx) hp.2
          (fun x hx c hc => HierL.closed cs hT.2 x c hx hc))
    have hev2 : ((h.wipe (nodesL cs) pins).setFirst v none).evNext (.cls v) = h.evNext (.cls v) := by
      simp only [Heap.evNext, Heap.nextLink, Heap.parentLink, Heap.upgrade, Heap.setFirst,
        Heap.wipe, hnd.1, if_false, false_and, hpar]
      split
      · rfl
      · have hda : (h.data p).isSome = true := hpa
        simp [Option.filter, Heap.alive, hp.2, hda]
    simp only [Heap.dropLoop, hev2, hstep]
    have hvr : v ∉ rest := by
      have := S.nodup p
      rw [hs, List.nodup_cons] at this; exact this.1
    have hpinseq : ∀ pins' : List NodeId, (v ∈ pins' ↔ v ∈ pins) →
        (((h.wipe (nodesL cs) pins).setFirst v none).wipe [v] pins').setFirst p rest.head?
        = (h.wipe (v :: nodesL cs) pins).setFirst p rest.head? := by
      intro pins' hpp
      simp only [Heap.wipe, Heap.setFirst, List.mem_cons, List.not_mem_nil, or_false]
      congr 1 <;> funext x <;>
        by_cases e1 : x = v <;> by_cases e2 : x ∈ nodesL cs <;> by_cases e3 : x ∈ pins <;>
        simp_all [upd_apply]
    have hpin2 : ∀ e, h.evNext (.cls v) = some e → (v ∈ e.value :: pins ↔ v ∈ pins) := by
      intro e he
      have : v ≠ e.value := by
        simp only [Heap.evNext, Heap.nextLink, S.next_at (l1 := []) (by simpa using hs),
          Heap.parentLink, hpar] at he
        cases rest with
        | nil =>
          simp only [List.head?_nil, Heap.upgrade, Option.filter, hpa, if_true, Option.map_some,
            Option.some.injEq] at he
          subst he; exact Ne.symm hvp
        | cons b l =>
          simp only [List.head?_cons, Option.some.injEq] at he
          subst he
          rintro rfl; exact hvr (by simp [DftEvent.value])
      simp [this]
    cases hnx : h.evNext (.cls v) with
    | none => simp only [hpinseq pins Iff.rfl]
    | some e => simp only [hpinseq _ (hpin2 e hnx)]
/-- The loop dismantles all children of a node. -/
theorem drop_list {k : Nat} : ∀ (cs : List (RTree NodeId)) {h : Heap α} {ch : NodeId → List NodeId}
    {p : NodeId} {pins : List NodeId} (f : Nat), DropShape h ch → HierL ch cs → (nodesL cs).Nodup →
    p ∉ nodesL cs → ch p = cs.map label → h.alive p = true → (∀ x ∈ nodesL cs, Quiet h x) → Kept h ch p →
    Heap.dropLoop (k + 1) (f + 2 * (nodesL cs).length) pins (some (enter cs p)) h
      = Heap.dropLoop (k + 1) f pins (some (.cls p)) ((h.wipe (nodesL cs) pins).setFirst p none)
  | [], h, ch, p, pins, f, S, hT, hnd, hp, hs, hpa, hq, hK => by
    have hf : h.firstChild p = none := by rw [S.first p hpa, hs]; rfl
    have : (h.wipe (nodesL []) pins).setFirst p none = h := by
      rw [nodesL, Heap.wipe_nil]
      simp only [Heap.setFirst]
      congr
      funext x
      simp only [upd_apply]
      split <;> simp_all
    rw [this]
    simp [nodesL, enter]
  | c :: cs, h, ch, p, pins, f, S, hT, hnd, hp, hs, hpa, hq, hK => by
    simp only [HierL, nodesL, List.nodup_append, List.mem_append, not_or, List.map_cons,
      List.length_append] at hT hnd hp hs hq ⊢
    have hlen : f + 2 * (c.nodes.length + (nodesL cs).length)
        = (f + 2 * (nodesL cs).length) + 2 * c.nodes.length := by omega
    have hrest : ∀ x ∈ cs.map label, x ∉ c.nodes := fun x hx hx2 =>
      hnd.2.2 x hx2 x (label_mem_nodesL hx) rfl
    have hm : c.label ∈ ch p := by simp [hs]
    obtain ⟨_, hca, hpar⟩ := S.mem p c.label hm
    rw [hlen, enter, drop_tree c (f + 2 * (nodesL cs).length) S hT.1 hnd.1 hp.1 hs hrest
      (fun x hx => hq x (.inl hx)) hK]
    have hev : h.evNext (.cls c.label) = some (enter cs p) := by
      simp only [Heap.evNext, Heap.nextLink, S.next_at (l1 := []) (by simpa using hs),
        Heap.parentLink, hpar]
      cases cs with
      | nil => simp [Heap.upgrade, Option.filter, hpa, enter]
      | cons d ds => simp [enter]
    have S1 : DropShape ((h.wipe c.nodes pins).setFirst p (cs.map label).head?)
        (fun x => if x ∈ c.nodes then [] else upd ch p (cs.map label) x) := by
      apply S.wipe (a := [c.label]) (rest := cs.map label) hp.1 (by simp [hs])
      · intro x hx; simp only [List.mem_singleton] at hx; subst hx; exact label_mem_nodes c
      · exact hrest
      · intro x hx y hy; exact Hier.closed c hT.1 x y hx hy
      · intro q hqA hqv y hy hyA
        rcases Hier.parent_in hT.1 hyA with h1 | ⟨z, hz, hyz⟩
        · subst h1; exact hqv (S.unique hy hm)
        · exact hqA (S.unique hy hyz ▸ hz)
    rw [hev, drop_list cs f S1 ?_ hnd.2.1 hp.2 ?_ ?_ ?_ ?_]
    · rw [wipe_append hp.1 hp.2]
    · refine HierL.congr ?_ hT.2
      intro x hx
      have h1 : x ∉ c.nodes := fun h2 => hnd.2.2 x h2 x hx rfl
      have h2 : x ≠ p := by rintro rfl; exact hp.2 hx
      simp [h1, h2]
    · simp [hp.1]
    · have : ((h.wipe c.nodes pins).setFirst p (cs.map label).head?).alive p
        = (h.wipe c.nodes pins).alive p := rfl
      rw [this, Heap.wipe_alive]; simp [hp.1, hpa]
    · intro x hx; exact (hq x (.inr hx)).wipe
    · exact hK.wipe (a := [c.label]) (by simp [hs])
        (by intro x hx; simp only [List.mem_singleton] at hx; subst hx; exact label_mem_nodes c) hp.1
        (fun x hx y hy => Hier.closed c hT.1 x y hx hy)
end

/-- Destruction of a tree core whose root has no parent and whose nodes nobody else refers to: all
nodes of the tree are freed (those in `pins` when their local variable goes away), nothing else
changes. -/
theorem dropTreeWith_spec {k : Nat} (S : DropShape h ch) {r : NodeId} {T : RTree NodeId} {pins : List NodeId}
    (ht : t < h.nTree) (hr : h.root t = some r) (hra : h.alive r = true) (hrp : h.parent r = none)
    (hT : SubtreeAt ch r T) (hnd : T.nodes.Nodup) (hlen : T.nodes.length ≤ h.nNode)
    (hq : ∀ x ∈ T.nodes, x ≠ r → Quiet h x)
    (hqm : ∀ u rc l, h.mem r ≠ .strong u rc l) (hqr : ∀ u, u ≠ t → h.root u ≠ some r) :
    Heap.dropTreeWith (k + 1) h pins t = .ok (((h.wipe T.nodes pins).setRoot t none).setGrants t 0) := by
  obtain ⟨rfl, hH⟩ := hT
  cases T with
  | node v cs =>
    simp only [Hier, nodes, label, List.nodup_cons, List.mem_cons, List.length_cons] at *
    have hnv : h.next v = none := by
      cases hn : h.next v with
      | none => rfl
      | some d =>
        obtain ⟨q, hvq, _⟩ := S.nextRef v d hra hn
        rw [(S.mem q v hvq).2.2] at hrp; simp at hrp
    have hnq : ∀ q, v ∉ ch q := by
      intro q hvq; rw [(S.mem q v hvq).2.2] at hrp; simp at hrp
    have hqL : ∀ x ∈ nodesL cs, Quiet h x := by
      intro x hx
      exact hq x (.inr hx) (by rintro rfl; exact hnd.1 hx)
    unfold Heap.dropTreeWith
    simp only [hr]
    -- the loop
    obtain ⟨f, hf⟩ : ∃ f, h.dropFuel = (f + 1 + 2 * (nodesL cs).length) + 1 := by
      refine ⟨h.dropFuel - 2 - 2 * (nodesL cs).length, ?_⟩
      simp only [Heap.dropFuel]; omega
    have hev : h.evNext (.opn v) = some (enter cs v) := by
      simp only [Heap.evNext, Heap.firstChildLink, S.first v hra, ← hH.1]
      cases cs <;> rfl
    have S1 : DropShape ((h.wipe (nodesL cs) pins).setFirst v none)
        (fun x => if x ∈ nodesL cs then [] else upd ch v [] x) := by
      apply S.wipe (a := ch v) (rest := []) hnd.1 (by simp)
      · intro x hx; rw [← hH.1] at hx; exact label_mem_nodesL hx
      · simp
      · intro x hx c hc; exact HierL.closed cs hH.2 x c hx hc
      · intro q hqA hqv c hc hcA
        rcases HierL.parent_in hH.2 hcA with h1 | ⟨y, hy, hcy⟩
        · rw [hH.1] at h1; exact hqv (S.unique hc h1)
        · exact hqA (S.unique hc hcy ▸ hy)
    obtain ⟨h1, hh1⟩ : ∃ h1, h1 = (h.wipe (nodesL cs) pins).setFirst v none := ⟨_, rfl⟩
    rw [← hh1] at S1
    have hmem1 : h1.mem v = h.mem v := by rw [hh1]; simp [Heap.setFirst, Heap.wipe, hnd.1]
    have hal1 : h1.alive v = true := by
      have : h1.alive v = (h.wipe (nodesL cs) pins).alive v := by rw [hh1]; rfl
      rw [this, Heap.wipe_alive]; simp [hnd.1, hra]
    have hpl1 : h1.parentLink v = none := by
      rw [hh1]; simp [Heap.parentLink, Heap.setFirst, Heap.wipe, hnd.1, hrp, Heap.upgrade]
    have hnx1 : h1.next v = none := by rw [hh1]; simp [Heap.setFirst, Heap.wipe, hnd.1, hnv]
    have hfc1 : h1.firstChild v = none := by rw [hh1]; simp [Heap.setFirst]
    have hro1 : h1.root = h.root := by rw [hh1]; rfl
    have hnT1 : h1.nTree = h.nTree := by rw [hh1]; rfl
    have hnc1 : ∀ q, v ∉ (if q ∈ nodesL cs then [] else upd ch v [] q) := by
      intro q
      split
      · simp
      · simp only [upd_apply]
        split
        · simp
        · exact hnq q
    -- closing the root does nothing: the tree core still refers to it
    · have href : h1.referenced v = true :=
        referenced_iff.2 (.inr (.inl ⟨t, by rw [hnT1]; exact ht, by rw [hro1]; exact hr⟩))
      have hloop : Heap.dropLoop (k + 1) h.dropFuel pins (some (.opn v)) h = .ok h1 := by
        rw [hf]
        have hKv : Kept h ch v := .inl ⟨t, ht, hr⟩
        simp only [Heap.dropLoop, hev, release_referenced (hKv.referenced S)]
        rw [drop_list cs (f + 1) S hH.2 hnd.2 hnd.1 hH.1.symm hra hqL hKv, ← hh1]
        have hev1 : h1.evNext (.cls v) = none := by
          simp [Heap.evNext, Heap.nextLink, hnx1, hpl1]
        simp only [Heap.dropLoop, hev1, Heap.dropStep, hpl1, release_referenced href]
      rw [hloop]
      simp only
      have hnref : ((h1.setRoot t none).setGrants t 0).referenced v = false := by
        rw [Bool.eq_false_iff]
        intro hrf
        rcases referenced_iff.1 hrf with ⟨u, rc, l, hm⟩ | ⟨u, _, hrr⟩ | ⟨m, _, hm, hrr⟩
        · have : ((h1.setRoot t none).setGrants t 0).mem v = h1.mem v := rfl
          rw [this, hmem1] at hm; exact hqm u rc l hm
        · simp only [Heap.setRoot, Heap.setGrants, upd_apply] at hrr
          by_cases e : u = t
          · simp [e] at hrr
          · simp only [e, if_false, hro1] at hrr; exact hqr u e hrr
        · have hm' : h1.alive m = true := hm
          have hrr' : h1.firstChild m = some v ∨ h1.next m = some v := hrr
          rcases hrr' with hrr | hrr
          · rw [S1.first m hm'] at hrr
            exact hnc1 m (List.mem_of_mem_head? hrr)
          · obtain ⟨q, _, h2⟩ := S1.nextRef m v hm' hrr
            exact hnc1 q h2
      by_cases hpin : v ∈ pins
      · rw [release_pinned hpin]
        rw [hh1]
        congr 1
        simp only [Heap.wipe, Heap.setFirst, Heap.setRoot, Heap.setGrants, List.mem_cons]
        congr 1 <;> funext x <;> by_cases e : x = v <;> simp [e, hpin, hnd.1, upd_apply, hnv]
      · rw [release_leaf (h := (h1.setRoot t none).setGrants t 0) hal1 hnref hpin hfc1 hnx1]
        rw [hh1]
        congr 1
        simp only [Heap.wipe, Heap.setFirst, Heap.setRoot, Heap.setGrants, Heap.kill, List.mem_cons]
        congr 1 <;> funext x <;> by_cases e : x = v <;> simp [e, hpin, hnd.1, upd_apply]

theorem dropTree_spec (S : DropShape h ch) {r : NodeId} {T : RTree NodeId} {pins : List NodeId}
    (ht : t < h.nTree) (hr : h.root t = some r) (hra : h.alive r = true) (hrp : h.parent r = none)
    (hT : SubtreeAt ch r T) (hnd : T.nodes.Nodup) (hlen : T.nodes.length ≤ h.nNode)
    (hq : ∀ x ∈ T.nodes, x ≠ r → Quiet h x)
    (hqm : ∀ u rc l, h.mem r ≠ .strong u rc l) (hqr : ∀ u, u ≠ t → h.root u ≠ some r) :
    h.dropTree pins t = .ok (((h.wipe T.nodes pins).setRoot t none).setGrants t 0) :=
  dropTreeWith_spec S ht hr hra hrp hT hnd hlen hq hqm hqr

end Dendron
