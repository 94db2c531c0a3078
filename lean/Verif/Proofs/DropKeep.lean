import Verif.Proofs.Memb

/-!
Destruction of a tree some of whose nodes are held by somebody: generalisation of `dropTree_spec`.
-/

set_option linter.unusedSimpArgs false
set_option linter.unusedVariables false

set_option autoImplicit false

namespace Dendron
open RTree
variable {α : Type} {h h' : Heap α} {ch : NodeId → List NodeId} {n p : NodeId} {t t' : TreeId}

/-- The node has a strong membership, i.e. there is a handle to it. -/
def IsStrong (h : Heap α) (x : NodeId) : Prop := ∃ t rc l, h.mem x = .strong t rc l

theorem IsStrong.referenced {x : NodeId} (hs : IsStrong h x) : h.referenced x = true :=
  referenced_iff.2 (.inl hs)

/-- What happens to node `x` when its tree is destroyed: it is in `keep` and somebody holds it, or it is
not in `keep` and nobody does. -/
def Fate (h : Heap α) (keep pins : List NodeId) (x : NodeId) : Prop :=
  (x ∈ keep ∧ (x ∈ pins ∨ IsStrong h x)) ∨ (x ∉ keep ∧ x ∉ pins ∧ Quiet h x)

theorem IsStrong.wipe {A keep : List NodeId} {x q : NodeId} {v : Option NodeId} (hk : x ∈ keep)
    (hs : IsStrong h x) : IsStrong ((h.wipe A keep).setFirst q v) x := by
  obtain ⟨t, rc, l, hm⟩ := hs
  exact ⟨t, rc, l, by simp [Heap.wipe, Heap.setFirst, hk, hm]⟩

theorem Fate.wipe {A keep pins : List NodeId} {x q : NodeId} {v : Option NodeId}
    (hf : Fate h keep pins x) : Fate ((h.wipe A keep).setFirst q v) keep pins x := by
  rcases hf with ⟨hk, h1⟩ | ⟨h1, h2, h3⟩
  · exact .inl ⟨hk, h1.imp id (·.wipe hk)⟩
  · exact .inr ⟨h1, h2, h3.wipe⟩

theorem Fate.pins {keep pins pins' : List NodeId} {x : NodeId} (hf : Fate h keep pins x)
    (hp : x ∈ pins' ↔ x ∈ pins) : Fate h keep pins' x := by
  unfold Fate at *; rw [hp]; exact hf

/-- Closing a childless first child removes it. -/
theorem dropStep_keep {k : Nat} (S : DropShape h ch) {rest keep pins : List NodeId} (hs : ch p = n :: rest)
    (hl : ch n = []) (hq : Fate h keep pins n) (hK : Kept h ch p) :
    Heap.dropStep (k + 1) h pins n = .ok ((h.wipe [n] keep).setFirst p rest.head?) := by
  have hm : n ∈ ch p := by simp [hs]
  obtain ⟨hpa, hna, hpar⟩ := S.mem p n hm
  have hnp : p ≠ n := by
    rintro rfl; rw [hl] at hm; simp at hm
  have hnr : n ∉ rest := by
    have := S.nodup p
    rw [hs, List.nodup_cons] at this; exact this.1
  have hpl : h.parentLink n = some p := by
    simp [Heap.parentLink, hpar, Heap.upgrade, Option.filter, hpa]
  have hnx : h.next n = rest.head? := S.next_at (l1 := []) (by simpa using hs)
  have hfc : h.firstChild n = none := by rw [S.first n hna, hl]; rfl
  have S1 : DropShape ((h.wipe [n] [n]).setFirst p rest.head?)
      (fun x => if x ∈ [n] then [] else upd ch p rest x) := by
    apply S.wipe (a := [n]) (by simpa using hnp) (by simpa using hs) (by simp)
    · intro x hx; simp only [List.mem_singleton]; rintro rfl; exact hnr hx
    · intro x hx c hc
      simp only [List.mem_singleton] at hx
      subst hx; rw [hl] at hc; simp at hc
    · intro q _ hqp c hc
      simp only [List.mem_singleton]
      rintro rfl
      exact hqp (S.unique hc hm)
  have e1 : (h.setNext n none).setFirst p rest.head? = (h.wipe [n] [n]).setFirst p rest.head? := by
    simp only [Heap.wipe, Heap.setFirst, Heap.setNext, List.mem_singleton, and_not_self, if_false]
    congr 1
    funext x
    simp only [upd_apply]
    by_cases e : x = n
    · subst e; simp [Ne.symm hnp, hfc]
    · simp [e]
  unfold Heap.dropStep
  have hfp : h.firstChild p = some n := by rw [S.first p hpa, hs]; rfl
  have hKr : ((h.wipe [n] [n]).setFirst p rest.head?).referenced p = true :=
    (hK.wipe (a := [n]) (by simpa using hs) (by simp) (by simpa using hnp) (by
      intro x hx c hc
      simp only [List.mem_singleton] at hx
      subst hx; rw [hl] at hc; simp at hc)).referenced S1
  simp only [hpl, hnx, e1, hfp, bind, Except.bind]
  rw [release_pinned (by simp)]
  simp only [release_referenced hKr]
  have hkeep : n ∈ keep → (.ok ((h.wipe [n] [n]).setFirst p rest.head?) : Except Fault (Heap α))
      = .ok ((h.wipe [n] keep).setFirst p rest.head?) := by
    intro hk
    congr 1
    simp only [Heap.wipe, Heap.setFirst, List.mem_singleton, and_not_self, if_false]
    congr 1 <;> funext x <;> by_cases e : x = n <;> simp [e, hk]
  rcases hq with ⟨hk, hpin | hst⟩ | ⟨hk, hpin, hq⟩
  · rw [release_pinned hpin]
    exact hkeep hk
  · obtain ⟨t, rc, l, hst⟩ := hst
    rw [release_referenced (IsStrong.referenced ⟨t, rc, l, by
      simpa [Heap.wipe, Heap.setFirst] using hst⟩)]
    exact hkeep hk
  · have hq1 : Quiet ((h.wipe [n] [n]).setFirst p rest.head?) n := hq.wipe
    have hnref := S1.not_referenced hq1 (n := n) (by
      intro q hc
      by_cases e : q = n
      · simp [e] at hc
      · simp only [List.mem_singleton, e, if_false, upd_apply] at hc
        by_cases e2 : q = p
        · simp only [e2, if_true] at hc; exact hnr hc
        · simp only [e2, if_false] at hc; exact e2 (S.unique hc hm))
    rw [release_leaf _ hnref hpin]
    · congr 1
      simp only [Heap.wipe, Heap.setFirst, Heap.kill, List.mem_singleton, and_not_self, if_false]
      congr 1 <;> funext x <;> by_cases e : x = n <;> simp [e, hk, upd_apply, Ne.symm hnp]
    · simp [Heap.setFirst, Heap.wipe, Ne.symm hnp, upd_apply]
    · simp [Heap.setFirst, Heap.wipe]
    · have : ((h.wipe [n] [n]).setFirst p rest.head?).alive n = (h.wipe [n] [n]).alive n := rfl
      rw [this, Heap.wipe_alive]; simp [hna]

mutual
/-- The loop dismantles one subtree. -/
theorem drop_treeK {k : Nat} : ∀ (T : RTree NodeId) {h : Heap α} {ch : NodeId → List NodeId} {p : NodeId}
    {rest keep pins : List NodeId} (f : Nat), DropShape h ch → Hier ch T → T.nodes.Nodup →
    p ∉ T.nodes → ch p = T.label :: rest → (∀ x ∈ rest, x ∉ T.nodes) →
    (∀ x ∈ T.nodes, Fate h keep pins x) → Kept h ch p →
    Heap.dropLoop (k + 1) (f + 2 * T.nodes.length) pins (some (.opn T.label)) h
      = Heap.dropLoop (k + 1) f pins (h.evNext (.cls T.label)) ((h.wipe T.nodes keep).setFirst p rest.head?)
  | .node v cs, h, ch, p, rest, keep, pins, f, S, hT, hnd, hp, hs, hr, hq, hK => by
    simp only [Hier, nodes, label, List.nodup_cons, List.mem_cons, not_or] at hT hnd hp hs hr hq ⊢
    have hm : v ∈ ch p := by simp [hs]
    obtain ⟨hpa, hva, hpar⟩ := S.mem p v hm
    have hlen : f + 2 * (v :: nodesL cs).length = (f + 1 + 2 * (nodesL cs).length) + 1 := by
      simp only [List.length_cons]; omega
    rw [hlen]
    simp only [Heap.dropLoop]
    have hev : h.evNext (.opn v) = some (enter cs v) := by
      simp only [Heap.evNext, Heap.firstChildLink, S.first v hva, ← hT.1]
      cases cs <;> rfl
    have hKv : Kept h ch v := .inr ⟨p, hm⟩
    simp only [release_referenced (hKv.referenced S)]
    rw [hev, drop_listK cs (f + 1) S hT.2 hnd.2 hnd.1 hT.1.symm hva (fun x hx => hq x (.inr hx)) hKv]
    -- closing `v` itself
    have S1 : DropShape ((h.wipe (nodesL cs) keep).setFirst v none)
        (fun x => if x ∈ nodesL cs then [] else upd ch v [] x) := by
      apply S.wipe (a := ch v) (rest := []) hnd.1 (by simp)
      · intro x hx; rw [← hT.1] at hx; exact label_mem_nodesL hx
      · simp
      · intro x hx c hc; exact HierL.closed cs hT.2 x c hx hc
      · intro q hqA hqv c hc hcA
        rcases HierL.parent_in hT.2 hcA with h1 | ⟨y, hy, hcy⟩
        · rw [hT.1] at h1; exact hqv (S.unique hc h1)
        · exact hqA (S.unique hc hcy ▸ hy)
    have hvp : p ≠ v := hp.1
    have hs1 : (fun x => if x ∈ nodesL cs then [] else upd ch v [] x) p = v :: rest := by
      simp [hp.2, hvp, hs]
    have hl1 : (fun x => if x ∈ nodesL cs then [] else upd ch v [] x) v = [] := by
      simp [hnd.1]
    have hstep : ∀ pins', (v ∈ pins' ↔ v ∈ pins) →
        Heap.dropStep (k + 1) ((h.wipe (nodesL cs) keep).setFirst v none) pins' v
        = .ok ((((h.wipe (nodesL cs) keep).setFirst v none).wipe [v] keep).setFirst p rest.head?) :=
      fun pins' hp' => dropStep_keep (pins := pins') S1 hs1 hl1 ((hq v (.inl rfl)).wipe.pins hp')
        (hK.wipe (a := ch v) (rest := []) (by simp)
          (by intro x hx; rw [← hT.1] at hx; exact label_mem_nodesL hx) hp.2
          (fun x hx c hc => HierL.closed cs hT.2 x c hx hc))
    have hev2 : ((h.wipe (nodesL cs) keep).setFirst v none).evNext (.cls v) = h.evNext (.cls v) := by
      simp only [Heap.evNext, Heap.nextLink, Heap.parentLink, Heap.upgrade, Heap.setFirst,
        Heap.wipe, hnd.1, if_false, false_and, hpar]
      split
      · rfl
      · have hda : (h.data p).isSome = true := hpa
        simp [Option.filter, Heap.alive, hp.2, hda]
    simp only [Heap.dropLoop, hev2]
    have hvr : v ∉ rest := by
      have := S.nodup p
      rw [hs, List.nodup_cons] at this; exact this.1
    have hpinseq :
        (((h.wipe (nodesL cs) keep).setFirst v none).wipe [v] keep).setFirst p rest.head?
        = (h.wipe (v :: nodesL cs) keep).setFirst p rest.head? := by
      simp only [Heap.wipe, Heap.setFirst, List.mem_cons, List.not_mem_nil, or_false]
      congr 1 <;> funext x <;>
        by_cases e1 : x = v <;> by_cases e2 : x ∈ nodesL cs <;> by_cases e3 : x ∈ keep <;>
        simp_all [upd_apply]
    have hpin2 : ∀ e, h.evNext (.cls v) = some e → (v ∈ e.value :: pins ↔ v ∈ pins) := by
      intro e he
      have : v ≠ e.value := by
        simp only [Heap.evNext, Heap.nextLink, S.next_at (l1 := []) (by simpa using hs),
          Heap.parentLink, hpar] at he
        cases rest with
        | nil =>
          simp only [List.head?_nil, Heap.upgrade, Option.filter, hpa, if_true, Option.map_some,
            Option.some.injEq] at he
          subst he; exact Ne.symm hvp
        | cons b l =>
          simp only [List.head?_cons, Option.some.injEq] at he
          subst he
          rintro rfl; exact hvr (by simp [DftEvent.value])
      simp [this]
    cases hnx : h.evNext (.cls v) with
    | none => simp only [hstep pins Iff.rfl, hpinseq]
    | some e => simp only [hstep _ (hpin2 e hnx), hpinseq]
/-- The loop dismantles all children of a node. -/
theorem drop_listK {k : Nat} : ∀ (cs : List (RTree NodeId)) {h : Heap α} {ch : NodeId → List NodeId}
    {p : NodeId} {keep pins : List NodeId} (f : Nat), DropShape h ch → HierL ch cs → (nodesL cs).Nodup →
    p ∉ nodesL cs → ch p = cs.map label → h.alive p = true → (∀ x ∈ nodesL cs, Fate h keep pins x) → Kept h ch p →
    Heap.dropLoop (k + 1) (f + 2 * (nodesL cs).length) pins (some (enter cs p)) h
      = Heap.dropLoop (k + 1) f pins (some (.cls p)) ((h.wipe (nodesL cs) keep).setFirst p none)
  | [], h, ch, p, keep, pins, f, S, hT, hnd, hp, hs, hpa, hq, hK => by
    have hf : h.firstChild p = none := by rw [S.first p hpa, hs]; rfl
    have : (h.wipe (nodesL []) keep).setFirst p none = h := by
      rw [nodesL, Heap.wipe_nil]
      simp only [Heap.setFirst]
      congr
      funext x
      simp only [upd_apply]
      split <;> simp_all
    rw [this]
    simp [nodesL, enter]
  | c :: cs, h, ch, p, keep, pins, f, S, hT, hnd, hp, hs, hpa, hq, hK => by
    simp only [HierL, nodesL, List.nodup_append, List.mem_append, not_or, List.map_cons,
      List.length_append] at hT hnd hp hs hq ⊢
    have hlen : f + 2 * (c.nodes.length + (nodesL cs).length)
        = (f + 2 * (nodesL cs).length) + 2 * c.nodes.length := by omega
    have hrest : ∀ x ∈ cs.map label, x ∉ c.nodes := fun x hx hx2 =>
      hnd.2.2 x hx2 x (label_mem_nodesL hx) rfl
    have hm : c.label ∈ ch p := by simp [hs]
    obtain ⟨_, hca, hpar⟩ := S.mem p c.label hm
    rw [hlen, enter, drop_treeK c (f + 2 * (nodesL cs).length) S hT.1 hnd.1 hp.1 hs hrest
      (fun x hx => hq x (.inl hx)) hK]
    have hev : h.evNext (.cls c.label) = some (enter cs p) := by
      simp only [Heap.evNext, Heap.nextLink, S.next_at (l1 := []) (by simpa using hs),
        Heap.parentLink, hpar]
      cases cs with
      | nil => simp [Heap.upgrade, Option.filter, hpa, enter]
      | cons d ds => simp [enter]
    have S1 : DropShape ((h.wipe c.nodes keep).setFirst p (cs.map label).head?)
        (fun x => if x ∈ c.nodes then [] else upd ch p (cs.map label) x) := by
      apply S.wipe (a := [c.label]) (rest := cs.map label) hp.1 (by simp [hs])
      · intro x hx; simp only [List.mem_singleton] at hx; subst hx; exact label_mem_nodes c
      · exact hrest
      · intro x hx y hy; exact Hier.closed c hT.1 x y hx hy
      · intro q hqA hqv y hy hyA
        rcases Hier.parent_in hT.1 hyA with h1 | ⟨z, hz, hyz⟩
        · subst h1; exact hqv (S.unique hy hm)
        · exact hqA (S.unique hy hyz ▸ hz)
    rw [hev, drop_listK cs f S1 ?_ hnd.2.1 hp.2 ?_ ?_ ?_ ?_]
    · rw [wipe_append hp.1 hp.2]
    · refine HierL.congr ?_ hT.2
      intro x hx
      have h1 : x ∉ c.nodes := fun h2 => hnd.2.2 x h2 x hx rfl
      have h2 : x ≠ p := by rintro rfl; exact hp.2 hx
      simp [h1, h2]
    · simp [hp.1]
    · have : ((h.wipe c.nodes keep).setFirst p (cs.map label).head?).alive p
        = (h.wipe c.nodes keep).alive p := rfl
      rw [this, Heap.wipe_alive]; simp [hp.1, hpa]
    · intro x hx; exact (hq x (.inr hx)).wipe
    · exact hK.wipe (a := [c.label]) (by simp [hs])
        (by intro x hx; simp only [List.mem_singleton] at hx; subst hx; exact label_mem_nodes c) hp.1
        (fun x hx y hy => Hier.closed c hT.1 x y hx hy)
end

/-- Destruction of a tree core whose root has no parent and whose nodes nobody else refers to: all
nodes of the tree are freed (those in `pins` when their local variable goes away), nothing else
changes. -/
theorem dropTree_keep {k : Nat} (S : DropShape h ch) {r : NodeId} {T : RTree NodeId} {keep pins : List NodeId}
    (ht : t < h.nTree) (hr : h.root t = some r) (hra : h.alive r = true) (hrp : h.parent r = none)
    (hT : SubtreeAt ch r T) (hnd : T.nodes.Nodup) (hlen : T.nodes.length ≤ h.nNode)
    (hq : ∀ x ∈ T.nodes, x ≠ r → Fate h keep pins x)
    (hqm : (r ∈ keep ∧ (r ∈ pins ∨ IsStrong h r)) ∨
      (r ∉ keep ∧ r ∉ pins ∧ (∀ u rc l, h.mem r ≠ .strong u rc l) ∧ ∀ u, u ≠ t → h.root u ≠ some r)) :
    Heap.dropTreeWith (k + 1) h pins t = .ok (((h.wipe T.nodes keep).setRoot t none).setGrants t 0) := by
  obtain ⟨rfl, hH⟩ := hT
  cases T with
  | node v cs =>
    simp only [Hier, nodes, label, List.nodup_cons, List.mem_cons, List.length_cons] at *
    have hnv : h.next v = none := by
      cases hn : h.next v with
      | none => rfl
      | some d =>
        obtain ⟨q, hvq, _⟩ := S.nextRef v d hra hn
        rw [(S.mem q v hvq).2.2] at hrp; simp at hrp
    have hnq : ∀ q, v ∉ ch q := by
      intro q hvq; rw [(S.mem q v hvq).2.2] at hrp; simp at hrp
    have hqL : ∀ x ∈ nodesL cs, Fate h keep pins x := by
      intro x hx
      exact hq x (.inr hx) (by rintro rfl; exact hnd.1 hx)
    unfold Heap.dropTreeWith
    simp only [hr]
    -- the loop
    obtain ⟨f, hf⟩ : ∃ f, h.dropFuel = (f + 1 + 2 * (nodesL cs).length) + 1 := by
      refine ⟨h.dropFuel - 2 - 2 * (nodesL cs).length, ?_⟩
      simp only [Heap.dropFuel]; omega
    have hev : h.evNext (.opn v) = some (enter cs v) := by
      simp only [Heap.evNext, Heap.firstChildLink, S.first v hra, ← hH.1]
      cases cs <;> rfl
    have S1 : DropShape ((h.wipe (nodesL cs) keep).setFirst v none)
        (fun x => if x ∈ nodesL cs then [] else upd ch v [] x) := by
      apply S.wipe (a := ch v) (rest := []) hnd.1 (by simp)
      · intro x hx; rw [← hH.1] at hx; exact label_mem_nodesL hx
      · simp
      · intro x hx c hc; exact HierL.closed cs hH.2 x c hx hc
      · intro q hqA hqv c hc hcA
        rcases HierL.parent_in hH.2 hcA with h1 | ⟨y, hy, hcy⟩
        · rw [hH.1] at h1; exact hqv (S.unique hc h1)
        · exact hqA (S.unique hc hcy ▸ hy)
    obtain ⟨h1, hh1⟩ : ∃ h1, h1 = (h.wipe (nodesL cs) keep).setFirst v none := ⟨_, rfl⟩
    rw [← hh1] at S1
    have hmem1 : h1.mem v = h.mem v := by rw [hh1]; simp [Heap.setFirst, Heap.wipe, hnd.1]
    have hal1 : h1.alive v = true := by
      have : h1.alive v = (h.wipe (nodesL cs) keep).alive v := by rw [hh1]; rfl
      rw [this, Heap.wipe_alive]; simp [hnd.1, hra]
    have hpl1 : h1.parentLink v = none := by
      rw [hh1]; simp [Heap.parentLink, Heap.setFirst, Heap.wipe, hnd.1, hrp, Heap.upgrade]
    have hnx1 : h1.next v = none := by rw [hh1]; simp [Heap.setFirst, Heap.wipe, hnd.1, hnv]
    have hfc1 : h1.firstChild v = none := by rw [hh1]; simp [Heap.setFirst]
    have hro1 : h1.root = h.root := by rw [hh1]; rfl
    have hnT1 : h1.nTree = h.nTree := by rw [hh1]; rfl
    have hnc1 : ∀ q, v ∉ (if q ∈ nodesL cs then [] else upd ch v [] q) := by
      intro q
      split
      · simp
      · simp only [upd_apply]
        split
        · simp
        · exact hnq q
    -- closing the root does nothing: the tree core still refers to it
    · have href : h1.referenced v = true :=
        referenced_iff.2 (.inr (.inl ⟨t, by rw [hnT1]; exact ht, by rw [hro1]; exact hr⟩))
      have hloop : Heap.dropLoop (k + 1) h.dropFuel pins (some (.opn v)) h = .ok h1 := by
        rw [hf]
        have hKv : Kept h ch v := .inl ⟨t, ht, hr⟩
        simp only [Heap.dropLoop, hev, release_referenced (hKv.referenced S)]
        rw [drop_listK cs (f + 1) S hH.2 hnd.2 hnd.1 hH.1.symm hra hqL hKv, ← hh1]
        have hev1 : h1.evNext (.cls v) = none := by
          simp [Heap.evNext, Heap.nextLink, hnx1, hpl1]
        simp only [Heap.dropLoop, hev1, Heap.dropStep, hpl1, release_referenced href]
      rw [hloop]
      simp only
      have hkeep : v ∈ keep → (.ok ((h1.setRoot t none).setGrants t 0) : Except Fault (Heap α))
          = .ok (((h.wipe (v :: nodesL cs) keep).setRoot t none).setGrants t 0) := by
        intro hk
        rw [hh1]
        congr 1
        simp only [Heap.wipe, Heap.setFirst, Heap.setRoot, Heap.setGrants, List.mem_cons]
        congr 1 <;> funext x <;> by_cases e : x = v <;> simp [e, hk, hnd.1, upd_apply, hnv]
      rcases hqm with ⟨hk, hpin | ⟨u, rc, l, hst⟩⟩ | ⟨hk, hpin, hqm, hqr⟩
      · rw [release_pinned hpin]; exact hkeep hk
      · rw [release_referenced (IsStrong.referenced ⟨u, rc, l, by
          have : ((h1.setRoot t none).setGrants t 0).mem v = h1.mem v := rfl
          rw [this, hmem1]; exact hst⟩)]
        exact hkeep hk
      · have hnref : ((h1.setRoot t none).setGrants t 0).referenced v = false := by
          rw [Bool.eq_false_iff]
          intro hrf
          rcases referenced_iff.1 hrf with ⟨u, rc, l, hm⟩ | ⟨u, _, hrr⟩ | ⟨m, _, hm, hrr⟩
          · have : ((h1.setRoot t none).setGrants t 0).mem v = h1.mem v := rfl
            rw [this, hmem1] at hm; exact hqm u rc l hm
          · simp only [Heap.setRoot, Heap.setGrants, upd_apply] at hrr
            by_cases e : u = t
            · simp [e] at hrr
            · simp only [e, if_false, hro1] at hrr; exact hqr u e hrr
          · have hm' : h1.alive m = true := hm
            have hrr' : h1.firstChild m = some v ∨ h1.next m = some v := hrr
            rcases hrr' with hrr | hrr
            · rw [S1.first m hm'] at hrr
              exact hnc1 m (List.mem_of_mem_head? hrr)
            · obtain ⟨q, _, h2⟩ := S1.nextRef m v hm' hrr
              exact hnc1 q h2
        rw [release_leaf (h := (h1.setRoot t none).setGrants t 0) hal1 hnref hpin hfc1 hnx1]
        rw [hh1]
        congr 1
        simp only [Heap.wipe, Heap.setFirst, Heap.setRoot, Heap.setGrants, Heap.kill, List.mem_cons]
        congr 1 <;> funext x <;> by_cases e : x = v <;> simp [e, hk, hnd.1, upd_apply]

end Dendron
