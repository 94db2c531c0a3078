import Verif.Proofs.Anc
import Verif.Spec.RTree

/-! Rose trees of a hierarchy. -/

set_option autoImplicit false

namespace Dendron
open RTree
variable {α β γ : Type} {h h' : Heap α} {ch ch' : NodeId → List NodeId} {n p : NodeId}

theorem HierL_iff {cs : List (RTree NodeId)} : HierL ch cs ↔ ∀ c ∈ cs, Hier ch c := by
  induction cs with
  | nil => simp [HierL]
  | cons c cs ih => simp [HierL, ih]

theorem eventsL_eq (cs : List (RTree β)) : eventsL cs = cs.flatMap events := by
  induction cs with
  | nil => simp [eventsL]
  | cons c cs ih => simp [eventsL, ih]

theorem nodesL_eq (cs : List (RTree β)) : nodesL cs = cs.flatMap nodes := by
  induction cs with
  | nil => simp [nodesL]
  | cons c cs ih => simp [nodesL, ih]

theorem mapL_eq (f : β → γ) (cs : List (RTree β)) : mapL f cs = cs.map (map f) := by
  induction cs with
  | nil => simp [mapL]
  | cons c cs ih => simp [mapL, ih]

theorem label_mem_nodes (t : RTree β) : t.label ∈ t.nodes := by
  cases t; simp [label, nodes]

theorem nodes_ne_nil (t : RTree β) : t.nodes ≠ [] := by
  cases t; simp [nodes]

theorem events_ne_nil (t : RTree β) : t.events ≠ [] := by
  cases t; simp [events]

theorem events_head (t : RTree β) : t.events.head? = some (.opn t.label) := by
  cases t; simp [events, label]

theorem events_last (t : RTree β) : t.events.getLast? = some (.cls t.label) := by
  cases t with
  | node v cs =>
    rw [events, ← List.cons_append, List.getLast?_append]; simp [label]

mutual
theorem events_length : ∀ t : RTree β, t.events.length = 2 * t.nodes.length
  | .node v cs => by
    have := eventsL_length cs
    simp [events, nodes]; omega
theorem eventsL_length : ∀ cs : List (RTree β), (eventsL cs).length = 2 * (nodesL cs).length
  | [] => by simp [eventsL, nodesL]
  | c :: cs => by
    have h1 := events_length c
    have h2 := eventsL_length cs
    simp [eventsL, nodesL]; omega
end

/-- Existence of the subtree at a node. -/
theorem FShape.exists_subtree (S : FShape h ch) (n : NodeId) : ∃ t, SubtreeAt ch n t := by
  obtain ⟨ht, hh⟩ := S.acyc
  suffices ∀ k n, ht n < k → ∃ t, SubtreeAt ch n t from this _ n (Nat.lt_succ_self _)
  intro k
  induction k with
  | zero => intro n hn; omega
  | succ k ih =>
    intro n hn
    have : ∀ l : List NodeId, (∀ c ∈ l, c ∈ ch n) →
        ∃ cs : List (RTree NodeId), cs.map RTree.label = l ∧ HierL ch cs := by
      intro l
      induction l with
      | nil => intro _; exact ⟨[], by simp [HierL]⟩
      | cons c l ihl =>
        intro hl
        obtain ⟨cs, h1, h2⟩ := ihl (fun x hx => hl x (List.mem_cons_of_mem _ hx))
        have := hh n c (hl c List.mem_cons_self)
        obtain ⟨t, ht1, ht2⟩ := ih c (by omega)
        exact ⟨t :: cs, by simp [ht1, h1], by simp [HierL, ht2, h2]⟩
    obtain ⟨cs, h1, h2⟩ := this (ch n) (fun _ hc => hc)
    exact ⟨.node n cs, rfl, by simp [Hier, h1, h2]⟩

mutual
/-- The subtree at a node is unique. -/
theorem Hier.unique : ∀ t u : RTree NodeId, Hier ch t → Hier ch u → t.label = u.label → t = u
  | .node v cs, .node w ds, ht, hu, he => by
    simp only [label] at he
    subst he
    simp only [Hier] at ht hu
    rw [HierL.unique cs ds ht.2 hu.2 (ht.1.trans hu.1.symm)]
theorem HierL.unique : ∀ cs ds : List (RTree NodeId), HierL ch cs → HierL ch ds →
    cs.map label = ds.map label → cs = ds
  | [], [], _, _, _ => rfl
  | [], _ :: _, _, _, he => by simp at he
  | _ :: _, [], _, _, he => by simp at he
  | c :: cs, d :: ds, hc, hd, he => by
    simp only [List.map_cons, List.cons.injEq] at he
    rw [Hier.unique c d hc.1 hd.1 he.1, HierL.unique cs ds hc.2 hd.2 he.2]
end

theorem SubtreeAt.unique {t u : RTree NodeId} (h1 : SubtreeAt ch n t) (h2 : SubtreeAt ch n u) :
    t = u := Hier.unique t u h1.2 h2.2 (h1.1.trans h2.1.symm)

mutual
theorem Hier.mem_nodes : ∀ (t : RTree NodeId), Hier ch t → ∀ x, x ∈ t.nodes → Desc ch t.label x
  | .node v cs, ht, x, hx => by
    simp only [nodes, List.mem_cons] at hx
    rcases hx with rfl | hx
    · exact .refl _
    · simp only [Hier] at ht
      obtain ⟨c, hc, hd⟩ := HierL.mem_nodes cs ht.2 x hx
      have : c ∈ ch v := by rw [← ht.1]; exact hc
      exact (Desc.child this).trans hd
theorem HierL.mem_nodes : ∀ (cs : List (RTree NodeId)), HierL ch cs → ∀ x, x ∈ nodesL cs →
    ∃ c ∈ cs.map label, Desc ch c x
  | [], _, x, hx => by simp [nodesL] at hx
  | c :: cs, hc, x, hx => by
    simp only [nodesL, List.mem_append] at hx
    rcases hx with hx | hx
    · exact ⟨c.label, by simp, Hier.mem_nodes c hc.1 x hx⟩
    · obtain ⟨d, hd, h2⟩ := HierL.mem_nodes cs hc.2 x hx
      exact ⟨d, by simp only [List.map_cons]; exact List.mem_cons_of_mem _ hd, h2⟩
end

mutual
theorem Hier.closed : ∀ (t : RTree NodeId), Hier ch t → ∀ x y, x ∈ t.nodes → y ∈ ch x → y ∈ t.nodes
  | .node v cs, ht, x, y, hx, hy => by
    simp only [Hier] at ht
    simp only [nodes, List.mem_cons] at hx ⊢
    rcases hx with rfl | hx
    · right
      rw [← ht.1] at hy
      obtain ⟨c, hc, rfl⟩ := List.mem_map.1 hy
      rw [nodesL_eq]
      exact List.mem_flatMap.2 ⟨c, hc, label_mem_nodes c⟩
    · right; exact HierL.closed cs ht.2 x y hx hy
theorem HierL.closed : ∀ (cs : List (RTree NodeId)), HierL ch cs → ∀ x y, x ∈ nodesL cs →
    y ∈ ch x → y ∈ nodesL cs
  | [], _, x, y, hx, _ => by simp [nodesL] at hx
  | c :: cs, hc, x, y, hx, hy => by
    simp only [nodesL, List.mem_append] at hx ⊢
    rcases hx with hx | hx
    · exact .inl (Hier.closed c hc.1 x y hx hy)
    · exact .inr (HierL.closed cs hc.2 x y hx hy)
end

/-- The labels of the subtree are exactly the descendants. -/
theorem SubtreeAt.mem_nodes_iff {t : RTree NodeId} (ht : SubtreeAt ch n t) (x : NodeId) :
    x ∈ t.nodes ↔ Desc ch n x := by
  constructor
  · intro hx; rw [← ht.1]; exact Hier.mem_nodes t ht.2 x hx
  · intro hd
    induction hd with
    | refl => rw [← ht.1]; exact label_mem_nodes t
    | step _ hm ih => exact Hier.closed t ht.2 _ _ ih hm

/-- Descendants of different siblings are different. -/
theorem FShape.desc_disjoint (S : FShape h ch) {a b x : NodeId} (ha : Desc ch a x)
    (hb : Desc ch b x) : Desc ch a b ∨ Desc ch b a := by
  induction ha with
  | refl => exact .inr hb
  | step h1 hm ih =>
    cases hb with
    | refl => exact .inl (.step h1 hm)
    | step h2 hm2 =>
      have := S.unique_parent hm hm2
      subst this
      exact ih h2

theorem desc_rank {ht : NodeId → Nat} (hh : ∀ p c, c ∈ ch p → ht c < ht p) {a b : NodeId}
    (hd : Desc ch a b) : ht b ≤ ht a := by
  induction hd with
  | refl => exact Nat.le_refl _
  | step _ hm ih => have := hh _ _ hm; omega

theorem FShape.desc_sibling (S : FShape h ch) {a b : NodeId} (ha : a ∈ ch p) (hb : b ∈ ch p)
    (hd : Desc ch a b) : a = b := by
  obtain ⟨ht, hh⟩ := S.acyc
  cases hd with
  | refl => rfl
  | step h1 hm =>
    have := S.unique_parent hb hm
    subst this
    have h2 := desc_rank hh h1
    have h3 := hh _ _ ha
    omega

theorem FShape.desc_antisymm (S : FShape h ch) {a b : NodeId} (h1 : Desc ch a b)
    (h2 : Desc ch b a) : a = b := by
  obtain ⟨ht, hh⟩ := S.acyc
  cases h1 with
  | refl => rfl
  | step h1 hm =>
    have h3 := desc_rank hh h1
    have h4 := hh _ _ hm
    have h5 := desc_rank hh h2
    omega

mutual
theorem FShape.nodes_nodup (S : FShape h ch) : ∀ t : RTree NodeId, Hier ch t → t.nodes.Nodup
  | .node v cs, ht => by
    simp only [Hier] at ht
    simp only [nodes, List.nodup_cons]
    refine ⟨?_, FShape.nodesL_nodup S cs v ht.2 (by rw [ht.1]; exact S.nodup v) (by
      intro c hc; rw [ht.1] at hc; exact hc)⟩
    intro hv
    obtain ⟨c, hc, hd⟩ := HierL.mem_nodes cs ht.2 v hv
    rw [ht.1] at hc
    obtain ⟨rk, hh⟩ := S.acyc
    have h1 := desc_rank hh hd
    have h2 := hh _ _ hc
    omega
theorem FShape.nodesL_nodup (S : FShape h ch) : ∀ (cs : List (RTree NodeId)) (p : NodeId),
    HierL ch cs → (cs.map label).Nodup → (∀ c ∈ cs.map label, c ∈ ch p) → (nodesL cs).Nodup
  | [], _, _, _, _ => by simp [nodesL]
  | c :: cs, p, hc, hn, hm => by
    simp only [List.map_cons, List.nodup_cons] at hn
    simp only [nodesL, List.nodup_append]
    refine ⟨FShape.nodes_nodup S c hc.1, FShape.nodesL_nodup S cs p hc.2 hn.2
      (fun x hx => hm x (List.mem_cons_of_mem _ hx)), ?_⟩
    intro a ha b hb hab
    subst hab
    have h1 := Hier.mem_nodes c hc.1 a ha
    obtain ⟨d, hd, h2⟩ := HierL.mem_nodes cs hc.2 a hb
    have hcp : c.label ∈ ch p := hm _ (by simp)
    have hdp : d ∈ ch p := hm _ (by simp only [List.map_cons]; exact List.mem_cons_of_mem _ hd)
    have : c.label = d := by
      rcases S.desc_disjoint h1 h2 with h3 | h3
      · exact S.desc_sibling hcp hdp h3
      · exact (S.desc_sibling hdp hcp h3).symm
    rw [this] at hn
    exact hn.1 hd
end

theorem FShape.desc_alive (S : FShape h ch) {a b : NodeId} (ha : h.alive a = true)
    (hd : Desc ch a b) : h.alive b = true := by
  cases hd with
  | refl => exact ha
  | step _ hm => exact S.alive_of_mem hm

theorem SubtreeAt.nodup {t : RTree NodeId} (S : FShape h ch) (ht : SubtreeAt ch n t) :
    t.nodes.Nodup := S.nodes_nodup t ht.2

theorem SubtreeAt.size_le {t : RTree NodeId} (S : FShape h ch) (ha : h.alive n = true)
    (ht : SubtreeAt ch n t) : t.nodes.length ≤ h.nNode :=
  nodup_length_le _ _ (ht.nodup S) (fun x hx =>
    S.bound x (S.desc_alive ha ((ht.mem_nodes_iff x).1 hx)))

/-! ### Consecutive events -/

/-- Each event of the list is followed by the next one according to `DftEvent::next`. -/
def EvChain (nx : DftEvent NodeId → Option (DftEvent NodeId)) : List (DftEvent NodeId) → Prop
  | [] => True
  | [_] => True
  | a :: b :: l => nx a = some b ∧ EvChain nx (b :: l)

theorem EvChain.append {nx : DftEvent NodeId → Option (DftEvent NodeId)} :
    ∀ {l1 l2 : List (DftEvent NodeId)}, EvChain nx l1 → EvChain nx l2 →
    (∀ a b, l1.getLast? = some a → l2.head? = some b → nx a = some b) → EvChain nx (l1 ++ l2)
  | [], l2, _, h2, _ => by simpa using h2
  | [a], [], _, _, _ => by simp [EvChain]
  | [a], b :: l2, _, h2, h3 => by
    simp only [List.singleton_append, EvChain]
    exact ⟨h3 a b (by simp) (by simp), h2⟩
  | a :: b :: l1, l2, h1, h2, h3 => by
    simp only [List.cons_append, EvChain] at h1 ⊢
    refine ⟨h1.1, ?_⟩
    have := EvChain.append (l1 := b :: l1) (l2 := l2) h1.2 h2 (by
      intro x y hx hy
      exact h3 x y (by simpa [List.getLast?_cons_cons] using hx) hy)
    simpa using this

theorem evNext_leaf (S : FShape h ch) (ha : h.alive n = true) (hc : ch n = []) :
    h.evNext (.opn n) = some (.cls n) := by
  simp [Heap.evNext, Heap.firstChildLink, S.first n ha, hc]

theorem evNext_inner (S : FShape h ch) {c : NodeId} {l : List NodeId} (ha : h.alive n = true)
    (hc : ch n = c :: l) : h.evNext (.opn n) = some (.opn c) := by
  simp [Heap.evNext, Heap.firstChildLink, S.first n ha, hc]

theorem evNext_sib (S : FShape h ch) {a b : NodeId} {l1 l2 : List NodeId}
    (hc : ch p = l1 ++ a :: b :: l2) : h.evNext (.cls a) = some (.opn b) := by
  simp [Heap.evNext, Heap.nextLink, S.next_at hc]

theorem evNext_up (S : FShape h ch) {a : NodeId} {l1 : List NodeId}
    (hc : ch p = l1 ++ [a]) : h.evNext (.cls a) = some (.cls p) := by
  have hm : a ∈ ch p := by simp [hc]
  simp [Heap.evNext, Heap.nextLink, S.next_at hc, S.parentLink (S.alive_of_mem hm),
    S.parent_of_mem hm]

mutual
/-- The events of a subtree follow each other according to `DftEvent::next`. -/
theorem FShape.evChain (S : FShape h ch) : ∀ t : RTree NodeId, Hier ch t →
    h.alive t.label = true → EvChain h.evNext t.events
  | .node v cs, ht, ha => by
    simp only [Hier, label] at ht ha
    simp only [events]
    have := FShape.evChainL S cs v [] ht.2 (by simpa using ht.1.symm)
    cases cs with
    | nil =>
      simp only [eventsL, List.nil_append, EvChain]
      exact ⟨evNext_leaf S ha (by simpa using ht.1.symm), trivial⟩
    | cons c cs =>
      cases c with
      | node w ds =>
        simp only [eventsL, events, List.cons_append, EvChain] at this ⊢
        exact ⟨evNext_inner S ha (by simpa [label] using ht.1.symm), this⟩
theorem FShape.evChainL (S : FShape h ch) : ∀ (cs : List (RTree NodeId)) (p : NodeId)
    (l1 : List NodeId), HierL ch cs → ch p = l1 ++ cs.map label →
    EvChain h.evNext (eventsL cs ++ [.cls p])
  | [], _, _, _, _ => by simp [eventsL, EvChain]
  | c :: cs, p, l1, hc, hs => by
    simp only [List.map_cons] at hs
    have hm : c.label ∈ ch p := by rw [hs]; simp
    have h1 := FShape.evChain S c hc.1 (S.alive_of_mem hm)
    have h2 := FShape.evChainL S cs p (l1 ++ [c.label]) hc.2 (by simp [hs])
    simp only [eventsL, List.append_assoc]
    apply h1.append h2
    intro a b ha hb
    rw [events_last] at ha
    simp only [Option.some.injEq] at ha
    subst ha
    cases cs with
    | nil =>
      simp only [eventsL, List.nil_append, List.head?_cons, Option.some.injEq] at hb
      subst hb
      exact evNext_up S (by simpa using hs)
    | cons d ds =>
      simp only [eventsL, List.append_assoc] at hb
      rw [List.head?_append, events_head] at hb
      simp only [Option.some_or, Option.some.injEq] at hb
      subst hb
      exact evNext_sib S (by simpa using hs)
end

end Dendron
