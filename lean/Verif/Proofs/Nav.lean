import Verif.Spec.Nav
import Verif.Proofs.Rose

/-! Well-formed memories are navigated coherently. -/

set_option linter.unusedSimpArgs false
set_option linter.unusedVariables false

set_option autoImplicit false

namespace Dendron
variable {α : Type} {h : Heap α} {ch : NodeId → List NodeId}

theorem FShape.isRoot_top (S : FShape h ch) {c : NodeId} (ha : h.alive c = true) :
    h.isRoot c = true ↔ ∀ p, c ∉ ch p := by
  rw [S.isRoot_iff ha]
  constructor
  · intro hp; exact S.not_mem_of_root hp
  · intro hp
    cases hq : h.parent c with
    | none => rfl
    | some q => exact absurd (S.mem_of_parent ha hq) (hp q)

theorem FShape.parent_none (S : FShape h ch) {c : NodeId} (ha : h.alive c = true)
    (hp : ∀ p, c ∉ ch p) : h.parent c = none := (S.isRoot_iff ha).1 ((S.isRoot_top ha).2 hp)

theorem TreeWF.treeCore (W : TreeWF h) {n : NodeId} {t : TreeId} (ha : h.alive n = true)
    (ht : h.memTree n = some t) : h.treeCore n = .ok t := by
  obtain ⟨u, h1, h2⟩ := W.live n ha
  rw [ht] at h1; cases h1
  unfold Heap.memTree at ht
  unfold Heap.treeCore Heap.treeCoreOpt
  cases hm : h.mem n with
  | weak u =>
    simp only [hm] at ht
    subst ht
    simp [Option.filter, h2]
  | strong u rc l =>
    simp only [hm, Option.some.injEq] at ht
    subst ht; rfl

theorem TreeWF.treeCore_iff (W : TreeWF h) {n : NodeId} {t : TreeId} (ha : h.alive n = true) :
    h.treeCore n = .ok t ↔ h.memTree n = some t := by
  obtain ⟨u, h1, h2⟩ := W.live n ha
  rw [W.treeCore ha h1, h1]
  constructor
  · intro e; cases e; rfl
  · intro e; cases e; rfl

/-- Walking along a list. -/
theorem succCount_list {step : NodeId → Except Fault (Option NodeId)} :
    ∀ (l : List NodeId) (f : Nat), l.length ≤ f →
    (∀ l1 a l2, l = l1 ++ a :: l2 → step a = .ok l2.head?) →
    Heap.succCount step f l.head? = .ok l.length
  | [], f, _, _ => by cases f <;> rfl
  | a :: l, 0, hf, _ => by simp at hf
  | a :: l, f + 1, hf, hs => by
    simp only [List.length_cons] at hf
    have := succCount_list l f (by omega) (fun l1 x l2 e => hs (a :: l1) x l2 (by simp [e]))
    simp only [List.head?_cons, Heap.succCount, hs [] a l rfl, bind, Except.bind, pure, Except.pure,
      this, List.length_cons]

theorem FShape.length_le (S : FShape h ch) (p : NodeId) : (ch p).length ≤ h.nNode :=
  nodup_length_le _ _ (S.nodup p) (fun x hx => S.bound x (S.alive_of_mem hx))

theorem FShape.countChildren (S : FShape h ch) {p : NodeId} (ha : h.alive p = true) :
    h.countChildren p = .ok (ch p).length := by
  unfold Heap.countChildren Heap.firstChildLink
  rw [S.first p ha]
  exact succCount_list _ _ (by have := S.length_le p; omega)
    (fun l1 a l2 e => by simp [Heap.nextLink, S.next_at e])

theorem Shape.countPreceding (S : Shape h ch) {p c : NodeId} {l1 l2 : List NodeId}
    (hs : ch p = l1 ++ c :: l2) : h.countPreceding c = .ok l1.length := by
  unfold Heap.countPreceding
  rw [S.prevLink_at hs]
  simp only [bind, Except.bind]
  have hlen : l1.length ≤ h.nNode := by
    have := S.length_le p; rw [hs] at this; simp at this; omega
  have := succCount_list (step := h.prevLink) l1.reverse (h.nNode + 1) (by simp; omega) (by
    intro m1 a m2 e
    have e' : l1 = m2.reverse ++ a :: m1.reverse := by
      have := congrArg List.reverse e; simpa using this
    have := S.prevLink_at (p := p) (n := a) (l1 := m2.reverse) (l2 := m1.reverse ++ c :: l2)
      (by rw [hs, e']; simp)
    simpa using this)
  simpa using this

theorem FShape.countFollowing (S : FShape h ch) {p c : NodeId} {l1 l2 : List NodeId}
    (hs : ch p = l1 ++ c :: l2) : h.countFollowing c = .ok l2.length := by
  unfold Heap.countFollowing Heap.nextLink
  rw [S.next_at hs]
  refine succCount_list _ _ ?_ ?_
  · have := S.length_le p; rw [hs] at this; simp at this; omega
  · intro m1 a m2 e
    have := S.next_at (p := p) (n := a) (l1 := l1 ++ c :: m1) (l2 := m2) (by rw [hs, e]; simp)
    simp [this]

theorem AncPath.split {n : NodeId} : ∀ {l1 l2 : List NodeId} {a : NodeId},
    AncPath ch n (l1 ++ a :: l2) → AncPath ch a l2
  | [], l2, a, h1 => by cases h1; assumption
  | x :: l1, l2, a, h1 => by
    cases h1 with
    | step _ h2 => exact h2.split

theorem AncPath.parentLink (S : FShape h ch) {n : NodeId} {l : List NodeId}
    (ha : h.alive n = true) (h1 : AncPath ch n l) : h.parentLink n = l.head? := by
  cases l with
  | nil => simpa using h1.parentLink_nil S ha
  | cons p l => simpa using h1.parentLink_cons S

theorem FShape.countAncestors (S : FShape h ch) {n : NodeId} {l : List NodeId}
    (ha : h.alive n = true) (h1 : AncPath ch n l) : h.countAncestors n = .ok l.length := by
  unfold Heap.countAncestors
  rw [h1.parentLink S ha]
  refine succCount_list _ _ ?_ ?_
  · have := h1.length_lt S ha; omega
  · intro m1 a m2 e
    subst e
    rw [h1.split.parentLink S (h1.alive S a (by simp))]

theorem Shape.lastChildLink (S : Shape h ch) {p : NodeId} (ha : h.alive p = true) :
    h.lastChildLink p = .ok (ch p).getLast? := by
  unfold Heap.lastChildLink Heap.firstChildLink
  rw [S.first p ha]
  cases hc : ch p with
  | nil => rfl
  | cons f l =>
    simp only [List.head?_cons]
    rw [S.prevCycLink_first hc, List.getLast?_eq_some_getLast (List.cons_ne_nil _ _)]
    rfl

theorem Shape.hasPrev_at (S : Shape h ch) {p c : NodeId} {l1 l2 : List NodeId}
    (hs : ch p = l1 ++ c :: l2) : h.hasPrev c = .ok (!l1.isEmpty) := by
  have h1 := S.isFirst_at hs
  unfold Heap.isFirstSibling Heap.isLastSibling at h1
  unfold Heap.hasPrev
  cases hc : h.prevCycLink c with
  | error e => rw [hc] at h1; simp [bind, Except.bind] at h1
  | ok v =>
    rw [hc] at h1
    simp only [bind, Except.bind, pure, Except.pure, Except.ok.injEq] at h1 ⊢
    rw [← h1]
    cases h.next v <;> simp

/-- Well-formed memories are navigated coherently. -/
theorem WF.coherent (W : WF h ch) : Coherent h ch := by
  have S := W.toShape
  have hroot : ∀ c, h.alive c = true → h.nodeIsRoot c = .ok (h.isRoot c) := by
    intro c ha
    obtain ⟨t, h1, h2⟩ := W.tree.live c ha
    unfold Heap.nodeIsRoot
    rw [W.tree.treeCore ha h1]
    simp only [bind, Except.bind, pure, Except.pure]
    obtain ⟨r, hr⟩ := Option.isSome_iff_exists.1 h2
    unfold Heap.rootLink
    rw [hr]
    simp only
    have : h.isRoot c = (r == c) := by
      rw [Bool.eq_iff_iff, S.isRoot_iff ha, beq_iff_eq]
      constructor
      · intro hp
        have := W.tree.top c t ha hp h1
        rw [hr] at this; simpa using this
      · rintro rfl; exact (W.tree.root t _ hr).2.2
    simp [this]
  constructor
  · exact S.nodup
  · intro p q c h1 h2; exact S.unique_parent h1 h2
  · intro p c hc; exact ⟨S.alive_parent hc, S.alive_of_mem hc⟩
  · intro p c hc hd
    obtain ⟨ht, hh⟩ := S.acyc
    have h1 := desc_rank hh hd
    have h2 := hh _ _ hc
    omega
  · intro p c ha
    rw [S.parentLink ha]
    exact ⟨fun e => S.mem_of_parent ha e, fun e => S.parent_of_mem e⟩
  · intro c ha
    rw [hroot c ha, ← S.isRoot_top ha]
    simp
  · intro c ha; exact ⟨_, hroot c ha⟩
  · intro p ha; exact S.first p ha
  · intro p ha; exact S.lastChildLink ha
  · intro p ha
    cases hc : ch p with
    | nil => simpa using S.firstLast_nil ha hc
    | cons f l =>
      rw [S.firstLast_cons hc, List.getLast?_eq_some_getLast (List.cons_ne_nil _ _)]
      rfl
  · intro p l1 c l2 hs; exact S.next_at hs
  · intro p l1 c l2 hs; exact S.prevLink_at hs
  · intro p l1 c l2 hs
    simp only [Heap.hasNext, S.next_at hs]
    cases l2 <;> simp
  · intro p l1 c l2 hs; exact S.hasPrev_at hs
  · intro p l1 c l2 hs; exact S.isFirst_at hs
  · intro p l1 c l2 hs
    simp only [Heap.isLastSibling, S.next_at hs]
    cases l2 <;> simp
  · intro p c hc
    obtain ⟨l1, l2, hs⟩ := exists_split hc
    have ha := S.alive_of_mem hc
    have hp := S.alive_parent hc
    unfold Heap.firstSibling Heap.firstChildLink
    rw [S.parentLink ha, S.parent_of_mem hc]
    simp only [S.first p hp]
    cases hh : (ch p).head? with
    | none => rw [List.head?_eq_none_iff] at hh; rw [hh] at hc; simp at hc
    | some f => exact ⟨f, rfl, rfl⟩
  · intro p c hc
    have ha := S.alive_of_mem hc
    have hp := S.alive_parent hc
    unfold Heap.lastSibling
    rw [S.parentLink ha, S.parent_of_mem hc]
    simp only [S.lastChildLink hp, bind, Except.bind]
    cases hh : (ch p).getLast? with
    | none => rw [List.getLast?_eq_none_iff] at hh; rw [hh] at hc; simp at hc
    | some f => exact ⟨f, rfl, rfl⟩
  · intro p c hc
    have ha := S.alive_of_mem hc
    have hp := S.alive_parent hc
    unfold Heap.firstLastSibling
    rw [S.parentLink ha, S.parent_of_mem hc]
    cases hh : ch p with
    | nil => rw [hh] at hc; simp at hc
    | cons f l =>
      refine ⟨f, (f :: l).getLast (List.cons_ne_nil _ _), by simp,
        List.getLast?_eq_some_getLast (List.cons_ne_nil _ _), ?_⟩
      simp only [S.firstLast_cons hh, bind, Except.bind, pure, Except.pure]
  · intro c ha hp
    have hpn := S.parent_none ha hp
    have hn := S.rootNext c ha hpn
    have hc := S.root_prevCycLink ha hpn
    refine ⟨hn, S.root_prevLink ha hpn, ?_, ?_, ?_, ?_, ?_, ?_, ?_⟩
    · simp [Heap.hasNext, hn]
    · simp [Heap.hasPrev, hc, bind, Except.bind, pure, Except.pure, hn]
    · simp [Heap.isFirstSibling, Heap.isLastSibling, hc, bind, Except.bind, pure, Except.pure, hn]
    · simp [Heap.isLastSibling, hn]
    · simp [Heap.firstSibling, S.parentLink ha, hpn]
    · simp [Heap.lastSibling, S.parentLink ha, hpn]
    · simp [Heap.firstLastSibling, S.parentLink ha, hpn]

theorem WF.counts (W : WF h ch) : CountsExact h ch := by
  have S := W.toShape
  constructor
  · intro n ha; exact S.num n ha
  · intro n ha
    simp only [Heap.hasChildren, S.num n ha]
    cases ch n <;> simp
  · intro n ha; simp [Heap.hasOneChild, S.num n ha]
  · intro n ha; simp [Heap.hasMultipleChildren, S.num n ha]; omega
  · intro n ha; exact S.countChildren ha

theorem WF.positions (W : WF h ch) : PositionsExact h ch := by
  have S := W.toShape
  constructor
  · intro p l1 c l2 hs; exact S.countPreceding hs
  · intro p l1 c l2 hs; exact S.countFollowing hs
  · intro c ha hp
    have hpn := S.parent_none ha hp
    constructor
    · unfold Heap.countPreceding; rw [S.root_prevLink ha hpn]; rfl
    · unfold Heap.countFollowing Heap.nextLink; rw [S.rootNext c ha hpn]; rfl
  · intro n l ha hl; exact S.countAncestors ha hl
  · intro n ha; exact S.exists_anc ha

theorem WF.memTree_anc (W : WF h ch) {n : NodeId} {l : List NodeId} (h1 : AncPath ch n l) :
    ∀ x ∈ l, h.memTree x = h.memTree n := by
  induction h1 with
  | root => simp
  | @step n p l hm _ ih =>
    have := W.tree.child n p (W.alive_of_mem hm) (W.parent_of_mem hm)
    intro x hx
    rcases List.mem_cons.1 hx with rfl | hx
    · exact this.symm
    · rw [ih x hx, this]

theorem AncPath.last_top {n : NodeId} {l : List NodeId} (h1 : AncPath ch n l) :
    ∃ r, (n :: l).getLast? = some r ∧ (r = n ∨ r ∈ l) ∧ ∀ p, r ∉ ch p := by
  induction h1 with
  | @root n hn => exact ⟨n, by simp, .inl rfl, hn⟩
  | @step n p l hm _ ih =>
    obtain ⟨r, h1, h2, h3⟩ := ih
    refine ⟨r, by rw [List.getLast?_cons_cons]; exact h1, .inr ?_, h3⟩
    rcases h2 with rfl | h2
    · simp
    · exact List.mem_cons_of_mem _ h2

theorem WF.trees (W : WF h ch) : TreesAgree h ch := by
  have S := W.toShape
  have hrt : ∀ n l, h.alive n = true → AncPath ch n l →
      ∃ t r, h.memTree n = some t ∧ h.root t = some r ∧ (n :: l).getLast? = some r ∧
        h.alive r = true ∧ ∀ p, r ∉ ch p := by
    intro n l ha hl
    obtain ⟨r, h1, h2, h3⟩ := hl.last_top
    have har : h.alive r = true := by
      rcases h2 with rfl | h2
      · exact ha
      · exact hl.alive S.toFShape r h2
    obtain ⟨t, ht, hta⟩ := W.tree.live n ha
    have hmr : h.memTree r = some t := by
      rcases h2 with rfl | h2
      · exact ht
      · rw [W.memTree_anc hl r h2, ht]
    exact ⟨t, r, ht, W.tree.top r t har (S.parent_none har h3) hmr, h1, har, h3⟩
  have hnr : ∀ n t r, h.alive n = true → h.memTree n = some t → h.root t = some r →
      h.nodeRoot n = .ok r := by
    intro n t r ha ht hr
    simp only [Heap.nodeRoot, W.tree.treeCore ha ht, bind, Except.bind, Heap.rootLink, hr]
  have htc : ∀ n t, h.alive n = true → (h.nodeTree n = .ok t ↔ h.memTree n = some t) :=
    fun n t ha => W.tree.treeCore_iff ha
  constructor
  · intro n ha
    obtain ⟨l, hl⟩ := S.exists_anc ha
    obtain ⟨t, r, h1, h2, h3, h4, h5⟩ := hrt n l ha hl
    obtain ⟨_, hmr, _⟩ := W.tree.root t r h2
    exact ⟨t, r, (htc n t ha).2 h1, by simp [Heap.treeAlive, h2], hnr n t r ha h1 h2, h4, h5,
      (htc r t h4).2 hmr⟩
  · intro n m t ha hb h1 h2 h3 h4
    have e1 := W.tree.top n t ha (S.parent_none ha h3) ((htc n t ha).1 h1)
    have e2 := W.tree.top m t hb (S.parent_none hb h4) ((htc m t hb).1 h2)
    rw [e1] at e2; simpa using e2
  · intro n l ha hl
    obtain ⟨t, r, h1, h2, h3, h4, h5⟩ := hrt n l ha hl
    exact ⟨r, hnr n t r ha h1 h2, h3⟩
  · intro p c hc
    have ha := S.alive_of_mem hc
    have hp := S.alive_parent hc
    obtain ⟨t, h1, _⟩ := W.tree.live c ha
    have := W.tree.child c p ha (S.parent_of_mem hc)
    rw [(htc c t ha).2 h1, (htc p t hp).2 (by rw [← this, h1])]
  · intro n t ha
    rw [htc n t ha]
    simp [Heap.belongsTo]
  · intro n m ha hb
    obtain ⟨t, h1, _⟩ := W.tree.live n ha
    obtain ⟨u, h2, _⟩ := W.tree.live m hb
    rw [(htc n t ha).2 h1, (htc m u hb).2 h2]
    simp only [Heap.belongsToSameTree, h1, h2, Bool.or_eq_true, beq_iff_eq, Except.ok.injEq,
      Option.some.injEq]
    constructor
    · rintro (rfl | e)
      · rw [h1] at h2; simpa using h2
      · exact e
    · exact .inr
  · intro t r hr
    unfold Heap.rootLink at hr
    cases hh : h.root t with
    | none => rw [hh] at hr; simp at hr
    | some r' =>
      rw [hh] at hr
      simp only [Except.ok.injEq] at hr
      subst hr
      obtain ⟨h1, h2, h3⟩ := W.tree.root t r' hh
      exact ⟨h1, (htc r' t h1).2 h2, S.not_mem_of_root h3⟩

end Dendron
