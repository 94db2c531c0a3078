import Verif.Proofs.Seg

/-! Getters of a well-formed hierarchy. -/

set_option autoImplicit false

namespace Dendron
variable {α : Type} {h : Heap α} {ch : NodeId → List NodeId}

namespace FShape

theorem alive_of_mem (S : FShape h ch) {p c : NodeId} (hc : c ∈ ch p) : h.alive c = true :=
  ((S.mem p c).1 hc).1

theorem parent_of_mem (S : FShape h ch) {p c : NodeId} (hc : c ∈ ch p) : h.parent c = some p :=
  ((S.mem p c).1 hc).2

theorem alive_parent (S : FShape h ch) {p c : NodeId} (hc : c ∈ ch p) : h.alive p = true := by
  cases hp : h.alive p with
  | true => rfl
  | false => rw [S.dead p hp] at hc; simp at hc

theorem mem_of_parent (S : FShape h ch) {p c : NodeId} (ha : h.alive c = true)
    (hp : h.parent c = some p) : c ∈ ch p := (S.mem p c).2 ⟨ha, hp⟩

theorem parentLink (S : FShape h ch) {c : NodeId} (ha : h.alive c = true) :
    h.parentLink c = h.parent c := by
  unfold Heap.parentLink Heap.upgrade
  cases hp : h.parent c with
  | none => rfl
  | some p =>
    have := S.alive_parent (S.mem_of_parent ha hp)
    simp [Option.filter, this]

theorem isRoot_iff (S : FShape h ch) {c : NodeId} (ha : h.alive c = true) :
    h.isRoot c = true ↔ h.parent c = none := by
  simp [Heap.isRoot, S.parentLink ha]

theorem isRoot_false (S : FShape h ch) {p c : NodeId} (hc : c ∈ ch p) : h.isRoot c = false := by
  simp [Heap.isRoot, S.parentLink (S.alive_of_mem hc), S.parent_of_mem hc]

theorem unique_parent (S : FShape h ch) {p q c : NodeId} (hc : c ∈ ch p) (hc' : c ∈ ch q) :
    p = q := by
  have := S.parent_of_mem hc
  rw [S.parent_of_mem hc'] at this
  simpa using this.symm

theorem not_self (S : FShape h ch) {p : NodeId} : p ∉ ch p := by
  obtain ⟨ht, hh⟩ := S.acyc
  intro hp
  exact Nat.lt_irrefl _ (hh p p hp)

theorem next_at (S : FShape h ch) {p n : NodeId} {l1 l2 : List NodeId}
    (hs : ch p = l1 ++ n :: l2) : h.next n = l2.head? := by
  have := S.seg p
  rw [hs] at this
  simpa using this.at

theorem fresh_not_alive (S : FShape h ch) : h.alive h.nNode = false := by
  cases hp : h.alive h.nNode with
  | false => rfl
  | true => exact absurd (S.bound _ hp) (Nat.lt_irrefl _)

theorem not_mem_dead (S : FShape h ch) {p c : NodeId} (hc : h.alive c = false) : c ∉ ch p := by
  intro hm
  rw [S.alive_of_mem hm] at hc
  simp at hc

end FShape

namespace Shape

theorem prevCyc_at (S : Shape h ch) {p n : NodeId} {l1 l2 : List NodeId}
    (hs : ch p = l1 ++ n :: l2) :
    h.prevCyc n = l1.getLast?.or (n :: l2).getLast? := by
  have := S.back.pseg p
  rw [hs] at this
  have h2 := this.at
  rw [h2]
  cases hl : l1.getLast? with
  | some x => simp
  | none =>
    have : l1 = [] := by simpa using hl
    subst this
    simp

theorem prevCycLink_at (S : Shape h ch) {p n : NodeId} {l1 l2 : List NodeId}
    (hs : ch p = l1 ++ n :: l2) :
    h.prevCycLink n = .ok ((l1.getLast?.or (n :: l2).getLast?).getD n) := by
  unfold Heap.prevCycLink
  rw [S.prevCyc_at hs]
  obtain ⟨x, hx⟩ : ∃ x, l1.getLast?.or (n :: l2).getLast? = some x := by
    cases hl : l1.getLast? with
    | some x => exact ⟨x, by simp⟩
    | none => exact ⟨_, by simp [List.getLast?_eq_some_getLast (List.cons_ne_nil n l2)]; rfl⟩
  have hmem : x ∈ ch p := by
    rw [hs]
    cases hl : l1.getLast? with
    | some y =>
      rw [hl] at hx
      simp at hx
      subst hx
      exact List.mem_append_left _ (List.mem_of_getLast? hl)
    | none =>
      rw [hl] at hx
      simp only [Option.none_or] at hx
      exact List.mem_append_right _ (List.mem_of_getLast? hx)
  rw [hx]
  simp [Heap.upgrade, Option.filter, S.alive_of_mem hmem]

theorem prevCycLink_first (S : Shape h ch) {p n : NodeId} {l2 : List NodeId}
    (hs : ch p = n :: l2) : h.prevCycLink n = .ok ((n :: l2).getLast (List.cons_ne_nil _ _)) := by
  rw [S.prevCycLink_at (l1 := []) (l2 := l2) (by simpa using hs)]
  simp [List.getLast?_eq_some_getLast]

theorem prevCycLink_mid (S : Shape h ch) {p n x : NodeId} {l1 l2 : List NodeId}
    (hs : ch p = (l1 ++ [x]) ++ n :: l2) : h.prevCycLink n = .ok x := by
  rw [S.prevCycLink_at hs]
  simp

theorem prevLink_at (S : Shape h ch) {p n : NodeId} {l1 l2 : List NodeId}
    (hs : ch p = l1 ++ n :: l2) : h.prevLink n = .ok l1.getLast? := by
  unfold Heap.prevLink
  rcases List.eq_nil_or_concat l1 with rfl | ⟨l, x, rfl⟩
  · rw [S.prevCycLink_first (by simpa using hs)]
    have hx : ch p = (n :: l2).dropLast ++ (n :: l2).getLast (List.cons_ne_nil _ _) :: [] := by
      rw [List.dropLast_concat_getLast]; simpa using hs
    have := S.next_at hx
    simp [bind, Except.bind, this, pure, Except.pure]
  · rw [List.concat_eq_append] at hs ⊢
    rw [S.prevCycLink_mid hs]
    have hx : ch p = l ++ x :: (n :: l2) := by simp [hs]
    have := S.next_at hx
    simp [bind, Except.bind, this, pure, Except.pure]

theorem isFirst_at (S : Shape h ch) {p n : NodeId} {l1 l2 : List NodeId}
    (hs : ch p = l1 ++ n :: l2) : h.isFirstSibling n = .ok l1.isEmpty := by
  unfold Heap.isFirstSibling Heap.isLastSibling
  rcases List.eq_nil_or_concat l1 with rfl | ⟨l, x, rfl⟩
  · rw [S.prevCycLink_first (by simpa using hs)]
    have hx : ch p = (n :: l2).dropLast ++ (n :: l2).getLast (List.cons_ne_nil _ _) :: [] := by
      rw [List.dropLast_concat_getLast]; simpa using hs
    have := S.next_at hx
    simp [bind, Except.bind, this, pure, Except.pure]
  · rw [List.concat_eq_append] at hs ⊢
    rw [S.prevCycLink_mid hs]
    have hx : ch p = l ++ x :: (n :: l2) := by simp [hs]
    have := S.next_at hx
    simp [bind, Except.bind, this, pure, Except.pure]

theorem root_prevCycLink (S : Shape h ch) {n : NodeId} (ha : h.alive n = true)
    (hp : h.parent n = none) : h.prevCycLink n = .ok n := by
  unfold Heap.prevCycLink
  rw [S.back.rootPrev n ha hp]
  simp [Heap.upgrade, Option.filter, ha]

theorem root_prevLink (S : Shape h ch) {n : NodeId} (ha : h.alive n = true)
    (hp : h.parent n = none) : h.prevLink n = .ok none := by
  unfold Heap.prevLink
  rw [S.root_prevCycLink ha hp]
  simp [bind, Except.bind, S.rootNext n ha hp, pure, Except.pure]

theorem firstLast_nil (S : Shape h ch) {p : NodeId} (ha : h.alive p = true) (hs : ch p = []) :
    h.firstLastChildLink p = .ok none := by
  unfold Heap.firstLastChildLink Heap.firstChildLink
  rw [S.first p ha, hs]; rfl

theorem firstLast_cons (S : Shape h ch) {p f : NodeId} {l : List NodeId}
    (hs : ch p = f :: l) :
    h.firstLastChildLink p = .ok (some (f, (f :: l).getLast (List.cons_ne_nil _ _))) := by
  have ha : h.alive p = true := S.alive_parent (p := p) (c := f) (by simp [hs])
  unfold Heap.firstLastChildLink Heap.firstChildLink
  rw [S.first p ha, hs]
  simp only [List.head?_cons]
  rw [S.prevCycLink_first hs]
  rfl

end Shape
end Dendron
