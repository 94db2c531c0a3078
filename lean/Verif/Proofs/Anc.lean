import Verif.Proofs.Splice
import Verif.Proofs.Loose

/-! Ancestor paths. -/

set_option autoImplicit false

namespace Dendron
variable {α : Type} {h h' : Heap α} {ch : NodeId → List NodeId} {n p : NodeId}

theorem nodup_length_le : ∀ (N : Nat) (l : List Nat), l.Nodup → (∀ x ∈ l, x < N) → l.length ≤ N
  | 0, l, _, hb => by
    cases l with
    | nil => simp
    | cons a l => exact absurd (hb a (by simp)) (by omega)
  | N + 1, l, hn, hb => by
    have ih := nodup_length_le N (l.erase N) (hn.erase N) (by
      intro x hx
      have hx' := (List.Nodup.mem_erase_iff hn).1 hx
      have := hb x hx'.2
      have := hx'.1
      omega)
    have := @List.length_erase Nat _ _ N l
    split at this <;> omega

theorem exists_rank_bound (ht : Nat → Nat) (N : Nat) : ∃ H, ∀ n, n < N → ht n ≤ H := by
  induction N with
  | zero => exact ⟨0, by intro n hn; omega⟩
  | succ N ih =>
    obtain ⟨H, hH⟩ := ih
    refine ⟨max H (ht N), ?_⟩
    intro n hn
    by_cases e : n = N
    · subst e; omega
    · have := hH n (by omega); omega

theorem AncPath.unique {l l' : List NodeId} (S : FShape h ch) (h1 : AncPath ch n l)
    (h2 : AncPath ch n l') : l = l' := by
  induction h1 generalizing l' with
  | root hr =>
    cases h2 with
    | root => rfl
    | step hm _ => exact absurd hm (hr _)
  | step hm _ ih =>
    cases h2 with
    | root hr => exact absurd hm (hr _)
    | step hm' h' =>
      have := S.unique_parent hm hm'
      subst this
      rw [ih h']

theorem FShape.exists_anc (S : FShape h ch) (ha : h.alive n = true) : ∃ l, AncPath ch n l := by
  obtain ⟨ht, hh⟩ := S.acyc
  obtain ⟨H, hH⟩ := exists_rank_bound ht h.nNode
  suffices ∀ k n, h.alive n = true → H - ht n ≤ k → ∃ l, AncPath ch n l from
    this _ n ha (Nat.le_refl _)
  intro k
  induction k with
  | zero =>
    intro n hn hk
    cases hp : h.parent n with
    | none => exact ⟨[], .root (S.not_mem_of_root hp)⟩
    | some p =>
      have hm := S.mem_of_parent hn hp
      have h1 := hh p n hm
      have h2 := hH p (S.bound p (S.alive_parent hm))
      omega
  | succ k ih =>
    intro n hn hk
    cases hp : h.parent n with
    | none => exact ⟨[], .root (S.not_mem_of_root hp)⟩
    | some p =>
      have hm := S.mem_of_parent hn hp
      have h1 := hh p n hm
      have h2 := hH p (S.bound p (S.alive_parent hm))
      obtain ⟨l, hl⟩ := ih p (S.alive_parent hm) (by omega)
      exact ⟨p :: l, .step hm hl⟩

theorem AncPath.alive (S : FShape h ch) {l : List NodeId} (h1 : AncPath ch n l) :
    ∀ x ∈ l, h.alive x = true := by
  induction h1 with
  | root => simp
  | step hm _ ih =>
    intro x hx
    rcases List.mem_cons.1 hx with rfl | hx
    · exact S.alive_parent hm
    · exact ih x hx

theorem AncPath.rank {ht : NodeId → Nat} (hh : ∀ p c, c ∈ ch p → ht c < ht p) {l : List NodeId}
    (h1 : AncPath ch n l) : ∀ x ∈ l, ht n < ht x := by
  induction h1 with
  | root => simp
  | step hm _ ih =>
    intro x hx
    have := hh _ _ hm
    rcases List.mem_cons.1 hx with rfl | hx
    · exact this
    · exact Nat.lt_trans this (ih x hx)

theorem AncPath.nodup (S : FShape h ch) {l : List NodeId} (h1 : AncPath ch n l) :
    (n :: l).Nodup := by
  obtain ⟨ht, hh⟩ := S.acyc
  induction h1 with
  | root => simp
  | step hm h1 ih =>
    rw [List.nodup_cons]
    refine ⟨?_, ih⟩
    intro hx
    exact Nat.lt_irrefl _ (AncPath.rank hh (.step hm h1) _ hx)

theorem AncPath.length_lt (S : FShape h ch) {l : List NodeId} (ha : h.alive n = true)
    (h1 : AncPath ch n l) : l.length < h.nNode := by
  have := nodup_length_le h.nNode (n :: l) (h1.nodup S) (by
    intro x hx
    rcases List.mem_cons.1 hx with rfl | hx
    · exact S.bound _ ha
    · exact S.bound _ (h1.alive S x hx))
  simp at this
  omega

theorem AncPath.parentLink_nil (S : FShape h ch) (ha : h.alive n = true)
    (h1 : AncPath ch n []) : h.parentLink n = none := by
  rw [S.parentLink ha]
  cases hp : h.parent n with
  | none => rfl
  | some p =>
    cases h1 with
    | root hr => exact absurd (S.mem_of_parent ha hp) (hr p)

theorem AncPath.parentLink_cons (S : FShape h ch) {l : List NodeId}
    (h1 : AncPath ch n (p :: l)) : h.parentLink n = some p := by
  cases h1 with
  | step hm _ => rw [S.parentLink (S.alive_of_mem hm), S.parent_of_mem hm]

/-- The ancestors of a node are the nodes it descends from. -/
theorem AncPath.mem_iff (S : FShape h ch) {l : List NodeId} (h1 : AncPath ch p l) :
    (n = p ∨ n ∈ l) ↔ Desc ch n p := by
  constructor
  · intro hx
    induction h1 with
    | root =>
      rcases hx with rfl | hx
      · exact .refl _
      · simp at hx
    | step hm _ ih =>
      rcases hx with rfl | hx
      · exact .refl _
      · exact .step (ih (List.mem_cons.1 hx)) hm
  · intro hd
    induction hd generalizing l with
    | refl => exact .inl rfl
    | step _ hm ih =>
      cases h1 with
      | root hr => exact absurd hm (hr _)
      | step hm' h' =>
        have := S.unique_parent hm hm'
        subst this
        rcases ih h' with e | e
        · right; rw [e]; exact List.mem_cons_self
        · right; exact List.mem_cons_of_mem _ e

theorem isAncestorLoop_spec (S : FShape h ch) {l : List NodeId} (ha : h.alive p = true)
    (h1 : AncPath ch p l) : ∀ f, l.length < f →
    h.isAncestorLoop n f (some p) = .ok (decide (n = p ∨ n ∈ l)) := by
  induction h1 with
  | root hr =>
    intro f hf
    obtain ⟨f, rfl⟩ : ∃ k, f = k + 1 := ⟨f - 1, by simp at hf; omega⟩
    unfold Heap.isAncestorLoop
    rw [AncPath.parentLink_nil S ha (.root hr)]
    split
    · simp_all
    · unfold Heap.isAncestorLoop; simp_all
  | @step a q l hm h1 ih =>
    intro f hf
    obtain ⟨f, rfl⟩ : ∃ k, f = k + 1 := ⟨f - 1, by simp at hf; omega⟩
    unfold Heap.isAncestorLoop
    rw [AncPath.parentLink_cons S (.step hm h1)]
    split
    · simp_all
    · rw [ih (S.alive_parent hm) f (by simpa using hf)]
      simp_all

open Classical in
theorem isAncestorOf_spec (S : FShape h ch) (ha : h.alive p = true) :
    h.isAncestorOf n p = .ok (decide (Desc ch n p)) := by
  obtain ⟨l, hl⟩ := S.exists_anc ha
  unfold Heap.isAncestorOf
  rw [isAncestorLoop_spec S ha hl _ (by have := hl.length_lt S ha; omega)]
  congr 1
  have := hl.mem_iff (n := n) S
  simp [← this]

end Dendron
