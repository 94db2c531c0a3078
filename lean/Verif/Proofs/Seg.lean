import Verif.Spec.Shape

/-! Lemmas about linked list segments. -/

set_option autoImplicit false

namespace Dendron

variable {nx pv : NodeId → Option NodeId}

theorem Seg.append {l1 l2 : List NodeId} {e : Option NodeId} :
    Seg nx (l1 ++ l2) e ↔ Seg nx l1 (l2.head?.or e) ∧ Seg nx l2 e := by
  induction l1 with
  | nil => simp [Seg]
  | cons a l ih =>
    simp only [List.cons_append, Seg, ih]
    cases l <;> simp [and_assoc]

theorem Seg.congr {nx' : NodeId → Option NodeId} {l : List NodeId} {e : Option NodeId}
    (h : ∀ x ∈ l, nx x = nx' x) : Seg nx l e ↔ Seg nx' l e := by
  induction l with
  | nil => simp [Seg]
  | cons a l ih =>
    simp only [Seg]
    rw [ih (fun x hx => h x (List.mem_cons_of_mem _ hx)), h a List.mem_cons_self]

/-- Only the last element of a segment depends on the end. -/
theorem Seg.reEnd {nx' : NodeId → Option NodeId} {l : List NodeId} {e e' : Option NodeId}
    (hs : Seg nx l e) (hn : l.Nodup) (h : ∀ x ∈ l, l.getLast? ≠ some x → nx' x = nx x)
    (hl : ∀ x, l.getLast? = some x → nx' x = e') : Seg nx' l e' := by
  induction l with
  | nil => simp [Seg]
  | cons a l ih =>
    simp only [Seg] at hs ⊢
    rw [List.nodup_cons] at hn
    cases l with
    | nil =>
      refine ⟨?_, by simp [Seg]⟩
      simpa using hl a (by simp)
    | cons b l =>
      refine ⟨?_, ?_⟩
      · rw [h a (by simp), hs.1]
        · simp
        · simp only [List.getLast?_cons_cons]
          intro hc
          exact hn.1 (List.mem_of_getLast? hc)
      · apply ih hs.2 hn.2
        · intro x hx hne
          exact h x (List.mem_cons_of_mem _ hx) (by simpa [List.getLast?_cons_cons] using hne)
        · intro x hx
          exact hl x (by simpa [List.getLast?_cons_cons] using hx)

theorem PSeg.append {l1 l2 : List NodeId} {b : Option NodeId} :
    PSeg pv (l1 ++ l2) b ↔ PSeg pv l1 b ∧ PSeg pv l2 (l1.getLast?.or b) := by
  induction l1 generalizing b with
  | nil => simp [PSeg]
  | cons a l ih =>
    simp only [List.cons_append, PSeg, ih]
    cases l <;> simp [and_assoc]
    case cons c l =>
      cases h : (c :: l).getLast? with
      | none => simp at h
      | some x => simp

theorem PSeg.congr {pv' : NodeId → Option NodeId} {l : List NodeId} {b : Option NodeId}
    (h : ∀ x ∈ l, pv x = pv' x) : PSeg pv l b ↔ PSeg pv' l b := by
  induction l generalizing b with
  | nil => simp [PSeg]
  | cons a l ih =>
    simp only [PSeg]
    rw [ih (fun x hx => h x (List.mem_cons_of_mem _ hx)), h a List.mem_cons_self]

/-- Only the first element of a segment depends on the start. -/
theorem PSeg.reBeg {pv' : NodeId → Option NodeId} {l : List NodeId} {b b' : Option NodeId}
    (hs : PSeg pv l b) (hn : l.Nodup) (h : ∀ x ∈ l, l.head? ≠ some x → pv' x = pv x)
    (hl : ∀ x, l.head? = some x → pv' x = b') : PSeg pv' l b' := by
  cases l with
  | nil => simp [PSeg]
  | cons a l =>
    simp only [PSeg] at hs ⊢
    rw [List.nodup_cons] at hn
    refine ⟨hl a (by simp), (PSeg.congr ?_).1 hs.2⟩
    intro x hx
    rw [h x (List.mem_cons_of_mem _ hx)]
    simp only [List.head?_cons, ne_eq, Option.some.injEq]
    rintro rfl
    exact hn.1 hx

theorem Seg.at {l1 l2 : List NodeId} {n : NodeId} {e : Option NodeId}
    (h : Seg nx (l1 ++ n :: l2) e) : nx n = l2.head?.or e := by
  rw [Seg.append] at h
  exact h.2.1

theorem PSeg.at {l1 l2 : List NodeId} {n : NodeId} {b : Option NodeId}
    (h : PSeg pv (l1 ++ n :: l2) b) : pv n = l1.getLast?.or b := by
  rw [PSeg.append] at h
  exact h.2.1

theorem nodup_mid {l1 l2 : List NodeId} {n : NodeId} :
    (l1 ++ n :: l2).Nodup ↔ n ∉ l1 ∧ n ∉ l2 ∧ (l1 ++ l2).Nodup := by
  simp only [List.nodup_append, List.nodup_cons, List.mem_cons]
  constructor
  · rintro ⟨h1, ⟨h2, h3⟩, h4⟩
    refine ⟨?_, h2, h1, h3, ?_⟩
    · intro hn; exact h4 n hn n (Or.inl rfl) rfl
    · intro a ha b hb; exact h4 a ha b (Or.inr hb)
  · rintro ⟨h1, h2, h3, h4, h5⟩
    refine ⟨h3, ⟨h2, h4⟩, ?_⟩
    intro a ha b hb
    rcases hb with rfl | hb
    · rintro rfl; exact h1 ha
    · exact h5 a ha b hb

theorem exists_split {l : List NodeId} {n : NodeId} (h : n ∈ l) :
    ∃ l1 l2, l = l1 ++ n :: l2 := List.append_of_mem h

end Dendron
