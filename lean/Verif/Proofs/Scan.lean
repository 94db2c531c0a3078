import Verif.Proofs.BuildAll

/-! Well-formed event sequences are those that never close too much and open nothing after the root. -/

set_option autoImplicit false

namespace Dendron
open RTree
variable {β : Type} {E : List (Option β)} {k : Nat} {t : RTree β}

mutual
theorem steps_open (d : β) : ∀ (t : RTree β) (E : List (Option β)) (k : Nat),
    E ++ List.replicate (k + 1) none = t.steps →
    ∃ t' : RTree β, E ++ some d :: List.replicate (k + 2) none = t'.steps
  | .node v cs, E, k, e => by
    rw [steps_node] at e
    cases E with
    | nil => rw [List.replicate_succ] at e; simp at e
    | cons a A =>
      simp only [List.cons_append, List.cons.injEq] at e
      obtain ⟨rfl, e⟩ := e
      rw [List.replicate_succ', ← List.append_assoc] at e
      have e1 := List.append_cancel_right e
      obtain ⟨cs', h1⟩ := stepsL_open d cs A k e1
      refine ⟨.node v cs', ?_⟩
      rw [steps_node, ← h1, List.replicate_succ' (n := k + 1)]
      simp
theorem stepsL_open (d : β) : ∀ (cs : List (RTree β)) (A : List (Option β)) (k : Nat),
    A ++ List.replicate k none = stepsL cs →
    ∃ cs' : List (RTree β), A ++ some d :: List.replicate (k + 1) none = stepsL cs'
  | [], A, k, e => by
    rw [stepsL_nil] at e
    obtain ⟨rfl, h⟩ := List.append_eq_nil_iff.1 e
    have : k = 0 := by cases k <;> simp_all [List.replicate_succ]
    subst this
    exact ⟨[.node d []], by simp [stepsL_cons, steps_node, stepsL_nil]⟩
  | c :: cs, A, k, e => by
    rw [stepsL_cons] at e
    rcases List.append_eq_append_iff.1 e with ⟨C, e1, e2⟩ | ⟨C, e1, e2⟩
    · -- `A` ends inside the first tree
      cases cs with
      | nil =>
        rw [stepsL_nil, List.append_nil] at e2
        cases k with
        | zero =>
          have h1 : C = [] := by simpa using e2.symm
          rw [h1, List.append_nil] at e1
          refine ⟨[c, .node d []], ?_⟩
          simp [stepsL_cons, steps_node, stepsL_nil, e1]
        | succ j =>
          rw [← e2] at e1
          obtain ⟨t', h1⟩ := steps_open d c A j e1.symm
          exact ⟨[t'], by rw [stepsL_cons, stepsL_nil, List.append_nil, ← h1]⟩
      | cons c' cs' =>
        exfalso
        cases c' with
        | node v ds =>
          rw [stepsL_cons, steps_node] at e2
          have h1 : some v ∈ List.replicate k (none : Option β) := by rw [e2]; simp
          have := (List.mem_replicate.1 h1).2
          cases this
    · obtain ⟨cs', h1⟩ := stepsL_open d cs C k e2.symm
      refine ⟨c :: cs', ?_⟩
      rw [stepsL_cons, ← h1, e1]; simp
end

theorem Describes.opn (d : β) (h : Describes E (k + 1) t) :
    ∃ t', Describes (E ++ [some d]) (k + 2) t' := by
  obtain ⟨t', h1⟩ := steps_open d t E k h
  exact ⟨t', by rw [Describes, ← h1]; simp⟩

theorem Describes.close {n : Nat} (h : Describes E (k + n) t) :
    Describes (E ++ List.replicate n none) k t := by
  rw [Describes, List.append_assoc, List.replicate_append_replicate, Nat.add_comm]
  exact h

theorem scan_some : ∀ (l : List (Event β)) (E : List (Option β)) (k : Nat) (t : RTree β),
    Describes E k t →
    Event.scan (some k) l ≠ some none ∧
    ∀ j, Event.scan (some k) l = some (some j) ↔ ∃ u, Describes (E ++ Event.expand l) j u
  | [], E, k, t, h => by
    refine ⟨by simp [Event.scan], fun j => ?_⟩
    simp only [Event.scan, Option.some.injEq, Event.expand, List.append_nil]
    constructor
    · rintro rfl; exact ⟨t, h⟩
    · rintro ⟨u, hu⟩; exact (h.unique hu).1
  | .opn d :: l, E, k, t, h => by
    have e : E ++ Event.expand (.opn d :: l) = (E ++ [some d]) ++ Event.expand l := by
      simp [Event.expand]
    rw [e]
    cases k with
    | zero =>
      refine ⟨by simp [Event.scan], fun j => ?_⟩
      simp only [Event.scan]
      constructor
      · intro hc; cases hc
      · rintro ⟨u, hu⟩
        rw [List.append_assoc] at hu
        have := h.complete hu
        simp at this
    | succ k =>
      obtain ⟨t', h1⟩ := h.opn d
      simpa only [Event.scan] using scan_some l _ _ _ h1
  | .close 0 :: l, E, k, t, h => by
    have e : E ++ Event.expand (.close 0 :: l) = E ++ Event.expand l := by
      simp [Event.expand]
    rw [e]
    simpa only [Event.scan] using scan_some l E k t h
  | .close (n + 1) :: l, E, k, t, h => by
    have e : E ++ Event.expand (.close (n + 1) :: l)
        = (E ++ List.replicate (n + 1) none) ++ Event.expand l := by
      simp [Event.expand]
    rw [e]
    by_cases hn : n + 1 ≤ k
    · obtain ⟨i, rfl⟩ : ∃ i, k = i + (n + 1) := ⟨k - (n + 1), by omega⟩
      have h1 := h.close
      simp only [Event.scan, hn, if_true, Nat.add_sub_cancel]
      exact scan_some l _ _ _ h1
    · refine ⟨by simp [Event.scan, hn], fun j => ?_⟩
      simp only [Event.scan, hn, if_false]
      constructor
      · intro hc; cases hc
      · rintro ⟨u, hu⟩
        rcases hu.of_append with h2 | ⟨i, v, h2⟩
        · simp [List.replicate_succ] at h2
        · have := (h.depth h2).1; omega

theorem scan_none : ∀ (l : List (Event β)),
    (Event.scan none l = some none ↔ Event.expand l = []) ∧
    ∀ j, Event.scan none l = some (some j) ↔ ∃ u, Describes (Event.expand l) j u
  | [] => by
    refine ⟨by simp [Event.scan, Event.expand], fun j => ?_⟩
    simp only [Event.scan, Event.expand]
    constructor
    · intro h; cases h
    · rintro ⟨u, hu⟩
      exfalso
      rw [Describes] at hu
      cases u with
      | node v cs => rw [steps_node] at hu; cases j <;> simp [List.replicate_succ] at hu
  | .opn d :: l => by
    have h0 : Describes [some d] 1 (.node d []) := by simp [Describes, steps_node, stepsL_nil]
    obtain ⟨h1, h2⟩ := scan_some l _ _ _ h0
    refine ⟨?_, fun j => ?_⟩
    · simp only [Event.scan, Event.expand]
      exact ⟨fun h => absurd h h1, fun h => by cases h⟩
    · simpa [Event.scan, Event.expand] using h2 j
  | .close 0 :: l => by
    have e : Event.expand (Event.close (β := β) 0 :: l) = Event.expand l := by simp [Event.expand]
    rw [e]
    simpa only [Event.scan] using scan_none l
  | .close (n + 1) :: l => by
    refine ⟨?_, fun j => ?_⟩
    · simp [Event.scan, Event.expand, List.replicate_succ]
    · simp only [Event.scan]
      constructor
      · intro h; cases h
      · rintro ⟨u, hu⟩
        simp only [Event.expand, List.replicate_succ, List.cons_append] at hu
        exact absurd hu not_describes_nil

end Dendron
