import Verif.Model.Builder
import Verif.Spec.Shape

/-! A failing `close`, in any state. -/

set_option autoImplicit false

namespace Dendron
variable {α : Type} {w w' : World α} {b b' : Builder} {n k m : Nat} {r c c' : NodeId}

namespace Builder

theorem closeLoop_snoc (h : closeLoop r (k + 1) w c = .ok (w', c', true)) :
    ∃ w1 c1 w2 u, closeLoop r k w c = .ok (w1, c1, true) ∧ w1.exec (.nav .hot .parent c1) = .ok (w2, .node (some c')) ∧
      w2.exec (.drop .hot c1) = .ok (w', u) := by
  induction k generalizing w c with
  | zero =>
    unfold closeLoop at h
    split at h
    · simp at h
    · simp only [bind, Except.bind, pure, Except.pure] at h
      split at h
      · cases h
      · rename_i e1
        split at h
        · split at h
          · cases h
          · rename_i e2
            simp only [closeLoop, Except.ok.injEq, Prod.mk.injEq, and_true] at h
            obtain ⟨rfl, rfl⟩ := h
            exact ⟨w, c, _, _, rfl, e1, e2⟩
        · simp at h
  | succ k ih =>
    unfold closeLoop at h
    split at h
    · simp at h
    · rename_i hne
      simp only [bind, Except.bind, pure, Except.pure] at h
      split at h
      · cases h
      · rename_i e1
        split at h
        · split at h
          · cases h
          · rename_i e2
            obtain ⟨w1, c1, w2, u, a1, a2, a3⟩ := ih h
            refine ⟨w1, c1, w2, u, ?_, a2, a3⟩
            rw [closeLoop, if_neg hne]
            simp only [bind, Except.bind, e1, e2]
            exact a1
        · simp at h

theorem closeLoop_false (h : closeLoop r m w c = .ok (w', c', false)) :
    ∃ k, k < m ∧ closeLoop r k w c = .ok (w', c', true) ∧ (c' = r ∨ w'.heap.parentLink c' = none) := by
  induction m generalizing w c with
  | zero => simp [closeLoop] at h
  | succ m ih =>
    unfold closeLoop at h
    split at h
    · rename_i he
      simp only [Except.ok.injEq, Prod.mk.injEq, and_true] at h
      obtain ⟨rfl, rfl⟩ := h
      exact ⟨0, Nat.succ_pos _, rfl, .inl he⟩
    · rename_i hne
      simp only [bind, Except.bind, pure, Except.pure] at h
      split at h
      · cases h
      · rename_i e1
        split at h
        · split at h
          · cases h
          · rename_i e2
            obtain ⟨k, h1, h2, h3⟩ := ih h
            refine ⟨k + 1, Nat.succ_lt_succ h1, ?_, h3⟩
            rw [closeLoop, if_neg hne]
            simp only [bind, Except.bind, e1, e2]
            exact h2
        · rename_i w1 r1 hno
          simp only [Except.ok.injEq, Prod.mk.injEq, and_true] at h
          obtain ⟨rfl, rfl⟩ := h
          have key : w1 = w ∧ w.heap.parentLink c = none := by
            simp only [World.exec, Heap.navTo, bind, Except.bind, pure, Except.pure] at e1
            cases hp : w.heap.parentLink c with
            | none =>
              rw [hp] at e1
              simp only [Except.ok.injEq, Prod.mk.injEq] at e1
              exact ⟨e1.1.symm, rfl⟩
            | some p =>
              rw [hp] at e1
              simp only at e1
              split at e1
              · cases e1
              · simp only [Except.ok.injEq, Prod.mk.injEq] at e1
                exact (hno _ e1.2.symm).elim
          obtain ⟨rfl, hp⟩ := key
          exact ⟨0, Nat.succ_pos _, rfl, .inr hp⟩

end Builder
end Dendron
