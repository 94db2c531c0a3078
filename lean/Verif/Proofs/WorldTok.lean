import Verif.Proofs.WorldFacts

/-! Tokens of the two kinds exclude each other even after their tree is gone; acquisition of locks. -/

set_option linter.unusedSimpArgs false
set_option linter.unusedVariables false

set_option autoImplicit false

namespace Dendron
variable {α : Type} {h h' : Heap α} {w w' : World α} {ch ch' : NodeId → List NodeId} {n : NodeId}
  {t : TreeId} {k : Kind} {op : Op α} {r : Res}

/-- Tokens of the two kinds exclude each other. -/
def TokX (w : World α) : Prop := ∀ t, w.grantTok t = 0 ∨ w.prohTok t = 0

theorem Inv.tokX_alive (I : Inv w ch) (hta : w.heap.treeAlive t = true) :
    w.grantTok t = 0 ∨ w.prohTok t = 0 := by
  obtain ⟨L, hL, hmem, hmode, hb⟩ := I.locks t hta
  rcases hmode with ⟨a, _⟩ | ⟨a, _⟩
  · exact .inr a
  · exact .inl a

/-- The calls that may create or consume tokens. -/
def TouchesTok : Op α → Prop
  | .acquire _ _ | .cloneTok _ _ | .dropTok _ _ | .extract _ _ => True
  | _ => False

theorem created_toks {a : World α × Res} (e : w.created k n = .ok a) :
    a.1.grantTok = w.grantTok ∧ a.1.prohTok = w.prohTok := by
  simp only [World.created, bind, Except.bind, pure, Except.pure] at e
  split at e
  · cases e
  · simp only [Except.ok.injEq] at e; subst e; exact ⟨rfl, rfl⟩

theorem exec_toks (hn : ¬ TouchesTok op) (e : w.exec op = .ok (w', r)) :
    w'.grantTok = w.grantTok ∧ w'.prohTok = w.prohTok := by
  cases op <;> simp only [TouchesTok, not_true_eq_false] at hn <;>
    simp only [World.exec, bind, Except.bind, pure, Except.pure] at e
  case newTree => exact created_toks e
  all_goals
    repeat' (split at e)
    all_goals first
      | cases e; done
      | (obtain ⟨rfl, rfl⟩ : _ = w' ∧ _ = r := by simpa using e
         exact ⟨rfl, rfl⟩)
      | exact created_toks e

theorem execAcquire_toks {b : Bool} (e : w.execAcquire b t = .ok (w', r)) :
    (∀ s, s ≠ t → w'.grantTok s = w.grantTok s ∧ w'.prohTok s = w.prohTok s) ∧
      w'.heap.root = w.heap.root := by
  simp only [World.execAcquire] at e
  split at e
  · cases e
  · simp only [Except.ok.injEq, Prod.mk.injEq] at e
    obtain ⟨rfl, rfl⟩ := e
    exact ⟨fun _ _ => ⟨rfl, rfl⟩, rfl⟩
  · simp only [Except.ok.injEq, Prod.mk.injEq] at e
    obtain ⟨rfl, rfl⟩ := e
    cases b <;> simp +contextual [World.giveTok, Heap.setGrants]

theorem Inv.tokX_acquire {b : Bool} (X : TokX w) (I' : Inv w' ch') (hta : w.heap.treeAlive t = true)
    (e : w.execAcquire b t = .ok (w', r)) : TokX w' := by
  obtain ⟨h1, h2⟩ := execAcquire_toks e
  intro s
  by_cases hs : s = t
  · subst hs
    exact I'.tokX_alive (by simpa [Heap.treeAlive, h2] using hta)
  · rw [(h1 s hs).1, (h1 s hs).2]; exact X s

theorem World.Step.tokX (st : w.Step op w' r) (I : Inv w ch) (I' : Inv w' ch') (X : TokX w) :
    TokX w' := by
  have e := st.run
  have ha := st.allowed
  clear st
  by_cases hn : TouchesTok op
  · cases op <;> simp only [TouchesTok] at hn <;> simp only [World.exec] at e
    case acquire b t => exact I'.tokX_acquire X (I.treesAlive t ha) e
    case cloneTok b t =>
      split at e
      · next hta => exact I'.tokX_acquire X hta e
      · simp only [Except.ok.injEq, Prod.mk.injEq] at e
        obtain ⟨rfl, rfl⟩ := e
        intro s
        have hx := X s
        have ht := X t
        cases b <;> simp only [World.Allowed, if_true, Bool.false_eq_true, if_false] at ha <;>
          by_cases hs : s = t
        · subst hs; simp [World.giveTok]; omega
        · simpa [World.giveTok, hs] using hx
        · subst hs; simp [World.giveTok]; omega
        · simpa [World.giveTok, hs] using hx
    case dropTok b t =>
      have key : ∀ g : Heap α, TokX (({ w with heap := g }).takeTok b t) := by
        intro g s
        have hx := X s
        have ht := X t
        cases b <;> by_cases hs : s = t
        · subst hs; simp [World.takeTok]; omega
        · simpa [World.takeTok, hs] using hx
        · subst hs; simp [World.takeTok]; omega
        · simpa [World.takeTok, hs] using hx
      split at e
      · simp only [bind, Except.bind, pure, Except.pure] at e
        split at e
        · cases e
        · simp only [Except.ok.injEq, Prod.mk.injEq] at e
          obtain ⟨rfl, rfl⟩ := e
          exact key _
      · simp only [Except.ok.injEq, Prod.mk.injEq] at e
        obtain ⟨rfl, rfl⟩ := e
        exact key w.heap
    case extract b n =>
      simp only [bind, Except.bind, pure, Except.pure] at e
      split at e
      · cases e
      · next t ht =>
        split at e
        · cases e
        · next v hv =>
          split at e
          · cases e
          · next hd =>
            simp only [Except.ok.injEq] at e
            subst e
            have hk : ∃ k, 0 < w.held k n := by
              cases b
              · exact ⟨.frozen, by simpa [World.Allowed] using ha⟩
              · exact ⟨.hot, by simpa [World.Allowed] using ha⟩
            obtain ⟨k, hk⟩ := hk
            exact I'.tokX_acquire X (I.wf.tree_alive (I.held_alive hk) ((I.nodeTree_held hk).1 ht)) hv
  · obtain ⟨e1, e2⟩ := exec_toks hn e
    intro t; rw [e1, e2]; exact X t

theorem Reach.tokX (hr : Reach w) : TokX w := by
  induction hr with
  | init => intro t; exact .inl rfl
  | step hr s ih =>
    obtain ⟨ch, I⟩ := hr.inv
    obtain ⟨ch', I', -⟩ := s.inv I
    exact s.tokX I I' ih

end Dendron
