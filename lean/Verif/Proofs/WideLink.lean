import Verif.Proofs.LinkOps
import Verif.Proofs.SimEdit

/-!
Unlinking any child, also the last of several: afterwards everything is right, except that the first
sibling may still point to the node that has left (`StaleHead`).
-/

set_option linter.unusedSimpArgs false
set_option linter.unusedVariables false

set_option autoImplicit false

namespace Dendron
variable {α : Type} {h h' k : Heap α} {ch : NodeId → List NodeId} {n p : NodeId} {l1 l2 : List NodeId}
  {D : NodeId → Prop}

/-- The first of the remaining siblings, if the last one of several has left. -/
def StaleHead (l1 l2 : List NodeId) (x : NodeId) : Prop := l2 = [] ∧ l1.head? = some x

theorem StaleHead.elim {x : NodeId} (s : StaleHead l1 l2 x) (hpos : l1 = [] ∨ l2 ≠ []) : False := by
  obtain ⟨rfl, e⟩ := s
  rcases hpos with rfl | h1
  · simp at e
  · exact h1 rfl

theorem Sim.eq_of_not (s : Sim D h k) (hd : ∀ x, ¬ D x) : k = h := by
  obtain ⟨pv, rfl, ag⟩ := s
  have : pv = h.prevCyc := funext fun x => ag x (hd x)
  rw [this]; rfl

theorem BackOK.lastOff (S : Shape h ch) (hs : ch p = l1 ++ [n]) (hl : l1 ≠ [])
    (halive : ∀ x, h'.alive x = h.alive x)
    (hpar : ∀ x, h'.parent x = if x = n then none else h.parent x)
    (hpv : ∀ x, h'.prevCyc x = if l1.head? = some x then l1.getLast?
      else if x = n then some n else h.prevCyc x) :
    BackOK h' (upd ch p l1) := by
  have hm : n ∈ ch p := by simp [hs]
  have hnd := S.nodup p
  rw [hs, nodup_mid] at hnd
  obtain ⟨hnl1, -, hnd12⟩ := hnd
  rw [List.append_nil] at hnd12
  constructor
  · intro q
    by_cases hqp : q = p
    · subst hqp
      rw [upd_same]
      have hseg := S.back.pseg q
      rw [hs, PSeg.append] at hseg
      refine hseg.1.reBeg hnd12 ?_ ?_
      · intro x hx hne
        have hxn : x ≠ n := fun e => hnl1 (e ▸ hx)
        rw [hpv, if_neg hne, if_neg hxn]
      · intro x hx
        rw [hpv, if_pos hx]
    · rw [upd_ne _ _ hqp]
      refine (PSeg.congr ?_).1 (S.back.pseg q)
      intro x hx
      have hxn : x ≠ n := fun e => hqp (S.unique_parent hx (e ▸ hm))
      have h2 : l1.head? ≠ some x := fun e =>
        hqp (S.unique_parent hx (by rw [hs]; exact List.mem_append_left _ (List.mem_of_head? e)))
      rw [hpv, if_neg h2, if_neg hxn]
  · intro c hc hpc
    rw [halive] at hc
    rw [hpar] at hpc
    rw [hpv]
    by_cases hcn : c = n
    · have : l1.head? ≠ some c := fun e => hnl1 (hcn ▸ List.mem_of_head? e)
      rw [if_neg this, if_pos hcn, hcn]
    · simp only [hcn, if_false] at hpc
      have hr := S.not_mem_of_root hpc p
      rw [hs] at hr
      have h2 : l1.head? ≠ some c := fun e => hr (List.mem_append_left _ (List.mem_of_head? e))
      rw [if_neg h2, if_neg hcn, S.back.rootPrev c hc hpc]

/-- Repairing the only pointer that may be wrong. -/
theorem exists_repaired {ch' : NodeId → List NodeId} {P : Prop} (S : Shape h ch) (hs : ch p = l1 ++ n :: l2)
    (halive : ∀ x, h'.alive x = h.alive x) (hok : P → BackOK h' ch')
    (hbad : ¬ P → l2 = [] ∧ l1 ≠ [] ∧ ch' = upd ch p l1 ∧
      (∀ x, h'.parent x = if x = n then none else h.parent x) ∧
      ∀ x, h'.prevCyc x = if x = n then some n else h.prevCyc x) :
    ∃ k, Sim (fun x => ¬ P ∧ StaleHead l1 l2 x) h' k ∧ BackOK k ch' := by
  by_cases hp : P
  · exact ⟨h', Sim.refl _, hok hp⟩
  · obtain ⟨rfl, hl1, rfl, hpar, hpv⟩ := hbad hp
    refine ⟨h'.fix (fun x => if l1.head? = some x then l1.getLast? else h'.prevCyc x), Sim.fix _ ?_, ?_⟩
    · intro x hx
      have : l1.head? ≠ some x := fun e => hx ⟨hp, rfl, e⟩
      simp only [if_neg this]
    · refine BackOK.lastOff S hs hl1 halive hpar ?_
      intro x
      show (if l1.head? = some x then l1.getLast? else h'.prevCyc x) = _
      rw [hpv]

/-- What does not depend on previous-sibling pointers. -/
theorem Sim.fshape (s : Sim D h k) {ch : NodeId → List NodeId} (F : FShape h ch) : FShape k ch := by
  obtain ⟨pv, rfl, ag⟩ := s
  exact ⟨F.dead, F.first, F.nodup, F.mem, F.seg, F.rootNext, F.acyc, F.bound⟩

theorem Sim.numOK (s : Sim D h k) (N : NumOK h ch) : NumOK k ch := by
  obtain ⟨pv, rfl, ag⟩ := s; exact N

theorem Sim.treeWF (s : Sim D h k) (T : TreeWF h) : TreeWF k := by
  obtain ⟨pv, rfl, ag⟩ := s; exact ⟨T.live, T.root, T.child, T.top, T.bound⟩

theorem Sim.refWF (s : Sim D h k) (T : RefWF h) : RefWF k := by
  obtain ⟨pv, rfl, ag⟩ := s; exact ⟨T.alive, T.pos, T.held⟩

theorem Sim.sameNonLink (s : Sim D h k) {h0 : Heap α} (T : SameNonLink h0 h) : SameNonLink h0 k := by
  obtain ⟨pv, rfl, ag⟩ := s
  exact ⟨T.data, T.mutB, T.mem, T.root, T.grants, T.treeRc, T.nNode, T.nTree⟩

/-- Unlinking any child. -/
theorem unlink_wide (S : Shape h ch) (hs : ch p = l1 ++ n :: l2) :
    ∃ h' k, h.newByUnlinkL n = .ok (h', true) ∧ Sim (StaleHead l1 l2) h' k ∧ SameNonLink h k ∧
      Shape k (upd ch p (l1 ++ l2)) ∧ (∀ x, k.parent x = if x = n then none else h.parent x) := by
  obtain ⟨h', he, hsame, h1, h2, h3, h4, h5⟩ := newByUnlink_eq S hs
  obtain ⟨h'', he', _, F, N, hpn, B⟩ := unlink_forward S hs
  rw [he] at he'; obtain rfl : h' = h'' := by simpa using he'
  obtain ⟨k, s, Bk⟩ := exists_repaired (P := l1 = [] ∨ l2 ≠ []) S hs hsame.alive B (by
    intro hp
    have e : l2 = [] := by
      by_cases e : l2 = []
      · exact e
      · exact absurd (.inr e) hp
    refine ⟨e, fun e1 => hp (.inl e1), by rw [e, List.append_nil], h1, ?_⟩
    intro x
    rw [h4, e]; simp)
  refine ⟨h', k, he, s.mono (fun x e => e.2), s.sameNonLink hsame,
    { toFShape := s.fshape F, num := s.numOK N, back := Bk }, ?_⟩
  intro x; rw [s.parent]; exact h1 x

theorem head?_at_front {l l' : List NodeId} {a b : NodeId} (hnd : (l ++ a :: l').Nodup)
    (e : (l ++ a :: l').head? = some b) (hb : b = a) : l = [] := by
  subst hb
  cases l with
  | nil => rfl
  | cons x l =>
    simp only [List.cons_append, List.head?_cons, Option.some.injEq] at e
    subst e
    simp at hnd

/-- An insertion reads none of the pointers of `D`, if these belong to first siblings, and not to the
first child of the new parent when the node is put first or last. -/
theorem InsReads.of_shape {q : NodeId} {m1 m2 : List NodeId} {dest : InsertAs NodeId} (S : Shape h ch)
    (hq : h.alive q = true) (hd : DestSplit ch dest q m1 m2)
    (hD : ∀ x ∈ ch q, D x → (ch q).head? = some x)
    (hend : m1 = [] ∨ m2 = [] → ∀ x, (ch q).head? = some x → ¬ D x) : InsReads D h dest := by
  have hnd := S.nodup q
  have fn : m1 = [] ∨ m2 = [] → FirstNot D h q := by
    intro he x hx
    rw [S.first q hq] at hx
    exact hend he x hx
  cases hd with
  | first => exact fn (.inl rfl)
  | last => exact fn (.inr rfl)
  | @prev _ a _ l2 hs =>
    have ham : a ∈ ch q := by simp [hs]
    have hpl : h.parentLink a = some q := by
      rw [S.parentLink (S.alive_of_mem ham), S.parent_of_mem ham]
    constructor
    · intro hDa
      have hh := hD a ham hDa
      have : m1 = [] := by
        rw [hs] at hnd hh
        exact head?_at_front hnd hh rfl
      exact hend (.inl this) a hh hDa
    · intro p' hp' hpv
      rw [hpl] at hp'
      obtain rfl : q = p' := by simpa using hp'
      rw [S.prevLink_at hs] at hpv
      have : m1 = [] := by simpa using hpv
      exact fn (.inl this)
  | @next _ a l1 _ hs =>
    have ham : a ∈ ch q := by simp [hs]
    have hpl : h.parentLink a = some q := by
      rw [S.parentLink (S.alive_of_mem ham), S.parent_of_mem ham]
    intro p' hp'
    rw [hpl] at hp'
    obtain rfl : q = p' := by simpa using hp'
    have hn : h.nextLink a = m2.head? := S.next_at hs
    rw [hn]
    cases m2 with
    | nil => exact fn (.inr rfl)
    | cons b m2 =>
      simp only [List.head?_cons]
      intro hDb
      have hb : b ∈ ch q := by simp [hs]
      have hh := hD b hb hDb
      rw [hs] at hnd hh
      have := head?_at_front (l := l1 ++ [a]) (l' := m2) (a := b) (b := b) (by simpa using hnd)
        (by simpa using hh) rfl
      simp at this

/-- The pointers an insertion reads, in a memory that differs in other pointers. -/
theorem InsReads.sim {E : NodeId → Prop} {dest : InsertAs NodeId} (s : Sim E h k)
    (hr : InsReads D k dest) (hE : ∀ a, dest = .previousSiblingOf a → ¬ E a) : InsReads D h dest := by
  have hf : ∀ p, FirstNot D k p → FirstNot D h p := by
    intro p hp x hx; exact hp x (by rw [s.firstChild]; exact hx)
  cases dest with
  | firstChildOf p => exact hf p hr
  | lastChildOf p => exact hf p hr
  | previousSiblingOf a =>
    refine ⟨hr.1, fun p hp hv => hf p (hr.2 p ?_ ?_)⟩
    · rw [s.parentLink]; exact hp
    · rw [s.prevLink (hE a rfl)]; exact hv
  | nextSiblingOf a =>
    intro p hp
    have := hr p (by rw [s.parentLink]; exact hp)
    rw [s.nextLink] at this
    cases e : h.nextLink a with
    | none => rw [e] at this; exact hf p this
    | some x => rw [e] at this; exact this

theorem Rel.flip {β γ : Type} {P : β → γ → Prop} {Q : γ → β → Prop} {a : Except Fault β}
    {b : Except Fault γ} (r : Rel P a b) (hpq : ∀ x y, P x y → Q y x) : Rel Q b a := by
  cases r with
  | ok hp => exact .ok (hpq _ _ hp)
  | error e => exact .error e

theorem SimP.flip {β : Type} {a b : Except Fault (Heap α × β)} (r : Rel (SimP D) a b) : Rel (SimP D) b a :=
  Rel.flip r fun _ _ e => ⟨e.1.symm, e.2.symm⟩

theorem Rel.get {β γ : Type} {P : β → γ → Prop} {a : Except Fault β} {c : γ} (r : Rel P a (.ok c)) :
    ∃ b, a = .ok b ∧ P b c := by
  cases r with
  | ok hp => exact ⟨_, rfl, hp⟩

theorem SimP.get {β : Type} {a : Except Fault (Heap α × β)} {c : β} (r : Rel (SimP D) a (.ok (k, c))) :
    ∃ h0, a = .ok (h0, c) ∧ Sim D h0 k := by
  obtain ⟨⟨h0, c'⟩, e, s, e'⟩ := r.get
  simp only at s e'
  subst e'
  exact ⟨h0, e, s⟩

end Dendron
