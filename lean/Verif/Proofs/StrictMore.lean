import Verif.Proofs.Strict
import Verif.Proofs.SimEdit

/-! The remaining edits free nothing when every node is referenced and the links they read are right. -/

set_option linter.unusedSimpArgs false
set_option linter.unusedVariables false

set_option autoImplicit false

namespace Dendron
variable {α : Type} {E held : List NodeId} {h h' k : Heap α} {n p : NodeId} {t : TreeId}

theorem reparentLoop_strict {f : Nat} {o : Option NodeId} {q : NodeId} (K : RefBut E h)
    (hs : ∀ y ∈ E, y ∈ held) :
    Heap.reparentLoop held f o q h = Heap.reparentLoopL f o q h := by
  induction f generalizing h o with
  | zero => cases o <;> rfl
  | succ f ih =>
    cases o with
    | none => rfl
    | some c =>
      unfold Heap.reparentLoop Heap.reparentLoopL
      simp only [bind, Except.bind]
      rw [(K.setParent (m := c) (v := some q)).dropLocal
        (fun y hy => List.mem_append_right _ (List.mem_cons_of_mem _ (hs y hy)))]
      exact ih K.setParent

theorem RefBut.reparent {f : Nat} {o : Option NodeId} {q : NodeId} (K : RefBut E h)
    (e : Heap.reparentLoopL f o q h = .ok h') : RefBut E h' := by
  have := reparentLoop_eq e
  exact K.congr (by rw [this]) (by rw [this]) (by rw [this]) (by rw [this]) (by rw [this])
    (by rw [this]) (by rw [this])

theorem interruptChild_strict {m : NodeId} (K : RefBut [] h) (hm : h.alive m = true)
    (hf : h.firstChild m = none) (hnm : n ≠ m) : h.interruptChild n m = h.interruptChildL n m := by
  unfold Heap.interruptChild Heap.interruptChildL
  simp only [bind, Except.bind]
  have e0 : h.firstChildLink n = h.firstChild n := rfl
  have K1 : RefBut (h.firstChild n).toList (h.setFirst n (some m)) :=
    (K.weaken (by simp)).setFirst (fun y hy => .inr (.inl (by rw [hy]; simp)))
  have e1 : ((h.setFirst n (some m)).setParent m (some n)).firstChild m = none := by
    simp [Heap.setFirst, Heap.setParent, Ne.symm hnm, hf]
  have e2 : ((h.setFirst n (some m)).setParent m (some n)).putFirst
      ((h.firstChildLink n).toList ++ [n, m]) m (h.firstChildLink n) =
      .ok (((h.setFirst n (some m)).setParent m (some n)).setFirst m (h.firstChildLink n)) := by
    unfold Heap.putFirst; rw [e1]; rfl
  rw [e2]
  simp only
  have K2 : RefBut (h.firstChild n).toList
      (((h.setFirst n (some m)).setParent m (some n)).setFirst m (h.firstChild n)) :=
    K1.setParent.setFirst (fun y hy => by rw [e1] at hy; cases hy)
  have K3 : RefBut [] (((h.setFirst n (some m)).setParent m (some n)).setFirst m (h.firstChild n)) := by
    cases ef : h.firstChild n with
    | none => rw [ef] at K2; exact K2
    | some f =>
      rw [ef] at K2
      refine K2.tighten (ref_first (m := m) (K.bound m hm) hm ?_)
      simp [Heap.setFirst]
  rw [e0, reparentLoop_strict K3 (by simp)]

/-- Another node or a tree refers to `y`. -/
def RefOther (h : Heap α) (n y : NodeId) : Prop :=
  (∃ t, t < h.nTree ∧ h.root t = some y) ∨
    ∃ m, m ≠ n ∧ h.alive m = true ∧ (h.firstChild m = some y ∨ h.next m = some y)

theorem RefOther.congr {y : NodeId} (R : RefOther h n y) (hr : h'.root = h.root) (hnt : h'.nTree = h.nTree)
    (ha : h'.alive = h.alive) (hf : ∀ m, m ≠ n → h'.firstChild m = h.firstChild m)
    (hn : ∀ m, m ≠ n → h'.next m = h.next m) : RefOther h' n y := by
  rcases R with ⟨t, h1, h2⟩ | ⟨m, h1, h2, h3⟩
  · exact .inl ⟨t, by rw [hnt]; exact h1, by rw [hr]; exact h2⟩
  · exact .inr ⟨m, h1, by rw [ha]; exact h2, by rw [hf m h1, hn m h1]; exact h3⟩

theorem RefOther.referenced {y : NodeId} (R : RefOther h n y) (hb : ∀ x, h.alive x = true → x < h.nNode) :
    h.referenced y = true := by
  rcases R with ⟨t, h1, h2⟩ | ⟨m, h1, h2, h3⟩
  · exact referenced_iff.2 (.inr (.inl ⟨t, h1, h2⟩))
  · exact referenced_iff.2 (.inr (.inr ⟨m, hb m h2, h2, h3⟩))

theorem replaceTail_strict (K : RefBut [n] h) (h1 : ∀ y, h.firstChild n = some y → RefOther h n y)
    (h2 : ∀ y, h.next n = some y → RefOther h n y) : h.replaceTail n = h.replaceTailL n := by
  unfold Heap.replaceTail Heap.replaceTailL
  simp only [bind, Except.bind]
  have K1 : RefBut [n] ((h.setParent n none).setFirst n none) := by
    refine K.setParent.setFirst (fun y hy => .inr (.inr ?_))
    refine RefOther.referenced (n := n) ((h1 y hy).congr rfl rfl rfl ?_ (fun _ _ => rfl)) K.bound
    intro m hm
    simp [Heap.setFirst, Heap.setParent, hm]
  rw [K1.putFirst (pin1 (by simp))]
  have K2 : RefBut [n] ((((h.setParent n none).setFirst n none).setPrev n (some n)).setNext n none) := by
    refine K1.setPrev.setNext (fun y hy => .inr (.inr ?_))
    refine RefOther.referenced (n := n) ((h2 y hy).congr rfl rfl rfl ?_ ?_) K.bound
    · intro m hm
      simp [Heap.setFirst, Heap.setParent, Heap.setPrev, Heap.setNext, hm]
    · intro m hm
      simp [Heap.setFirst, Heap.setParent, Heap.setPrev, Heap.setNext, hm]
  simp only
  rw [K2.putNext (pin1 (by simp))]
  rfl

/-- What is known after the node has been taken out of the list of its siblings. -/
def SplicedOK (h : Heap α) (n : NodeId) (f : Option NodeId) (r : Except Fault (Heap α)) : Prop :=
  ∀ h', r = .ok h' → RefBut [n] h' ∧ h'.firstChild n = h.firstChild n ∧ h'.next n = h.next n ∧
    (∀ y, f = some y → RefOther h' n y) ∧ (∀ y, h.next n = some y → RefOther h' n y)

/-- The links around a node that is about to be replaced. -/
structure AroundOK (h : Heap α) (n p : NodeId) (prev : Option NodeId) : Prop where
  ref : RefBut [n] h
  ne : p ≠ n
  alive : h.alive p = true
  before : ∀ a, prev = some a → h.next a = some n ∧ a ≠ n ∧ h.alive a = true
  first : prev = none → h.firstChild p = some n

theorem replaceRelinkSome_strict {f : NodeId} {prev : Option NodeId} (A : AroundOK h n p prev)
    (hl : ∀ l, h.prevCycLink f = .ok l → h.next l = none ∧ l ≠ n ∧ h.alive l = true) :
    h.replaceRelinkSome [n] p f prev (h.next n) = h.replaceRelinkSomeL p f prev (h.next n) ∧
    SplicedOK h n (some f) (h.replaceRelinkSomeL p f prev (h.next n)) := by
  unfold Heap.replaceRelinkSome Heap.replaceRelinkSomeL
  simp only [bind, Except.bind, pure, Except.pure]
  cases e : h.prevCycLink f with
  | error x => exact ⟨rfl, fun _ e => by cases e⟩
  | ok l =>
    obtain ⟨l1, l2, l3⟩ := hl l e
    simp only
    have pn : ∀ {o : List NodeId}, n ∈ o → ∀ y ∈ [n], y ∈ o := fun ho => pin1 ho
    cases hp : prev with
    | some a =>
      obtain ⟨a1, a2, a3⟩ := A.before a hp
      have hal : a ≠ l := by rintro rfl; rw [l1] at a1; cases a1
      have K1 : RefBut [n] (h.connectAdjacent a f) :=
        A.ref.setPrev.setNext (fun y hy => .inr (.inl (by
          have : h.next a = some y := hy
          rw [a1] at this; cases this; simp)))
      cases hx : h.next n with
      | some b =>
        simp only
        have hl1 : (h.connectAdjacent a f).next l = none := by
          simp [Heap.connectAdjacent, Heap.setNext, Heap.setPrev, Ne.symm hal, l1]
        have K2 : RefBut [n] ((h.connectAdjacent a f).connectAdjacent l b) :=
          K1.setPrev.setNext (fun y hy => by
            have : (h.connectAdjacent a f).next l = some y := hy
            rw [hl1] at this; cases this)
        rw [K1.connect (pn (by simp))]
        simp only
        rw [K2.connect (pn (by simp))]
        simp only
        rw [K2.dropLocal (pn (by simp))]
        simp only
        rw [K2.dropLocal (pn (by simp))]
        refine ⟨rfl, fun h' e' => ?_⟩
        cases e'
        refine ⟨K2, rfl, ?_, ?_, ?_⟩
        · simp [Heap.connectAdjacent, Heap.setNext, Heap.setPrev, Ne.symm a2, Ne.symm l2]
        · intro y hy; cases hy
          exact .inr ⟨a, a2, a3, .inr (by simp [Heap.connectAdjacent, Heap.setNext, Heap.setPrev, hal])⟩
        · intro y hy; rw [hx] at hy; cases hy
          exact .inr ⟨l, l2, l3, .inr (by simp [Heap.connectAdjacent, Heap.setNext, Heap.setPrev])⟩
      | none =>
        simp only
        rw [K1.connect (pn (by simp))]
        simp only
        cases hf : (h.connectAdjacent a f).firstChildLink p with
        | none => exact ⟨rfl, fun _ e => by cases e⟩
        | some g =>
          simp only
          have K2 : RefBut [n] ((h.connectAdjacent a f).setPrev g (some l)) := K1.setPrev
          rw [K2.dropLocal (pn (by simp))]
          simp only
          rw [K2.dropLocal (pn (by simp))]
          simp only
          rw [K2.dropLocal (pn (by simp))]
          refine ⟨rfl, fun h' e' => ?_⟩
          cases e'
          refine ⟨K2, rfl, ?_, ?_, ?_⟩
          · simp [Heap.connectAdjacent, Heap.setNext, Heap.setPrev, Ne.symm a2]
          · intro y hy; cases hy
            exact .inr ⟨a, a2, a3, .inr (by simp [Heap.connectAdjacent, Heap.setNext, Heap.setPrev])⟩
          · intro y hy; rw [hx] at hy; cases hy
    | none =>
      have hfp := A.first hp
      cases hx : h.next n with
      | some b =>
        simp only
        have K1 : RefBut [n] (h.connectAdjacent l b) :=
          A.ref.setPrev.setNext (fun y hy => by
            have : h.next l = some y := hy
            rw [l1] at this; cases this)
        rw [K1.connect (pn (by simp))]
        simp only
        cases hw : (h.connectAdjacent l b).lastChildLinkWeak p with
        | none => exact ⟨rfl, fun _ e => by cases e⟩
        | some w =>
          simp only
          have K2 : RefBut [n] (((h.connectAdjacent l b).setPrev f w).setFirst p (some f)) :=
            K1.setPrev.setFirst (fun y hy => .inr (.inl (by
              have : h.firstChild p = some y := hy
              rw [hfp] at this; cases this; simp)))
          rw [K2.putFirst (pn (by simp))]
          simp only
          rw [K2.dropLocal (pn (by simp))]
          refine ⟨rfl, fun h' e' => ?_⟩
          cases e'
          refine ⟨K2, ?_, ?_, ?_, ?_⟩
          · simp [Heap.connectAdjacent, Heap.setNext, Heap.setPrev, Heap.setFirst, Ne.symm A.ne]
          · simp [Heap.connectAdjacent, Heap.setNext, Heap.setPrev, Heap.setFirst, Ne.symm l2]
          · intro y hy; cases hy
            exact .inr ⟨p, A.ne, A.alive, .inl (by simp [Heap.setFirst])⟩
          · intro y hy; rw [hx] at hy; cases hy
            exact .inr ⟨l, l2, l3, .inr (by
              simp [Heap.connectAdjacent, Heap.setNext, Heap.setPrev, Heap.setFirst])⟩
      | none =>
        simp only
        have K2 : RefBut [n] (h.setFirst p (some f)) :=
          A.ref.setFirst (fun y hy => .inr (.inl (by rw [hfp] at hy; cases hy; simp)))
        rw [K2.putFirst (pn (by simp))]
        simp only
        rw [K2.dropLocal (pn (by simp))]
        refine ⟨rfl, fun h' e' => ?_⟩
        cases e'
        refine ⟨K2, ?_, rfl, ?_, ?_⟩
        · simp [Heap.setFirst, Ne.symm A.ne]
        · intro y hy; cases hy
          exact .inr ⟨p, A.ne, A.alive, .inl (by simp [Heap.setFirst])⟩
        · intro y hy; rw [hx] at hy; cases hy

theorem replaceRelinkNone_strict {prev : Option NodeId} (A : AroundOK h n p prev) :
    h.replaceRelinkNone [n] p prev (h.next n) = h.replaceRelinkNoneL p prev (h.next n) ∧
    SplicedOK h n none (h.replaceRelinkNoneL p prev (h.next n)) := by
  unfold Heap.replaceRelinkNone Heap.replaceRelinkNoneL
  simp only [bind, Except.bind, pure, Except.pure]
  have pn : ∀ {o : List NodeId}, n ∈ o → ∀ y ∈ [n], y ∈ o := fun ho => pin1 ho
  cases hp : prev with
  | some a =>
    obtain ⟨a1, a2, a3⟩ := A.before a hp
    cases hx : h.next n with
    | some b =>
      simp only
      have K1 : RefBut [n] (h.connectAdjacent a b) :=
        A.ref.setPrev.setNext (fun y hy => .inr (.inl (by
          have : h.next a = some y := hy
          rw [a1] at this; cases this; simp)))
      rw [K1.connect (pn (by simp))]
      simp only
      rw [K1.dropLocal (pn (by simp))]
      refine ⟨rfl, fun h' e' => ?_⟩
      cases e'
      refine ⟨K1, rfl, ?_, (fun y hy => by cases hy), ?_⟩
      · simp [Heap.connectAdjacent, Heap.setNext, Heap.setPrev, Ne.symm a2]
      · intro y hy; rw [hx] at hy; cases hy
        exact .inr ⟨a, a2, a3, .inr (by simp [Heap.connectAdjacent, Heap.setNext, Heap.setPrev])⟩
    | none =>
      simp only
      have K1 : RefBut [n] (h.setNext a none) :=
        A.ref.setNext (fun y hy => .inr (.inl (by rw [a1] at hy; cases hy; simp)))
      rw [K1.putNext (pn (by simp))]
      simp only
      rw [K1.dropLocal (pn (by simp))]
      refine ⟨rfl, fun h' e' => ?_⟩
      cases e'
      refine ⟨K1, rfl, ?_, (fun y hy => by cases hy), ?_⟩
      · simp [Heap.setNext, Ne.symm a2]
      · intro y hy; rw [hx] at hy; cases hy
  | none =>
    have hfp := A.first hp
    cases hx : h.next n with
    | some b =>
      simp only
      cases hw : h.lastChildLinkWeak p with
      | none => exact ⟨rfl, fun _ e => by cases e⟩
      | some w =>
        simp only
        have K1 : RefBut [n] ((h.setPrev b w).setFirst p (some b)) :=
          A.ref.setPrev.setFirst (fun y hy => .inr (.inl (by
            have : h.firstChild p = some y := hy
            rw [hfp] at this; cases this; simp)))
        rw [K1.putFirst (pn (by simp))]
        refine ⟨rfl, fun h' e' => ?_⟩
        cases e'
        refine ⟨K1, ?_, rfl, (fun y hy => by cases hy), ?_⟩
        · simp [Heap.setFirst, Heap.setPrev, Ne.symm A.ne]
        · intro y hy; rw [hx] at hy; cases hy
          exact .inr ⟨p, A.ne, A.alive, .inl (by simp [Heap.setFirst])⟩
    | none =>
      simp only
      have K1 : RefBut [n] (h.setFirst p none) :=
        A.ref.setFirst (fun y hy => .inr (.inl (by rw [hfp] at hy; cases hy; simp)))
      rw [K1.putFirst (pn (by simp))]
      refine ⟨rfl, fun h' e' => ?_⟩
      cases e'
      refine ⟨K1, ?_, rfl, (fun y hy => by cases hy), ?_⟩
      · simp [Heap.setFirst, Ne.symm A.ne]
      · intro y hy; rw [hx] at hy; cases hy

/-- What `try_replace_with_children` reads of the surroundings of a node that has a parent. -/
structure ReplaceOK (h : Heap α) (n p : NodeId) : Prop where
  ne : p ≠ n
  parent : h.parentLink n = some p
  unlink : UnlinkOK h n
  last : ∀ f l, h.firstChild n = some f → h.prevCycLink f = .ok l →
    h.next l = none ∧ l ≠ n ∧ h.alive l = true

theorem SplicedOK.num {f : Option NodeId} {g g' : Heap α} (S : SplicedOK h n f (.ok g))
    (hr : g'.root = g.root) (hnt : g'.nTree = g.nTree) (ha : g'.alive = g.alive)
    (hf : g'.firstChild = g.firstChild) (hn : g'.next = g.next) (K : RefBut [n] g') :
    SplicedOK h n f (.ok g') := by
  obtain ⟨s1, s2, s3, s4, s5⟩ := S g rfl
  intro h' e
  cases e
  exact ⟨K, by rw [hf]; exact s2, by rw [hn]; exact s3,
    fun y hy => (s4 y hy).congr hr hnt ha (fun m _ => by rw [hf]) (fun m _ => by rw [hn]),
    fun y hy => (s5 y hy).congr hr hnt ha (fun m _ => by rw [hf]) (fun m _ => by rw [hn])⟩

theorem replaceNonRoot_strict (K : RefBut [] h) (R : ReplaceOK h n p) :
    h.replaceNonRoot n p (h.firstChild n) = h.replaceNonRootL n p (h.firstChild n) ∧
    SplicedOK h n (h.firstChild n) (h.replaceNonRootL n p (h.firstChild n)) := by
  unfold Heap.replaceNonRoot Heap.replaceNonRootL
  simp only [bind, Except.bind, pure, Except.pure]
  rw [reparentLoop_strict K (by simp)]
  cases e : Heap.reparentLoopL (h.nNode + 1) (h.firstChild n) p h with
  | error x => exact ⟨rfl, fun _ e => by cases e⟩
  | ok g =>
    have Kg := K.reparent e
    have eg := reparentLoop_eq e
    have e1 : g.prevCycLink = h.prevCycLink := by rw [eg]; rfl
    have e2 : g.next = h.next := by rw [eg]
    have e3 : g.firstChild = h.firstChild := by rw [eg]
    have e4 : g.alive = h.alive := by rw [eg]; rfl
    have hpa := parentLink_alive' R.parent
    simp only
    cases ep : g.prevLink n with
    | error x => exact ⟨rfl, fun _ e => by cases e⟩
    | ok prev =>
      simp only [Heap.nextLink]
      have A : AroundOK g n p prev := by
        refine ⟨Kg.weaken (by simp), R.ne, by rw [e4]; exact hpa, ?_, ?_⟩
        all_goals
          unfold Heap.prevLink at ep
          cases hc : g.prevCycLink n with
          | error x => simp [hc, bind, Except.bind] at ep
          | ok c =>
            simp only [hc, bind, Except.bind, pure, Except.pure] at ep
            rw [e1] at hc
            obtain ⟨u1, u2⟩ := R.unlink p c R.parent hc
            have hca : h.alive c = true := by
              unfold Heap.prevCycLink at hc
              split at hc
              · rename_i m hm
                simp only [Except.ok.injEq] at hc; subst hc
                simp only [Heap.upgrade, Option.filter_eq_some_iff] at hm
                exact hm.2
              · cases hc
            rw [e2] at ep
            cases hx : h.next c with
            | none =>
              simp only [hx, Option.isSome_none, Bool.false_eq_true, if_false, Except.ok.injEq] at ep
              subst ep
              first
                | intro a ha; cases ha
                | intro _; rw [e3]; exact u1 hx
            | some y =>
              simp only [hx, Option.isSome_some, if_true, Except.ok.injEq] at ep
              subst ep
              obtain ⟨rfl, hcn⟩ := u2 y hx
              first
                | (intro a ha; cases ha; exact ⟨by rw [e2]; exact hx, hcn, by rw [e4]; exact hca⟩)
                | (intro ha; cases ha)
      have fin : ∀ {f : Option NodeId} {r : Except Fault (Heap α)}, SplicedOK g n f r →
          (do
              let g1 ← r
              if g1.numCh p = 0 then Except.error (Fault.panic "`parent` has a child `this`")
              else
                let g2 ← g1.numSub p 1
                (g2.numAdd p (g2.numCh n)).dropLocal [n] p : Except Fault (Heap α)) =
          (do
              let g1 ← r
              if g1.numCh p = 0 then Except.error (Fault.panic "`parent` has a child `this`")
              else
                let g2 ← g1.numSub p 1
                return g2.numAdd p (g2.numCh n) : Except Fault (Heap α)) ∧
          SplicedOK h n f (do
              let g1 ← r
              if g1.numCh p = 0 then Except.error (Fault.panic "`parent` has a child `this`")
              else
                let g2 ← g1.numSub p 1
                return g2.numAdd p (g2.numCh n) : Except Fault (Heap α)) := by
        intro f r S
        cases r with
        | error x => exact ⟨rfl, fun _ e => by cases e⟩
        | ok g1 =>
          simp only [bind, Except.bind, pure, Except.pure]
          by_cases h0 : g1.numCh p = 0
          · simp only [h0, if_true]; exact ⟨trivial, fun _ e => by cases e⟩
          · simp only [h0, if_false]
            cases hs : g1.numSub p 1 with
            | error x => exact ⟨rfl, fun _ e => by cases e⟩
            | ok g2 =>
              simp only
              have K2 := ((S g1 rfl).1.numSub hs).numAdd (m := p) (v := g2.numCh n)
              rw [K2.dropLocal (pin1 (by simp))]
              refine ⟨rfl, ?_⟩
              have hg : g2.root = g1.root ∧ g2.nTree = g1.nTree ∧ g2.alive = g1.alive ∧
                  g2.firstChild = g1.firstChild ∧ g2.next = g1.next := by
                unfold Heap.numSub at hs
                split at hs
                · cases hs
                · simp only [Except.ok.injEq] at hs; subst hs; exact ⟨rfl, rfl, rfl, rfl, rfl⟩
              have S2 := S.num (g' := g2.numAdd p (g2.numCh n)) hg.1 hg.2.1 hg.2.2.1 hg.2.2.2.1 hg.2.2.2.2 K2
              intro h' e'
              obtain ⟨s1, s2, s3, s4, s5⟩ := S2 h' e'
              exact ⟨s1, by rw [s2, e3], by rw [s3, e2], s4, by rw [e2] at s5; exact s5⟩
      simp only [bind, Except.bind, pure, Except.pure] at fin
      cases hf : h.firstChild n with
      | none =>
        obtain ⟨x1, x2⟩ := replaceRelinkNone_strict A
        simp only
        rw [x1]
        exact fin x2
      | some f =>
        obtain ⟨x1, x2⟩ := replaceRelinkSome_strict (f := f) A (fun l hl => by
          rw [e1] at hl; rw [e2, e4]; exact R.last f l hf hl)
        simp only
        rw [x1]
        exact fin x2

/-- What `try_replace_with_children` reads of a node without a parent. -/
structure RootOK (h : Heap α) (n : NodeId) : Prop where
  root : ∀ t y, h.treeCore n = .ok t → h.root t = some y → y = n
  tree : ∀ t, h.treeCore n = .ok t → t < h.nTree
  next : h.next n = none

theorem replaceWithChildren_strict (K : RefBut [] h)
    (h1 : ∀ p, h.parentLink n = some p → ReplaceOK h n p)
    (h2 : h.parentLink n = none → RootOK h n) :
    h.replaceWithChildren n = h.replaceWithChildrenL n := by
  unfold Heap.replaceWithChildren Heap.replaceWithChildrenL
  simp only [bind, Except.bind, pure, Except.pure]
  cases ht : h.treeCore n with
  | error x => rfl
  | ok t =>
    simp only
    have K1 : RefBut [] (h.acqTree t) := K.acqTree
    have e0 : (h.acqTree t).parentLink n = h.parentLink n := rfl
    rw [e0]
    cases hp : h.parentLink n with
    | some p =>
      have R := h1 p hp
      have R1 : ReplaceOK (h.acqTree t) n p := ⟨R.ne, R.parent, R.unlink.acqTree, R.last⟩
      obtain ⟨x1, x2⟩ := replaceNonRoot_strict K1 R1
      simp only
      have e1 : (h.acqTree t).firstChildLink n = (h.acqTree t).firstChild n := rfl
      rw [e1, x1]
      cases e2 : (h.acqTree t).replaceNonRootL n p ((h.acqTree t).firstChild n) with
      | error x => rfl
      | ok g =>
        obtain ⟨s1, s2, s3, s4, s5⟩ := x2 g e2
        simp only
        rw [replaceTail_strict s1 (fun y hy => s4 y (by rw [← s2]; exact hy))
          (fun y hy => s5 y (by rw [← s3]; exact hy))]
    | none =>
      have R := h2 hp
      simp only
      cases hf : (h.acqTree t).firstChildLink n with
      | none => rfl
      | some c =>
        simp only
        have K2 : RefBut [n] (((h.acqTree t).setParent c none).setRoot t (some c)) :=
          (K1.weaken (by simp)).setParent.setRoot (fun y hy => .inr (.inl (by
            have : h.root t = some y := hy
            rw [R.root t y ht this]; simp)))
        rw [K2.putRoot (pin1 (by simp))]
        simp only
        rw [replaceTail_strict K2 ?_ ?_]
        · intro y hy
          have : h.firstChild n = some y := hy
          have hc : h.firstChild n = some c := hf
          rw [hc] at this; cases this
          exact .inl ⟨t, R.tree t ht, by simp [Heap.setRoot]⟩
        · intro y hy
          have : h.next n = some y := hy
          rw [R.next] at this; cases this

/-- Unlinking keeps the set of living nodes. -/
theorem newByUnlinkL_alive {h1 : Heap α} {b : Bool} (e : h.newByUnlinkL n = .ok (h1, b)) :
    h1.alive = h.alive := by
  unfold Heap.newByUnlinkL at e
  split at e
  · simp only [Except.ok.injEq, Prod.mk.injEq] at e; rw [← e.1]
  · simp only [bind, Except.bind] at e
    split at e
    · cases e
    · rename_i prev _
      split at e
      · cases e
      · rename_i pc _
        split at e
        · cases e
        · rename_i y hy
          have key : y.alive = h.alive := by
            split at hy
            · rename_i p hp
              split at hy
              · cases hy
              · rename_i v _
                have go : ∀ z : Heap α, z.alive = h.alive →
                    (if z.numCh p = 0 then Except.error (Fault.panic "parent should have a child")
                      else z.numSub p 1) = .ok y → y.alive = h.alive := by
                  intro z hz hy
                  split at hy
                  · cases hy
                  · unfold Heap.numSub at hy
                    split at hy
                    · cases hy
                    · simp only [Except.ok.injEq] at hy
                      rw [← hy]; exact hz
                cases v with
                | true => exact go (h.setFirst p (h.nextLink n)) rfl hy
                | false => exact go h rfl hy
            · simp only [Except.ok.injEq] at hy; rw [← hy]
          simp only [pure, Except.pure, Except.ok.injEq, Prod.mk.injEq] at e
          rw [← e.1, ← key]
          cases prev <;> cases h.nextLink n <;> rfl

/-- The node a new parent is put above is linked as `new_by_unlink` expects once the new node is there. -/
structure InterruptOK (h : Heap α) (n m : NodeId) (t : TreeId) : Prop where
  last : ∀ p, h.parentLink n = some p → h.nextLink n = none → LastNext h p
  between : ∀ p s h2, h.parentLink n = some p → h.nextLink n = some s →
    h.insertBetweenL m p n s = .ok h2 → UnlinkOK h2 n
  after : ∀ p h2, h.parentLink n = some p → h.nextLink n = none →
    h.insertLastL m true p = .ok (h2, .ok ()) → UnlinkOK h2 n
  root : h.parentLink n = none → ∀ y, h.root t = some y → y = n

theorem interruptParent_strict {m : NodeId} (K : RefBut [] h) (hn : h.alive n = true)
    (hm : h.alive m = true) (hf : h.firstChild m = none) (hx : h.next m = none) (hnm : n ≠ m)
    (hmp : h.parentLink n ≠ some m) (I : InterruptOK h n m t) :
    h.interruptParent n t m = h.interruptParentL n t m := by
  unfold Heap.interruptParent Heap.interruptParentL
  have go : ∀ {g : Heap α} {p : NodeId}, RefBut [] g → g.alive = h.alive → g.firstChild m = none →
      g.parentLink n ≠ some m → UnlinkOK g n →
      (do
        let (h, _) ← Heap.expectOk (g.moveSame [p] n (.lastChildOf m))
          "the new node is neither ancestor nor descendant of `this`"
        let h ← h.dropLocal [n, m] p
        return (h, .ok ()) : Except Fault (Heap α × Except HierarchyError Unit)) =
      (do
        let (h, _) ← Heap.expectOk (g.moveSameL n (.lastChildOf m))
          "the new node is neither ancestor nor descendant of `this`"
        return (h, .ok ()) : Except Fault (Heap α × Except HierarchyError Unit)) := by
    intro g p Kg ga gf gp U
    have hi : g.isRoot n = false → ∀ h1 b, g.newByUnlinkL n = .ok (h1, b) →
        InsertOK h1 (.lastChildOf m) := by
      intro _ h1 b e
      refine ⟨by rw [newByUnlinkL_alive e, ga]; exact hm, ?_⟩
      intro f l e'
      unfold Heap.firstLastChildLink Heap.firstChildLink at e'
      rw [newByUnlink_firstChild e gp, gf] at e'
      cases e'
    obtain ⟨e1, e2⟩ := moveSame_strict (dest := .lastChildOf m) Kg (by rw [ga]; exact hn) U hi [p]
    rw [e1]
    cases e3 : g.moveSameL n (.lastChildOf m) with
    | error x => rfl
    | ok v =>
      obtain ⟨g1, r⟩ := v
      cases r with
      | error x => rfl
      | ok u =>
        simp only [Heap.expectOk, bind, Except.bind]
        rw [(e2 g1 _ e3).dropLocal (pin1 (by simp))]
  cases hp : h.parentLink n with
  | none =>
    simp only [bind, Except.bind, pure, Except.pure]
    have K1 : RefBut [n] (h.setRoot t (some m)) := (K.weaken (by simp)).setRoot (fun y hy =>
      .inr (.inl (by rw [I.root hp y hy]; simp)))
    rw [K1.putRoot (pin1 (by simp))]
    simp only
    have e1 : ((h.setRoot t (some m)).setPrev m (some m)).firstChild m = none := hf
    have e2 : ((h.setRoot t (some m)).setPrev m (some m)).putFirst [n, m] m (some n) =
        .ok (((h.setRoot t (some m)).setPrev m (some m)).setFirst m (some n)) := by
      unfold Heap.putFirst; rw [e1]; rfl
    rw [e2]
  | some p =>
    rw [hp] at hmp
    have hpm : m ≠ p := by rintro rfl; exact hmp rfl
    simp only
    cases hs : h.nextLink n with
    | some s =>
      obtain ⟨e1, e2⟩ := insertBetween_strict (n := m) (p := p) (a := n) (b := s)
        (K.weaken (by simp)) hm hx hn []
      simp only
      rw [e1]
      cases e3 : h.insertBetweenL m p n s with
      | error x => rfl
      | ok g =>
        obtain ⟨g1, g2⟩ := e2 g e3
        obtain ⟨f1, f2⟩ := insertBetween_firstChild (n := n) (x := m) e3
        have := go (p := p) g2 g1 (f1.trans hf) (by rw [f2 hnm, hp]; exact hmp)
          (I.between p s g hp hs e3)
        simp only [bind, Except.bind] at this ⊢
        rw [g2.dropLocal (by simp)]
        exact this
    | none =>
      obtain ⟨e1, e2⟩ := insertLast_strict (n := m) (p := p) (b := true)
        (K.weaken (by simp)) hm (parentLink_alive' hp) (I.last p hp hs) [n]
      simp only
      rw [e1]
      cases e3 : h.insertLastL m true p with
      | error x => rfl
      | ok v =>
        obtain ⟨g, r⟩ := v
        obtain ⟨g1, g2⟩ := e2 g r e3
        cases r with
        | error x => rfl
        | ok u =>
          obtain ⟨f1, f2⟩ := insertLast_firstChild (n := n) (x := m) e3 hpm
          have := go (p := p) g2 g1 (f1.trans hf) (by rw [f2 hnm, hp]; exact hmp)
            (I.after p g hp hs e3)
          simp only [bind, Except.bind, Heap.expectOk, pure, Except.pure] at this ⊢
          exact this

end Dendron
