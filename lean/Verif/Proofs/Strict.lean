import Verif.Proofs.Own
import Verif.Proofs.Loose

/-!
When no release check inside an edit frees anything: it is enough that every living node keeps a
strong reference (except those held by the callers) and that the links which are read are right.
-/

set_option linter.unusedSimpArgs false
set_option linter.unusedVariables false

set_option autoImplicit false

namespace Dendron
variable {α : Type} {h h' g : Heap α} {n p : NodeId} {t : TreeId} {E held : List NodeId}

/-- Every living node outside of `E` is strongly referenced. -/
structure RefBut (E : List NodeId) (h : Heap α) : Prop where
  ref : ∀ x, h.alive x = true → x ∈ E ∨ h.referenced x = true
  bound : ∀ x, h.alive x = true → x < h.nNode

theorem RefBut.weaken {E' : List NodeId} (K : RefBut E h) (hs : ∀ x ∈ E, x ∈ E') : RefBut E' h :=
  ⟨fun x hx => (K.ref x hx).imp (hs x) id, K.bound⟩

theorem WF.refBut {ch : NodeId → List NodeId} (W : WF h ch) : RefBut [] h :=
  ⟨fun _ hx => .inr (W.referenced hx), W.bound⟩

theorem RefBut.dropLocal {x : NodeId} (K : RefBut E h) (hs : ∀ y ∈ E, y ∈ held) :
    h.dropLocal held x = .ok h := by
  unfold Heap.dropLocal Heap.relFuel
  cases ha : h.alive x with
  | false => exact release_dead ha
  | true =>
    rcases K.ref x ha with h1 | h1
    · exact release_pinned (hs x h1)
    · exact release_referenced h1

theorem RefBut.dropOpt {o : Option NodeId} (K : RefBut E h) (hs : ∀ y ∈ E, y ∈ held) :
    h.dropOpt held o = .ok h := by
  cases o with
  | none => rfl
  | some x => exact K.dropLocal hs

/-- References of `x` survive a change of links if the links to `x` are replaced. -/
theorem referenced_mono {x : NodeId} (hr : h.referenced x = true) (hd : h'.data = h.data)
    (hm : h'.mem = h.mem) (hnn : h'.nNode = h.nNode) (hnt : h'.nTree = h.nTree)
    (h1 : ∀ t, h.root t = some x → h'.root t = some x ∨ h'.referenced x = true)
    (h2 : ∀ m, h.firstChild m = some x → h'.firstChild m = some x ∨ h'.referenced x = true)
    (h3 : ∀ m, h.next m = some x → h'.next m = some x ∨ h'.referenced x = true) :
    h'.referenced x = true := by
  have hal : ∀ m, h'.alive m = h.alive m := fun m => by simp [Heap.alive, hd]
  rcases referenced_iff.1 hr with ⟨t, rc, l, e⟩ | ⟨t, ht, e⟩ | ⟨m, hmn, hma, e | e⟩
  · exact referenced_iff.2 (.inl ⟨t, rc, l, by rw [hm]; exact e⟩)
  · rcases h1 t e with e' | e'
    · exact referenced_iff.2 (.inr (.inl ⟨t, by rw [hnt]; exact ht, e'⟩))
    · exact e'
  · rcases h2 m e with e' | e'
    · exact referenced_iff.2 (.inr (.inr ⟨m, by rw [hnn]; exact hmn, by rw [hal]; exact hma, .inl e'⟩))
    · exact e'
  · rcases h3 m e with e' | e'
    · exact referenced_iff.2 (.inr (.inr ⟨m, by rw [hnn]; exact hmn, by rw [hal]; exact hma, .inr e'⟩))
    · exact e'

theorem ref_first {m x : NodeId} (hb : m < h.nNode) (ha : h.alive m = true)
    (e : h.firstChild m = some x) : h.referenced x = true :=
  referenced_iff.2 (.inr (.inr ⟨m, hb, ha, .inl e⟩))
theorem ref_next {m x : NodeId} (hb : m < h.nNode) (ha : h.alive m = true)
    (e : h.next m = some x) : h.referenced x = true :=
  referenced_iff.2 (.inr (.inr ⟨m, hb, ha, .inr e⟩))

/-- Only parents, previous siblings and counts differ. -/
theorem RefBut.congr (K : RefBut E h) (hd : h'.data = h.data) (hm : h'.mem = h.mem)
    (hr : h'.root = h.root) (hnn : h'.nNode = h.nNode) (hnt : h'.nTree = h.nTree)
    (hf : h'.firstChild = h.firstChild) (hn : h'.next = h.next) : RefBut E h' := by
  have hal : ∀ m, h'.alive m = h.alive m := fun m => by simp [Heap.alive, hd]
  refine ⟨fun x hx => ?_, fun x hx => ?_⟩
  · rw [hal] at hx
    refine (K.ref x hx).imp id fun e => referenced_mono e hd hm hnn hnt ?_ ?_ ?_
    · intro t e; rw [hr]; exact .inl e
    · intro m e; rw [hf]; exact .inl e
    · intro m e; rw [hn]; exact .inl e
  · rw [hal] at hx; rw [hnn]; exact K.bound x hx

theorem RefBut.setParent {m : NodeId} {v : Option NodeId} (K : RefBut E h) :
    RefBut E (h.setParent m v) := K.congr rfl rfl rfl rfl rfl rfl rfl
theorem RefBut.setPrev {m : NodeId} {v : Option NodeId} (K : RefBut E h) :
    RefBut E (h.setPrev m v) := K.congr rfl rfl rfl rfl rfl rfl rfl
theorem RefBut.setNum {m : NodeId} {v : Nat} (K : RefBut E h) :
    RefBut E (h.setNum m v) := K.congr rfl rfl rfl rfl rfl rfl rfl
theorem RefBut.numAdd {m : NodeId} {v : Nat} (K : RefBut E h) : RefBut E (h.numAdd m v) := K.setNum
theorem RefBut.numSub {m : NodeId} {v : Nat} (K : RefBut E h) (e : h.numSub m v = .ok h') :
    RefBut E h' := by
  unfold Heap.numSub at e
  split at e
  · cases e
  · simp only [Except.ok.injEq] at e; subst e; exact K.setNum

theorem RefBut.setNext {m : NodeId} {v : Option NodeId} (K : RefBut E h)
    (hl : ∀ y, h.next m = some y → v = some y ∨ y ∈ E ∨ (h.setNext m v).referenced y = true) :
    RefBut E (h.setNext m v) := by
  refine ⟨fun x hx => ?_, K.bound⟩
  rcases K.ref x hx with h1 | h1
  · exact .inl h1
  · by_cases hE : x ∈ E
    · exact .inl hE
    · refine .inr (referenced_mono h1 rfl rfl rfl rfl (fun _ e => .inl e) (fun _ e => .inl e) ?_)
      intro a e
      by_cases ea : a = m
      · subst ea
        rcases hl x e with h2 | h2 | h2
        · left; simp [Heap.setNext, h2]
        · exact absurd h2 hE
        · exact .inr h2
      · left; simp only [Heap.setNext, upd_apply, if_neg ea]; exact e

theorem RefBut.setFirst {m : NodeId} {v : Option NodeId} (K : RefBut E h)
    (hl : ∀ y, h.firstChild m = some y → v = some y ∨ y ∈ E ∨ (h.setFirst m v).referenced y = true) :
    RefBut E (h.setFirst m v) := by
  refine ⟨fun x hx => ?_, K.bound⟩
  rcases K.ref x hx with h1 | h1
  · exact .inl h1
  · by_cases hE : x ∈ E
    · exact .inl hE
    · refine .inr (referenced_mono h1 rfl rfl rfl rfl (fun _ e => .inl e) ?_ (fun _ e => .inl e))
      intro a e
      by_cases ea : a = m
      · subst ea
        rcases hl x e with h2 | h2 | h2
        · left; simp [Heap.setFirst, h2]
        · exact absurd h2 hE
        · exact .inr h2
      · left; simp only [Heap.setFirst, upd_apply, if_neg ea]; exact e

theorem RefBut.setRoot {v : Option NodeId} (K : RefBut E h)
    (hl : ∀ y, h.root t = some y → v = some y ∨ y ∈ E ∨ (h.setRoot t v).referenced y = true) :
    RefBut E (h.setRoot t v) := by
  refine ⟨fun x hx => ?_, K.bound⟩
  rcases K.ref x hx with h1 | h1
  · exact .inl h1
  · by_cases hE : x ∈ E
    · exact .inl hE
    · refine .inr (referenced_mono h1 rfl rfl rfl rfl ?_ (fun _ e => .inl e) (fun _ e => .inl e))
      intro a e
      by_cases ea : a = t
      · subst ea
        rcases hl x e with h2 | h2 | h2
        · left; simp [Heap.setRoot, h2]
        · exact absurd h2 hE
        · exact .inr h2
      · left; simp only [Heap.setRoot, upd_apply, if_neg ea]; exact e

theorem RefBut.putNext {m : NodeId} {v : Option NodeId} (K : RefBut E (h.setNext m v))
    (hs : ∀ y ∈ E, y ∈ held) : h.putNext held m v = .ok (h.setNext m v) := K.dropOpt hs
theorem RefBut.putFirst {m : NodeId} {v : Option NodeId} (K : RefBut E (h.setFirst m v))
    (hs : ∀ y ∈ E, y ∈ held) : h.putFirst held m v = .ok (h.setFirst m v) := K.dropOpt hs
theorem RefBut.putRoot {x : NodeId} (K : RefBut E (h.setRoot t (some x)))
    (hs : ∀ y ∈ E, y ∈ held) : h.putRoot held t x = .ok (h.setRoot t (some x)) := K.dropOpt hs
theorem RefBut.connect {a b : NodeId} (K : RefBut E (h.connectAdjacent a b))
    (hs : ∀ y ∈ E, y ∈ held) : h.connect held a b = .ok (h.connectAdjacent a b) :=
  RefBut.putNext (h := h.setPrev b (some a)) K hs

/-- The strong link to `n` is where `new_by_unlink` looks for it. -/
def UnlinkOK (h : Heap α) (n : NodeId) : Prop :=
  ∀ p c, h.parentLink n = some p → h.prevCycLink n = .ok c →
    (h.next c = none → h.firstChild p = some n) ∧ (∀ y, h.next c = some y → y = n ∧ c ≠ n)

theorem mem_toList_append {o : Option NodeId} {x : NodeId} {l : List NodeId} (hx : x ∈ l) :
    x ∈ o.toList ++ l := List.mem_append_right _ hx

/-- Unlinking frees nothing. -/
theorem newByUnlink_strict (K : RefBut [] h) (hn : h.alive n = true) (hu : UnlinkOK h n) (held) :
    h.newByUnlink held n = h.newByUnlinkL n ∧
    ∀ h' b, h.newByUnlinkL n = .ok (h', b) →
      (h.isRoot n = true ∧ h' = h) ∨ (RefBut [n] h' ∧ h'.next n = none ∧ h'.alive n = true) := by
  unfold Heap.newByUnlink Heap.newByUnlinkL
  cases hr : h.isRoot n with
  | true => simp only [if_true, Except.ok.injEq, Prod.mk.injEq]; exact ⟨trivial, fun h' b e => .inl ⟨trivial, e.1.symm⟩⟩
  | false =>
    simp only [Bool.false_eq_true, if_false, false_and, false_or]
    cases hp : h.parentLink n with
    | none => simp [Heap.isRoot, hp] at hr
    | some p =>
      have hpa : h.alive p = true := by
        simp only [Heap.parentLink, Heap.upgrade, Option.filter_eq_some_iff] at hp; exact hp.2
      have hpb := K.bound p hpa
      cases hc : h.prevCycLink n with
      | error e => simp [Heap.prevLink, hc, bind, Except.bind]
      | ok c =>
        obtain ⟨u1, u2⟩ := hu p c hp hc
        have hca : h.alive c = true := by
          unfold Heap.prevCycLink at hc
          split at hc
          · rename_i m hm
            simp only [Except.ok.injEq] at hc; subst hc
            simp only [Heap.upgrade, Option.filter_eq_some_iff] at hm
            exact hm.2
          · cases hc
        have hcb := K.bound c hca
        have K0 : RefBut [n] h := K.weaken (by simp)
        have pin : ∀ {o : List NodeId}, n ∈ o → ∀ y ∈ [n], y ∈ o := by
          intro o ho y hy; simp only [List.mem_singleton] at hy; rw [hy]; exact ho
        cases hnc : h.next c with
        | none =>
          have hfp := u1 hnc
          simp only [Heap.prevLink, hc, hnc, Heap.isFirstSibling, Heap.isLastSibling, bind, Except.bind,
            pure, Except.pure, Option.isSome_none, Option.isNone_none, Bool.false_eq_true, if_false,
            if_true, Heap.nextLink]
          have K1 : RefBut [n] (h.setFirst p (h.next n)) :=
            K0.setFirst (fun y hy => .inr (.inl (by rw [hfp] at hy; cases hy; simp)))
          rw [K1.putFirst (pin (by simp))]
          simp only
          by_cases h0 : (h.setFirst p (h.next n)).numCh p = 0
          · simp only [h0, if_true]; exact ⟨trivial, fun _ _ e => by cases e⟩
          · simp only [h0, if_false]
            cases hs : (h.setFirst p (h.next n)).numSub p 1 with
            | error e => exact ⟨rfl, fun _ _ e => by cases e⟩
            | ok g =>
              have hg : g.firstChild = upd h.firstChild p (h.next n) ∧ g.next = h.next ∧
                  g.alive = h.alive ∧ g.nNode = h.nNode := by
                unfold Heap.numSub at hs
                split at hs
                · cases hs
                · simp only [Except.ok.injEq] at hs; subst hs; exact ⟨rfl, rfl, rfl, rfl⟩
              have K2 := K1.numSub hs
              obtain ⟨g1, g2, g3, g4⟩ := hg
              have fin : ∀ {k : Heap α}, RefBut [n] k → k.firstChild = g.firstChild → k.next = g.next →
                  k.alive = g.alive → k.nNode = g.nNode →
                  RefBut [n] (((k.setParent n none).setPrev n (some n)).setNext n none) := by
                intro k Kk k1 k2 k3 k4
                refine Kk.setParent.setPrev.setNext ?_
                intro y hy
                right; right
                refine ref_first (m := p) (by show p < k.nNode; rw [k4, g4]; exact hpb)
                  (by show k.alive p = true; rw [k3, g3]; exact hpa) ?_
                show k.firstChild p = some y
                rw [k1, g1, upd_same]
                have : k.next n = some y := hy
                rw [k2, g2] at this; exact this
              cases hx : h.next n with
              | none =>
                have K3 := fin K2 rfl rfl rfl rfl
                simp only
                rw [K3.putNext (pin (by simp))]
                simp only
                rw [K3.dropLocal (pin (by simp))]
                simp only
                rw [K3.dropOpt (pin (by simp))]
                refine ⟨rfl, fun h' b e => ?_⟩
                simp only [Except.ok.injEq, Prod.mk.injEq] at e
                rw [← e.1]
                exact ⟨K3, by simp [Heap.setNext], by show g.alive n = true; rw [g3]; exact hn⟩
              | some s =>
                have K3 := fin (k := g.setPrev s (some c)) K2.setPrev rfl rfl rfl rfl
                simp only
                rw [K2.setPrev.dropLocal (pin (by simp))]
                simp only
                rw [K3.putNext (pin (by simp))]
                simp only
                rw [K3.dropLocal (pin (by simp))]
                simp only
                rw [K3.dropOpt (pin (by simp))]
                refine ⟨rfl, fun h' b e => ?_⟩
                simp only [Except.ok.injEq, Prod.mk.injEq] at e
                rw [← e.1]
                exact ⟨K3, by simp [Heap.setNext], by show g.alive n = true; rw [g3]; exact hn⟩
        | some y0 =>
          obtain ⟨ey, hcn⟩ := u2 y0 hnc
          rw [ey] at hnc
          clear ey u1 u2
          simp only [Heap.prevLink, hc, hnc, Heap.isFirstSibling, Heap.isLastSibling, bind, Except.bind,
            pure, Except.pure, Option.isSome_some, Option.isNone_some, Bool.false_eq_true, if_false,
            if_true, Heap.nextLink]
          by_cases h0 : h.numCh p = 0
          · simp only [h0, if_true]; exact ⟨trivial, fun _ _ e => by cases e⟩
          · simp only [h0, if_false]
            cases hs : h.numSub p 1 with
            | error e => exact ⟨rfl, fun _ _ e => by cases e⟩
            | ok g =>
              have hg : g.firstChild = h.firstChild ∧ g.next = h.next ∧
                  g.alive = h.alive ∧ g.nNode = h.nNode := by
                unfold Heap.numSub at hs
                split at hs
                · cases hs
                · simp only [Except.ok.injEq] at hs; subst hs; exact ⟨rfl, rfl, rfl, rfl⟩
              have K2 := K0.numSub hs
              obtain ⟨g1, g2, g3, g4⟩ := hg
              have K3 : RefBut [n] (g.setNext c (h.next n)) :=
                K2.setNext (fun y hy => .inr (.inl (by rw [g2, hnc] at hy; cases hy; simp)))
              have fin : ∀ {k : Heap α}, RefBut [n] k → k.next = upd h.next c (h.next n) →
                  k.alive = g.alive → k.nNode = g.nNode →
                  RefBut [n] (((k.setParent n none).setPrev n (some n)).setNext n none) := by
                intro k Kk k2 k3 k4
                refine Kk.setParent.setPrev.setNext ?_
                intro y hy
                right; right
                refine ref_next (m := c) (by show c < k.nNode; rw [k4, g4]; exact hcb)
                  (by show k.alive c = true; rw [k3, g3]; exact hca) ?_
                have : k.next n = some y := hy
                rw [k2, upd_ne _ _ (Ne.symm hcn)] at this
                show upd k.next n none c = some y
                rw [upd_ne _ _ hcn, k2, upd_same]; exact this
              simp only
              rw [K3.putNext (pin (by simp))]
              simp only
              rw [K3.dropLocal (pin (by simp))]
              simp only
              cases hx : h.next n with
              | none =>
                rw [hx] at K3 fin
                have K4 := fin K3 (by simp [Heap.setNext, g2]) rfl rfl
                simp only
                rw [K4.putNext (pin (by simp))]
                simp only
                rw [K4.dropLocal (pin (by simp))]
                simp only
                rw [K4.dropOpt (pin (by simp))]
                refine ⟨rfl, fun h' b e => ?_⟩
                simp only [Except.ok.injEq, Prod.mk.injEq] at e
                rw [← e.1]
                exact ⟨K4, by simp [Heap.setNext], by show g.alive n = true; rw [g3]; exact hn⟩
              | some s =>
                rw [hx] at K3 fin
                have K4 := fin (k := (g.setNext c (some s)).setPrev s (some c)) K3.setPrev
                  (by simp [Heap.setNext, Heap.setPrev, g2]) rfl rfl
                simp only
                rw [K3.setPrev.dropLocal (pin (by simp))]
                simp only
                rw [K4.putNext (pin (by simp))]
                simp only
                rw [K4.dropLocal (pin (by simp))]
                simp only
                rw [K4.dropOpt (pin (by simp))]
                refine ⟨rfl, fun h' b e => ?_⟩
                simp only [Except.ok.injEq, Prod.mk.injEq] at e
                rw [← e.1]
                exact ⟨K4, by simp [Heap.setNext], by show g.alive n = true; rw [g3]; exact hn⟩

/-! ### Insertions -/

theorem RefBut.tighten {y : NodeId} (K : RefBut (y :: E) h) (hr : h.referenced y = true) :
    RefBut E h := by
  refine ⟨fun x hx => ?_, K.bound⟩
  rcases K.ref x hx with h1 | h1
  · rcases List.mem_cons.1 h1 with rfl | h2
    · exact .inr hr
    · exact .inl h2
  · exact .inr h1

theorem pin1 {o : List NodeId} (ho : n ∈ o) : ∀ y ∈ [n], y ∈ o := by
  intro y hy; simp only [List.mem_singleton] at hy; rw [hy]; exact ho

/-- What is known after an insertion. -/
def InsertedOK (h : Heap α) (n : NodeId) (r : Except Fault (Heap α × Except HierarchyError Unit)) : Prop :=
  ∀ h' e, r = .ok (h', e) → h'.alive = h.alive ∧
    match e with
    | .ok () => RefBut [] h'
    | .error _ => h' = h

theorem insertFirst_strict {b : Bool} (K : RefBut [n] h) (hn : h.alive n = true) (hnx : h.next n = none)
    (hp : h.alive p = true) (held) :
    h.insertFirst held n b p = h.insertFirstL n b p ∧ InsertedOK h n (h.insertFirstL n b p) := by
  unfold Heap.insertFirst Heap.insertFirstL
  simp only [bind, Except.bind, pure, Except.pure]
  have hnb := K.bound n hn
  have hpb := K.bound p hp
  have fin : ∀ {g : Heap α}, RefBut [n] g → g.firstChild = h.firstChild → g.alive = h.alive →
      g.nNode = h.nNode → (∀ f, h.firstChild p = some f → g.next n = some f) →
      RefBut [n] ((g.setParent n (some p)).setFirst p (some n)) ∧
      RefBut [] ((g.setParent n (some p)).setFirst p (some n)) := by
    intro g Kg g1 g2 g3 g4
    have K1 : RefBut [n] ((g.setParent n (some p)).setFirst p (some n)) := by
      refine Kg.setParent.setFirst ?_
      intro y hy
      right; right
      have hy : g.firstChild p = some y := hy
      rw [g1] at hy
      exact ref_next (m := n) (by show n < g.nNode; rw [g3]; exact hnb)
        (by show g.alive n = true; rw [g2]; exact hn) (g4 y hy)
    refine ⟨K1, K1.tighten (ref_first (m := p) ?_ ?_ ?_)⟩
    · show p < g.nNode; rw [g3]; exact hpb
    · show g.alive p = true; rw [g2]; exact hp
    · simp [Heap.setFirst]
  cases hl : h.loopCheck n b p with
  | error e => exact ⟨rfl, fun _ _ e => by cases e⟩
  | ok c =>
    cases c with
    | true =>
      refine ⟨rfl, fun h' e eq => ?_⟩
      simp only [if_true, Except.ok.injEq, Prod.mk.injEq] at eq
      obtain ⟨rfl, rfl⟩ := eq
      exact ⟨rfl, rfl⟩
    | false =>
      simp only [Bool.false_eq_true, if_false]
      cases hf : h.firstLastChildLink p with
      | error e => exact ⟨rfl, fun _ _ e => by cases e⟩
      | ok o =>
        cases o with
        | none =>
          have hfc : h.firstChild p = none := by
            unfold Heap.firstLastChildLink Heap.firstChildLink at hf
            split at hf
            · rename_i e; exact e
            · rename_i f e
              cases hc : h.prevCycLink f with
              | error x => rw [hc] at hf; cases hf
              | ok x => rw [hc] at hf; cases hf
          obtain ⟨K1, K2⟩ := fin (g := h.setPrev n (some n)) K.setPrev rfl rfl rfl
            (by intro f e; rw [hfc] at e; cases e)
          simp only
          rw [K1.putFirst (pin1 (by simp))]
          refine ⟨rfl, fun h' e eq => ?_⟩
          simp only [Except.ok.injEq, Prod.mk.injEq] at eq
          obtain ⟨rfl, rfl⟩ := eq
          exact ⟨rfl, K2.numAdd⟩
        | some fl =>
          obtain ⟨f, l⟩ := fl
          have hfc : h.firstChild p = some f := by
            unfold Heap.firstLastChildLink Heap.firstChildLink at hf
            split at hf
            · cases hf
            · rename_i f' e
              cases hc : h.prevCycLink f' with
              | error x => rw [hc] at hf; cases hf
              | ok x => rw [hc] at hf; cases hf; exact e
          have K1 : RefBut [n] ((h.setPrev n (some l)).connectAdjacent n f) :=
            K.setPrev.setPrev.setNext (fun y hy => by
              have hy : h.next n = some y := hy
              rw [hnx] at hy; cases hy)
          obtain ⟨K2, K3⟩ := fin (g := (h.setPrev n (some l)).connectAdjacent n f) K1 rfl rfl rfl
            (by intro f' e; rw [hfc] at e; cases e; simp [Heap.connectAdjacent, Heap.setNext])
          simp only
          rw [K1.connect (pin1 (by simp))]
          simp only
          rw [K1.dropLocal (pin1 (by simp))]
          simp only
          rw [K2.putFirst (pin1 (by simp))]
          refine ⟨rfl, fun h' e eq => ?_⟩
          simp only [Except.ok.injEq, Prod.mk.injEq] at eq
          obtain ⟨rfl, rfl⟩ := eq
          exact ⟨rfl, K3.numAdd⟩

/-- The last child of `p` found through the first one has no next sibling. -/
def LastNext (h : Heap α) (p : NodeId) : Prop :=
  ∀ f l, h.firstLastChildLink p = .ok (some (f, l)) → h.next l = none ∧ h.alive l = true

theorem insertLast_strict {b : Bool} (K : RefBut [n] h) (hn : h.alive n = true)
    (hp : h.alive p = true) (hl : LastNext h p) (held) :
    h.insertLast held n b p = h.insertLastL n b p ∧ InsertedOK h n (h.insertLastL n b p) := by
  unfold Heap.insertLast Heap.insertLastL
  simp only [bind, Except.bind, pure, Except.pure]
  have hnb := K.bound n hn
  have hpb := K.bound p hp
  cases hlc : h.loopCheck n b p with
  | error e => exact ⟨rfl, fun _ _ e => by cases e⟩
  | ok c =>
    cases c with
    | true =>
      refine ⟨rfl, fun h' e eq => ?_⟩
      simp only [if_true, Except.ok.injEq, Prod.mk.injEq] at eq
      obtain ⟨rfl, rfl⟩ := eq
      exact ⟨rfl, rfl⟩
    | false =>
      simp only [Bool.false_eq_true, if_false]
      cases hf : h.firstLastChildLink p with
      | error e => exact ⟨rfl, fun _ _ e => by cases e⟩
      | ok o =>
        cases o with
        | none =>
          have hfc : h.firstChild p = none := by
            unfold Heap.firstLastChildLink Heap.firstChildLink at hf
            split at hf
            · rename_i e; exact e
            · rename_i f e
              cases hc : h.prevCycLink f with
              | error x => rw [hc] at hf; cases hf
              | ok x => rw [hc] at hf; cases hf
          have K1 : RefBut [n] ((h.setPrev n (some n)).setFirst p (some n)) :=
            K.setPrev.setFirst (fun y hy => by
              have hy : h.firstChild p = some y := hy
              rw [hfc] at hy; cases hy)
          have K2 : RefBut [] ((h.setPrev n (some n)).setFirst p (some n)) :=
            K1.tighten (ref_first (m := p) hpb hp (by simp [Heap.setFirst]))
          simp only
          rw [K1.putFirst (pin1 (by simp))]
          refine ⟨rfl, fun h' e eq => ?_⟩
          simp only [Except.ok.injEq, Prod.mk.injEq] at eq
          obtain ⟨rfl, rfl⟩ := eq
          exact ⟨rfl, K2.setParent.numAdd⟩
        | some fl =>
          obtain ⟨f, l⟩ := fl
          obtain ⟨hlx, hla⟩ := hl f l hf
          have K1 : RefBut [n] ((h.setPrev f (some n)).connectAdjacent l n) :=
            K.setPrev.setPrev.setNext (fun y hy => by
              have hy : h.next l = some y := hy
              rw [hlx] at hy; cases hy)
          have K2 : RefBut [] ((h.setPrev f (some n)).connectAdjacent l n) :=
            K1.tighten (ref_next (m := l) (K.bound l hla) hla
              (by simp [Heap.connectAdjacent, Heap.setNext]))
          simp only
          rw [K1.connect (pin1 (by simp))]
          simp only
          rw [K1.dropLocal (pin1 (by simp))]
          simp only
          rw [K1.dropLocal (pin1 (by simp))]
          refine ⟨rfl, fun h' e eq => ?_⟩
          simp only [Except.ok.injEq, Prod.mk.injEq] at eq
          obtain ⟨rfl, rfl⟩ := eq
          exact ⟨rfl, K2.setParent.numAdd⟩

theorem betweenChecks_ok {a b : NodeId} {u : Unit} (e : h.betweenChecks p a b = .ok u) :
    h.parentLink a = some p ∧ h.parentLink b = some p ∧ h.next a = some b := by
  unfold Heap.betweenChecks at e
  split at e
  · cases e
  · rename_i h1
    split at e
    · cases e
    · rename_i h2
      split at e
      · cases e
      · rename_i h3
        exact ⟨Decidable.not_not.1 h1, Decidable.not_not.1 h2, Decidable.not_not.1 h3⟩

theorem insertBetween_strict {a b : NodeId} (K : RefBut [n] h) (hn : h.alive n = true)
    (hnx : h.next n = none) (ha : h.alive a = true) (held) :
    h.insertBetween held n p a b = h.insertBetweenL n p a b ∧
    ∀ h', h.insertBetweenL n p a b = .ok h' → h'.alive = h.alive ∧ RefBut [] h' := by
  unfold Heap.insertBetween Heap.insertBetweenL
  simp only [bind, Except.bind, pure, Except.pure]
  cases hc : h.betweenChecks p a b with
  | error e => exact ⟨rfl, fun _ e => by cases e⟩
  | ok u =>
    obtain ⟨_, _, hab⟩ := betweenChecks_ok hc
    have han : a ≠ n := by rintro rfl; rw [hnx] at hab; cases hab
    simp only
    have e0 : (h.setParent n (some p)).next a = some b := hab
    rw [e0]
    have K1 : RefBut (b :: [n]) ((h.setParent n (some p)).setNext a (some n)) := by
      refine (K.setParent.weaken (by simp)).setNext ?_
      intro y hy
      rw [e0] at hy; cases hy; simp
    have K2 : RefBut (b :: [n]) (((h.setParent n (some p)).setNext a (some n)).setNext n (some b)) := by
      refine K1.setNext ?_
      intro y hy
      have hy : upd h.next a (some n) n = some y := hy
      rw [upd_ne _ _ (Ne.symm han), hnx] at hy; cases hy
    have K3 : RefBut [n] (((h.setParent n (some p)).setNext a (some n)).setNext n (some b)) :=
      K2.tighten (ref_next (m := n) (K.bound n hn) hn (by simp [Heap.setNext]))
    have K4 : RefBut [] (((h.setParent n (some p)).setNext a (some n)).setNext n (some b)) :=
      K3.tighten (ref_next (m := a) (K.bound a ha) ha (by simp [Heap.setNext, han]))
    rw [K3.putNext (pin1 (by simp))]
    refine ⟨rfl, fun h' eq => ?_⟩
    simp only [Except.ok.injEq] at eq
    subst eq
    exact ⟨rfl, K4.setPrev.setPrev.numAdd⟩

/-- The link to the last child is right wherever the insertion reads it. -/
def InsertOK (h : Heap α) : InsertAs NodeId → Prop
  | .firstChildOf p => h.alive p = true
  | .lastChildOf p => h.alive p = true ∧ LastNext h p
  | .previousSiblingOf _ => True
  | .nextSiblingOf a => h.alive a = true ∧
      ∀ p, h.parentLink a = some p → h.nextLink a = none → LastNext h p

theorem parentLink_alive' {q : NodeId} (e : h.parentLink n = some q) : h.alive q = true := by
  simp only [Heap.parentLink, Heap.upgrade, Option.filter_eq_some_iff] at e
  exact e.2

theorem InsertedOK.refBut {e : Except HierarchyError Unit} {r} (I : InsertedOK h n r)
    (K : RefBut [n] h) (eq : r = .ok (h', e)) : RefBut [n] h' := by
  have := (I h' e eq).2
  cases e with
  | ok u => cases u; exact RefBut.weaken this (by simp)
  | error x => simp only at this; rw [this]; exact K

theorem insert_strict {b : Bool} {dest : InsertAs NodeId} (K : RefBut [n] h) (hn : h.alive n = true)
    (hnx : h.next n = none) (hd : InsertOK h dest) (held) :
    h.insert held n b dest = h.insertL n b dest ∧ InsertedOK h n (h.insertL n b dest) := by
  cases dest with
  | firstChildOf p => exact insertFirst_strict K hn hnx hd held
  | lastChildOf p => exact insertLast_strict K hn hd.1 hd.2 held
  | previousSiblingOf a =>
    simp only [Heap.insert, Heap.insertL]
    cases hp : h.parentLink a with
    | none =>
      refine ⟨rfl, fun h' e eq => ?_⟩
      simp only [Except.ok.injEq, Prod.mk.injEq] at eq
      obtain ⟨rfl, rfl⟩ := eq
      exact ⟨rfl, rfl⟩
    | some p =>
      have hpa := parentLink_alive' hp
      simp only [bind, Except.bind, pure, Except.pure]
      cases hv : h.prevLink a with
      | error e => exact ⟨rfl, fun _ _ e => by cases e⟩
      | ok o =>
        cases o with
        | none =>
          obtain ⟨e1, I1⟩ := insertFirst_strict (b := b) K hn hnx hpa (a :: held)
          simp only
          rw [e1]
          cases hi : h.insertFirstL n b p with
          | error e => exact ⟨rfl, fun _ _ e => by cases e⟩
          | ok v =>
            obtain ⟨h1, r1⟩ := v
            have K1 := I1.refBut K hi
            simp only
            rw [K1.dropLocal (pin1 (by simp))]
            rw [hi] at I1
            exact ⟨rfl, I1⟩
        | some s =>
          have hsa : h.alive s = true := by
            simp only [Heap.prevLink, bind, Except.bind, pure, Except.pure] at hv
            split at hv
            · cases hv
            · rename_i c hc
              split at hv
              · simp only [Except.ok.injEq, Option.some.injEq] at hv; subst hv
                unfold Heap.prevCycLink at hc
                split at hc
                · rename_i m hm
                  simp only [Except.ok.injEq] at hc; subst hc
                  simp only [Heap.upgrade, Option.filter_eq_some_iff] at hm
                  exact hm.2
                · cases hc
              · cases hv
          obtain ⟨e1, I1⟩ := insertBetween_strict (p := p) (b := a) K hn hnx hsa held
          simp only
          rw [e1]
          cases hi : h.insertBetweenL n p s a with
          | error e => exact ⟨rfl, fun _ _ e => by cases e⟩
          | ok h1 =>
            obtain ⟨a1, K1⟩ := I1 h1 hi
            simp only
            rw [K1.dropLocal (by simp)]
            simp only
            rw [K1.dropLocal (by simp)]
            refine ⟨rfl, fun h' e eq => ?_⟩
            simp only [Except.ok.injEq, Prod.mk.injEq] at eq
            obtain ⟨rfl, rfl⟩ := eq
            exact ⟨a1, K1⟩
  | nextSiblingOf a =>
    obtain ⟨haa, hd⟩ := hd
    simp only [Heap.insert, Heap.insertL]
    cases hp : h.parentLink a with
    | none =>
      refine ⟨rfl, fun h' e eq => ?_⟩
      simp only [Except.ok.injEq, Prod.mk.injEq] at eq
      obtain ⟨rfl, rfl⟩ := eq
      exact ⟨rfl, rfl⟩
    | some p =>
      have hpa := parentLink_alive' hp
      simp only [bind, Except.bind, pure, Except.pure]
      cases hv : h.nextLink a with
      | none =>
        obtain ⟨e1, I1⟩ := insertLast_strict (b := b) K hn hpa (hd p hp hv) (a :: held)
        simp only
        rw [e1]
        cases hi : h.insertLastL n b p with
        | error e => exact ⟨rfl, fun _ _ e => by cases e⟩
        | ok v =>
          obtain ⟨h1, r1⟩ := v
          have K1 := I1.refBut K hi
          simp only
          rw [K1.dropLocal (pin1 (by simp))]
          rw [hi] at I1
          exact ⟨rfl, I1⟩
      | some s =>
        obtain ⟨e1, I1⟩ := insertBetween_strict (p := p) (b := s) K hn hnx haa held
        simp only
        rw [e1]
        cases hi : h.insertBetweenL n p a s with
        | error e => exact ⟨rfl, fun _ _ e => by cases e⟩
        | ok h1 =>
          obtain ⟨a1, K1⟩ := I1 h1 hi
          simp only
          rw [K1.dropLocal (by simp)]
          simp only
          rw [K1.dropLocal (by simp)]
          refine ⟨rfl, fun h' e eq => ?_⟩
          simp only [Except.ok.injEq, Prod.mk.injEq] at eq
          obtain ⟨rfl, rfl⟩ := eq
          exact ⟨a1, K1⟩

end Dendron

namespace Dendron
variable {α : Type} {h h' g : Heap α} {n p : NodeId} {t : TreeId} {E held : List NodeId}

/-! ### Compound edits -/

theorem detachSubtree_strict (K : RefBut [] h) (hn : h.alive n = true) (hu : UnlinkOK h n) :
    h.detachSubtree n = h.detachSubtreeL n := by
  unfold Heap.detachSubtree Heap.detachSubtreeL
  rw [(newByUnlink_strict K hn hu []).1]

theorem moveSame_strict {dest : InsertAs NodeId} (K : RefBut [] h) (hn : h.alive n = true)
    (hu : UnlinkOK h n)
    (hi : h.isRoot n = false → ∀ h1 b, h.newByUnlinkL n = .ok (h1, b) → InsertOK h1 dest) (held) :
    h.moveSame held n dest = h.moveSameL n dest ∧
    ∀ h' r, h.moveSameL n dest = .ok (h', r) → RefBut [n] h' := by
  unfold Heap.moveSame Heap.moveSameL
  obtain ⟨e1, f1⟩ := newByUnlink_strict K hn hu (dest.anchor :: held)
  rw [e1]
  cases hr : h.isRoot n with
  | true =>
    refine ⟨rfl, fun h' r eq => ?_⟩
    simp only [if_true, Except.ok.injEq, Prod.mk.injEq] at eq
    rw [← eq.1]; exact K.weaken (by simp)
  | false =>
    simp only [Bool.false_eq_true, if_false, bind, Except.bind]
    cases hv : h.newByUnlinkL n with
    | error e => exact ⟨rfl, fun _ _ e => by cases e⟩
    | ok v =>
      obtain ⟨h1, b⟩ := v
      rcases f1 h1 b hv with ⟨e, _⟩ | ⟨K1, nx1, a1⟩
      · rw [hr] at e; cases e
      · obtain ⟨e2, I2⟩ := insert_strict (b := b) K1 a1 nx1 (hi hr h1 b hv) held
        refine ⟨e2, fun h' r eq => I2.refBut K1 eq⟩

/-- What is needed of the heap in which a moved subtree is inserted. -/
structure ReadyToInsert (h : Heap α) (n : NodeId) (dest : InsertAs NodeId) : Prop where
  ref : RefBut [n] h
  alive : h.alive n = true
  next : h.next n = none
  dest : InsertOK h dest

theorem moveOther_strict {dest : InsertAs NodeId} (K : RefBut [] h) (hn : h.alive n = true)
    (hu : UnlinkOK h n)
    (hi : ∀ h1 b h2, h.newByUnlinkL n = .ok (h1, b) → h1.setMemberships n t = .ok (some h2) →
      h2.insert [] n b dest = h2.insertL n b dest) : h.moveOther n dest t = h.moveOtherL n dest t := by
  unfold Heap.moveOther Heap.moveOtherL
  rw [(newByUnlink_strict K hn hu [dest.anchor]).1]
  simp only [bind, Except.bind]
  cases hv : h.newByUnlinkL n with
  | error e => rfl
  | ok v =>
    obtain ⟨h1, b⟩ := v
    simp only
    cases hm : h1.setMemberships n t with
    | error e => rfl
    | ok o =>
      cases o with
      | none => rfl
      | some h2 =>
        exact hi h1 b h2 hv hm

theorem ReadyToInsert.strict {b : Bool} {dest : InsertAs NodeId} (R : ReadyToInsert h n dest) :
    h.insert [] n b dest = h.insertL n b dest :=
  (insert_strict R.ref R.alive R.next R.dest []).1

theorem RefBut.acqTree (K : RefBut E h) : RefBut E (h.acqTree t) := K.congr rfl rfl rfl rfl rfl rfl rfl

theorem UnlinkOK.acqTree (U : UnlinkOK h n) : UnlinkOK (h.acqTree t) n := U

theorem detachInsert_strict {dest : InsertAs NodeId} (K : RefBut [] h) (hn : h.alive n = true)
    (hu : UnlinkOK h n)
    (h1 : h.belongsToSameTree n dest.anchor = true → h.isRoot n = false →
      ∀ h1 b, h.newByUnlinkL n = .ok (h1, b) → InsertOK h1 dest)
    (h2 : h.belongsToSameTree n dest.anchor = false → ∀ t, h.treeCore dest.anchor = .ok t →
      ∀ h1 b h2, (h.acqTree t).newByUnlinkL n = .ok (h1, b) → h1.setMemberships n t = .ok (some h2) →
      h2.insert [] n b dest = h2.insertL n b dest) : h.detachInsert n dest = h.detachInsertL n dest := by
  unfold Heap.detachInsert Heap.detachInsertL
  cases hb : h.belongsToSameTree n dest.anchor with
  | true => simp only [if_true]; exact (moveSame_strict K hn hu (h1 hb) []).1
  | false =>
    simp only [Bool.false_eq_true, if_false, bind, Except.bind]
    cases ht : h.treeCore dest.anchor with
    | error e => rfl
    | ok t =>
      simp only
      rw [moveOther_strict K.acqTree hn hu.acqTree (h2 hb t ht)]

/-! ### Creation -/

theorem createAndProcess_congr {d : α}
    {f k : Heap α → NodeId → Except Fault (Heap α × Except HierarchyError Unit)}
    (hp : ∀ h1 m, h.newOrphan d t = .ok (h1, m) → f h1 m = k h1 m) :
    h.createAndProcess d t f = h.createAndProcess d t k := by
  unfold Heap.createAndProcess
  simp only [bind, Except.bind]
  cases hv : h.newOrphan d t with
  | error e => rfl
  | ok v => obtain ⟨h1, m⟩ := v; simp only; rw [hp h1 m hv]

/-- The memory after allocating an orphan. -/
structure OrphanIn (h h1 : Heap α) (m : NodeId) : Prop where
  id : m = h.nNode
  ref : RefBut [] h1
  alive : h1.alive m = true
  strong : ∃ t, h1.mem m = .strong t 1 0
  next : h1.next = upd h.next m none
  first : h1.firstChild = upd h.firstChild m none
  prev : h1.prevCyc = upd h.prevCyc m (some m)
  parent : h1.parent = upd h.parent m none
  root : h1.root = h.root
  live : ∀ x, h1.alive x = (decide (x = m) || h.alive x)

theorem newOrphan_in {d : α} {h1 : Heap α} {m : NodeId} (K : RefBut [] h)
    (e : h.newOrphan d t = .ok (h1, m)) : OrphanIn h h1 m := by
  unfold Heap.newOrphan at e
  simp only at e
  split at e
  · rename_i h2 hi
    simp only [Except.ok.injEq, Prod.mk.injEq] at e
    obtain ⟨rfl, rfl⟩ := e
    unfold Heap.incRef at hi
    have hm : (h.allocNode d (.weak (some t))).1.mem (h.allocNode d (.weak (some t))).2 =
        .weak (some t) := by simp [Heap.allocNode]
    rw [hm] at hi
    simp only at hi
    split at hi
    · rename_i u hu
      simp only [Option.some.injEq] at hi
      subst hi
      have hl : ∀ x, ((h.allocNode d (.weak (some t))).1.setMem (h.allocNode d (.weak (some t))).2
          (.strong u 1 0)).alive x = (decide (x = h.nNode) || h.alive x) := by
        intro x
        by_cases ex : x = h.nNode <;> simp [Heap.alive, Heap.allocNode, Heap.setMem, upd_apply, ex]
      refine ⟨rfl, ⟨?_, ?_⟩, ?_, ⟨u, by simp [Heap.setMem]⟩, rfl, rfl, rfl, rfl, rfl, hl⟩
      · intro x hx
        right
        rw [hl] at hx
        by_cases ex : x = h.nNode
        · exact referenced_iff.2 (.inl ⟨u, 1, 0, by simp [Heap.setMem, Heap.allocNode, ex]⟩)
        · simp only [ex, decide_false, Bool.false_or] at hx
          rcases K.ref x hx with h1 | h1
          · simp at h1
          · rcases referenced_iff.1 h1 with ⟨v, rc, l, e⟩ | ⟨v, hv, e⟩ | ⟨y, hy, hya, e⟩
            · refine referenced_iff.2 (.inl ⟨v, rc, l, ?_⟩)
              simp [Heap.setMem, Heap.allocNode, ex, e]
            · exact referenced_iff.2 (.inr (.inl ⟨v, hv, e⟩))
            · refine referenced_iff.2 (.inr (.inr ⟨y, ?_, ?_, ?_⟩))
              · show y < h.nNode + 1; omega
              · rw [hl]; simp [hya]
              · have : y ≠ h.nNode := by omega
                simpa [Heap.setMem, Heap.allocNode, this] using e
      · intro x hx
        rw [hl] at hx
        show x < h.nNode + 1
        by_cases ex : x = h.nNode
        · rw [ex]; exact Nat.lt_succ_self _
        · simp only [ex, decide_false, Bool.false_or] at hx
          exact Nat.lt_succ_of_lt (K.bound x hx)
      · rw [hl]; simp [Heap.allocNode]
    · cases hi
  · cases e

/-- Nothing of the old nodes is touched by the allocation. -/
theorem OrphanIn.lastNext {h1 : Heap α} {m : NodeId} (O : OrphanIn h h1 m) (K : RefBut [] h)
    (hp : h.alive p = true) (hf : ∀ f, h.firstChild p = some f → h.alive f = true)
    (L : LastNext h p) : LastNext h1 p := by
  have hpm : p ≠ m := O.id ▸ Nat.ne_of_lt (K.bound p hp)
  intro f l e
  unfold Heap.firstLastChildLink Heap.firstChildLink at e
  rw [O.first, upd_ne _ _ hpm] at e
  cases hfc : h.firstChild p with
  | none => simp only [hfc] at e; cases e
  | some f0 =>
    have hfa := hf f0 hfc
    have hfm : f0 ≠ m := O.id ▸ Nat.ne_of_lt (K.bound f0 hfa)
    simp only [hfc, Heap.prevCycLink, Heap.upgrade, O.prev, upd_ne _ _ hfm] at e
    cases hpc : h.prevCyc f0 with
    | none => simp [hpc, Option.filter, Except.map] at e
    | some l0 =>
      by_cases hl0 : h.alive l0 = true
      · have hlm : l0 ≠ m := O.id ▸ Nat.ne_of_lt (K.bound l0 hl0)
        have : h1.alive l0 = true := by rw [O.live]; simp [hl0]
        simp only [hpc, Option.filter, this, if_true, Except.map, Except.ok.injEq,
          Option.some.injEq, Prod.mk.injEq] at e
        obtain ⟨rfl, rfl⟩ := e
        have := L f0 l0 (by
          simp [Heap.firstLastChildLink, Heap.firstChildLink, hfc, Heap.prevCycLink, Heap.upgrade, hpc,
            Option.filter, hl0, Except.map])
        refine ⟨by rw [O.next, upd_ne _ _ hlm]; exact this.1, by rw [O.live]; simp [hl0]⟩
      · have hl0 : h.alive l0 = false := by simpa using hl0
        by_cases hlm : l0 = m
        · subst hlm
          have : h1.alive l0 = true := O.alive
          simp only [hpc, Option.filter, this, if_true, Except.map, Except.ok.injEq,
            Option.some.injEq, Prod.mk.injEq] at e
          obtain ⟨rfl, rfl⟩ := e
          exact ⟨by rw [O.next, upd_same], this⟩
        · have : h1.alive l0 = false := by rw [O.live]; simp [hl0, hlm]
          simp [hpc, Option.filter, this, Except.map] at e

/-- Creation of a node next to `n`. -/
theorem nodeCreate_strict {d : α} {as : AdoptAs} (K : RefBut [] h) (hn : h.alive n = true)
    (hi : InsertOK h (as.at n))
    (hf : ∀ m f, h.alive m = true → h.firstChild m = some f → h.alive f = true) :
    h.nodeCreate n d as = h.nodeCreateL n d as := by
  unfold Heap.nodeCreate Heap.nodeCreateL
  cases ht : h.treeCore n with
  | error e => rfl
  | ok t =>
    simp only [bind, Except.bind]
    have key : ∀ h1 m, h.newOrphan d t = .ok (h1, m) →
        h1.insert [] m true (as.at n) = h1.insertL m true (as.at n) := by
      intro h1 m e
      have O := newOrphan_in K e
      have hnm : n ≠ m := O.id ▸ Nat.ne_of_lt (K.bound n hn)
      refine (insert_strict (O.ref.weaken (by simp)) O.alive (by rw [O.next, upd_same]) ?_ []).1
      cases as with
      | firstChild => show h1.alive n = true; rw [O.live]; simp [hn]
      | lastChild =>
        exact ⟨by rw [O.live]; simp [hn], O.lastNext K hn (fun f => hf n f hn) hi.2⟩
      | previousSibling => trivial
      | nextSibling =>
        refine ⟨by rw [O.live]; simp [hn], ?_⟩
        intro q hq hx
        have hx' : h.next n = none := by
          have : h1.next n = none := hx
          rw [O.next, upd_ne _ _ hnm] at this; exact this
        have hqa := parentLink_alive' hq
        simp only [Heap.parentLink, Heap.upgrade, O.parent, upd_ne _ _ hnm,
          Option.filter_eq_some_iff] at hq
        by_cases hqm : q = m
        · subst hqm
          intro f l e
          unfold Heap.firstLastChildLink Heap.firstChildLink at e
          rw [O.first, upd_same] at e
          cases e
        · have hqa' : h.alive q = true := by rw [O.live] at hqa; simpa [hqm] using hqa
          refine O.lastNext K hqa' (fun f => hf q f hqa') (hi.2 q ?_ hx')
          simp only [Heap.parentLink, Heap.upgrade, Option.filter_eq_some_iff]
          exact ⟨hq.1, hqa'⟩
    cases as with
    | firstChild =>
      simp only [Heap.tryCreateNodeAs, Heap.tryCreateNodeAsL, Heap.createFirst, Heap.createFirstL]
      rw [createAndProcess_congr (f := fun h m => h.insertFirst [] m true n)
        (k := fun h m => h.insertFirstL m true n) key]
    | lastChild =>
      simp only [Heap.tryCreateNodeAs, Heap.tryCreateNodeAsL, Heap.createLast, Heap.createLastL]
      rw [createAndProcess_congr (f := fun h m => h.insertLast [] m true n)
        (k := fun h m => h.insertLastL m true n) key]
    | previousSibling =>
      simp only [Heap.tryCreateNodeAs, Heap.tryCreateNodeAsL, Heap.createPrev, Heap.createPrevL]
      rw [createAndProcess_congr (f := fun h m => h.insert [] m true (.previousSiblingOf n))
        (k := fun h m => h.insertL m true (.previousSiblingOf n)) key]
    | nextSibling =>
      simp only [Heap.tryCreateNodeAs, Heap.tryCreateNodeAsL, Heap.createNext, Heap.createNextL]
      rw [createAndProcess_congr (f := fun h m => h.insert [] m true (.nextSiblingOf n))
        (k := fun h m => h.insertL m true (.nextSiblingOf n)) key]

end Dendron
