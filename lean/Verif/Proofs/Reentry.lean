import Verif.Model.Reentry
import Verif.Spec.Reentry
import Verif.Proofs.Drop

/-! The moments at which the destructors of the data run. -/

set_option autoImplicit false

namespace Dendron
open RTree
variable {α : Type} {h h' h1 h2 : Heap α} {ch : NodeId → List NodeId} {n p x : NodeId} {t u : TreeId}
  {d : Option TreeId} {c : Option NodeId} {ms ms1 ms2 l1 l2 : List (Moment α)} {m : Moment α}

/-! ### Forgetting the moments -/

theorem releaseT_fst : ∀ (f : Nat) (pins : List NodeId) (n : NodeId) (h : Heap α),
    (h.releaseT d c f pins n).map Prod.fst = h.release f pins n
  | 0, _, _, _ => rfl
  | f + 1, pins, n, h => by
    rw [Heap.releaseT, Heap.release]
    by_cases hc : (!h.alive n || pins.contains n || h.referenced n) = true
    · simp only [hc, if_true]; rfl
    · rw [if_neg hc, if_neg hc]
      have tail : ∀ (g : Heap α) (l : List (Moment α)),
          Except.map Prod.fst (match (match h.next n with
              | some x => Heap.releaseT d c f pins x g | none => .ok (g, [])) with
            | .error e => .error e
            | .ok (h3, l3) => .ok (h3, ⟨h, n, d, c⟩ :: l ++ l3)) =
          (match h.next n with | some x => Heap.release f pins x g | none => .ok g) := by
        intro g l
        cases h.next n with
        | none => rfl
        | some y =>
          simp only
          rw [← releaseT_fst f pins y]
          cases Heap.releaseT d c f pins y g with
          | error e => rfl
          | ok a => rfl
      cases h.firstChild n with
      | none => exact tail _ _
      | some x =>
        simp only
        rw [← releaseT_fst f pins x]
        cases Heap.releaseT d c f pins x (h.kill n) with
        | error e => rfl
        | ok a => exact tail _ _

theorem dropStepT_fst (k : Nat) (h : Heap α) (pins : List NodeId) (v : NodeId) :
    (h.dropStepT d c k pins v).map Prod.fst = h.dropStep k pins v := by
  unfold Heap.dropStepT Heap.dropStep
  cases h.parentLink v with
  | none => exact releaseT_fst _ _ _ _
  | some p =>
    have tail : ∀ (h2 : Heap α) (l2 : List (Moment α)),
        (do
          let (h3, l3) ← h2.releaseT d c k (v :: pins) p
          let (h4, l4) ← h3.releaseT d c k pins v
          return (h4, l2 ++ l3 ++ l4) : Except Fault (Heap α × List (Moment α))).map Prod.fst =
        (do
          let h3 ← h2.release k (v :: pins) p
          h3.release k pins v) := by
      intro h2 l2
      rw [← releaseT_fst (d := d) (c := c)]
      cases Heap.releaseT d c k (v :: pins) p h2 with
      | error e => rfl
      | ok a =>
        obtain ⟨h3, l3⟩ := a
        simp only [bind, Except.bind, Except.map]
        rw [← releaseT_fst (d := d) (c := c)]
        cases Heap.releaseT d c k pins v h3 with
        | error e => rfl
        | ok a => rfl
    simp only
    cases h.firstChild p with
    | none => exact tail _ _
    | some x =>
      simp only
      rw [← releaseT_fst (d := d) (c := c) k (p :: v :: pins) x]
      cases Heap.releaseT d c k (p :: v :: pins) x ((h.setNext v none).setFirst p (h.next v)) with
      | error e => rfl
      | ok a => exact tail a.1 a.2

theorem dropLoopT_fst (k : Nat) : ∀ (f : Nat) (pins : List NodeId) (o : Option (DftEvent NodeId)) (h : Heap α),
    (Heap.dropLoopT d c k f pins o h).map Prod.fst = Heap.dropLoop k f pins o h
  | 0, _, none, _ => rfl
  | 0, _, some _, _ => rfl
  | _ + 1, _, none, _ => rfl
  | f + 1, pins, some (.opn v), h => by
    rw [Heap.dropLoopT, Heap.dropLoop]
    have key : ∀ (o : Option (DftEvent NodeId)) (pins' : List NodeId),
        Except.map Prod.fst (match Heap.releaseT d c k pins' v h with
          | .error e => .error e
          | .ok (h1, l1) =>
            match Heap.dropLoopT d c k f pins o h1 with
            | .error e => .error e
            | .ok (h2, l2) => .ok (h2, l1 ++ l2)) =
        (match Heap.release k pins' v h with
          | .error e => .error e
          | .ok h1 => Heap.dropLoop k f pins o h1) := by
      intro o pins'
      rw [← releaseT_fst (d := d) (c := c)]
      cases Heap.releaseT d c k pins' v h with
      | error e => rfl
      | ok a =>
        obtain ⟨h1, l1⟩ := a
        simp only [Except.map]
        rw [← dropLoopT_fst k f pins _ h1]
        cases Heap.dropLoopT d c k f pins o h1 with
        | error e => rfl
        | ok a => rfl
    cases h.evNext (.opn v) with
    | none => exact key _ _
    | some e => exact key _ _
  | f + 1, pins, some (.cls v), h => by
    rw [Heap.dropLoopT, Heap.dropLoop]
    have key : ∀ (o : Option (DftEvent NodeId)) (pins' : List NodeId),
        Except.map Prod.fst (match Heap.dropStepT d c k h pins' v with
          | .error e => .error e
          | .ok (h1, l1) =>
            match Heap.dropLoopT d c k f pins o h1 with
            | .error e => .error e
            | .ok (h2, l2) => .ok (h2, l1 ++ l2)) =
        (match Heap.dropStep k h pins' v with
          | .error e => .error e
          | .ok h1 => Heap.dropLoop k f pins o h1) := by
      intro o pins'
      rw [← dropStepT_fst (d := d) (c := c)]
      cases Heap.dropStepT d c k h pins' v with
      | error e => rfl
      | ok a =>
        obtain ⟨h1, l1⟩ := a
        simp only [Except.map]
        rw [← dropLoopT_fst k f pins _ h1]
        cases Heap.dropLoopT d c k f pins o h1 with
        | error e => rfl
        | ok a => rfl
    cases h.evNext (.cls v) with
    | none => exact key _ _
    | some e => exact key _ _

theorem dropTreeT_fst (h : Heap α) (pins : List NodeId) (t : TreeId) :
    (h.dropTreeT c pins t).map Prod.fst = h.dropTree pins t := by
  unfold Heap.dropTreeT Heap.dropTree Heap.dropTreeWith
  cases h.root t with
  | none => rfl
  | some r =>
    simp only
    rw [← dropLoopT_fst (d := some t) (c := c)]
    cases Heap.dropLoopT (some t) c h.relFuel h.dropFuel pins (some (.opn r)) h with
    | error e => rfl
    | ok a =>
      obtain ⟨h1, l1⟩ := a
      simp only [Except.map]
      rw [← releaseT_fst (d := some t) (c := c)]
      cases Heap.releaseT (some t) c h.relFuel pins r ((h1.setRoot t none).setGrants t 0) with
      | error e => rfl
      | ok a => rfl

theorem maybeDropTreeT_fst (h : Heap α) (pins : List NodeId) (t : TreeId) :
    (h.maybeDropTreeT c pins t).map Prod.fst = h.maybeDropTree pins t := by
  unfold Heap.maybeDropTreeT Heap.maybeDropTree
  split
  · exact dropTreeT_fst h pins t
  · rfl

theorem relTreeT_fst (h : Heap α) (t : TreeId) : (h.relTreeT t).map Prod.fst = h.relTree [] t :=
  maybeDropTreeT_fst _ _ _

theorem decRefT_fst (h : Heap α) (n : NodeId) : (h.decRefT n).map Prod.fst = h.decRef n := by
  unfold Heap.decRefT Heap.decRef
  cases h.mem n with
  | weak o => rfl
  | strong t rc l =>
    simp only
    split
    · split
      · rfl
      · exact maybeDropTreeT_fst _ _ _
    · rfl

theorem dropLinkT_fst (h : Heap α) (n : NodeId) : (h.dropLinkT n).map Prod.fst = h.dropLink n := by
  unfold Heap.dropLinkT Heap.dropLink
  rw [← decRefT_fst]
  cases h.decRefT n with
  | error e => rfl
  | ok a =>
    obtain ⟨h1, l1⟩ := a
    simp only [Except.map, bind, Except.bind]
    rw [← releaseT_fst (d := none) (c := none)]
    cases h1.releaseT none none h1.relFuel [] n with
    | error e => rfl
    | ok a => rfl

/-! ### The memory at each moment -/

/-- The same nodes with the same memberships, the same trees except `t`. -/
structure Alike (t : TreeId) (h h' : Heap α) : Prop where
  alive : ∀ x, h'.alive x = h.alive x
  mem : h'.mem = h.mem
  root : ∀ u, u ≠ t → h'.root u = h.root u

theorem Alike.rfl' {t : TreeId} : Alike t h h := ⟨fun _ => rfl, rfl, fun _ _ => rfl⟩

theorem Alike.trans (a : Alike t h h1) (b : Alike t h1 h2) : Alike t h h2 :=
  ⟨fun x => (b.alive x).trans (a.alive x), b.mem.trans a.mem, fun u hu => (b.root u hu).trans (a.root u hu)⟩

/-- The nodes of the moments are freed one after the other. -/
def FreesT (t : TreeId) : Heap α → List (Moment α) → Heap α → Prop
  | h, [], h' => Alike t h h'
  | h, m :: ms, h' => Alike t h m.heap ∧ m.heap.alive m.node = true ∧ FreesT t (m.heap.kill m.node) ms h'

theorem FreesT.pre (a : Alike t h h1) : ∀ {ms : List (Moment α)}, FreesT t h1 ms h2 → FreesT t h ms h2
  | [], b => a.trans b
  | _ :: _, b => ⟨a.trans b.1, b.2⟩

theorem FreesT.append : ∀ {ms1 : List (Moment α)} {h : Heap α}, FreesT t h ms1 h1 → FreesT t h1 ms2 h2 →
    FreesT t h (ms1 ++ ms2) h2
  | [], _, a, b => FreesT.pre a b
  | _ :: _, _, a, b => ⟨a.1, a.2.1, a.2.2.append b⟩

theorem releaseT_frees (t : TreeId) : ∀ (f : Nat) {pins : List NodeId} {n : NodeId} {h h' : Heap α} {ms : List (Moment α)},
    h.releaseT d c f pins n = .ok (h', ms) → FreesT t h ms h' ∧ ∀ m ∈ ms, m.dying = d ∧ m.cell = c
  | 0, _, _, _, _, _, e => by cases e
  | f + 1, pins, n, h, h', ms, e => by
    rw [Heap.releaseT] at e
    by_cases hc : (!h.alive n || pins.contains n || h.referenced n) = true
    · simp only [hc, if_true, Except.ok.injEq, Prod.mk.injEq] at e
      obtain ⟨rfl, rfl⟩ := e
      exact ⟨Alike.rfl', by simp⟩
    · rw [if_neg hc] at e
      have ha : h.alive n = true := by
        cases hh : h.alive n
        · simp [hh] at hc
        · rfl
      have tail : ∀ (g : Heap α) (l : List (Moment α)), FreesT t (h.kill n) l g →
          (∀ m ∈ l, m.dying = d ∧ m.cell = c) →
          (match (match h.next n with
              | some x => Heap.releaseT d c f pins x g | none => .ok (g, [])) with
            | .error e => .error e
            | .ok (h3, l3) => .ok (h3, ⟨h, n, d, c⟩ :: l ++ l3)) = Except.ok (h', ms) →
          FreesT t h ms h' ∧ ∀ m ∈ ms, m.dying = d ∧ m.cell = c := by
        intro g l a1 a2 e
        cases hn : h.next n with
        | none =>
          rw [hn] at e
          simp only [Except.ok.injEq, Prod.mk.injEq, List.append_nil] at e
          obtain ⟨rfl, rfl⟩ := e
          refine ⟨⟨Alike.rfl', ha, a1⟩, ?_⟩
          intro m hm
          rcases List.mem_cons.1 hm with rfl | hm
          · exact ⟨rfl, rfl⟩
          · exact a2 m hm
        | some y =>
          rw [hn] at e
          simp only at e
          cases hy : Heap.releaseT d c f pins y g with
          | error e' => rw [hy] at e; cases e
          | ok a =>
            obtain ⟨g3, l3⟩ := a
            rw [hy] at e
            simp only [Except.ok.injEq, Prod.mk.injEq] at e
            obtain ⟨rfl, rfl⟩ := e
            obtain ⟨b1, b2⟩ := releaseT_frees t f hy
            refine ⟨⟨Alike.rfl', ha, a1.append b1⟩, ?_⟩
            intro m hm
            simp only [List.cons_append, List.mem_cons, List.mem_append] at hm
            rcases hm with rfl | hm | hm
            · exact ⟨rfl, rfl⟩
            · exact a2 m hm
            · exact b2 m hm
      cases hf : h.firstChild n with
      | none =>
        rw [hf] at e
        exact tail _ [] Alike.rfl' (by simp) e
      | some x =>
        rw [hf] at e
        simp only at e
        cases hx : Heap.releaseT d c f pins x (h.kill n) with
        | error e' => rw [hx] at e; cases e
        | ok a =>
          rw [hx] at e
          obtain ⟨a1, a2⟩ := releaseT_frees t f hx
          exact tail _ _ a1 a2 e

theorem dropStepT_frees (t : TreeId) {k : Nat} {pins : List NodeId} {v : NodeId}
    (e : h.dropStepT d c k pins v = .ok (h', ms)) : FreesT t h ms h' ∧ ∀ m ∈ ms, m.dying = d ∧ m.cell = c := by
  unfold Heap.dropStepT at e
  cases hp : h.parentLink v with
  | none => rw [hp] at e; exact releaseT_frees t k e
  | some p =>
    rw [hp] at e
    have tail : ∀ (g h2 : Heap α) (l2 : List (Moment α)), FreesT t g l2 h2 →
        (∀ m ∈ l2, m.dying = d ∧ m.cell = c) →
        (do
          let (h3, l3) ← h2.releaseT d c k (v :: pins) p
          let (h4, l4) ← h3.releaseT d c k pins v
          return (h4, l2 ++ l3 ++ l4) : Except Fault (Heap α × List (Moment α))) = .ok (h', ms) →
        FreesT t g ms h' ∧ ∀ m ∈ ms, m.dying = d ∧ m.cell = c := by
      intro g h2 l2 F2 H2 e
      cases e3 : Heap.releaseT d c k (v :: pins) p h2 with
      | error x => rw [e3] at e; cases e
      | ok a =>
        obtain ⟨h3, l3⟩ := a
        rw [e3] at e
        simp only [bind, Except.bind, pure, Except.pure] at e
        cases e4 : Heap.releaseT d c k pins v h3 with
        | error x => rw [e4] at e; cases e
        | ok a =>
          obtain ⟨h4, l4⟩ := a
          rw [e4] at e
          simp only [Except.ok.injEq, Prod.mk.injEq] at e
          obtain ⟨rfl, rfl⟩ := e
          obtain ⟨F3, H3⟩ := releaseT_frees t k e3
          obtain ⟨F4, H4⟩ := releaseT_frees t k e4
          refine ⟨(F2.append F3).append F4, ?_⟩
          intro m hm
          rcases List.mem_append.1 hm with hm | hm
          · rcases List.mem_append.1 hm with hm | hm
            · exact H2 m hm
            · exact H3 m hm
          · exact H4 m hm
    have A : Alike t h ((h.setNext v none).setFirst p (h.next v)) := ⟨fun _ => rfl, rfl, fun _ _ => rfl⟩
    simp only at e
    cases hf : h.firstChild p with
    | none => rw [hf] at e; exact tail h _ [] A (by simp) e
    | some x =>
      rw [hf] at e
      simp only at e
      cases e2 : Heap.releaseT d c k (p :: v :: pins) x ((h.setNext v none).setFirst p (h.next v)) with
      | error y => rw [e2] at e; cases e
      | ok a =>
        obtain ⟨h2, l2⟩ := a
        rw [e2] at e
        obtain ⟨F2, H2⟩ := releaseT_frees t k e2
        exact tail h h2 l2 (FreesT.pre A F2) H2 e

theorem dropLoopT_frees (t : TreeId) {k : Nat} : ∀ (f : Nat) {pins : List NodeId} {o : Option (DftEvent NodeId)}
    {h h' : Heap α} {ms : List (Moment α)}, Heap.dropLoopT d c k f pins o h = .ok (h', ms) →
    FreesT t h ms h' ∧ ∀ m ∈ ms, m.dying = d ∧ m.cell = c
  | 0, _, none, h, h', ms, e => by
    simp only [Heap.dropLoopT, Except.ok.injEq, Prod.mk.injEq] at e
    obtain ⟨rfl, rfl⟩ := e
    exact ⟨Alike.rfl', by simp⟩
  | 0, _, some _, _, _, _, e => by cases e
  | _ + 1, _, none, h, h', ms, e => by
    simp only [Heap.dropLoopT, Except.ok.injEq, Prod.mk.injEq] at e
    obtain ⟨rfl, rfl⟩ := e
    exact ⟨Alike.rfl', by simp⟩
  | f + 1, pins, some ev, h, h', ms, e => by
    have key : ∀ (o : Option (DftEvent NodeId)) (x : Except Fault (Heap α × List (Moment α))),
        (∀ g1 l1, x = .ok (g1, l1) → FreesT t h l1 g1 ∧ ∀ m ∈ l1, m.dying = d ∧ m.cell = c) →
        (match x with
          | .error e => .error e
          | .ok (h1, l1) =>
            match Heap.dropLoopT d c k f pins o h1 with
            | .error e => .error e
            | .ok (h2, l2) => .ok (h2, l1 ++ l2)) = Except.ok (h', ms) →
        FreesT t h ms h' ∧ ∀ m ∈ ms, m.dying = d ∧ m.cell = c := by
      intro o x hx e
      cases x with
      | error e' => cases e
      | ok a =>
        obtain ⟨g1, l1⟩ := a
        have h1 := hx g1 l1 rfl
        simp only at e
        cases hl : Heap.dropLoopT d c k f pins o g1 with
        | error e' => rw [hl] at e; cases e
        | ok a =>
          obtain ⟨g2, l2⟩ := a
          rw [hl] at e
          simp only [Except.ok.injEq, Prod.mk.injEq] at e
          obtain ⟨rfl, rfl⟩ := e
          obtain ⟨b1, b2⟩ := dropLoopT_frees t f hl
          refine ⟨h1.1.append b1, ?_⟩
          intro m hm
          rcases List.mem_append.1 hm with hm | hm
          · exact h1.2 m hm
          · exact b2 m hm
    unfold Heap.dropLoopT at e
    refine key _ _ ?_ e
    intro g1 l1 hx
    cases ev with
    | opn v => exact releaseT_frees t k hx
    | cls v => exact dropStepT_frees t hx

theorem maybeDropTreeT_frees {pins : List NodeId} (e : h.maybeDropTreeT c pins t = .ok (h', ms)) :
    FreesT t h ms h' ∧ ∀ m ∈ ms, m.dying = some t ∧ m.cell = c := by
  unfold Heap.maybeDropTreeT at e
  split at e
  · unfold Heap.dropTreeT at e
    cases hr : h.root t with
    | none =>
      rw [hr] at e
      simp only [Except.ok.injEq, Prod.mk.injEq] at e
      obtain ⟨rfl, rfl⟩ := e
      exact ⟨Alike.rfl', by simp⟩
    | some r =>
      rw [hr] at e
      simp only at e
      cases hs : Heap.dropLoopT (some t) c h.relFuel h.dropFuel pins (some (.opn r)) h with
      | error e' => rw [hs] at e; cases e
      | ok a =>
        obtain ⟨g1, l1⟩ := a
        rw [hs] at e
        simp only at e
        cases hl : Heap.releaseT (some t) c h.relFuel pins r ((g1.setRoot t none).setGrants t 0) with
        | error e' => rw [hl] at e; cases e
        | ok a =>
          obtain ⟨g2, l2⟩ := a
          rw [hl] at e
          simp only [Except.ok.injEq, Prod.mk.injEq] at e
          obtain ⟨rfl, rfl⟩ := e
          obtain ⟨a1, a2⟩ := dropLoopT_frees t _ hs
          obtain ⟨b1, b2⟩ := releaseT_frees t _ hl
          have A : Alike t g1 ((g1.setRoot t none).setGrants t 0) :=
            ⟨fun _ => rfl, rfl, fun u hu => by simp [Heap.setRoot, Heap.setGrants, hu]⟩
          refine ⟨a1.append (FreesT.pre A b1), ?_⟩
          · intro m hm
            rcases List.mem_append.1 hm with hm | hm
            · exact a2 m hm
            · exact b2 m hm
  · simp only [Except.ok.injEq, Prod.mk.injEq] at e
    obtain ⟨rfl, rfl⟩ := e
    exact ⟨Alike.rfl', by simp⟩

theorem kill_alive_eq : (h.kill n).alive x = (h.alive x && x != n) := by
  simp only [Heap.alive, Heap.kill, upd_apply]
  by_cases e : x = n <;> simp [e]

theorem FreesT.dead : ∀ {ms : List (Moment α)} {h : Heap α}, FreesT t h ms h' →
    ∀ x, h'.alive x = (h.alive x && !(ms.map (·.node)).contains x)
  | [], h, a, x => by rw [a.alive]; simp
  | m :: ms, h, a, x => by
    rw [a.2.2.dead x, kill_alive_eq, a.1.alive]
    simp only [List.map_cons, List.contains_cons, Bool.not_or, bne, Bool.and_assoc]

theorem FreesT.alive_of : ∀ {ms : List (Moment α)} {h : Heap α}, FreesT t h ms h' →
    ∀ x ∈ ms.map (·.node), h.alive x = true
  | [], h, a, x, hx => by simp at hx
  | m :: ms, h, a, x, hx => by
    rcases List.mem_cons.1 hx with rfl | hx
    · rw [← a.1.alive]; exact a.2.1
    · have := a.2.2.alive_of x hx
      rw [kill_alive_eq, a.1.alive] at this
      simp only [Bool.and_eq_true] at this
      exact this.1

theorem FreesT.nodup : ∀ {ms : List (Moment α)} {h : Heap α}, FreesT t h ms h' → (ms.map (·.node)).Nodup
  | [], h, a => by simp
  | m :: ms, h, a => by
    rw [List.map_cons, List.nodup_cons]
    refine ⟨?_, a.2.2.nodup⟩
    intro hm
    have := a.2.2.alive_of _ hm
    rw [kill_alive_eq] at this
    simp at this

theorem kill_mem (ha : (h.kill n).alive x = true) : (h.kill n).mem x = h.mem x := by
  rw [kill_alive_eq] at ha
  simp only [Bool.and_eq_true, bne_iff_ne, ne_eq] at ha
  simp [Heap.kill, ha.2]

/-- The memory at a moment: nodes freed before are gone, everything else is there. -/
theorem FreesT.at : ∀ {l1 : List (Moment α)} {h : Heap α}, FreesT t h (l1 ++ m :: l2) h' →
    (∀ x, m.heap.alive x = (h.alive x && !(l1.map (·.node)).contains x)) ∧
    (∀ x, m.heap.alive x = true → m.heap.mem x = h.mem x) ∧ ∀ u, u ≠ t → m.heap.root u = h.root u
  | [], h, a => ⟨fun x => by rw [a.1.alive]; simp, fun x _ => by rw [a.1.mem], a.1.root⟩
  | m1 :: l1, h, a => by
    obtain ⟨b1, b2, b3⟩ := a.2.2.at
    refine ⟨?_, ?_, ?_⟩
    · intro x
      rw [b1, kill_alive_eq, a.1.alive]
      simp only [List.map_cons, List.contains_cons, Bool.not_or, bne, Bool.and_assoc]
    · intro x hx
      rw [b2 x hx]
      rw [b1] at hx
      simp only [Bool.and_eq_true] at hx
      rw [kill_mem hx.1, a.1.mem]
    · intro u hu
      rw [b3 u hu]
      exact a.1.root u hu

/-! ### The order -/

/-- Some moments before the others. -/
def front (ms : List (Moment α)) : Except Fault (Heap α × List (Moment α)) → Except Fault (Heap α × List (Moment α))
  | .error e => .error e
  | .ok (h, l) => .ok (h, ms ++ l)

theorem front_nil (r : Except Fault (Heap α × List (Moment α))) : front [] r = r := by
  cases r <;> rfl

theorem front_front (a b : List (Moment α)) (r : Except Fault (Heap α × List (Moment α))) :
    front a (front b r) = front (a ++ b) r := by
  cases r with
  | error e => rfl
  | ok r => simp [front, List.append_assoc]

theorem dropStepT_leaf {k : Nat} (S : DropShape h ch) {rest pins : List NodeId} (hs : ch p = n :: rest)
    (hl : ch n = []) (hq : Quiet h n) (hK : Kept h ch p) :
    ∃ ms, Heap.dropStepT d c (k + 1) h pins n = .ok ((h.wipe [n] pins).setFirst p rest.head?, ms) ∧
      ms.map (·.node) = [n].filter (fun x => x ∉ pins) := by
  have e := dropStep_leaf (k := k) (pins := pins) S hs hl hq hK
  rw [← dropStepT_fst (d := d) (c := c)] at e
  cases hd : Heap.dropStepT d c (k + 1) h pins n with
  | error e' => rw [hd] at e; cases e
  | ok a =>
    obtain ⟨h', ms⟩ := a
    rw [hd] at e
    simp only [Except.map, Except.ok.injEq] at e
    subst e
    refine ⟨ms, rfl, ?_⟩
    have hm : n ∈ ch p := by simp [hs]
    obtain ⟨hpa, hna, hpar⟩ := S.mem p n hm
    have hF := (dropStepT_frees 0 hd).1
    have hal : ∀ x, ((h.wipe [n] pins).setFirst p rest.head?).alive x =
        if x ∈ [n] ∧ x ∉ pins then false else h.alive x := fun x => Heap.wipe_alive
    have hall : ∀ x ∈ ms.map (·.node), x = n ∧ n ∉ pins := by
      intro x hx
      have h1 := hF.alive_of x hx
      have h2 := hF.dead x
      rw [hal, h1] at h2
      have h3 : (ms.map (·.node)).contains x = true := by simpa using hx
      rw [h3] at h2
      by_cases h4 : x ∈ [n] ∧ x ∉ pins
      · obtain ⟨h5, h6⟩ := h4
        simp only [List.mem_singleton] at h5
        subst h5; exact ⟨rfl, h6⟩
      · rw [if_neg h4] at h2; cases h2
    have hnod := hF.nodup
    by_cases hpin : n ∈ pins
    · cases hms : ms.map (·.node) with
      | nil => simp [hpin]
      | cons y l => exact absurd hpin (hall y (by rw [hms]; simp)).2
    · have h2 := hF.dead n
      rw [hal, hna] at h2
      cases hms : ms.map (·.node) with
      | nil => rw [hms] at h2; simp [hpin] at h2
      | cons y l =>
        have hy := (hall y (by rw [hms]; simp)).1
        cases l with
        | nil => simp [hpin, hy]
        | cons z l =>
          have hz := (hall z (by rw [hms]; simp)).1
          rw [hms, hy, hz] at hnod
          simp at hnod

/-- An event that opens a node something refers to frees nothing. -/
theorem releaseT_referenced {k : Nat} {pins : List NodeId} (hr : h.referenced n = true) :
    Heap.releaseT d c (k + 1) pins n h = .ok (h, []) := by
  simp [Heap.releaseT, hr]

mutual
/-- The loop dismantles one subtree. -/
theorem drop_treeT {k : Nat} : ∀ (T : RTree NodeId) {h : Heap α} {ch : NodeId → List NodeId} {p : NodeId}
    {rest pins : List NodeId} (f : Nat), DropShape h ch → Hier ch T → T.nodes.Nodup →
    p ∉ T.nodes → ch p = T.label :: rest → (∀ x ∈ rest, x ∉ T.nodes) →
    (∀ x ∈ T.nodes, Quiet h x) → Kept h ch p →
    ∃ ms, ms.map (·.node) = T.post.filter (fun x => x ∉ pins) ∧
    Heap.dropLoopT d c (k + 1) (f + 2 * T.nodes.length) pins (some (.opn T.label)) h
      = front ms (Heap.dropLoopT d c (k + 1) f pins (h.evNext (.cls T.label)) ((h.wipe T.nodes pins).setFirst p rest.head?))
  | .node v cs, h, ch, p, rest, pins, f, S, hT, hnd, hp, hs, hr, hq, hK => by
    simp only [Hier, nodes, label, List.nodup_cons, List.mem_cons, not_or] at hT hnd hp hs hr hq ⊢
    have hm : v ∈ ch p := by simp [hs]
    obtain ⟨hpa, hva, hpar⟩ := S.mem p v hm
    have hlen : f + 2 * (v :: nodesL cs).length = (f + 1 + 2 * (nodesL cs).length) + 1 := by
      simp only [List.length_cons]; omega
    rw [hlen]
    have hKv : Kept h ch v := .inr ⟨p, hm⟩
    simp only [Heap.dropLoopT, releaseT_referenced (hKv.referenced S)]
    have hev : h.evNext (.opn v) = some (enter cs v) := by
      simp only [Heap.evNext, Heap.firstChildLink, S.first v hva, ← hT.1]
      cases cs <;> rfl
    obtain ⟨ms1, hms1, hrun⟩ := drop_listT (k := k) (pins := pins) cs (f + 1) S hT.2 hnd.2 hnd.1 hT.1.symm hva
      (fun x hx => hq x (.inr hx)) hKv
    rw [hev, hrun]
    -- closing `v` itself
    have S1 : DropShape ((h.wipe (nodesL cs) pins).setFirst v none)
        (fun x => if x ∈ nodesL cs then [] else upd ch v [] x) := by
      apply S.wipe (a := ch v) (rest := []) hnd.1 (by simp)
      · intro x hx; rw [← hT.1] at hx; exact label_mem_nodesL hx
      · simp
      · intro x hx c hc; exact HierL.closed cs hT.2 x c hx hc
      · intro q hqA hqv c hc hcA
        rcases HierL.parent_in hT.2 hcA with h1 | ⟨y, hy, hcy⟩
        · rw [hT.1] at h1; exact hqv (S.unique hc h1)
        · exact hqA (S.unique hc hcy ▸ hy)
    have hvp : p ≠ v := hp.1
    have hs1 : (fun x => if x ∈ nodesL cs then [] else upd ch v [] x) p = v :: rest := by
      simp [hp.2, hvp, hs]
    have hl1 : (fun x => if x ∈ nodesL cs then [] else upd ch v [] x) v = [] := by
      simp [hnd.1]
    have hev2 : ((h.wipe (nodesL cs) pins).setFirst v none).evNext (.cls v) = h.evNext (.cls v) := by
      simp only [Heap.evNext, Heap.nextLink, Heap.parentLink, Heap.upgrade, Heap.setFirst,
        Heap.wipe, hnd.1, if_false, false_and, hpar]
      split
      · rfl
      · have hda : (h.data p).isSome = true := hpa
        simp [Option.filter, Heap.alive, hp.2, hda]
    have hvr : v ∉ rest := by
      have := S.nodup p
      rw [hs, List.nodup_cons] at this; exact this.1
    have hpinseq : ∀ pins' : List NodeId, (v ∈ pins' ↔ v ∈ pins) →
        (((h.wipe (nodesL cs) pins).setFirst v none).wipe [v] pins').setFirst p rest.head?
        = (h.wipe (v :: nodesL cs) pins).setFirst p rest.head? := by
      intro pins' hpp
      simp only [Heap.wipe, Heap.setFirst, List.mem_cons, List.not_mem_nil, or_false]
      congr 1 <;> funext x <;>
        by_cases e1 : x = v <;> by_cases e2 : x ∈ nodesL cs <;> by_cases e3 : x ∈ pins <;>
        simp_all [upd_apply]
    have hpin2 : ∀ e, h.evNext (.cls v) = some e → (v ∈ e.value :: pins ↔ v ∈ pins) := by
      intro e he
      have : v ≠ e.value := by
        simp only [Heap.evNext, Heap.nextLink, S.next_at (l1 := []) (by simpa using hs),
          Heap.parentLink, hpar] at he
        cases rest with
        | nil =>
          simp only [List.head?_nil, Heap.upgrade, Option.filter, hpa, if_true, Option.map_some,
            Option.some.injEq] at he
          subst he; exact Ne.symm hvp
        | cons b l =>
          simp only [List.head?_cons, Option.some.injEq] at he
          subst he
          rintro rfl; exact hvr (by simp)
      simp [this]
    have hstep : ∀ pins', (v ∈ pins' ↔ v ∈ pins) →
        ∃ ms, Heap.dropStepT d c (k + 1) ((h.wipe (nodesL cs) pins).setFirst v none) pins' v
        = .ok ((h.wipe (v :: nodesL cs) pins).setFirst p rest.head?, ms) ∧
          ms.map (·.node) = [v].filter (fun x => x ∉ pins) := by
      intro pins' hpp
      obtain ⟨ms, e1, e2⟩ := dropStepT_leaf (d := d) (c := c) (k := k) (pins := pins') S1 hs1 hl1 (hq v (.inl rfl)).wipe
        (hK.wipe (a := ch v) (rest := []) (by simp)
          (by intro x hx; rw [← hT.1] at hx; exact label_mem_nodesL hx) hp.2
          (fun x hx c hc => HierL.closed cs hT.2 x c hx hc))
      refine ⟨ms, by rw [e1, hpinseq pins' hpp], ?_⟩
      rw [e2]; simp only [List.filter_cons, List.filter_nil, hpp]
    have goal : ∃ ms2, ms2.map (·.node) = [v].filter (fun x => x ∉ pins) ∧
        Heap.dropLoopT d c (k + 1) (f + 1) pins (some (.cls v)) ((h.wipe (nodesL cs) pins).setFirst v none) =
        front ms2 (Heap.dropLoopT d c (k + 1) f pins (h.evNext (.cls v))
          ((h.wipe (v :: nodesL cs) pins).setFirst p rest.head?)) := by
      simp only [Heap.dropLoopT, hev2]
      cases hnx : h.evNext (.cls v) with
      | none =>
        obtain ⟨ms2, e1, e2⟩ := hstep pins Iff.rfl
        refine ⟨ms2, e2, ?_⟩
        simp only [e1]
        cases Heap.dropLoopT d c (k + 1) f pins none _ with
        | error e => rfl
        | ok r => rfl
      | some e =>
        obtain ⟨ms2, e1, e2⟩ := hstep _ (hpin2 e hnx)
        refine ⟨ms2, e2, ?_⟩
        simp only [e1]
        cases Heap.dropLoopT d c (k + 1) f pins (some e) _ with
        | error e => rfl
        | ok r => rfl
    obtain ⟨ms2, hms2, hrun2⟩ := goal
    refine ⟨ms1 ++ ms2, ?_, ?_⟩
    · rw [List.map_append, hms1, hms2, post, List.filter_append]
    · refine Eq.trans (b := front [] (front ms1 (Heap.dropLoopT d c (k + 1) (f + 1) pins (some (.cls v))
        ((h.wipe (nodesL cs) pins).setFirst v none)))) rfl ?_
      rw [hrun2, front_nil, front_front]
/-- The loop dismantles all children of a node. -/
theorem drop_listT {k : Nat} : ∀ (cs : List (RTree NodeId)) {h : Heap α} {ch : NodeId → List NodeId}
    {p : NodeId} {pins : List NodeId} (f : Nat), DropShape h ch → HierL ch cs → (nodesL cs).Nodup →
    p ∉ nodesL cs → ch p = cs.map label → h.alive p = true → (∀ x ∈ nodesL cs, Quiet h x) → Kept h ch p →
    ∃ ms, ms.map (·.node) = (postL cs).filter (fun x => x ∉ pins) ∧
    Heap.dropLoopT d c (k + 1) (f + 2 * (nodesL cs).length) pins (some (enter cs p)) h
      = front ms (Heap.dropLoopT d c (k + 1) f pins (some (.cls p)) ((h.wipe (nodesL cs) pins).setFirst p none))
  | [], h, ch, p, pins, f, S, hT, hnd, hp, hs, hpa, hq, hK => by
    have hf : h.firstChild p = none := by rw [S.first p hpa, hs]; rfl
    have : (h.wipe (nodesL []) pins).setFirst p none = h := by
      rw [nodesL, Heap.wipe_nil]
      simp only [Heap.setFirst]
      congr
      funext x
      simp only [upd_apply]
      split <;> simp_all
    rw [this]
    exact ⟨[], by simp [postL], by simp [nodesL, enter, front_nil]⟩
  | b :: cs, h, ch, p, pins, f, S, hT, hnd, hp, hs, hpa, hq, hK => by
    simp only [HierL, nodesL, List.nodup_append, List.mem_append, not_or, List.map_cons,
      List.length_append] at hT hnd hp hs hq ⊢
    have hlen : f + 2 * (b.nodes.length + (nodesL cs).length)
        = (f + 2 * (nodesL cs).length) + 2 * b.nodes.length := by omega
    have hrest : ∀ x ∈ cs.map label, x ∉ b.nodes := fun x hx hx2 =>
      hnd.2.2 x hx2 x (label_mem_nodesL hx) rfl
    have hm : b.label ∈ ch p := by simp [hs]
    obtain ⟨_, hca, hpar⟩ := S.mem p b.label hm
    obtain ⟨ms1, hms1, hrun⟩ := drop_treeT (k := k) (pins := pins) b (f + 2 * (nodesL cs).length) S hT.1 hnd.1 hp.1 hs hrest
      (fun x hx => hq x (.inl hx)) hK
    rw [hlen, enter, hrun]
    have hev : h.evNext (.cls b.label) = some (enter cs p) := by
      simp only [Heap.evNext, Heap.nextLink, S.next_at (l1 := []) (by simpa using hs),
        Heap.parentLink, hpar]
      cases cs with
      | nil => simp [Heap.upgrade, Option.filter, hpa, enter]
      | cons d ds => simp [enter]
    have S1 : DropShape ((h.wipe b.nodes pins).setFirst p (cs.map label).head?)
        (fun x => if x ∈ b.nodes then [] else upd ch p (cs.map label) x) := by
      apply S.wipe (a := [b.label]) (rest := cs.map label) hp.1 (by simp [hs])
      · intro x hx; simp only [List.mem_singleton] at hx; subst hx; exact label_mem_nodes b
      · exact hrest
      · intro x hx y hy; exact Hier.closed b hT.1 x y hx hy
      · intro q hqA hqv y hy hyA
        rcases Hier.parent_in hT.1 hyA with h1 | ⟨z, hz, hyz⟩
        · subst h1; exact hqv (S.unique hy hm)
        · exact hqA (S.unique hy hyz ▸ hz)
    obtain ⟨ms2, hms2, hrun2⟩ := drop_listT (k := k) (pins := pins) cs f S1 (by
        refine HierL.congr ?_ hT.2
        intro x hx
        have h1 : x ∉ b.nodes := fun h2 => hnd.2.2 x h2 x hx rfl
        have h2 : x ≠ p := by rintro rfl; exact hp.2 hx
        simp [h1, h2]) hnd.2.1 hp.2 (by simp [hp.1]) (by
        have : ((h.wipe b.nodes pins).setFirst p (cs.map label).head?).alive p
          = (h.wipe b.nodes pins).alive p := rfl
        rw [this, Heap.wipe_alive]; simp [hp.1, hpa]) (by
        intro x hx; exact (hq x (.inr hx)).wipe)
      (hK.wipe (a := [b.label]) (by simp [hs])
        (by intro x hx; simp only [List.mem_singleton] at hx; subst hx; exact label_mem_nodes b) hp.1
        (fun x hx y hy => Hier.closed b hT.1 x y hx hy))
    refine ⟨ms1 ++ ms2, ?_, ?_⟩
    · rw [List.map_append, hms1, hms2, postL, List.filter_append]
    · rw [hev, hrun2, front_front, wipe_append hp.1 hp.2]
end

/-- Destruction of a tree core: the nodes are freed in post-order. -/
theorem dropTreeT_order (S : DropShape h ch) {r : NodeId} {T : RTree NodeId} {pins : List NodeId}
    (ht : t < h.nTree) (hr : h.root t = some r) (hra : h.alive r = true) (hrp : h.parent r = none)
    (hT : SubtreeAt ch r T) (hnd : T.nodes.Nodup) (hlen : T.nodes.length ≤ h.nNode)
    (hq : ∀ x ∈ T.nodes, x ≠ r → Quiet h x)
    (hqm : ∀ u rc l, h.mem r ≠ .strong u rc l) (hqr : ∀ u, u ≠ t → h.root u ≠ some r) :
    ∃ ms, h.dropTreeT c pins t = .ok (((h.wipe T.nodes pins).setRoot t none).setGrants t 0, ms) ∧
      ms.map (·.node) = T.post.filter (fun x => x ∉ pins) := by
  have e := dropTree_spec (pins := pins) S ht hr hra hrp hT hnd hlen hq hqm hqr
  rw [← dropTreeT_fst (c := c)] at e
  cases hd : h.dropTreeT c pins t with
  | error e' => rw [hd] at e; cases e
  | ok a =>
    obtain ⟨h', ms⟩ := a
    rw [hd] at e
    simp only [Except.map, Except.ok.injEq] at e
    subst e
    refine ⟨ms, rfl, ?_⟩
    obtain ⟨rfl, hH⟩ := hT
    cases T with
    | node v cs =>
    simp only [Hier, nodes, label, List.nodup_cons, List.mem_cons, List.length_cons] at *
    have hqL : ∀ x ∈ nodesL cs, Quiet h x := by
      intro x hx
      exact hq x (.inr hx) (by rintro rfl; exact hnd.1 hx)
    have hnv : h.next v = none := by
      cases hn : h.next v with
      | none => rfl
      | some d =>
        obtain ⟨q, hvq, _⟩ := S.nextRef v d hra hn
        rw [(S.mem q v hvq).2.2] at hrp; simp at hrp
    obtain ⟨f, hf⟩ : ∃ f, h.dropFuel = (f + 1 + 2 * (nodesL cs).length) + 1 := by
      refine ⟨h.dropFuel - 2 - 2 * (nodesL cs).length, ?_⟩
      simp only [Heap.dropFuel]; omega
    have hev : h.evNext (.opn v) = some (enter cs v) := by
      simp only [Heap.evNext, Heap.firstChildLink, S.first v hra, ← hH.1]
      cases cs <;> rfl
    obtain ⟨ms1, hms1, hrun⟩ := drop_listT (d := some t) (c := c) (k := h.nNode + 1) (pins := pins) cs (f + 1) S hH.2
      hnd.2 hnd.1 hH.1.symm hra hqL (.inl ⟨t, ht, hr⟩)
    obtain ⟨h1, hh1⟩ : ∃ h1, h1 = (h.wipe (nodesL cs) pins).setFirst v none := ⟨_, rfl⟩
    rw [← hh1] at hrun
    have hal1 : h1.alive v = true := by
      have : h1.alive v = (h.wipe (nodesL cs) pins).alive v := by rw [hh1]; rfl
      rw [this, Heap.wipe_alive]; simp [hnd.1, hra]
    have hpl1 : h1.parentLink v = none := by
      rw [hh1]; simp [Heap.parentLink, Heap.setFirst, Heap.wipe, hnd.1, hrp, Heap.upgrade]
    have hnx1 : h1.next v = none := by rw [hh1]; simp [Heap.setFirst, Heap.wipe, hnd.1, hnv]
    have hfc1 : h1.firstChild v = none := by rw [hh1]; simp [Heap.setFirst]
    have hro1 : h1.root = h.root := by rw [hh1]; rfl
    have hnT1 : h1.nTree = h.nTree := by rw [hh1]; rfl
    have href : h1.referenced v = true :=
      referenced_iff.2 (.inr (.inl ⟨t, by rw [hnT1]; exact ht, by rw [hro1]; exact hr⟩))
    have hev1 : h1.evNext (.cls v) = none := by
      simp [Heap.evNext, Heap.nextLink, hnx1, hpl1]
    have hloop : Heap.dropLoopT (some t) c h.relFuel h.dropFuel pins (some (.opn v)) h = .ok (h1, ms1) := by
      rw [hf, Heap.relFuel]
      have hKv : Kept h ch v := .inl ⟨t, ht, hr⟩
      simp only [Heap.dropLoopT, hev, releaseT_referenced (hKv.referenced S)]
      rw [hrun]
      simp only [Heap.dropLoopT, hev1, Heap.dropStepT, hpl1, Heap.releaseT, href, Bool.or_true, if_true,
        front, List.append_nil, List.nil_append]
    have hd' := hd
    unfold Heap.dropTreeT at hd
    rw [hr] at hd
    simp only [hloop] at hd
    cases hl : Heap.releaseT (some t) c h.relFuel pins v ((h1.setRoot t none).setGrants t 0) with
    | error e' => rw [hl] at hd; cases hd
    | ok a =>
      obtain ⟨g2, l2⟩ := a
      rw [hl] at hd
      simp only [Except.ok.injEq, Prod.mk.injEq] at hd
      obtain ⟨hg, rfl⟩ := hd
      rw [post, List.map_append, hms1, List.filter_append]
      congr 1
      have hF := (releaseT_frees t _ hl).1.dead v
      rw [hg, show ((h1.setRoot t none).setGrants t 0).alive v = h1.alive v from rfl, hal1,
        show (((h.wipe (v :: nodesL cs) pins).setRoot t none).setGrants t 0).alive v =
          (h.wipe (v :: nodesL cs) pins).alive v from rfl, Heap.wipe_alive] at hF
      rw [Heap.relFuel, Heap.releaseT] at hl
      rw [show ((h1.setRoot t none).setGrants t 0).firstChild v = h1.firstChild v from rfl, hfc1,
        show ((h1.setRoot t none).setGrants t 0).next v = h1.next v from rfl, hnx1] at hl
      split at hl
      · simp only [Except.ok.injEq, Prod.mk.injEq] at hl
        obtain ⟨-, rfl⟩ := hl
        by_cases hpin : v ∈ pins
        · simp [hpin]
        · simp [hpin] at hF
      · rename_i hc
        simp only [Except.ok.injEq, Prod.mk.injEq] at hl
        obtain ⟨-, rfl⟩ := hl
        have : v ∉ pins := by
          intro hp
          apply hc
          simp [hp]
        simp [this]

end Dendron
