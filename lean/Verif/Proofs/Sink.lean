import Verif.Spec.Sink
import Verif.Proofs.Pretty

/-! The pretty printer on a failing formatter follows the one that does not fail, up to the first failure. -/

set_option autoImplicit false

namespace Dendron
variable {α : Type} {h : Heap α} {σ : Sink} {n : NodeId}

/-- The calls number `c` to `c' - 1` succeed. -/
def Clean (σ : Sink) (c c' : Nat) : Prop := ∀ i, c ≤ i → i < c' → σ i = none

/-- The computation with failures, from call number `c` on, does what the one without failures does, up to the first
failure. -/
def Echo (σ : Sink) (c : Nat) (p : Except Fault Writer) : Except Fault (Bool × SW) → Prop
  | .error e => p = .error e
  | .ok (true, v) => c ≤ v.calls ∧ Clean σ c v.calls ∧ p = .ok v.base
  | .ok (false, v) => ∃ k, v.calls = k + 1 ∧ c ≤ k ∧ Clean σ c k ∧ σ k ≠ none ∧ ∀ w', p = .ok w' → v.base.out <+: w'.out

/-- What is written stays written. -/
def Grows (q : Writer → Except Fault Writer) : Prop := ∀ w w', q w = .ok w' → w.out <+: w'.out

theorem Clean.append {a b c : Nat} (h1 : Clean σ a b) (h2 : Clean σ b c) : Clean σ a c := by
  intro i hi hic
  by_cases e : i < b
  · exact h1 i hi e
  · exact h2 i (Nat.le_of_not_lt e) hic

theorem Echo.andThen {c : Nat} {p : Except Fault Writer} {r : Except Fault (Bool × SW)} {k : SW → Except Fault (Bool × SW)}
    {q : Writer → Except Fault Writer} (h1 : Echo σ c p r) (h2 : ∀ w, Echo σ w.calls (q w.base) (k w)) (hq : Grows q) :
    Echo σ c (p.bind q) (SW.andThen r k) := by
  cases r with
  | error e => simp only [Echo] at h1; subst h1; exact rfl
  | ok x =>
    obtain ⟨b, v⟩ := x
    cases b with
    | false =>
      obtain ⟨k, e1, e2, e3, e4, e5⟩ := h1
      refine ⟨k, e1, e2, e3, e4, fun w' hw' => ?_⟩
      cases p with
      | error e => cases hw'
      | ok w1 => exact (e5 w1 rfl).trans (hq w1 w' hw')
    | true =>
      obtain ⟨e1, e2, rfl⟩ := h1
      have h3 := h2 v
      simp only [SW.andThen, Except.bind]
      generalize hr : k v = r at h3
      cases r with
      | error e => exact h3
      | ok x =>
        obtain ⟨b, v'⟩ := x
        cases b with
        | false =>
          obtain ⟨j, i1, i2, i3, i4, i5⟩ := h3
          exact ⟨j, i1, Nat.le_trans e1 i2, e2.append i3, i4, i5⟩
        | true => exact ⟨Nat.le_trans e1 h3.1, e2.append h3.2.1, h3.2.2⟩

theorem Echo.pure (w : SW) : Echo σ w.calls (.ok w.base) (.ok (true, w)) :=
  ⟨Nat.le_refl _, fun _ h1 h2 => absurd h2 (Nat.not_lt.2 h1), rfl⟩

theorem Echo.put (w : SW) (s : List Char) :
    Echo σ w.calls (.ok { w.base with out := w.base.out ++ s }) (.ok (w.put σ s)) := by
  unfold SW.put
  split
  · rename_i e
    refine ⟨Nat.le_succ _, fun i h1 h2 => ?_, rfl⟩
    have : i = w.calls := Nat.le_antisymm (Nat.lt_succ_iff.1 h2) h1
    rw [this]; exact e
  · rename_i k e
    refine ⟨w.calls, rfl, Nat.le_refl _, fun i h1 h2 => absurd h2 (Nat.not_lt.2 h1), by simp [e], ?_⟩
    rintro w' ⟨⟩
    exact List.prefix_append_right_inj _ |>.2 (List.take_prefix _ _)

/-- Several calls. -/
def puts (w : Writer) (l : List (List Char)) : Except Fault Writer := .ok { w with out := w.out ++ l.flatten }

theorem grows_ok (f : Writer → Writer) (hf : ∀ w, w.out <+: (f w).out) : Grows (fun w => .ok (f w)) := by
  rintro w w' ⟨⟩; exact hf w

theorem Echo.putAll (l : List (List Char)) : ∀ w : SW, Echo σ w.calls (puts w.base l) (w.putAll σ l) := by
  induction l with
  | nil => intro w; simpa [puts, SW.putAll] using Echo.pure (σ := σ) w
  | cons s l ih =>
    intro w
    have := (Echo.put (σ := σ) w s).andThen (fun w => ih w)
      (grows_ok (fun w => { w with out := w.out ++ l.flatten }) (fun w => List.prefix_append _ _))
    simpa [puts, SW.putAll, Except.bind] using this

theorem Echo.set {w : SW} {b : Writer} {q : Writer → Except Fault Writer} {k : SW → Except Fault (Bool × SW)}
    (h2 : ∀ w, Echo σ w.calls (q w.base) (k w)) : Echo σ w.calls (q b) (k { w with base := b }) := h2 { w with base := b }

theorem Grows.bind {p q : Writer → Except Fault Writer} (hp : Grows p) (hq : Grows q) : Grows (fun w => (p w).bind q) := by
  intro w w' e
  cases h1 : p w with
  | error x => simp only [h1] at e; cases e
  | ok w1 => simp only [h1] at e; exact (hp w w1 h1).trans (hq w1 w' e)

theorem writeIndentPartial_out (w : Writer) : w.out <+: w.writeIndentPartial.out := by
  unfold Writer.writeIndentPartial
  simp only
  split
  · rw [List.append_assoc]; exact List.prefix_append _ _
  · exact List.prefix_refl _

theorem completePartialIndent_grows : Grows Writer.completePartialIndent := by
  intro w w' e
  unfold Writer.completePartialIndent at e
  split at e
  · cases e
  simp only [bind, Except.bind, pure, Except.pure] at e
  cases hk : w.indents.length - w.pending with
  | zero => simp only [hk] at e; cases e; exact List.prefix_append _ _
  | succ k =>
    simp only [hk] at e
    cases hb : w.indents[k]? with
    | none => simp only [hb] at e; cases e
    | some b =>
      simp only [hb] at e; cases e
      show w.out <+: _ ++ _ ++ _
      rw [List.append_assoc]; exact List.prefix_append _ _

theorem startLine_grows : Grows Writer.startLine := by
  intro w w' e
  unfold Writer.startLine at e
  split at e
  · exact (writeIndentPartial_out w).trans (completePartialIndent_grows { w.writeIndentPartial with line := .partialIndent } _ e)
  · split at e
    · exact completePartialIndent_grows _ _ e
    · cases e; exact List.prefix_refl _

theorem writeContent_out (w : Writer) (c : List Char) (nl : Bool) : w.out <+: (w.writeContent c nl).out :=
  List.prefix_append _ _

theorem writeLoop_grows : ∀ (f : Nat) (s : List Char), Grows (fun w => w.writeLoop f s)
  | f, [] => by intro w w' e; cases f <;> (cases e; exact List.prefix_refl _)
  | 0, _ :: _ => by intro w w' e; cases e
  | f + 1, c :: s => by
    intro w w' e
    simp only [Writer.writeLoop, bind, Except.bind] at e
    split at e
    · cases e
    rename_i w1 e1
    exact (startLine_grows w w1 e1).trans ((writeContent_out _ _ _).trans (writeLoop_grows f _ _ _ e))

theorem Echo.completePartialIndent (w : SW) :
    Echo σ w.calls w.base.completePartialIndent (w.completePartialIndent σ) := by
  unfold Writer.completePartialIndent SW.completePartialIndent
  split
  · exact rfl
  simp only [bind, Except.bind]
  have tail : ∀ w : SW, Echo σ w.calls
      (.ok { w.base with out := w.base.out ++ (List.replicate w.base.pending [' ', ' ', ' ', ' ']).flatten, pending := 0 })
      (SW.andThen (w.putAll σ (List.replicate w.base.pending [' ', ' ', ' ', ' '])) fun w =>
        .ok (true, { w with base := { w.base with pending := 0 } })) := by
    intro w
    have := (Echo.putAll (σ := σ) (List.replicate w.base.pending [' ', ' ', ' ', ' ']) w).andThen
      (q := fun w => .ok { w with pending := 0 })
      (k := fun w => .ok (true, { w with base := { w.base with pending := 0 } }))
      (fun w => Echo.pure { w with base := { w.base with pending := 0 } })
      (grows_ok (fun w => { w with pending := 0 }) (fun w => List.prefix_refl _))
    simpa [puts, Except.bind] using this
  have hg : Grows (fun w => .ok { w with
      out := w.out ++ (List.replicate w.pending [' ', ' ', ' ', ' ']).flatten, pending := 0 }) :=
    grows_ok (fun w => { w with out := w.out ++ (List.replicate w.pending [' ', ' ', ' ', ' ']).flatten, pending := 0 })
      (fun w => List.prefix_append _ _)
  cases hk : w.base.indents.length - w.base.pending with
  | zero => exact (Echo.pure w).andThen tail hg
  | succ k =>
    simp only
    cases hb : w.base.indents[k]? with
    | none => exact rfl
    | some b => exact (Echo.put w b.trailing).andThen tail hg

theorem Echo.writeIndentPartial (w : SW) :
    Echo σ w.calls (.ok w.base.writeIndentPartial) (w.writeIndentPartial σ) := by
  unfold Writer.writeIndentPartial SW.writeIndentPartial
  simp only
  generalize (w.base.indents.reverse.takeWhile Block.isAllWhitespace).length = p
  generalize w.base.indents.take (w.base.indents.length - p) = l
  cases hb : l.getLast? with
  | some b =>
    have := Echo.putAll (σ := σ) (l.dropLast.map Block.asStr ++ [b.leading])
      { w with base := { w.base with pending := p } }
    simpa [puts] using this
  | none => exact Echo.pure { w with base := { w.base with pending := p } }

theorem Echo.startLine (w : SW) : Echo σ w.calls w.base.startLine (w.startLine σ) := by
  unfold Writer.startLine SW.startLine
  split
  · exact (Echo.writeIndentPartial w).andThen
      (q := fun w => Writer.completePartialIndent { w with line := .partialIndent })
      (fun w => Echo.completePartialIndent { w with base := { w.base with line := .partialIndent } })
      (fun w w' e => completePartialIndent_grows { w with line := .partialIndent } w' e)
  · split
    · exact Echo.completePartialIndent w
    · exact Echo.pure w

theorem Echo.writeContent (w : SW) (c : List Char) (nl : Bool) :
    Echo σ w.calls (.ok (w.base.writeContent c nl)) (w.writeContent σ c nl) := by
  unfold SW.writeContent
  exact (Echo.put (σ := σ) { w with base := { w.base with
    indents := Writer.modifyLast (fun b => { b with isFirst := b.isFirst && !nl }) w.base.indents } } c).andThen
    (q := fun w => .ok { w with line := if nl then .beforeIndent else .content })
    (fun w => Echo.pure { w with base := { w.base with line := if nl then .beforeIndent else .content } })
    (grows_ok (fun w => { w with line := if nl then .beforeIndent else .content }) (fun _ => List.prefix_refl _))

theorem Echo.writeLoop : ∀ (f : Nat) (s : List Char) (w : SW), Echo σ w.calls (w.base.writeLoop f s) (w.writeLoop σ f s)
  | f, [], w => by cases f <;> exact Echo.pure w
  | 0, _ :: _, w => rfl
  | f + 1, c :: s, w => by
    simp only [Writer.writeLoop, SW.writeLoop, bind]
    refine (Echo.startLine w).andThen
      (q := fun w => Writer.writeLoop f (w.writeContent (Writer.splitLine (c :: s)).1 (Writer.splitLine (c :: s)).2.1)
        (Writer.splitLine (c :: s)).2.2) (fun w => ?_) ?_
    · exact (Echo.writeContent w _ _).andThen (q := fun w => Writer.writeLoop f w (Writer.splitLine (c :: s)).2.2)
        (fun w => Echo.writeLoop f _ w) (writeLoop_grows f _)
    · intro w w' e
      exact (writeContent_out _ _ _).trans (writeLoop_grows f _ _ _ e)

theorem Echo.writeStr (w : SW) (s : List Char) : Echo σ w.calls (w.base.writeStr s) (w.writeStr σ s) :=
  Echo.writeLoop _ s w

theorem writeAll_grows : ∀ l : List (List Char), Grows (fun w => w.writeAll l)
  | [] => by rintro w w' ⟨⟩; exact List.prefix_refl _
  | s :: l => by
    intro w w' e
    simp only [Writer.writeAll, bind, Except.bind] at e
    split at e
    · cases e
    rename_i w1 e1
    exact (writeLoop_grows _ _ w w1 e1).trans (writeAll_grows l _ _ e)

theorem Echo.openItem (w : SW) (b : Bool) : Echo σ w.calls (.ok (w.base.openItem b)) (w.openItem σ b) := by
  unfold Writer.openItem SW.openItem
  simp only
  split
  · exact (Echo.put w ['\n']).andThen
      (q := fun w => .ok (Writer.openItem { w with line := .beforeIndent, pending := 0 } b))
      (fun w => Echo.pure { w with base := Writer.openItem { w.base with line := .beforeIndent, pending := 0 } b })
      (grows_ok (fun w => Writer.openItem { w with line := .beforeIndent, pending := 0 } b) (fun w => List.prefix_refl _))
  · exact Echo.pure ⟨⟨w.base.out, w.base.line, (Writer.modifyLast (fun b => { b with isFirst := false }) w.base.indents) ++
      [⟨b, true⟩], w.base.pending⟩, w.calls⟩

theorem openItem_out (w : Writer) (b : Bool) : w.out <+: (w.openItem b).out := by
  unfold Writer.openItem
  simp only
  split
  · exact List.prefix_append _ _
  · exact List.prefix_refl _

theorem Echo.run {f : Fmt} {l : List (List Char)} (hf : Relays f l) : ∀ w : SW,
    Echo σ w.calls (w.base.writeAll l) (SW.run σ f w) := by
  induction hf with
  | done => exact fun w => Echo.pure w
  | @write s k l hf ht ih =>
    intro w
    have := (Echo.writeStr (σ := σ) w s).andThen ih (writeAll_grows l)
    have e : SW.run σ (.write s k) w = SW.andThen (w.writeStr σ s) (SW.run σ (k true)) := by
      simp only [SW.run]
      cases hw : w.writeStr σ s with
      | error e => rfl
      | ok x =>
        obtain ⟨b, v⟩ := x
        cases b with
        | false => simp only [hf, SW.run, SW.andThen]
        | true => rfl
    rw [e]
    exact this

theorem prepareNext_out : ∀ {f : Nat} {w w' : Writer} {s s' : Dft.State} {r : Option NodeId},
    h.prepareNext f w s = .ok (r, w', s') → w.out <+: w'.out
  | 0, _, _, _, _, _, e => by cases e
  | f + 1, w, w', s, s', r, e => by
    unfold Heap.prepareNext at e
    split at e
    · cases e; exact List.prefix_refl _
    · cases e; exact openItem_out _ _
    · split at e
      · rename_i w1 hc
        have : w1.out = w.out := by
          unfold Writer.closeItem at hc
          split at hc <;> cases hc
          rfl
        rw [← this]
        exact prepareNext_out e
      · cases e; exact List.prefix_refl _

/-- As `Echo`. -/
def EchoNext (σ : Sink) (c : Nat) (p : Except Fault (Option NodeId × Writer × Dft.State)) :
    Except Fault (Option (Option NodeId) × SW × Dft.State) → Prop
  | .error e => p = .error e
  | .ok (some r, v, s) => c ≤ v.calls ∧ Clean σ c v.calls ∧ p = .ok (r, v.base, s)
  | .ok (none, v, s) => ∃ k, v.calls = k + 1 ∧ c ≤ k ∧ Clean σ c k ∧ σ k ≠ none ∧
      ∃ n w', p = .ok (some n, w', s) ∧ v.base.out <+: w'.out

theorem EchoNext.prepare : ∀ (f : Nat) (w : SW) (s : Dft.State),
    EchoNext σ w.calls (h.prepareNext f w.base s) (h.prepareNextTo σ f w s)
  | 0, _, _ => rfl
  | f + 1, w, s => by
    unfold Heap.prepareNext Heap.prepareNextTo
    obtain ⟨ev, s1⟩ := h.linkDftNext s
    cases ev with
    | none => exact ⟨Nat.le_refl _, fun _ h1 h2 => absurd h2 (Nat.not_lt.2 h1), rfl⟩
    | some ev =>
      cases ev with
      | opn n =>
        have := Echo.openItem (σ := σ) w (h.next n).isNone
        simp only
        generalize w.openItem σ (h.next n).isNone = r at this
        match r, this with
        | .error e, this => cases this
        | .ok (true, v), ⟨e1, e2, e3⟩ => simp only [Except.ok.injEq] at e3; exact ⟨e1, e2, by rw [e3]⟩
        | .ok (false, v), ⟨k, e1, e2, e3, e4, e5⟩ => exact ⟨k, e1, e2, e3, e4, n, _, rfl, e5 _ rfl⟩
      | cls n =>
        simp only
        cases hc : w.base.closeItem with
        | none => exact ⟨Nat.le_refl _, fun _ h1 h2 => absurd h2 (Nat.not_lt.2 h1), rfl⟩
        | some b => exact EchoNext.prepare f { w with base := b } s1

theorem prettyLoop_grows (fmt : α → List (List Char)) : ∀ (f : Nat) (s : Dft.State),
    Grows (fun w => h.prettyLoop fmt f w s)
  | 0, _ => by intro w w' e; cases e
  | f + 1, s => by
    intro w w' e
    simp only [Heap.prettyLoop, bind, Except.bind, pure, Except.pure] at e
    cases hp : h.prepareNext (2 * h.nNode + 2) w s with
    | error x => simp only [hp] at e; cases e
    | ok x =>
      obtain ⟨r, w1, s1⟩ := x
      simp only [hp] at e
      cases r with
      | none => cases e; exact prepareNext_out hp
      | some n =>
        simp only at e
        cases ha : w1.writeAll (h.pieces fmt n) with
        | error x => simp only [ha] at e; cases e
        | ok w2 =>
          simp only [ha] at e
          exact (prepareNext_out hp).trans ((writeAll_grows _ w1 w2 ha).trans (prettyLoop_grows fmt f s1 w2 w' e))

theorem relays_of {fmt : α → Fmt} {pcs : α → List (List Char)} (hf : ∀ d, Relays (fmt d) (pcs d)) (n : NodeId) :
    Relays (h.fmtOf fmt n) (h.pieces pcs n) := by
  unfold Heap.fmtOf Heap.pieces
  cases h.borrowData n with
  | ok d => exact hf d
  | error _ => exact .write rfl .done

theorem Echo.prettyLoop {fmt : α → Fmt} {pcs : α → List (List Char)} (hf : ∀ d, Relays (fmt d) (pcs d)) :
    ∀ (f : Nat) (s : Dft.State) (w : SW), Echo σ w.calls (h.prettyLoop pcs f w.base s) (h.prettyLoopTo σ fmt f w s)
  | 0, _, _ => rfl
  | f + 1, s, w => by
    have hp := EchoNext.prepare (σ := σ) (h := h) (2 * h.nNode + 2) w s
    simp only [Heap.prettyLoop, Heap.prettyLoopTo, bind, Except.bind]
    generalize h.prepareNextTo σ (2 * h.nNode + 2) w s = r at hp
    match r, hp with
    | .error e, hp => simp only [EchoNext] at hp; simp only [hp]; exact rfl
    | .ok (none, v, s1), ⟨k, e1, e2, e3, e4, n, w1, e5, e6⟩ =>
      refine ⟨k, e1, e2, e3, e4, fun w' hw' => ?_⟩
      simp only [e5] at hw'
      cases ha : w1.writeAll (h.pieces pcs n) with
      | error x => simp only [ha] at hw'; cases hw'
      | ok w2 =>
        simp only [ha] at hw'
        exact e6.trans ((writeAll_grows _ w1 w2 ha).trans (prettyLoop_grows pcs f s1 w2 w' hw'))
    | .ok (some none, v, s1), ⟨e1, e2, e3⟩ => simp only [e3]; exact ⟨e1, e2, rfl⟩
    | .ok (some (some n), v, s1), ⟨e1, e2, e3⟩ =>
      simp only [e3]
      have := (Echo.run (σ := σ) (relays_of (h := h) hf n) v).andThen (fun w => Echo.prettyLoop hf f s1 w)
        (prettyLoop_grows pcs f s1)
      have h0 : Echo σ w.calls (.ok v.base) (.ok (true, v)) := ⟨e1, e2, rfl⟩
      exact h0.andThen (q := fun w => (w.writeAll (h.pieces pcs n)).bind fun w => h.prettyLoop pcs f w s1)
        (k := fun w => SW.andThen (SW.run σ (h.fmtOf fmt n) w) fun w => h.prettyLoopTo σ fmt f w s1)
        (fun w => (Echo.run (σ := σ) (relays_of (h := h) hf n) w).andThen (fun w => Echo.prettyLoop hf f s1 w)
          (prettyLoop_grows pcs f s1))
        ((writeAll_grows _).bind (prettyLoop_grows pcs f s1))

/-- The printer follows the one on a formatter that does not fail. -/
theorem Echo.pretty {fmt : α → Fmt} {pcs : α → List (List Char)} (hf : ∀ d, Relays (fmt d) (pcs d)) {l : List Char}
    (hl : h.pretty pcs n = .ok l) : ∃ b, b.out = l ∧ Echo σ 0 (.ok b) (h.prettyTo σ fmt n) := by
  simp only [Heap.pretty, bind, Except.bind] at hl
  have key := (Echo.run (σ := σ) (relays_of (h := h) hf n) ⟨.new, 0⟩).andThen
    (fun w => Echo.prettyLoop (h := h) hf (2 * h.nNode + 2) (h.linkDftNext (Dft.start n)).2 w)
    (prettyLoop_grows pcs (2 * h.nNode + 2) (h.linkDftNext (Dft.start n)).2)
  cases h1 : Writer.new.writeAll (h.pieces pcs n) with
  | error e => simp only [h1] at hl; cases hl
  | ok w1 =>
    simp only [h1] at hl
    simp only [h1, Except.bind] at key
    cases h2 : h.prettyLoop pcs (2 * h.nNode + 2) w1 (h.linkDftNext (Dft.start n)).2 with
    | error e => simp only [h2] at hl; cases hl
    | ok w2 =>
      simp only [h2] at hl key
      cases hl
      exact ⟨w2, rfl, key⟩

/-- A line whose indent is not complete has enough blocks for the blanks that are missing. -/
def Fit (w : Writer) : Prop := w.line = .partialIndent → w.pending ≤ w.indents.length

theorem put_base (w : SW) (s : List Char) : ∃ b v, w.put σ s = (b, v) ∧ v.base.line = w.base.line ∧
    v.base.pending = w.base.pending ∧ v.base.indents = w.base.indents := by
  unfold SW.put
  split <;> exact ⟨_, _, rfl, rfl, rfl, rfl⟩

theorem putAll_base : ∀ (l : List (List Char)) (w : SW), ∃ b v, w.putAll σ l = .ok (b, v) ∧ v.base.line = w.base.line ∧
    v.base.pending = w.base.pending ∧ v.base.indents = w.base.indents
  | [], w => ⟨_, _, rfl, rfl, rfl, rfl⟩
  | s :: l, w => by
    obtain ⟨b, v, e, h1, h2, h3⟩ := put_base (σ := σ) w s
    cases b with
    | false => exact ⟨false, v, by simp [SW.putAll, e, SW.andThen], h1, h2, h3⟩
    | true =>
      obtain ⟨b, v', e', h1', h2', h3'⟩ := putAll_base l v
      exact ⟨b, v', by simp [SW.putAll, e, SW.andThen, e'], h1'.trans h1, h2'.trans h2, h3'.trans h3⟩

theorem complete_base (w : SW) (hp : w.base.pending ≤ w.base.indents.length) : ∃ b v,
    w.completePartialIndent σ = .ok (b, v) ∧ v.base.line = w.base.line ∧ v.base.pending ≤ w.base.pending ∧
    v.base.indents = w.base.indents := by
  unfold SW.completePartialIndent
  rw [if_neg (Nat.not_lt.2 hp)]
  have tail : ∀ w : SW, ∃ b v, (SW.andThen (w.putAll σ (List.replicate w.base.pending [' ', ' ', ' ', ' '])) fun w =>
        .ok (true, { w with base := { w.base with pending := 0 } })) = .ok (b, v) ∧ v.base.line = w.base.line ∧
      v.base.pending ≤ w.base.pending ∧ v.base.indents = w.base.indents := by
    intro w
    obtain ⟨b, v, e, h1, h2, h3⟩ := putAll_base (σ := σ) (List.replicate w.base.pending [' ', ' ', ' ', ' ']) w
    cases b with
    | false => exact ⟨false, v, by simp [e, SW.andThen], h1, Nat.le_of_eq h2, h3⟩
    | true => exact ⟨true, { v with base := { v.base with pending := 0 } }, by simp only [e, SW.andThen], h1, Nat.zero_le _, h3⟩
  cases hk : w.base.indents.length - w.base.pending with
  | zero => exact tail w
  | succ k =>
    simp only
    cases hb : w.base.indents[k]? with
    | none => rw [List.getElem?_eq_none_iff] at hb; omega
    | some b =>
      simp only
      obtain ⟨b, v, e, h1, h2, h3⟩ := put_base (σ := σ) w b.trailing
      cases b with
      | false => exact ⟨false, v, by simp [e, SW.andThen], h1, Nat.le_of_eq h2, h3⟩
      | true =>
        obtain ⟨b, v', e', h1', h2', h3'⟩ := tail v
        exact ⟨b, v', by rw [e]; exact e', h1'.trans h1, h2 ▸ h2', h3'.trans h3⟩

theorem indentPartial_base (w : SW) : ∃ b v, w.writeIndentPartial σ = .ok (b, v) ∧ v.base.line = w.base.line ∧
    v.base.pending ≤ v.base.indents.length ∧ v.base.indents = w.base.indents := by
  unfold SW.writeIndentPartial
  simp only
  have hp : (w.base.indents.reverse.takeWhile Block.isAllWhitespace).length ≤ w.base.indents.length := by
    have := (List.takeWhile_sublist (l := w.base.indents.reverse) Block.isAllWhitespace).length_le
    simpa using this
  generalize (w.base.indents.reverse.takeWhile Block.isAllWhitespace).length = p at hp
  generalize w.base.indents.take (w.base.indents.length - p) = l
  cases hb : l.getLast? with
  | none => exact ⟨_, _, rfl, rfl, hp, rfl⟩
  | some b =>
    obtain ⟨b, v, e, h1, h2, h3⟩ := putAll_base (σ := σ) (l.dropLast.map Block.asStr ++ [b.leading])
      { w with base := { w.base with pending := p } }
    exact ⟨b, v, e, h1, by rw [h2, h3]; exact hp, h3⟩

theorem startLine_base (w : SW) (hw : Fit w.base) : ∃ b v, w.startLine σ = .ok (b, v) ∧ Fit v.base ∧
    v.base.indents = w.base.indents := by
  unfold SW.startLine
  split
  · obtain ⟨b, v, e, h1, h2, h3⟩ := indentPartial_base (σ := σ) w
    cases b with
    | false => exact ⟨false, v, by simp [e, SW.andThen], fun _ => h2, h3⟩
    | true =>
      obtain ⟨b, v', e', h1', h2', h3'⟩ := complete_base (σ := σ) { v with base := { v.base with line := .partialIndent } } h2
      exact ⟨b, v', by rw [e]; exact e', fun _ => by rw [h3']; exact Nat.le_trans h2' h2, h3'.trans h3⟩
  · split
    · rename_i hl
      obtain ⟨b, v, e, h1, h2, h3⟩ := complete_base (σ := σ) w (hw hl)
      exact ⟨b, v, e, fun _ => by rw [h3]; exact Nat.le_trans h2 (hw hl), h3⟩
    · exact ⟨true, w, rfl, hw, rfl⟩

theorem modifyLast_length (f : Block → Block) : ∀ l : List Block, (Writer.modifyLast f l).length = l.length
  | [] => rfl
  | [_] => rfl
  | _ :: b :: bs => by simp [Writer.modifyLast, modifyLast_length f (b :: bs)]

theorem writeContent_base (w : SW) (hw : Fit w.base) (c : List Char) (nl : Bool) : ∃ b v,
    w.writeContent σ c nl = .ok (b, v) ∧ Fit v.base := by
  unfold SW.writeContent
  simp only
  obtain ⟨b, v, e, h1, h2, h3⟩ := put_base (σ := σ) { w with base := { w.base with
    indents := Writer.modifyLast (fun b => { b with isFirst := b.isFirst && !nl }) w.base.indents } } c
  rw [e]
  cases b with
  | false =>
    refine ⟨false, v, rfl, fun hl => ?_⟩
    rw [h2, h3, modifyLast_length]
    exact hw (h1 ▸ hl)
  | true =>
    refine ⟨true, _, rfl, fun hl => ?_⟩
    cases nl <;> cases hl

theorem writeLoop_base : ∀ (f : Nat) (s : List Char) (w : SW), s.length ≤ f → Fit w.base → ∃ b v,
    w.writeLoop σ f s = .ok (b, v) ∧ Fit v.base
  | f, [], w, _, hw => ⟨true, w, by cases f <;> rfl, hw⟩
  | 0, _ :: _, _, hf, _ => by simp at hf
  | f + 1, c :: s, w, hf, hw => by
    unfold SW.writeLoop
    simp only
    obtain ⟨b, v, e, h1, h2⟩ := startLine_base (σ := σ) w hw
    cases b with
    | false => exact ⟨false, v, by simp [e, SW.andThen], h1⟩
    | true =>
      obtain ⟨b, v', e', h1'⟩ := writeContent_base (σ := σ) v h1 (Writer.splitLine (c :: s)).1 (Writer.splitLine (c :: s)).2.1
      cases b with
      | false => exact ⟨false, v', by simp [e, e', SW.andThen], h1'⟩
      | true =>
        have hl : (Writer.splitLine (c :: s)).2.2.length ≤ f := by
          rcases Writer.splitLine_eq (c :: s) with ⟨a, _, _, h3⟩ | ⟨a, r, _, h2, h3⟩
          · simp [h3]
          · have := congrArg List.length h2
            simp only [h3]
            simp at this hf; omega
        obtain ⟨b, v'', e'', h1''⟩ := writeLoop_base f _ v' hl h1'
        exact ⟨b, v'', by simp [e, e', SW.andThen, e''], h1''⟩

theorem run_base : ∀ (f : Fmt) (w : SW), Fit w.base → ∃ b v, SW.run σ f w = .ok (b, v) ∧ Fit v.base
  | .done b, w, hw => ⟨b, w, rfl, hw⟩
  | .write s k, w, hw => by
    obtain ⟨b, v, e, h1⟩ := writeLoop_base (σ := σ) s.length s w (Nat.le_refl _) hw
    obtain ⟨b', v', e', h1'⟩ := run_base (k b) v h1
    exact ⟨b', v', by simp only [SW.run, SW.writeStr, e, e'], h1'⟩

theorem openItem_base (w : SW) (l : Bool) : ∃ b v, w.openItem σ l = .ok (b, v) ∧ (b = true → Fit v.base) := by
  unfold SW.openItem
  simp only
  split
  · obtain ⟨b, v, e, h1, h2, h3⟩ := put_base (σ := σ) w ['\n']
    rw [e]
    cases b with
    | false => exact ⟨false, v, rfl, by simp⟩
    | true => exact ⟨true, _, rfl, fun _ hl => by cases hl⟩
  · rename_i hl
    refine ⟨true, _, rfl, fun _ hl' => absurd (fun e => ?_) hl⟩
    rw [show w.base.line = .partialIndent from hl'] at e; cases e

theorem prepareNext_base : ∀ {l : List (DftEvent NodeId)} {s : Dft.State} {f : Nat} {w : SW}, LYields h s l →
    l.length < f → ∃ r v s', h.prepareNextTo σ f w s = .ok (r, v, s') ∧
      ∀ m, r = some (some m) → Fit v.base ∧ ∃ l', LYields h s' l' ∧ l'.length < l.length
  | _, _, 0, _, _, hf => by omega
  | [], s, f + 1, w, .done (s' := s') e, _ => ⟨some none, w, s', by simp only [Heap.prepareNextTo, e], by simp⟩
  | .opn n :: l, s, f + 1, w, .more (s' := s') e k, _ => by
    obtain ⟨b, v, e1, h1⟩ := openItem_base (σ := σ) w (h.next n).isNone
    cases b with
    | false => exact ⟨none, v, s', by simp only [Heap.prepareNextTo, e, e1], by simp⟩
    | true => exact ⟨some (some n), v, s', by simp only [Heap.prepareNextTo, e, e1], fun _ _ => ⟨h1 rfl, l, k, by simp⟩⟩
  | .cls n :: l, s, f + 1, w, .more (s' := s') e k, hf => by
    cases hc : w.base.closeItem with
    | none => exact ⟨some none, w, s', by simp only [Heap.prepareNextTo, e, hc], by simp⟩
    | some b =>
      obtain ⟨r, v, s'', h1, h2⟩ := prepareNext_base (f := f) (w := { w with base := b }) k (by simp at hf; omega)
      refine ⟨r, v, s'', by simp only [Heap.prepareNextTo, e, hc, h1], fun m hm => ?_⟩
      obtain ⟨a, l', b, c⟩ := h2 m hm
      exact ⟨a, l', b, by simp; omega⟩

theorem prettyLoop_base (fmt : α → Fmt) : ∀ {f : Nat} {l : List (DftEvent NodeId)} {s : Dft.State} {w : SW},
    LYields h s l → l.length < f → l.length < 2 * h.nNode + 2 → ∃ b v, h.prettyLoopTo σ fmt f w s = .ok (b, v)
  | 0, _, _, _, _, hf, _ => by omega
  | f + 1, l, s, w, k, hf, hf' => by
    obtain ⟨r, v, s', h1, h2⟩ := prepareNext_base (σ := σ) (w := w) k hf'
    simp only [Heap.prettyLoopTo, h1]
    match r, h2 with
    | none, _ => exact ⟨_, _, rfl⟩
    | some none, _ => exact ⟨_, _, rfl⟩
    | some (some n), h2 =>
      obtain ⟨a, l', b, c⟩ := h2 n rfl
      obtain ⟨ok, v', e, _⟩ := run_base (σ := σ) (h.fmtOf fmt n) v a
      simp only [e]
      cases ok with
      | false => exact ⟨_, _, rfl⟩
      | true => exact prettyLoop_base fmt b (by omega) (by omega)

/-- The printer returns, whatever the formatter and the formatting of the data do. -/
theorem FShape.prettyTo_returns {ch : NodeId → List NodeId} (W : FShape h ch) (fmt : α → Fmt) (ha : h.alive n = true) :
    ∃ b v, h.prettyTo σ fmt n = .ok (b, v) := by
  obtain ⟨t, ht⟩ := W.exists_subtree n
  have hy := W.lyields ha ht
  have hlen := events_length t
  have hsz := ht.size_le W ha
  have hne : t.events.dropLast.length < 2 * h.nNode := by
    cases t with
    | node v cs => rw [events_dropLast]; simp [RTree.events] at hlen ⊢; omega
  generalize hst : Dft.start n = st at hy
  unfold Heap.prettyTo
  simp only [hst]
  obtain ⟨ok, v, e, _⟩ := run_base (σ := σ) (h.fmtOf fmt n) ⟨.new, 0⟩ (by intro hl; cases hl)
  simp only [e]
  cases ok with
  | false => exact ⟨_, _, rfl⟩
  | true =>
    simp only [SW.andThen]
    generalize hev : t.events.dropLast = evs at hy hne
    cases hy with
    | done e =>
      exfalso
      have := congrArg List.length hev
      simp only [List.length_dropLast, List.length_nil] at this
      obtain ⟨v, cs⟩ := t
      simp [RTree.events] at this
    | more e k => simp only [e]; exact prettyLoop_base fmt k (by simp at hne; omega) (by simp at hne; omega)

end Dendron
